import Verif.Lemmas.Settle
import Verif.Props.Stable
import Verif.Props.MomentumFormulas
import Verif.Props.Recursive
import Verif.Props.MamaValue
/-!
# C104: when the price settles, the averages settle on it and the differences vanish

The data are an endless series that tends to a limit. The latest value of each average tends to the same limit, that of each measure of
spread or momentum to zero, whatever happened before. Exact arithmetic.
-/

namespace Traquer
open FP FloatLit Filter Topology

variable {s : ℕ → ℝ} {c : ℝ} {w : ℕ}

theorem settles_recent {g : List ℝ → ℝ} {T : ℝ} {N : ℕ} {ok : ℕ → Prop} {f : List XF → Option (List XF)} (hw : 1 ≤ w) (hok : ∀ n, N ≤ n → ok n)
    (hf : ∀ d, Fins d → ok d.length → Reports d.length (w - 1) (fun i => g (recent (vals d) w i)) (f d))
    (lim : Tendsto (fun i => g (lastOf s w i)) atTop (𝓝 T)) : Settles (fun n => f (upTo s n)) T := by
  refine settles_reports lim (eventually_atTop.2 ⟨max N w, fun n hn => ⟨w - 1, by omega, ?_, ?_⟩⟩)
    (V := fun n i => g (recent (vals (upTo s (n + 1))) w i))
  · have := hf (upTo s (n + 1)) (upTo_fins _ _) (hok _ (by rw [upTo_length]; omega))
    rwa [upTo_length] at this
  · rw [← lastOf_bar (by omega) (by simp)]
    congr 1
    exact lastOf_congr fun j h1 => bar_upTo (by omega)

theorem tendsto_const_window {g : List ℝ → ℝ} {T : ℝ} {L : ℝ}
    (hg : ∀ (e : ℝ) (l m : List ℝ), 0 ≤ e → l.length = w → NearL e l m → |g l - g m| ≤ L * e) (hT : g (List.replicate w c) = T)
    (hs : Tendsto s atTop (𝓝 c)) : Tendsto (fun i => g (lastOf s w i)) atTop (𝓝 T) := hT ▸ tendsto_window hg hs

theorem replicate_flat (w : ℕ) (c : ℝ) : Flat (List.replicate w c) := fun x hx y hy => by
  rw [List.eq_of_mem_replicate hx, List.eq_of_mem_replicate hy]

/-- A bar of the window, whichever it is, tends to the limit. -/
theorem tendsto_mem {u : ℕ → ℝ} (h : ∀ᶠ i in atTop, u i ∈ lastOf s w i) (hs : Tendsto s atTop (𝓝 c)) : Tendsto u atTop (𝓝 c) := by
  rw [Metric.tendsto_atTop] at *
  intro ε hε
  obtain ⟨N, hN⟩ := hs ε hε
  obtain ⟨M, hM⟩ := eventually_atTop.1 h
  refine ⟨max M (N + w), fun n hn => ?_⟩
  obtain ⟨j, hj, e⟩ := List.mem_map.1 (hM n (by omega))
  rw [← e]
  exact hN _ (by have := List.mem_range.1 hj; omega)

namespace Smooth

/-- C104 -/
theorem sma_settles (hw : 1 ≤ w) (hs : Tendsto s atTop (𝓝 c)) : Settles (fun n => sma (upTo s n) w) c :=
  settles_recent (N := w) (ok := fun n => w ≤ n + 1) hw (fun n hn => by omega) (fun d hd hn => sma_reports d w hw hn hd) (tendsto_mean hw hs)

/-- C104 -/
theorem ewma_settles (hw : 1 ≤ w) (hs : Tendsto s atTop (𝓝 c)) : Settles (fun n => ewma (upTo s n) w) c :=
  settles_of (N := w) (ok := fun n => w ≤ n) (Lip.ewma hw) (fun n hn => hn) (fun d hd hn => ewma_values d w hw hn hd) (tendsto_ewmaFrom hw hs)

/-- C104 -/
theorem wilder_settles (hw : 1 ≤ w) (hs : Tendsto s atTop (𝓝 c)) : Settles (fun n => wilder (upTo s n) w) c :=
  settles_of (N := w) (ok := fun n => w ≤ n) (Lip.wilder hw) (fun n hn => hn) (fun d hd hn => wilder_values d w hw hn hd) (tendsto_wilderFrom hw hs)

theorem tendsto_wma (hw : 1 ≤ w) (hs : Tendsto s atTop (𝓝 c)) : Tendsto (fun i => wmaOf w (lastOf s w i)) atTop (𝓝 c) :=
  tendsto_weighted (fun u hu => by obtain ⟨j, -, rfl⟩ := List.mem_map.1 hu; positivity) (range'_sum_pos _ hw) (by simp) hs

/-- C104 -/
theorem wma_settles (hw : 1 ≤ w) (hs : Tendsto s atTop (𝓝 c)) : Settles (fun n => wma (upTo s n) w) c :=
  settles_recent (N := w) (ok := fun n => w ≤ n + 1) hw (fun n hn => by omega) (fun d hd hn => wma_reports d w hw hn hd) (tendsto_wma hw hs)

/-- C104 -/
theorem pwma_settles (hw : 1 ≤ w) (hp : w ≤ 63) (hs : Tendsto s atTop (𝓝 c)) : Settles (fun n => pwma (upTo s n) w) c :=
  settles_recent (N := w) (ok := fun n => w ≤ n + 1) hw (fun n hn => by omega) (fun d hd hn => pwma_reports d w hw hp hn hd)
    (tendsto_weighted (ws := ((List.range w).map fun k => (w - 1).choose k).map fun u : ℕ => (u : ℝ))
      (fun u hu => by obtain ⟨j, -, rfl⟩ := List.mem_map.1 hu; positivity)
      (List.sum_pos _ (fun u hu => by
        obtain ⟨j, hj, rfl⟩ := List.mem_map.1 hu
        obtain ⟨k, hk, rfl⟩ := List.mem_map.1 hj
        have := List.mem_range.1 hk
        exact_mod_cast Nat.choose_pos (by omega)) (by simp; omega)) (by simp) hs)

/-- C104 -/
theorem fwma_settles (hw : 2 ≤ w) (hs : Tendsto s atTop (𝓝 c)) : Settles (fun n => fwma (upTo s n) w) c :=
  settles_recent (N := w) (ok := fun n => w ≤ n + 1) (by omega) (fun n hn => by omega) (fun d hd hn => fwma_reports d w hw hn hd)
    (tendsto_weighted (ws := ((List.range' 1 w).map Nat.fib).map fun u : ℕ => (u : ℝ))
      (fun u hu => by obtain ⟨j, -, rfl⟩ := List.mem_map.1 hu; positivity)
      (List.sum_pos _ (fun u hu => by
        obtain ⟨j, hj, rfl⟩ := List.mem_map.1 hu
        obtain ⟨k, hk, rfl⟩ := List.mem_map.1 hj
        have := List.mem_range'.1 hk
        exact_mod_cast Nat.fib_pos.2 (by omega)) (by simp; omega)) (by simp) hs)

theorem lip_trima (hw : 1 ≤ w) : Lip (w - 1) 1 fun x i => mean (lastOf (fun j => mean (lastOf x ((w + 1) / 2) j)) (w / 2 + 1) i) := by
  have := Lip.after (k := (w + 1) / 2 - 1) (k' := w - 1) (M := 1) (W := fun x i => mean (lastOf x (w / 2 + 1) i))
    (fun n e x y _ h i h1 h2 => by rw [one_mul]; exact mean_lastOf_near (by omega) h i (by omega) h2) (Lip.mean (w := (w + 1) / 2) (by omega))
    zero_le_one
  rwa [one_mul] at this

/-- C104 -/
theorem trima_settles (hw : 1 ≤ w) (hs : Tendsto s atTop (𝓝 c)) : Settles (fun n => trima (upTo s n) w) c :=
  settles_of (N := w) (ok := fun n => w ≤ n + 1) (lip_trima hw) (fun n hn => by omega) (fun d hd hn => trima_values d w hw hn hd)
    (tendsto_mean (by omega) (tendsto_mean (by omega) hs))

/-- C104 -/
theorem alma_settles (sigma : XF) (mu : Option XF) {sg m : ℝ} (hw : 1 ≤ w) (h1 : sigma ⇓ sg) (h0 : sg ≠ 0) (hm : mu.getD 0.85 ⇓ m)
    (hs : Tendsto s atTop (𝓝 c)) : Settles (fun n => alma (upTo s n) w sigma mu) c := by
  have nn : ∀ u ∈ almaGauss w sg m, 0 ≤ u := fun u hu => by obtain ⟨j, -, rfl⟩ := List.mem_map.1 hu; positivity
  have sp : 0 < (almaGauss w sg m).sum := exp_sum_pos _ (by simp; omega)
  have ll : (almaGauss w sg m).length = w := by simp [almaGauss]
  have hg : ∀ (e : ℝ) (l k : List ℝ), 0 ≤ e → l.length = w → NearL e l k →
      |weightedMean (almaGauss w sg m) l.reverse - weightedMean (almaGauss w sg m) k.reverse| ≤ 1 * e := fun e l k e0 hl h => by
    rw [one_mul]
    exact weightedMean_near nn sp (by simp [hl, ll]) (List.rel_reverse h)
  refine settles_of (k := w) (L := 1) (N := w) (ok := fun n => w ≤ n) ((Lip.of_window (g := fun l => weightedMean (almaGauss w sg m) l.reverse) hw hg).mono
    (by omega) le_rfl) (fun n hn => hn) (fun d hd hn => (alma_reports d w sigma mu sg m hw hn h1 h0 hm hd).congr fun i g1 g2 => by
      rw [lastOf_bar (by omega) (by simpa using g2)]) (tendsto_const_window hg ?_ hs)
  rw [List.reverse_replicate, weightedMean_replicate sp ll]

/-- C104 -/
theorem kernel_settles (sigma : XF) {sg : ℝ} (h1 : sigma ⇓ sg) (h0 : sg ≠ 0) (hs : Tendsto s atTop (𝓝 c)) :
    Settles (fun n => some (kernel (upTo s n) sigma)) c := by
  have sp : 0 < (gauss sg 255).sum := exp_sum_pos _ (by simp)
  have ll : (gauss sg 255).length = 255 := by simp [gauss]
  have lim : Tendsto (fun i => weightedMean (gauss sg 255) (lastOf s 255 i).reverse) atTop (𝓝 c) :=
    tendsto_const_window (g := fun l => weightedMean (gauss sg 255) l.reverse) (L := 1) (fun e l k e0 hl h => by
      rw [one_mul]
      exact weightedMean_near (fun u hu => by obtain ⟨j, -, rfl⟩ := List.mem_map.1 hu; positivity) sp (by simp [hl, ll]) (List.rel_reverse h))
      (by rw [List.reverse_replicate, weightedMean_replicate sp ll]) hs
  refine settles_reports lim (eventually_atTop.2 ⟨255, fun n hn => ⟨0, by omega, ?_, ?_⟩⟩)
    (V := fun n i => weightedMean (gauss sg (min (i + 1) 255)) (recent (vals (upTo s (n + 1))) (min (i + 1) 255) i).reverse)
  · have := kernel_reports (upTo s (n + 1)) sigma sg h1 h0 (upTo_fins _ _)
    rwa [upTo_length] at this
  · rw [min_eq_right (by omega), ← lastOf_bar (by omega) (by simp)]
    congr 2
    exact lastOf_congr fun j h1 h2 => bar_upTo (by omega)

theorem tendsto_ema1 (hw : 1 ≤ w) (hs : Tendsto s atTop (𝓝 c)) : Tendsto (ema1 w s) atTop (𝓝 c) := tendsto_ewmaFrom hw hs
theorem tendsto_ema2 (hw : 1 ≤ w) (hs : Tendsto s atTop (𝓝 c)) : Tendsto (ema2 w s) atTop (𝓝 c) := tendsto_ewmaFrom hw (tendsto_ema1 hw hs)
theorem tendsto_ema3 (hw : 1 ≤ w) (hs : Tendsto s atTop (𝓝 c)) : Tendsto (ema3 w s) atTop (𝓝 c) := tendsto_ewmaFrom hw (tendsto_ema2 hw hs)
theorem tendsto_ema4 (hw : 1 ≤ w) (hs : Tendsto s atTop (𝓝 c)) : Tendsto (ema4 w s) atTop (𝓝 c) := tendsto_ewmaFrom hw (tendsto_ema3 hw hs)
theorem tendsto_ema5 (hw : 1 ≤ w) (hs : Tendsto s atTop (𝓝 c)) : Tendsto (ema5 w s) atTop (𝓝 c) := tendsto_ewmaFrom hw (tendsto_ema4 hw hs)
theorem tendsto_ema6 (hw : 1 ≤ w) (hs : Tendsto s atTop (𝓝 c)) : Tendsto (ema6 w s) atTop (𝓝 c) := tendsto_ewmaFrom hw (tendsto_ema5 hw hs)

/-- C104 -/
theorem dema_settles (hw : 1 ≤ w) (hs : Tendsto s atTop (𝓝 c)) : Settles (fun n => dema (upTo s n) w) c :=
  settles_of (N := 2 * w) (ok := fun n => 2 * w ≤ n + 1) (k := 2 * (w - 1)) (((((lip_ema1 hw).mono (by omega) le_rfl).mul 2).sub (lip_ema2 hw)))
    (fun n hn => by omega) (fun d hd hn => dema_reports d w hw hn hd) (by
      have := ((tendsto_ema1 hw hs).const_mul 2).sub (tendsto_ema2 hw hs)
      rwa [show 2 * c - c = c by ring] at this)

/-- C104 -/
theorem tema_settles (hw : 1 ≤ w) (hs : Tendsto s atTop (𝓝 c)) : Settles (fun n => tema (upTo s n) w) c :=
  settles_of (N := 3 * w) (ok := fun n => 3 * w ≤ n + 2) (k := 3 * (w - 1)) ((((((lip_ema1 hw).mono (by omega) le_rfl).mul 3).sub
    (((lip_ema2 hw).mono (by omega) le_rfl).mul 3)).add (lip_ema3 hw))) (fun n hn => by omega) (fun d hd hn => tema_reports d w hw hn hd) (by
      have := (((tendsto_ema1 hw hs).const_mul 3).sub ((tendsto_ema2 hw hs).const_mul 3)).add (tendsto_ema3 hw hs)
      rwa [show 3 * c - 3 * c + c = c by ring] at this)

/-- C104 -/
theorem t3_settles (factor : Option XF) {f : ℝ} (hw : 1 ≤ w) (hf : factor.getD 0.7 ⇓ f) (hs : Tendsto s atTop (𝓝 c)) :
    Settles (fun n => t3 (upTo s n) w factor) c :=
  settles_of (N := 6 * w) (ok := fun n => 6 * w ≤ n + 5) (k := 6 * (w - 1)) ((((((lip_ema6 hw).mul _).add
    (((lip_ema5 hw).mono (by omega) le_rfl).mul _)).add (((lip_ema4 hw).mono (by omega) le_rfl).mul _)).add
    (((lip_ema3 hw).mono (by omega) le_rfl).mul _))) (fun n hn => by omega) (fun d hd hn => t3_reports d w factor f hw hn hf hd) (by
      generalize max 0 (min f 1) = g
      have := ((((tendsto_ema6 hw hs).const_mul (-g ^ 3)).add ((tendsto_ema5 hw hs).const_mul (3 * g ^ 2 + 3 * g ^ 3))).add
        ((tendsto_ema4 hw hs).const_mul (-3 * g - 6 * g ^ 2 - 3 * g ^ 3))).add ((tendsto_ema3 hw hs).const_mul (1 + 3 * g + 3 * g ^ 2 + g ^ 3))
      rwa [show -g ^ 3 * c + (3 * g ^ 2 + 3 * g ^ 3) * c + (-3 * g - 6 * g ^ 2 - 3 * g ^ 3) * c + (1 + 3 * g + 3 * g ^ 2 + g ^ 3) * c = c by ring] at this)

/-- C104 -/
theorem hull_settles (hw : 1 ≤ w) (hb : w < 2 ^ 64) (hs : Tendsto s atTop (𝓝 c)) : Settles (fun n => hull (upTo s n) w) c := by
  have hq : 1 ≤ Nat.sqrt w := Nat.sqrt_pos.2 (by omega)
  have lim : Tendsto (fun i => wmaOf (Nat.sqrt w) (lastOf (fun j => 2 * wmaOf ((w + 1) / 2) (lastOf s ((w + 1) / 2) j) - wmaOf w (lastOf s w j)) (Nat.sqrt w) i))
      atTop (𝓝 c) := by
    have := ((tendsto_wma (w := (w + 1) / 2) (by omega) hs).const_mul 2).sub (tendsto_wma hw hs)
    rw [show 2 * c - c = c by ring] at this
    exact tendsto_wma hq this
  refine settles_reports lim (eventually_atTop.2 ⟨w + Nat.sqrt w, fun n hn => ⟨w - 1 + (Nat.sqrt w - 1), by omega, ?_, ?_⟩⟩)
    (V := fun n i => wmaOf (Nat.sqrt w) (lastOf (fun j => 2 * wmaOf ((w + 1) / 2) (lastOf (bar (vals (upTo s (n + 1)))) ((w + 1) / 2) j) -
      wmaOf w (lastOf (bar (vals (upTo s (n + 1)))) w j)) (Nat.sqrt w) i))
  · have := hull_values (upTo s (n + 1)) w hw hb (by simp; omega) (upTo_fins _ _)
    rwa [upTo_length] at this
  · congr 1
    refine lastOf_congr fun j h1 h2 => ?_
    have e : ∀ v, v ≤ w → lastOf (bar (vals (upTo s (n + 1)))) v j = lastOf s v j := fun v hv =>
      lastOf_congr fun j h1 h2 => bar_upTo (by omega)
    simp only [e ((w + 1) / 2) (by omega), e w le_rfl]

theorem lip_zlma (hw : 1 ≤ w) : Lip ((w - 1) / 2 + (w - 1)) 3 fun x => ewmaFrom ((w - 1) / 2) w fun i => 2 * x i - x (i - (w - 1) / 2) :=
  fun n e x y e0 h i h1 h2 => ewmaFrom_near hw (n := n) (fun j g1 g2 => by
    have a := h j g2
    have b := h (j - (w - 1) / 2) (by omega)
    rw [abs_le] at *
    constructor <;> linarith) i h1 h2

/-- C104 -/
theorem zlma_settles (hw : 1 ≤ w) (hs : Tendsto s atTop (𝓝 c)) : Settles (fun n => zlma (upTo s n) w) c :=
  settles_of (N := (w - 1) / 2 + w) (ok := fun n => (w - 1) / 2 + w ≤ n) (lip_zlma hw) (fun n hn => hn) (fun d hd hn => zlma_reports d w hw hn hd)
    (tendsto_ewmaFrom hw (by
      have := (hs.const_mul 2).sub (hs.comp (tendsto_sub_atTop_nat ((w - 1) / 2)))
      rwa [show 2 * c - c = c by ring] at this))

theorem tendsto_xySum (hs : Tendsto s atTop (𝓝 c)) : Tendsto (fun i => xySum (lastOf s w i)) atTop (𝓝 (xySum (List.replicate w c))) := by
  have key : ∀ ks js : List ℕ, Tendsto (fun i => ((ks.zip (js.map fun j => s (i + 1 - w + j))).map fun p => (p.1 : ℝ) * p.2).sum) atTop
      (𝓝 ((ks.zip (js.map fun _ => c)).map fun p => (p.1 : ℝ) * p.2).sum) := fun ks => by
    induction ks with
    | nil => intro js; simp
    | cons k ks ih =>
      intro js
      cases js with
      | nil => simp
      | cons j js =>
        simp only [List.map_cons, List.zip_cons_cons, List.sum_cons]
        refine Tendsto.add (Tendsto.const_mul _ (hs.comp ?_)) (ih js)
        exact tendsto_atTop.2 fun b => eventually_atTop.2 ⟨b + w, fun n hn => by omega⟩
  have := key (List.range' 1 w) (List.range w)
  simpa [xySum, lastOf] using this

theorem xySum_replicate (w : ℕ) (c : ℝ) : xySum (List.replicate w c) = c * (w * (w + 1) / 2) := by
  have : ∀ w a : ℕ, (((List.range' a w).zip (List.replicate w c)).map fun p => (p.1 : ℝ) * p.2).sum = c * (w * a + w * (w - 1) / 2) := fun w => by
    induction w with
    | zero => simp
    | succ w ih =>
      intro a
      rw [List.range'_succ, List.replicate_succ, List.zip_cons_cons, List.map_cons, List.sum_cons, ih]
      push_cast; ring
  rw [xySum, List.length_replicate, this]
  push_cast; ring

theorem tendsto_lrf (hw : 2 ≤ w) (hs : Tendsto s atTop (𝓝 c)) :
    Tendsto (fun i => slope (lastOf s w i) * w + intercept (lastOf s w i)) atTop (𝓝 c) := by
  have w2 : (2 : ℝ) ≤ w := by exact_mod_cast hw
  have hl : ∀ i, (lastOf s w i).length = w := fun i => by simp [lastOf]
  have h1 := tendsto_xySum (w := w) hs
  have h2 : Tendsto (fun i => ySum (lastOf s w i)) atTop (𝓝 (w * c)) := by
    refine ((tendsto_mean (w := w) (by omega) hs).const_mul (w : ℝ)).congr fun i => ?_
    rw [mean, hl, ySum]; field_simp
  rw [xySum_replicate] at h1
  have h3 := (((h1.const_mul (w : ℝ)).sub (h2.const_mul ((w : ℝ) * (w + 1) / 2))).div_const
    ((w : ℝ) * ((w : ℝ) * (w + 1) / 2 * (2 * w + 1) / 3) - (w : ℝ) * (w + 1) / 2 * ((w : ℝ) * (w + 1) / 2))).mul_const (w : ℝ)
  have h4 := ((h2.mul_const ((w : ℝ) * (w + 1) / 2 * (2 * w + 1) / 3)).sub (h1.const_mul ((w : ℝ) * (w + 1) / 2))).div_const
    ((w : ℝ) * ((w : ℝ) * (w + 1) / 2 * (2 * w + 1) / 3) - (w : ℝ) * (w + 1) / 2 * ((w : ℝ) * (w + 1) / 2))
  have hD : (w : ℝ) * ((w : ℝ) * (w + 1) / 2 * (2 * w + 1) / 3) - (w : ℝ) * (w + 1) / 2 * ((w : ℝ) * (w + 1) / 2) ≠ 0 := by
    have : (w : ℝ) * ((w : ℝ) * (w + 1) / 2 * (2 * w + 1) / 3) - (w : ℝ) * (w + 1) / 2 * ((w : ℝ) * (w + 1) / 2) = w ^ 2 * (w + 1) * (w - 1) / 12 := by ring
    rw [this]
    have : (0 : ℝ) < w - 1 := by linarith
    positivity
  have := h3.add h4
  rw [show ((w : ℝ) * (c * (w * (w + 1) / 2)) - w * (w + 1) / 2 * (w * c)) / ((w : ℝ) * ((w : ℝ) * (w + 1) / 2 * (2 * w + 1) / 3) - (w : ℝ) * (w + 1) / 2 * ((w : ℝ) * (w + 1) / 2)) * w +
      (w * c * (w * (w + 1) / 2 * (2 * w + 1) / 3) - w * (w + 1) / 2 * (c * (w * (w + 1) / 2))) / ((w : ℝ) * ((w : ℝ) * (w + 1) / 2 * (2 * w + 1) / 3) - (w : ℝ) * (w + 1) / 2 * ((w : ℝ) * (w + 1) / 2)) = c by
    rw [show (w : ℝ) * (c * (w * (w + 1) / 2)) - w * (w + 1) / 2 * (w * c) = 0 by ring, zero_div, zero_mul, zero_add, div_eq_iff hD]
    ring] at this
  refine this.congr fun i => ?_
  simp only [slope, intercept, hl]

/-- C104 -/
theorem lrf_settles (hw : 2 ≤ w) (hs : Tendsto s atTop (𝓝 c)) : Settles (fun n => lrf (upTo s n) w) c :=
  settles_recent (N := w) (g := fun l => slope l * w + intercept l) (ok := fun n => w ≤ n + 1) (by omega) (fun n hn => by omega)
    (fun d hd hn => (lrf_values d w hw hn hd).congr fun i h1 h2 => by rw [lastOf_bar (by omega) (by simpa using h2)]) (tendsto_lrf hw hs)

end Smooth
end Traquer
