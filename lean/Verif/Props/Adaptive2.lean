import Verif.Props.Gains
import Verif.Props.Dispersion
/-!
# C25, C26, C27: frama, kernel, vidya and alma; flat windows
-/

namespace Traquer
open FP FloatLit
variable {ρ : Rounding}

theorem clampLit_nan (lo hi : FP ρ) : clampLit (FP.nan : FP ρ) lo hi = FP.nan := by
  unfold clampLit
  rw [if_neg (by rw [NaNLaws.lt_left _ _ rfl]; simp), if_neg (by rw [NaNLaws.lt_right _ _ rfl]; simp)]

theorem clampLit_inRange {x lo hi : XF} {l u : ℝ} (hl : lo ⇓ l) (hu : hi ⇓ u) (hlu : l ≤ u) :
    InRange l u (clampLit x lo hi) := by
  by_cases hx : x = FP.nan
  · subst hx; rw [clampLit_nan]; exact inRange_nan _ _
  · obtain ⟨r, h, h1, h2⟩ := Smooth.clampLit_range hx hl hu hlu
    exact inRange_of h h1 h2

/-- The two running sums of a weighted mean. -/
theorem weighted_fold {ws l : List XF} (hw : Fins ws) (hl : Fins l) :
    ((ws.zip l).foldl (fun (st : XF × XF) (wv : XF × XF) => (st.1 + wv.1 * wv.2, st.2 + wv.1)) (0, 0)).1 ⇓
        (((vals ws).zip (vals l)).map fun p => p.1 * p.2).sum ∧
      ((ws.zip l).foldl (fun (st : XF × XF) (wv : XF × XF) => (st.1 + wv.1 * wv.2, st.2 + wv.1)) (0, 0)).2 ⇓
        ((vals ws).take l.length).sum := by
  suffices h : ∀ (a b : XF) (u v : ℝ), a ⇓ u → b ⇓ v →
      ((ws.zip l).foldl (fun (st : XF × XF) (wv : XF × XF) => (st.1 + wv.1 * wv.2, st.2 + wv.1)) (a, b)).1 ⇓
        u + (((vals ws).zip (vals l)).map fun p => p.1 * p.2).sum ∧
      ((ws.zip l).foldl (fun (st : XF × XF) (wv : XF × XF) => (st.1 + wv.1 * wv.2, st.2 + wv.1)) (a, b)).2 ⇓
        v + ((vals ws).take l.length).sum by
    have := h 0 0 0 0 is_zero is_zero
    simpa using this
  induction ws generalizing l with
  | nil => intro a b u v ha hb; exact ⟨ha.congr (by simp), hb.congr (by simp)⟩
  | cons w ws ih =>
    cases l with
    | nil => intro a b u v ha hb; exact ⟨ha.congr (by simp), hb.congr (by simp)⟩
    | cons x l =>
      intro a b u v ha hb
      have hw0 := (hw w (by simp)).is
      have hx0 := (hl x (by simp)).is
      have := ih (l := l) (fun y hy => hw y (by simp [hy])) (fun y hy => hl y (by simp [hy])) _ _ _ _
        (is_add ha (is_mul hw0 hx0)) (is_add hb hw0)
      simpa [add_assoc] using this

theorem weighted_div {ws l : List XF} (hw : Fins ws) (hl : Fins l) (he : ws.length = l.length) (hs : (vals ws).sum ≠ 0) :
    ((ws.zip l).foldl (fun (st : XF × XF) (wv : XF × XF) => (st.1 + wv.1 * wv.2, st.2 + wv.1)) (0, 0)).1 /
      ((ws.zip l).foldl (fun (st : XF × XF) (wv : XF × XF) => (st.1 + wv.1 * wv.2, st.2 + wv.1)) (0, 0)).2 ⇓
      weightedMean (vals ws) (vals l) := by
  obtain ⟨h1, h2⟩ := weighted_fold hw hl
  rw [List.take_of_length_le (by simp [he])] at h2
  exact is_div h1 h2 hs

theorem exp_sum_pos {α : Type} {l : List α} (f : α → ℝ) (h : l ≠ []) : 0 < (l.map fun x => Real.exp (f x)).sum := by
  cases l with
  | nil => exact absurd rfl h
  | cons x l =>
    rw [List.map_cons, List.sum_cons]
    have : 0 ≤ (l.map fun x => Real.exp (f x)).sum := List.sum_nonneg (by
      intro y hy
      obtain ⟨z, -, rfl⟩ := List.mem_map.1 hy
      exact (Real.exp_pos _).le)
    have := Real.exp_pos (f x)
    linarith

end Traquer

namespace Traquer.Smooth
open FP FloatLit
open Traquer.Distribution (stdDevRaw stdDevWin stdDevWin_is)
variable {ρ : Rounding}

/-! ## C25: frama -/

/-- C25: every value of `frama` is NaN or between any bounds of the inputs and 0 (the initial state). -/
theorem frama_inRange (data : List XF) (w : ℕ) (lo hi : ℝ) (hw : 2 ≤ w) (he : w % 2 = 0) (hn : w ≤ data.length + 1)
    (hd : Fins data) (h0 : lo ≤ 0) (h1 : 0 ≤ hi) (hb : Within lo hi (vals data)) :
    ∃ out, frama data w = some (.ok out) ∧ out.length = data.length ∧ ∀ y ∈ out, InRange lo hi y := by
  obtain ⟨out, e, _, e2, l, -⟩ := frama_aligned data w hw he hn
  cases e2
  refine ⟨out, e, l, ?_⟩
  rw [frama, if_neg (by simp [he])] at e
  run_at e [frama]
  obtain ⟨r, hr, e⟩ := Option.bind_eq_some_iff.1 e
  cases e
  refine inRange_nans (scanM_invariant (I := InRange lo hi) ?_ (inRange_zero h0 h1) hr)
  intro s x s' y hx hI hf
  obtain ⟨z, hz, hf⟩ := Option.bind_eq_some_iff.1 hf
  simp only [Option.some.injEq, Prod.mk.injEq] at hf
  obtain ⟨rfl, rfl⟩ := hf
  have ha : InRange 0 1 (framaAlpha w (w / 2) x) := by
    have : InRange (0.01 : ℝ) 1 (framaAlpha w (w / 2) x) := clampLit_inRange (is_sci 1 true 2) is_one (by norm_num)
    rcases this with h | ⟨r, h, h2, h3⟩
    · exact Or.inl h
    · exact Or.inr ⟨r, h, le_trans (by norm_num) h2, h3⟩
  have := inRange_mix ha (Fins.inRange hd hb (mem_of_mem_windowsOf hx (List.mem_of_getLast? hz))) hI
  exact ⟨this, this⟩

/-! ## C25: kernel -/

/-- Gaussian weights of width `s` for lags `0, 1, …, m - 1`. -/
noncomputable def gauss (s : ℝ) (m : ℕ) : List ℝ := (List.range m).map fun (x : ℕ) => Real.exp (-(x : ℝ) ^ 2 / (2 * s ^ 2))

theorem kernelWeights_take {sigma : XF} {s : ℝ} (hs : sigma ⇓ s) (h0 : s ≠ 0) (m : ℕ) (hm : m ≤ 256) :
    Fins ((kernelWeights sigma).take m) ∧ vals ((kernelWeights sigma).take m) = gauss s m := by
  have e : (kernelWeights sigma).take m = (List.range m).map fun x => exp ((-(1 / (2 * sigma * sigma))) * flt (x * x)) := by
    rw [kernelWeights, ← List.map_take, List.take_range, min_eq_left hm]
  rw [e]
  refine fins_vals_map fun x _ => ?_
  have hb := is_div is_one (is_mul (is_mul (is_lit 2) hs) hs) (mul_ne_zero (mul_ne_zero two_ne_zero h0) h0)
  refine (is_exp (is_mul (is_neg hb) (is_flt (x * x)))).congr ?_
  congr 1
  push_cast
  field_simp

theorem weighted_zip_take {ws l : List XF} : ws.zip l = (ws.take l.length).zip l := by
  induction l generalizing ws with
  | nil => simp
  | cons x l ih =>
    cases ws with
    | nil => rfl
    | cons w ws => simp [← ih]

/-- C25: `kernel` reports at every bar, without warm-up, the Gaussian weighted mean of the last 255 values
(all of them at the beginning), newest first. -/
theorem kernel_reports (data : List XF) (sigma : XF) (s : ℝ) (hs : sigma ⇓ s) (h0 : s ≠ 0) (hd : Fins data) :
    Reports data.length 0 (fun i => weightedMean (gauss s (min (i + 1) 255)) (recent (vals data) (min (i + 1) 255) i).reverse)
      (some (kernel data sigma)) := by
  rw [kernel]
  refine reports_map (by simp) (fun i b _ h => absurd h (Nat.not_lt_zero _)) fun i b hb _ => ?_
  have hi := (List.getElem?_eq_some_iff.1 hb).1
  rw [List.length_range] at hi
  rw [List.getElem?_range hi] at hb
  cases hb
  have hpast : ((data.take (i + 1)).reverse).take (min ((data.take (i + 1)).reverse).length 255) =
      (recent data (min (i + 1) 255) i).reverse := by
    have hl : ((data.take (i + 1)).reverse).length = i + 1 := by simp; omega
    rw [hl, recent, List.take_reverse, List.length_take, min_eq_left (by omega), List.drop_take]
    congr 2
    omega
  have hlen : (recent data (min (i + 1) 255) i).reverse.length = min (i + 1) 255 := by
    rw [List.length_reverse, recent_length (by omega) hi]
  simp only [kernelAt]
  rw [hpast, weighted_zip_take, hlen]
  obtain ⟨f1, f2⟩ := kernelWeights_take hs h0 (min (i + 1) 255) (by omega)
  have hfr : Fins (recent data (min (i + 1) 255) i).reverse := fun x hx => hd.recent _ _ x (List.mem_reverse.1 hx)
  have hw : ((kernelWeights sigma).take (min (i + 1) 255)).length = (recent data (min (i + 1) 255) i).reverse.length := by
    rw [hlen]; simp [kernelWeights]
  refine (weighted_div f1 hfr hw ?_).congr ?_
  · rw [f2]
    exact (exp_sum_pos _ (by simp)).ne'
  · rw [f2, ← recent_vals]
    simp [vals, List.map_reverse]

theorem gauss_convex (s : ℝ) (m : ℕ) (hm : 1 ≤ m) (l : List ℝ) (hl : l.length = m) :
    ConvexComb l (weightedMean (gauss s m) l) := by
  refine convexComb_weightedMean (by simp [gauss, hl]) (fun w hw => ?_) (exp_sum_pos _ (by simp; omega))
  obtain ⟨x, -, rfl⟩ := List.mem_map.1 hw
  exact (Real.exp_pos _).le

/-- C25: every value of `kernel` lies between any bounds of the data. -/
theorem kernel_within (data : List XF) (sigma : XF) (s lo hi : ℝ) (hs : sigma ⇓ s) (h0 : s ≠ 0) (hd : Fins data)
    (hb : Within lo hi (vals data)) :
    ReportsP data.length 0 (fun _ y => ∃ r, y ⇓ r ∧ lo ≤ r ∧ r ≤ hi) (some (kernel data sigma)) := by
  refine (kernel_reports data sigma s hs h0 hd).toP fun i y _ hi hy => ⟨_, hy, ?_⟩
  refine (gauss_convex s _ (by omega) _ ?_).within fun x hx => hb x ?_
  · rw [List.length_reverse, recent_length (by omega) (by simpa using hi)]
  · exact List.mem_of_mem_drop (List.mem_of_mem_take (List.mem_reverse.1 hx))

example : ReportsP 3 0 (fun _ y => ∃ r, y ⇓ r ∧ (1 : ℝ) ≤ r ∧ r ≤ 5) (some (kernel ([1, 5, 2].map (fin : ℝ → XF)) (fin 3))) :=
  kernel_within ([1, 5, 2].map (fin : ℝ → XF)) (fin 3) 3 1 5 (is_fin 3) (by norm_num) (fins_map_fin _)
    (by rw [vals_map_fin]; intro x hx; simp at hx; rcases hx with rfl | rfl | rfl <;> norm_num)

/-! ## C25: vidya -/

theorem std5_reports (data : List XF) (hd : Fins data) (hn : 4 ≤ data.length) :
    Reports (data.length - 4) 0 (fun i => stdDev (recent (vals data) 5 (4 + i))) (some ((windowsOf 5 data).map (stdDevWin 5))) := by
  have h := Distribution.std_dev_reports data 5 (by omega) (by omega) hd
  have e : Distribution.std_dev data 5 = some (nans 4 ++ (windowsOf 5 data).map (stdDevWin 5)) := by
    run_model [Distribution.std_dev, stdDevRaw]
  rw [e] at h
  have := h.tail 4 (by omega)
  simpa using this

/-- What vidya's recursion reads at bar `i`. -/
theorem vidya_items (data : List XF) (w : ℕ) (hn : 23 ≤ data.length) (hd : Fins data) :
    ∃ items : List (XF × XF × XF), vidya data w = some (nans 23 ++
      scanS (fun (state : XF) (x : XF × XF × XF) => 2 / flt (w + 1) * (x.2.1 / x.1) * (x.2.2 - state) + state) 0 items) ∧
      items.length = data.length - 23 ∧
      ∀ i, i < data.length - 23 → ∃ s20 s5 d, items[i]? = some (s20, s5, d) ∧
        s5 ⇓ stdDev (recent (vals data) 5 (i + 23)) ∧
        s20 ⇓ mean ((List.range 20).map fun j => stdDev (recent (vals data) 5 (i + 4 + j))) ∧
        data[i + 23]? = some d := by
  have r5 := std5_reports data hd (by omega)
  obtain ⟨f5, -⟩ := r5.fins
  have l5 := r5.length
  have e5 : stdDevRaw data 5 = some ((windowsOf 5 data).map (stdDevWin 5)) := by run_model [stdDevRaw]
  generalize (windowsOf 5 data).map (stdDevWin 5) = std5 at r5 f5 l5 e5
  have r20 := sma_reports std5 20 (by omega) (by omega) f5
  obtain ⟨std20, e20, r20, l20⟩ := r20.some
  refine ⟨zip3 (std20.drop 19) (std5.drop 19) (data.drop 23), ?_, ?_, ?_⟩
  · simp only [vidya, e5, e20, Option.bind_eq_bind, Option.bind_some]
  · simp [l20, l5]; omega
  · intro i hi
    obtain ⟨s5, h5, q5⟩ := r5.get (i := 19 + i) (by omega) (by omega)
    obtain ⟨s20, h20, q20⟩ := r20.get (i := 19 + i) (by omega) (by omega)
    have hd23 := getElem?_of_lt (show i + 23 < data.length by omega)
    refine ⟨s20, s5, _, zip3_getElem?.2 ⟨by rw [List.getElem?_drop]; exact h20, by rw [List.getElem?_drop]; exact h5,
      by rw [List.getElem?_drop, Nat.add_comm]; exact hd23⟩, q5.congr (by congr 2; omega), q20.congr ?_, hd23⟩
    rw [← recent_vals, (r5.recent (w := 20) (i := 19 + i) (by omega) (by omega)).2, lastOf]
    congr 1
    apply List.map_congr_left
    intro j _
    congr 2
    omega

theorem vidya_gain {s5 s20 : XF} {a : ℝ} {l : List ℝ} {w : ℕ} (h5 : s5 ⇓ a) (h20 : s20 ⇓ mean l) (h0 : ∀ x ∈ l, 0 ≤ x)
    (hl : l.length = 20) (ha : a ∈ l) : InRange 0 (40 / (w + 1)) (2 / flt (w + 1) * (s5 / s20)) := by
  have hs := List.single_le_sum h0 a ha
  have hm : a ≤ 20 * mean l := by
    rw [mean, hl]; push_cast; linarith
  have ha0 := h0 a ha
  have q : (2 / flt (w + 1) : XF) ⇓ 2 / ((w : ℝ) + 1) :=
    (is_div (is_lit 2) (is_flt (w + 1)) (by positivity)).congr (by push_cast; rfl)
  by_cases hz : mean l = 0
  · have : s5 / s20 = FP.nan :=
      Distribution.zero_div_zero (h5.congr (by linarith)) (h20.congr hz)
    rw [this]
    exact inRange_of_isNaN (by have : isNaN (nan : XF) = true := rfl; exact NaNLaws.mul_right _ _ this)
  · have hp : 0 < mean l := lt_of_le_of_ne (by linarith) (Ne.symm hz)
    refine inRange_of (is_mul q (is_div h5 h20 hz)) (by positivity) ?_
    have : a / mean l ≤ 20 := by rw [div_le_iff₀ hp]; exact hm
    calc 2 / ((w : ℝ) + 1) * (a / mean l) ≤ 2 / ((w : ℝ) + 1) * 20 := by gcongr
      _ = 40 / (w + 1) := by ring

/-- C25: for windows of 39 or more every value of `vidya` is NaN or between any bounds of the inputs and 0. -/
theorem vidya_inRange (data : List XF) (w : ℕ) (lo hi : ℝ) (hw : 39 ≤ w) (hn : 23 ≤ data.length) (hd : Fins data)
    (h0 : lo ≤ 0) (h1 : 0 ≤ hi) (hb : Within lo hi (vals data)) :
    ∃ out, vidya data w = some out ∧ out.length = data.length ∧ ∀ y ∈ out, InRange lo hi y := by
  obtain ⟨items, e, l, h⟩ := vidya_items data w hn hd
  refine ⟨_, e, by simp [l]; omega, inRange_nans fun y hy => ?_⟩
  refine scanS_invariant (I := InRange lo hi) ?_ (inRange_zero h0 h1) y hy
  intro s x hx hI
  obtain ⟨i, hi⟩ := List.mem_iff_getElem?.1 hx
  have hlt := (List.getElem?_eq_some_iff.1 hi).1
  obtain ⟨s20, s5, d, e1, q5, q20, ed⟩ := h i (by omega)
  rw [hi] at e1
  cases e1
  have hg : InRange 0 (40 / ((w : ℝ) + 1)) (2 / flt (w + 1) * (s5 / s20) : XF) := by
    refine vidya_gain q5 q20 (fun x hx => ?_) (by simp) (List.mem_map.2 ⟨19, by simp, by congr 2⟩)
    obtain ⟨j, -, rfl⟩ := List.mem_map.1 hx
    exact stdDev_nonneg _
  have hg1 : InRange 0 1 (2 / flt (w + 1) * (s5 / s20) : XF) := by
    rcases hg with h | ⟨r, hr, r0, r1⟩
    · exact Or.inl h
    · refine Or.inr ⟨r, hr, r0, r1.trans ?_⟩
      rw [div_le_one (by positivity)]
      have : (39 : ℝ) ≤ w := by exact_mod_cast hw
      linarith
  exact inRange_step hg1 (Fins.inRange hd hb (List.mem_of_getElem? ed)) hI

/-- C25 fails for `vidya` with a window below 39: on 23 zeros followed by a 1 it reports `40 / (w + 1)`, more
than the largest input. -/
theorem vidya_overshoots (w : ℕ) :
    ∃ y, vidya (List.replicate 23 (fin 0 : XF) ++ [fin 1]) w = some (nans 23 ++ [y]) ∧ y ⇓ 40 / (w + 1) := by
  have hd : Fins (List.replicate 23 (fin 0 : XF) ++ [fin 1]) := by
    intro x hx
    rcases List.mem_append.1 hx with h | h
    · rw [List.eq_of_mem_replicate h]; trivial
    · simp at h; subst h; trivial
  have hv : vals (List.replicate 23 (fin 0 : XF) ++ [fin 1]) = List.replicate 23 0 ++ [1] := by simp [vals]
  obtain ⟨items, e, l, h⟩ := vidya_items (List.replicate 23 (fin 0 : XF) ++ [fin 1]) w (by simp) hd
  obtain ⟨s20, s5, d, e1, q5, q20, ed⟩ := h 0 (by simp)
  rw [hv] at q5 q20
  simp at l ed
  subst ed
  obtain ⟨it, rfl⟩ := List.length_eq_one_iff.1 l
  simp at e1
  subst e1
  have z : ∀ k, 4 + k < 23 → stdDev (recent (List.replicate 23 (0 : ℝ) ++ [1]) 5 (4 + k)) = 0 := by
    intro k hk
    rw [stdDev_eq_zero]
    have : ∀ x ∈ recent (List.replicate 23 (0 : ℝ) ++ [1]) 5 (4 + k), x = 0 := by
      intro x hx
      have := recent_subset_take (by omega) hx
      rw [List.take_append_of_le_length (by simp; omega)] at this
      exact List.eq_of_mem_replicate (List.mem_of_mem_take this)
    intro x hx y hy
    rw [this x hx, this y hy]
  have t : recent (List.replicate 23 (0 : ℝ) ++ [1]) 5 23 = [0, 0, 0, 0, 1] := by simp [recent, List.replicate]
  have v : stdDev [0, 0, 0, 0, (1 : ℝ)] = 0.4 := by
    rw [stdDev, show moment 2 [0, 0, 0, 0, (1 : ℝ)] = 0.4 ^ 2 by simp [moment, mean]; norm_num]
    exact Real.sqrt_sq (by norm_num)
  have m : mean ((List.range 20).map fun j => stdDev (recent (List.replicate 23 (0 : ℝ) ++ [1]) 5 (0 + 4 + j))) = 0.02 := by
    have : (List.range 20).map (fun j => stdDev (recent (List.replicate 23 (0 : ℝ) ++ [1]) 5 (0 + 4 + j))) =
        List.replicate 19 0 ++ [0.4] := by
      rw [show (20 : ℕ) = 19 + 1 from rfl, List.range_succ, List.map_append]
      congr 1
      · rw [List.eq_replicate_iff]
        refine ⟨by simp, fun x hx => ?_⟩
        obtain ⟨j, hj, rfl⟩ := List.mem_map.1 hx
        rw [List.mem_range] at hj
        exact z j (by omega)
      · rw [List.map_singleton, ← v, ← t]
    rw [this, mean]
    simp
    norm_num
  rw [m] at q20
  rw [show (0 + 23) = 23 from rfl, t, v] at q5
  have q : (2 / flt (w + 1) : XF) ⇓ 2 / ((w : ℝ) + 1) :=
    (is_div (is_lit 2) (is_flt (w + 1)) (by positivity)).congr (by push_cast; rfl)
  refine ⟨_, by rw [e]; rfl, ?_⟩
  refine (is_add (is_mul (is_mul q (is_div q5 q20 (by norm_num))) (is_sub (is_fin 1) is_zero)) is_zero).congr ?_
  ring

end Traquer.Smooth
