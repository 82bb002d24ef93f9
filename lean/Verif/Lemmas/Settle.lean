import Verif.Spec.Settle
import Verif.Lemmas.Stable
import Verif.Props.Identities
import Mathlib.Analysis.SpecificLimits.Normed
/-!
# Limits of windows and recursions
-/

namespace Traquer
open FP Filter Topology

variable {s : ℕ → ℝ} {c T : ℝ} {w : ℕ}

@[simp] theorem upTo_length (s : ℕ → ℝ) (n : ℕ) : (upTo s n).length = n := by simp [upTo]

theorem upTo_fins (s : ℕ → ℝ) (n : ℕ) : Fins (upTo s n) := fun x hx => by
  obtain ⟨i, -, rfl⟩ := List.mem_map.1 hx
  trivial

theorem bar_upTo {n i : ℕ} (h : i < n) : bar (vals (upTo s n)) i = s i := by
  simp [bar, vals, upTo, h, FP.val]

theorem settles_intro {r : ℕ → Option (List XF)} {u : ℕ → ℝ} (lim : Tendsto u atTop (𝓝 T))
    (h : ∀ᶠ n in atTop, ∃ out y, r (n + 1) = some out ∧ out.length = n + 1 ∧ out[n]? = some y ∧ y ⇓ u n) : Settles r T := by
  refine ⟨fun n => u (n - 1), lim.comp (tendsto_sub_atTop_nat 1), ?_⟩
  rw [eventually_atTop] at *
  obtain ⟨N, h⟩ := h
  refine ⟨N + 1, fun n hn => ?_⟩
  obtain ⟨m, rfl⟩ : ∃ m, n = m + 1 := ⟨n - 1, by omega⟩
  obtain ⟨out, y, e, l, hy, hv⟩ := h m (by omega)
  exact ⟨out, y, e, l, by rw [List.getLast?_eq_getElem?, l]; exact hy, hv⟩

theorem settles_reports {r : ℕ → Option (List XF)} {V : ℕ → ℕ → ℝ} {u : ℕ → ℝ} (lim : Tendsto u atTop (𝓝 T))
    (h : ∀ᶠ n in atTop, ∃ k, k ≤ n ∧ Reports (n + 1) k (V n) (r (n + 1)) ∧ V n n = u n) : Settles r T :=
  settles_intro lim (h.mono fun n ⟨k, hk, ⟨out, e, l, _, hv⟩, hu⟩ => by
    obtain ⟨y, hy, iy⟩ := hv n hk (by omega)
    exact ⟨out, y, e, l, hy, hu ▸ iy⟩)

theorem settles_reportsP {r : ℕ → Option (List XF)} {P : ℕ → ℕ → XF → Prop} {u : ℕ → ℝ} (lim : Tendsto u atTop (𝓝 T))
    (h : ∀ᶠ n in atTop, ∃ k, k ≤ n ∧ ReportsP (n + 1) k (P n) (r (n + 1)) ∧ ∀ y, P n n y → y ⇓ u n) : Settles r T :=
  settles_intro lim (h.mono fun n ⟨k, hk, ⟨out, e, l, _, hv⟩, hu⟩ => by
    obtain ⟨y, hy, iy⟩ := hv n hk (by omega)
    exact ⟨out, y, e, l, hy, hu y iy⟩)

/-- A value that depends on the bars before `n` only. -/
theorem Lip.sees {V : (ℕ → ℝ) → ℕ → ℝ} {k : ℕ} {L : ℝ} (h : Lip k L V) {x y : ℕ → ℝ} {i : ℕ} (hi : k ≤ i) (e : ∀ j, j ≤ i → x j = y j) :
    V x i = V y i := by
  have := h (i + 1) 0 x y le_rfl (fun j hj => by rw [e j (by omega)]; simp) i hi (by omega)
  rw [mul_zero] at this
  exact sub_eq_zero.1 (abs_eq_zero.1 (le_antisymm this (abs_nonneg _)))

theorem settles_of {V : (ℕ → ℝ) → ℕ → ℝ} {k N : ℕ} {L : ℝ} {ok : ℕ → Prop} {f : List XF → Option (List XF)} (hV : Lip k L V)
    (hok : ∀ n, N ≤ n → ok n) (hf : ∀ d, Fins d → ok d.length → Reports d.length k (V (bar (vals d))) (f d))
    (lim : Tendsto (V s) atTop (𝓝 T)) : Settles (fun n => f (upTo s n)) T := by
  refine settles_reports lim (eventually_atTop.2 ⟨max N k, fun n hn => ⟨k, by omega, ?_, ?_⟩⟩) (V := fun n => V (bar (vals (upTo s (n + 1)))))
  · have := hf (upTo s (n + 1)) (upTo_fins _ _) (hok _ (by rw [upTo_length]; omega))
    rwa [upTo_length] at this
  · exact hV.sees (by omega) fun j hj => bar_upTo (by omega)

/-- A quantity of a window that changes by at most a multiple of the error tends to its value on the constant window. -/
theorem tendsto_window {g : List ℝ → ℝ} {L : ℝ}
    (hg : ∀ (e : ℝ) (l m : List ℝ), 0 ≤ e → l.length = w → NearL e l m → |g l - g m| ≤ L * e) (hs : Tendsto s atTop (𝓝 c)) :
    Tendsto (fun i => g (lastOf s w i)) atTop (𝓝 (g (List.replicate w c))) := by
  rw [Metric.tendsto_atTop] at *
  intro ε hε
  have hp : 0 < |L| + 1 := by positivity
  obtain ⟨N, h⟩ := hs (ε / (|L| + 1)) (by positivity)
  refine ⟨N + w, fun n hn => ?_⟩
  rw [Real.dist_eq]
  have := hg (ε / (|L| + 1)) (lastOf s w n) (lastOf (fun _ => c) w n) (by positivity) (by simp [lastOf])
    (lastOf_forall₂ (k := N) (n := n + 1) (fun j h1 _ => (h j h1).le) (by omega) (by omega))
  rw [show lastOf (fun _ => c) w n = List.replicate w c by simp [lastOf, List.map_const']] at this
  refine lt_of_le_of_lt this ?_
  rw [mul_div_assoc', div_lt_iff₀ hp]
  nlinarith [le_abs_self L]

theorem tendsto_mean (hw : 1 ≤ w) (hs : Tendsto s atTop (𝓝 c)) : Tendsto (fun i => mean (lastOf s w i)) atTop (𝓝 c) := by
  have := tendsto_window (w := w) (g := mean) (L := 1) (fun e l m _ hl h => by
    rw [one_mul]; exact mean_near h (by rintro rfl; simp at hl; omega)) hs
  rwa [show mean (List.replicate w c) = c by
    rw [mean, List.sum_replicate, List.length_replicate, nsmul_eq_mul]; field_simp] at this

theorem weightedMean_replicate {ws : List ℝ} (hs : 0 < ws.sum) (hl : ws.length = w) : weightedMean ws (List.replicate w c) = c := by
  rw [weightedMean, div_eq_iff hs.ne']
  subst hl
  clear hs
  induction ws with
  | nil => simp
  | cons u us ih =>
    simp only [List.length_cons, List.replicate_succ, List.zip_cons_cons, List.map_cons, List.sum_cons]
    rw [ih]; ring

theorem tendsto_weighted {ws : List ℝ} (hu : ∀ u ∈ ws, 0 ≤ u) (h0 : 0 < ws.sum) (hl : ws.length = w) (hs : Tendsto s atTop (𝓝 c)) :
    Tendsto (fun i => weightedMean ws (lastOf s w i)) atTop (𝓝 c) := by
  have := tendsto_window (w := w) (g := weightedMean ws) (L := 1) (fun e l m _ hm h => by
    rw [one_mul]; exact weightedMean_near hu h0 (by omega) h) hs
  rwa [weightedMean_replicate h0 hl] at this

/-- Contraction with a vanishing disturbance. -/
theorem tendsto_contract {a b : ℕ → ℝ} {q : ℝ} {k : ℕ} (h0 : ∀ i, 0 ≤ a i) (q0 : 0 ≤ q) (q1 : q < 1) (hb : Tendsto b atTop (𝓝 0))
    (h : ∀ i, k ≤ i → a (i + 1) ≤ q * a i + b (i + 1)) : Tendsto a atTop (𝓝 0) := by
  rw [Metric.tendsto_atTop]
  intro ε hε
  have p0 : 0 < 1 - q := by linarith
  obtain ⟨N, hN⟩ := (Metric.tendsto_atTop.1 hb) ((1 - q) * (ε / 2)) (by positivity)
  set M := max N k
  have key : ∀ j, a (M + j) ≤ q ^ j * a M + ε / 2 := fun j => by
    induction j with
    | zero => simp; linarith
    | succ j ih =>
      have h1 := h (M + j) (by omega)
      have h2 := hN (M + j + 1) (by omega)
      rw [Real.dist_eq, sub_zero] at h2
      have h3 := (abs_lt.1 h2).2
      rw [← add_assoc, pow_succ]
      nlinarith
  have hq : Tendsto (fun j => q ^ j * a M) atTop (𝓝 0) := by
    simpa using (tendsto_pow_atTop_nhds_zero_of_lt_one q0 q1).mul_const (a M)
  obtain ⟨J, hJ⟩ := (Metric.tendsto_atTop.1 hq) (ε / 2) (by positivity)
  refine ⟨M + J, fun n hn => ?_⟩
  obtain ⟨j, rfl⟩ : ∃ j, n = M + j := ⟨n - M, by omega⟩
  have h1 := hJ j (by omega)
  rw [Real.dist_eq, sub_zero] at *
  rw [abs_of_nonneg (h0 _)]
  have := (abs_lt.1 h1).2
  linarith [key j]

/-- A recursion that moves a share of the way, at least `q` of it, to the newest value. -/
theorem tendsto_toward {y g : ℕ → ℝ} {q : ℝ} {k : ℕ} (q0 : 0 < q) (hg : ∀ i, k ≤ i → q ≤ g (i + 1) ∧ g (i + 1) ≤ 1)
    (h : ∀ i, k ≤ i → y (i + 1) = g (i + 1) * (s (i + 1) - y i) + y i) (hs : Tendsto s atTop (𝓝 c)) : Tendsto y atTop (𝓝 c) := by
  have q1 : q ≤ 1 := (hg k le_rfl).1.trans (hg k le_rfl).2
  have := tendsto_contract (a := fun i => |y i - c|) (b := fun i => |s i - c|) (q := 1 - q) (k := k) (fun i => abs_nonneg _) (by linarith) (by linarith)
    (by simpa using (hs.sub_const c).abs) fun i hi => by
      obtain ⟨g1, g2⟩ := hg i hi
      have e : y (i + 1) - c = (1 - g (i + 1)) * (y i - c) + g (i + 1) * (s (i + 1) - c) := by rw [h i hi]; ring
      simp only [e]
      refine (abs_add_le _ _).trans ?_
      rw [abs_mul, abs_mul, abs_of_nonneg (by linarith : 0 ≤ 1 - g (i + 1)), abs_of_nonneg (by linarith : 0 ≤ g (i + 1))]
      nlinarith [abs_nonneg (y i - c), abs_nonneg (s (i + 1) - c)]
  have h2 := tendsto_zero_iff_abs_tendsto_zero _ |>.2 this
  simpa using h2.add_const c

theorem tendsto_ewmaFrom {k : ℕ} (hw : 1 ≤ w) (hs : Tendsto s atTop (𝓝 c)) : Tendsto (ewmaFrom k w s) atTop (𝓝 c) := by
  have w1 : (1 : ℝ) ≤ w := by exact_mod_cast hw
  refine tendsto_toward (k := k + w) (g := fun _ => 2 / ((w : ℝ) + 1)) (q := 2 / ((w : ℝ) + 1)) (by positivity)
    (fun i _ => ⟨le_rfl, by rw [div_le_one (by positivity)]; linarith⟩) (fun i hi => ?_) hs
  rw [ewmaFrom, if_neg (by omega)]; ring

theorem tendsto_wilderFrom {k : ℕ} (hw : 1 ≤ w) (hs : Tendsto s atTop (𝓝 c)) : Tendsto (wilderFrom k w s) atTop (𝓝 c) := by
  have w1 : (1 : ℝ) ≤ w := by exact_mod_cast hw
  refine tendsto_toward (k := k + w) (g := fun _ => 1 / (w : ℝ)) (q := 1 / (w : ℝ)) (by positivity)
    (fun i _ => ⟨le_rfl, by rw [div_le_one (by positivity)]; linarith⟩) (fun i hi => ?_) hs
  rw [wilderFrom, if_neg (by omega)]
  field_simp
  ring

theorem tendsto_adaptive {k : ℕ} {g : ℕ → ℝ} {q : ℝ} (q0 : 0 < q) (hg : ∀ i, k ≤ i → q ≤ g i ∧ g i ≤ 1) (hs : Tendsto s atTop (𝓝 c)) :
    Tendsto (adaptive k g s) atTop (𝓝 c) :=
  tendsto_toward (k := k) (g := g) q0 (fun i hi => hg _ (by omega)) (fun i hi => by rw [adaptive, if_neg (by omega)]) hs

end Traquer
