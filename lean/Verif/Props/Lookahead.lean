import Verif.Props.Entropy
import Verif.Props.Zigzag
/-!
# C14: where look-ahead does exist
-/

namespace Traquer
open FP FloatLit

/-! ## zigzag -/

/-- C14: `zigzag` revises what it has already reported, however long the history is: the last bar's price is replaced by NaN when a
bar is appended. -/
theorem Trend.zigzag_lookahead (n₀ : ℕ) : ¬ NoLookahead n₀ fun l : List (Candle XF) =>
    Trend.zigzag (l.map Candle.high) (l.map Candle.low) none := by
  intro h
  obtain ⟨out, out', e, e', l1, l2, pre⟩ := h (List.replicate (n₀ + 2) ⟨fin 100, fin 100, fin 100, fin 100, fin 100⟩)
    [⟨fin 100, fin 100, fin 100, fin 100, fin 100⟩] (by simp)
  simp only [← List.replicate_succ', List.map_replicate] at e e'
  have hb : ∀ i, i < n₀ + 3 → bar (vals (List.replicate (n₀ + 3) (fin 100 : XF))) i = 100 := by
    intro i hi
    simp [bar, vals, hi]
  have q : ∀ (n : ℕ) (i : ℕ) (v : XF), (List.replicate n (fin 100 : XF))[i]? = some v → v = fin 100 := by
    intro n i v hv
    exact (List.mem_replicate.1 (List.mem_of_getElem? hv)).2
  obtain ⟨o, eo, -, -, -, hlast⟩ := Trend.zigzag_prices (high := List.replicate (n₀ + 2) (fin 100 : XF))
    (low := List.replicate (n₀ + 2) (fin 100)) (by simp) none (by simp)
  cases eo.symm.trans e
  obtain ⟨o', top, P, eo', -, -, hm, hc⟩ := Trend.zigzag_legs (high := List.replicate (n₀ + 3) (fin 100 : XF))
    (low := List.replicate (n₀ + 3) (fin 100)) (d := 5) (by simp) (by intro x hx; rw [(List.mem_replicate.1 hx).2]; trivial)
    (by intro x hx; rw [(List.mem_replicate.1 hx).2]; trivial) (by norm_num) (is_lit 5)
    (fun i hi => by rw [hb i (by simpa using hi)]; norm_num) (fun i hi => by rw [hb i (by simpa using hi)]; norm_num) none rfl (by simp)
  cases eo'.symm.trans e'
  have hg := List.getElem?_eq_getElem (show n₀ + 1 < out.length by simp [l1])
  have e1 : out[n₀ + 1]? = some (fin 100) := by
    rw [hg]
    congr 1
    rcases hlast _ (by rw [List.length_replicate]; exact hg) with h | h <;> exact q _ _ _ h
  have e2 : out'[n₀ + 1]? = some (fin 100) := by
    obtain ⟨t, rfl⟩ := pre
    rw [List.getElem?_append_left (by simp [l1]), e1]
  obtain ⟨v, hv, hmv⟩ := hm (n₀ + 1) (by simp)
  cases e2.symm.trans hv
  rcases hc with ⟨rfl, -⟩ | ⟨e, y, he, hp, -⟩
  · simp [Marks, List.lookup] at hmv
  · simp only [List.length_replicate] at he
    have leg : ∀ b, ¬ Leg 5 b 100 100 := by intro b; cases b <;> norm_num [Leg]
    match P, hp with
    | [(i, x)], ⟨h1, h2, h3, h4, h5⟩ =>
      rw [hb 0 (by omega), ite_self] at h5
      rw [hb e he, ite_self] at h2
      exact leg _ (h2 ▸ h5 ▸ h3)
    | (i, x) :: (j, z) :: P, ⟨h1, h2, h3, h4, h5, h6⟩ =>
      rw [hb i (by omega), ite_self] at h5
      rw [hb e he, ite_self] at h2
      exact leg _ (h2 ▸ h5 ▸ h3)

/-! ## Entropies with the default tolerance -/

/-- Two zeros, a one, zeros. -/
def quiet (n : ℕ) : List ℝ := 0 :: 0 :: 1 :: List.replicate n 0

theorem quiet_tolerance (n : ℕ) : stdDev (quiet n) / 5 < 1 := by
  have hw : Within 0 1 (quiet n) := by
    intro x hx
    simp only [quiet, List.mem_cons, List.mem_replicate] at hx
    rcases hx with rfl | rfl | rfl | ⟨-, rfl⟩ <;> norm_num
  have hm := within_mean hw (by simp [quiet])
  have : Within 0 1 ((quiet n).map fun x => (x - mean (quiet n)) ^ 2) := by
    intro y hy
    obtain ⟨x, hx, rfl⟩ := List.mem_map.1 hy
    have := hw x hx
    constructor <;> nlinarith
  have := within_mean this (by simp [quiet])
  have : stdDev (quiet n) ≤ 1 := by
    rw [stdDev, moment, Real.sqrt_le_one]
    exact this.2
  linarith

/-- The history followed by one large value. -/
noncomputable def loud (n : ℕ) : List ℝ := quiet n ++ [5 * ((n : ℝ) + 4) ^ 2]

theorem loud_tolerance (n : ℕ) : 1 ≤ stdDev (loud n) / 5 := by
  have hl : ((loud n).length : ℝ) = n + 4 := by simp [loud, quiet]; ring
  have hs : (loud n).sum = 1 + 5 * ((n : ℝ) + 4) ^ 2 := by simp [loud, quiet]
  have hm : mean (loud n) = (1 + 5 * ((n : ℝ) + 4) ^ 2) / (n + 4) := by rw [mean, hl, hs]
  have h4 : (0 : ℝ) < n + 4 := by positivity
  have hge : 5 * ((n : ℝ) + 4) ≤ mean (loud n) := by
    rw [hm, le_div_iff₀ h4]; nlinarith
  have hsum : (mean (loud n)) ^ 2 ≤ ((loud n).map fun x => (x - mean (loud n)) ^ 2).sum := by
    generalize mean (loud n) = μ
    simp only [loud, quiet, List.cons_append, List.map_cons, List.sum_cons]
    have : 0 ≤ ((List.replicate n (0 : ℝ) ++ [5 * ((n : ℝ) + 4) ^ 2]).map fun x => (x - μ) ^ 2).sum :=
      List.sum_nonneg fun y hy => by
        obtain ⟨x, -, rfl⟩ := List.mem_map.1 hy
        positivity
    nlinarith [sq_nonneg (0 - μ), sq_nonneg (1 - μ)]
  have hmom : 25 ≤ moment 2 (loud n) := by
    rw [moment, mean, List.length_map, hl, le_div_iff₀ h4]
    refine le_trans ?_ hsum
    have : (1 : ℝ) ≤ n + 4 := by linarith [Nat.cast_nonneg (α := ℝ) n]
    nlinarith
  have : 5 ≤ stdDev (loud n) := Real.le_sqrt_of_sq_le (by linarith)
  linarith

theorem near1 {ts : List ℝ} {tol : ℝ} {i j : ℕ} : Near ts 1 tol i j ↔ |bar ts i - bar ts j| ≤ tol := by
  simp [Near]

theorem near2 {ts : List ℝ} {tol : ℝ} {i j : ℕ} :
    Near ts 2 tol i j ↔ |bar ts i - bar ts j| ≤ tol ∧ |bar ts (i + 1) - bar ts (j + 1)| ≤ tol := by
  constructor
  · exact fun h => ⟨by simpa using h 0 (by norm_num), h 1 (by norm_num)⟩
  · rintro ⟨h1, h2⟩ k hk
    match k, hk with
    | 0, _ => simpa using h1
    | 1, _ => exact h2

theorem range2 : Finset.range 2 = {0, 1} := rfl
theorem range3 : Finset.range 3 = {0, 1, 2} := rfl
theorem square2 : Finset.range 2 ×ˢ Finset.range 2 = {(0, 0), (0, 1), (1, 0), (1, 1)} := rfl
theorem square3 : Finset.range 3 ×ˢ Finset.range 3 =
    {(0, 0), (0, 1), (0, 2), (1, 0), (1, 1), (1, 2), (2, 0), (2, 1), (2, 2)} := rfl

/-- The first window, 0 0 1. Below a tolerance of 1 its last value stands out. -/
theorem matches_small {tol : ℝ} (h0 : 0 ≤ tol) (h : tol < 1) :
    (matchesOf [0, 0, 1] 1 tol 0 = 2 ∧ matchesOf [0, 0, 1] 1 tol 1 = 2 ∧ matchesOf [0, 0, 1] 1 tol 2 = 1) ∧
    (matchesOf [0, 0, 1] 2 tol 0 = 1 ∧ matchesOf [0, 0, 1] 2 tol 1 = 1) ∧
    pairMatches [0, 0, 1] 1 tol = 1 ∧ pairMatches [0, 0, 1] 2 tol = 0 := by
  replace h := not_le.mpr h
  refine ⟨⟨?_, ?_, ?_⟩, ⟨?_, ?_⟩, ?_, ?_⟩
  · simp [matchesOf, stretches, range3, Finset.filter_insert, Finset.filter_singleton, near1, bar, h0, h]
  · simp [matchesOf, stretches, range3, Finset.filter_insert, Finset.filter_singleton, near1, bar, h0, h]
  · simp [matchesOf, stretches, range3, Finset.filter_insert, Finset.filter_singleton, near1, bar, h0, h]
  · simp [matchesOf, stretches, range2, Finset.filter_insert, Finset.filter_singleton, near2, bar, h0, h]
  · simp [matchesOf, stretches, range2, Finset.filter_insert, Finset.filter_singleton, near2, bar, h0, h]
  · simp [pairMatches, stretches, square3, Finset.filter_insert, Finset.filter_singleton, near1, bar, h0, h]
  · simp [pairMatches, stretches, square2, Finset.filter_insert, Finset.filter_singleton, near2, bar, h0, h]

/-- From a tolerance of 1 on nothing stands out. -/
theorem matches_large {tol : ℝ} (h : 1 ≤ tol) :
    (matchesOf [0, 0, 1] 1 tol 0 = 3 ∧ matchesOf [0, 0, 1] 1 tol 1 = 3 ∧ matchesOf [0, 0, 1] 1 tol 2 = 3) ∧
    (matchesOf [0, 0, 1] 2 tol 0 = 2 ∧ matchesOf [0, 0, 1] 2 tol 1 = 2) ∧
    pairMatches [0, 0, 1] 1 tol = 3 ∧ pairMatches [0, 0, 1] 2 tol = 1 := by
  have h0 : 0 ≤ tol := by linarith
  refine ⟨⟨?_, ?_, ?_⟩, ⟨?_, ?_⟩, ?_, ?_⟩
  · simp [matchesOf, stretches, range3, Finset.filter_insert, Finset.filter_singleton, near1, bar, h0, h]
  · simp [matchesOf, stretches, range3, Finset.filter_insert, Finset.filter_singleton, near1, bar, h0, h]
  · simp [matchesOf, stretches, range3, Finset.filter_insert, Finset.filter_singleton, near1, bar, h0, h]
  · simp [matchesOf, stretches, range2, Finset.filter_insert, Finset.filter_singleton, near2, bar, h0, h]
  · simp [matchesOf, stretches, range2, Finset.filter_insert, Finset.filter_singleton, near2, bar, h0, h]
  · simp [pairMatches, stretches, square3, Finset.filter_insert, Finset.filter_singleton, near1, bar, h0, h]
  · simp [pairMatches, stretches, square2, Finset.filter_insert, Finset.filter_singleton, near2, bar, h0, h]

theorem matchesOf_le (ts : List ℝ) (m : ℕ) (tol : ℝ) (i : ℕ) : matchesOf ts m tol i ≤ stretches ts m := by
  classical
  exact (Finset.card_filter_le _ _).trans (by simp)

theorem pairMatches_le (ts : List ℝ) (m : ℕ) (tol : ℝ) : pairMatches ts m tol ≤ stretches ts m * stretches ts m := by
  classical
  exact (Finset.card_filter_le _ _).trans (by simp)

/-- A function without look-ahead reports the same value for a bar whatever follows. -/
theorem NoLookahead.agree {n₀ : ℕ} {f : List XF → Option (List XF)} (h : NoLookahead n₀ f) {past future : List XF} {k k' : ℕ}
    {v v' : ℕ → ℝ} (hp : n₀ ≤ past.length) (h1 : Reports past.length k v (f past))
    (h2 : Reports (past ++ future).length k' v' (f (past ++ future))) {i : ℕ} (hi : i < past.length) (hk : k ≤ i) (hk' : k' ≤ i) :
    v i = v' i := by
  obtain ⟨out, out', e, e', l1, l2, t, rfl⟩ := h past future hp
  rw [e] at h1
  rw [e'] at h2
  have hg := List.getElem?_eq_getElem (show i < out.length by omega)
  have a := h1.at hg hk
  have b := h2.at (by rw [List.getElem?_append_left (by omega)]; exact hg) hk'
  exact a.unique b

theorem quiet_loud (n : ℕ) : (quiet n).map (fin (ρ := Rounding.exact)) ++ [fin (5 * ((n : ℝ) + 4) ^ 2)] = (loud n).map fin := by
  simp [loud]

theorem recent_first (n : ℕ) : recent (quiet n) 3 2 = [0, 0, 1] ∧ recent (loud n) 3 2 = [0, 0, 1] := ⟨rfl, rfl⟩

/-- C14: with the default tolerance `approx_entropy` revises what it has already reported, however long the history is. -/
theorem Distribution.approx_entropy_lookahead (n₀ : ℕ) :
    ¬ NoLookahead n₀ fun l : List XF => Distribution.approx_entropy l 3 (some 1) none := by
  intro h
  have r : ∀ l : List ℝ, 3 ≤ l.length → _ := fun l hl =>
    Distribution.approx_entropy_reports (data := l.map fin) (window := 3) (run := some 1) (tol := none) (fins_map_fin _)
      (by simp) (by simp; omega) (by simp) (by simp) (by simp; omega)
      (div_nonneg (Real.sqrt_nonneg _) (by norm_num)) (fun i h1 h2 j _ => (matchesOf_le _ _ _ _).trans (by
        rw [stretches, recent_length h1 (by simpa using h2)]; simp))
  have r1 := r (quiet n₀) (by simp [quiet])
  have r2 := r (loud n₀) (by simp [loud, quiet])
  rw [← quiet_loud] at r2
  have e := h.agree (by simp [quiet]; omega) r1 r2 (i := 2) (by simp [quiet]) (by norm_num) (by norm_num)
  rw [quiet_loud] at e
  simp only [vals_map_fin, recent_first, Option.map_none, toleranceOf, Option.getD_some] at e
  have t0 : 0 ≤ stdDev (quiet n₀) / 5 := div_nonneg (Real.sqrt_nonneg _) (by norm_num)
  obtain ⟨⟨a0, a1, a2⟩, ⟨b0, b1⟩, -⟩ := matches_small t0 (quiet_tolerance n₀)
  obtain ⟨⟨c0, c1, c2⟩, ⟨d0, d1⟩, -⟩ := matches_large (loud_tolerance n₀)
  have s1 : stretches [0, 0, 1] 1 = 3 := rfl
  have s2 : stretches [0, 0, 1] 2 = 2 := rfl
  simp [phiOf, s1, s2, List.range_succ, a0, a1, a2, b0, b1, c0, c1, c2, d0, d1, mean] at e
  rw [Real.log_div (by norm_num) (by norm_num)] at e
  have e27 : Real.log 27 = 3 * Real.log 3 := by
    rw [show (27 : ℝ) = 3 ^ 3 by norm_num, Real.log_pow]; norm_num
  have e32 : Real.log 32 = 5 * Real.log 2 := by
    rw [show (32 : ℝ) = 2 ^ 5 by norm_num, Real.log_pow]; norm_num
  have := Real.log_injOn_pos (by norm_num) (by norm_num) (show Real.log 27 = Real.log 32 by linarith)
  norm_num at this

/-- C14: with the default tolerance `sample_entropy` revises what it has already reported, however long the history is. -/
theorem Distribution.sample_entropy_lookahead (n₀ : ℕ) :
    ¬ NoLookahead n₀ fun l : List XF => Distribution.sample_entropy l 3 (some 1) none := by
  intro h
  have r : ∀ l : List ℝ, 3 ≤ l.length → _ := fun l hl =>
    Distribution.sample_entropy_reports (data := l.map fin) (window := 3) (run := some 1) (tol := none) (fins_map_fin _)
      (by simp) (by simp; omega) (by simp) (by simp) (by simp; omega)
      (fun i h1 h2 => (pairMatches_le _ _ _).trans (by
        rw [stretches, recent_length h1 (by simpa using h2)]; simp))
  have r1 := r (quiet n₀) (by simp [quiet])
  have r2 := r (loud n₀) (by simp [loud, quiet])
  rw [← quiet_loud] at r2
  have e := h.agree (by simp [quiet]; omega) r1 r2 (i := 2) (by simp [quiet]) (by norm_num) (by norm_num)
  rw [quiet_loud] at e
  simp only [vals_map_fin, recent_first, Option.map_none, toleranceOf, Option.getD_some] at e
  have t0 : 0 ≤ stdDev (quiet n₀) / 5 := div_nonneg (Real.sqrt_nonneg _) (by norm_num)
  obtain ⟨-, -, a, b⟩ := matches_small t0 (quiet_tolerance n₀)
  obtain ⟨-, -, c, d⟩ := matches_large (loud_tolerance n₀)
  simp only [pairScore, a, b, c, d] at e
  have := Real.log_injOn_pos (by norm_num) (by norm_num) (neg_injective e)
  norm_num at this

end Traquer
