import Verif.Props.Move
/-!
# C138: which way a running total moves

What makes `obv`, `vpt`, `tvi`, the two forms of `ad`, `pvi` and `nvi` rise or fall from one bar to the next, in terms of the bar only.
-/

namespace Traquer.Volume
open FP FloatLit
open scoped BigOperators

/-- From each bar with a reading to the next, the reading rises exactly if `up` and falls exactly if `down` holds of the new bar. -/
def Steered (n k : ℕ) (up down : ℕ → Prop) (r : Option (List XF)) : Prop :=
  Moves n k (fun i a b => (a < b ↔ up i) ∧ (b < a ↔ down i)) r

theorem steered_of {n k : ℕ} {up down : ℕ → Prop} {t : ℕ → ℝ} {r : Option (List XF)} (h : Accumulates n k t r)
    (hu : ∀ i, k < i → i < n → (0 < t i ↔ up i)) (hd : ∀ i, k < i → i < n → (t i < 0 ↔ down i)) : Steered n k up down r := by
  refine Reports.moves h fun i h1 h2 => ?_
  rw [show i - 1 + 1 = i by omega, Finset.sum_Ico_succ_top (by omega), lt_add_iff_pos_right, add_lt_iff_neg_left]
  exact ⟨hu i h1 h2, hd i h1 h2⟩

theorem pos_bar {l : List XF} (h : ∀ x ∈ l, 0 < x.val) {i : ℕ} (hi : i < l.length) : 0 < bar (vals l) i := by
  obtain ⟨y, hy⟩ : ∃ y, l[i]? = some y := ⟨_, List.getElem?_eq_getElem hi⟩
  rw [bar_vals hy]
  exact h y (List.mem_of_getElem? hy)

section
variable {close volume : List XF} (hv : volume.length = close.length) (hn : 1 ≤ close.length) (fc : Fins close) (fv : Fins volume)
  (vp : ∀ x ∈ volume, 0 < x.val)
include hv hn fc fv vp

/-- C138: `obv` falls exactly if the close fell, and rises otherwise: also if the close did not change. -/
theorem obv_steered (hz : ∀ x ∈ close, x ≠ negz) : Steered close.length 1 (fun i => bar (vals close) (i - 1) ≤ bar (vals close) i)
    (fun i => bar (vals close) i < bar (vals close) (i - 1)) (obv close volume) := by
  refine steered_of (obv_accumulates close volume hv hn fc fv hz) (fun i h1 h2 => ?_) fun i h1 h2 => ?_ <;>
  · have p := pos_bar vp (i := i) (by omega)
    simp only [obvTerm]
    split_ifs with g
    · constructor <;> intro <;> linarith
    · rw [not_lt] at g
      constructor <;> intro <;> linarith

/-- C138: `vpt` of positive prices rises exactly if the price rose and falls exactly if it fell. -/
theorem vpt_steered (cp : ∀ x ∈ close, 0 < x.val) : Steered close.length 1 (fun i => bar (vals close) (i - 1) < bar (vals close) i)
    (fun i => bar (vals close) i < bar (vals close) (i - 1)) (vpt close volume) := by
  refine steered_of (vpt_accumulates close volume hv hn fc fv fun x hx => (cp x hx).ne') (fun i h1 h2 => ?_) fun i h1 h2 => ?_
  · have p := pos_bar vp (i := i) (by omega)
    have q := pos_bar cp (i := i - 1) (by omega)
    rw [vptTerm, div_pos_iff_of_pos_right q, mul_pos_iff_of_pos_left p, sub_pos]
  · have p := pos_bar vp (i := i) (by omega)
    have q := pos_bar cp (i := i - 1) (by omega)
    rw [vptTerm, div_neg_iff]
    constructor
    · rintro (⟨-, h⟩ | ⟨h, -⟩)
      · linarith
      · by_contra g
        have := mul_nonneg p.le (sub_nonneg.2 (not_lt.1 g))
        linarith
    · exact fun h => Or.inr ⟨mul_neg_of_pos_of_neg p (sub_neg.2 h), q⟩

omit vp in
/-- C138: `pvi` of positive prices moves with the price, and only if the volume rose. -/
theorem pvi_steered (cp : ∀ x ∈ close, 0 < x.val) : Steered close.length 1
    (fun i => bar (vals volume) (i - 1) < bar (vals volume) i ∧ bar (vals close) (i - 1) < bar (vals close) i)
    (fun i => bar (vals volume) (i - 1) < bar (vals volume) i ∧ bar (vals close) i < bar (vals close) (i - 1)) (some (pvi close volume)) := by
  refine Reports.moves (pvi_reports close volume hv hn fc fv fun x hx => (cp x hx).ne') fun i h1 h2 => ?_
  have pos : 0 < 100 * ∏ j ∈ Finset.Ico 1 (i - 1 + 1), pviFactor (vals close) (vals volume) j :=
    mul_pos (by norm_num) (Finset.prod_pos fun j hj => by
      have := Finset.mem_Ico.1 hj
      rw [pviFactor]
      split_ifs
      · exact div_pos (pos_bar cp (by omega)) (pos_bar cp (by omega))
      · norm_num)
  rw [show i - 1 + 1 = i by omega] at *
  rw [Finset.prod_Ico_succ_top (by omega), ← mul_assoc]
  have q := pos_bar cp (i := i - 1) (by omega)
  rw [lt_mul_iff_one_lt_right pos, mul_lt_iff_lt_one_right pos, pviFactor]
  split_ifs with g
  · rw [one_lt_div q, div_lt_one q]
    simp [g]
  · simp [g]

omit vp in
/-- C138: `nvi` of positive prices moves with the price, and only if the volume fell. -/
theorem nvi_steered (cp : ∀ x ∈ close, 0 < x.val) : Steered close.length 1
    (fun i => bar (vals volume) i < bar (vals volume) (i - 1) ∧ bar (vals close) (i - 1) < bar (vals close) i)
    (fun i => bar (vals volume) i < bar (vals volume) (i - 1) ∧ bar (vals close) i < bar (vals close) (i - 1)) (some (nvi close volume)) := by
  refine Reports.moves (nvi_reports close volume hv hn fc fv fun x hx => (cp x hx).ne') fun i h1 h2 => ?_
  have pos : 0 < 100 * ∏ j ∈ Finset.Ico 1 (i - 1 + 1), nviFactor (vals close) (vals volume) j :=
    mul_pos (by norm_num) (Finset.prod_pos fun j hj => by
      have := Finset.mem_Ico.1 hj
      rw [nviFactor]
      split_ifs
      · exact div_pos (pos_bar cp (by omega)) (pos_bar cp (by omega))
      · norm_num)
  rw [show i - 1 + 1 = i by omega] at *
  rw [Finset.prod_Ico_succ_top (by omega), ← mul_assoc]
  have q := pos_bar cp (i := i - 1) (by omega)
  rw [lt_mul_iff_one_lt_right pos, mul_lt_iff_lt_one_right pos, nviFactor]
  split_ifs with g
  · rw [one_lt_div q, div_lt_one q]
    simp [g]
  · simp [g]

/-- C138: `tvi` always moves: up after a rise of more than the tick, down after a fall of more than the tick, and otherwise as it did before. -/
theorem tvi_steered (tick : XF) (ht : tick.Finite) (t0 : 0 ≤ tick.val) : ∃ a : ℕ → ℝ, Reports close.length 1 a (tvi close volume tick) ∧
    (∀ i, 1 ≤ i → i + 1 < close.length → a i ≠ a (i + 1)) ∧
    (∀ i, 1 ≤ i → i + 1 < close.length → tick.val < bar (vals close) (i + 1) - bar (vals close) i → a i < a (i + 1)) ∧
    (∀ i, 1 ≤ i → i + 1 < close.length → tick.val < bar (vals close) i - bar (vals close) (i + 1) → a (i + 1) < a i) ∧
    ∀ i, 1 ≤ i → i + 2 < close.length → |bar (vals close) (i + 2) - bar (vals close) (i + 1)| ≤ tick.val → (a i < a (i + 1) ↔ a (i + 1) < a (i + 2)) := by
  refine ⟨_, tvi_accumulates close volume tick hv hn fc fv ht, ?_⟩
  have st : ∀ i, 1 ≤ i → ∑ j ∈ Finset.Ico 1 (i + 1 + 1), tviTerm (vals close) (vals volume) tick.val j =
      ∑ j ∈ Finset.Ico 1 (i + 1), tviTerm (vals close) (vals volume) tick.val j + tviTerm (vals close) (vals volume) tick.val (i + 1) :=
    fun i h => Finset.sum_Ico_succ_top (by omega) _
  have up : ∀ i, i + 1 < close.length → (0 < tviTerm (vals close) (vals volume) tick.val (i + 1) ↔ tickUp (vals close) tick.val (i + 1) = true) := fun i h => by
    have p := pos_bar vp (i := i + 1) (by omega)
    rw [tviTerm]
    split_ifs with g
    · simp [g, p]
    · simp [g, p.le]
  have ne : ∀ i, i + 1 < close.length → tviTerm (vals close) (vals volume) tick.val (i + 1) ≠ 0 := fun i h => by
    have p := pos_bar vp (i := i + 1) (by omega)
    rw [tviTerm]
    split_ifs with g
    · exact p.ne'
    · exact neg_ne_zero.2 p.ne'
  refine ⟨fun i h1 h2 => ?_, fun i h1 h2 h3 => ?_, fun i h1 h2 h3 => ?_, fun i h1 h2 h3 => ?_⟩
  · rw [st i h1]
    intro e
    exact ne i h2 (by linarith)
  · rw [st i h1, lt_add_iff_pos_right, up i h2, tickUp, if_pos h3]
  · have : ¬ 0 < tviTerm (vals close) (vals volume) tick.val (i + 1) := by
      rw [up i h2, tickUp, if_neg (by linarith), if_pos h3]
      simp
    rw [st i h1, add_lt_iff_neg_left]
    exact lt_of_le_of_ne (not_lt.1 this) (ne i h2)
  · obtain ⟨b1, b2⟩ := abs_le.1 h3
    rw [show i + 2 + 1 = i + 1 + 1 + 1 from rfl, st (i + 1) (by omega), lt_add_iff_pos_right, st i h1, lt_add_iff_pos_right, up i (by omega), up (i + 1) h2,
      show tickUp (vals close) tick.val (i + 1 + 1) = tickUp (vals close) tick.val (i + 1) by
        rw [tickUp, if_neg (by linarith), if_neg (by linarith)]]

end

section
variable (high low close volume : List XF) (hl : low.length = high.length) (hc : close.length = high.length)
  (hv : volume.length = high.length) (hn : 1 ≤ high.length) (fh : Fins high) (fl : Fins low) (fc : Fins close) (fv : Fins volume)
  (vp : ∀ x ∈ volume, 0 < x.val)
include hl hc hv hn fh fl fc fv vp

/-- C138: `ad` rises exactly if the bar closes in its upper half and falls exactly if it closes in its lower half. -/
theorem ad_steered (hr : ∀ i, i < high.length → bar (vals low) i < bar (vals high) i) : Steered high.length 0
    (fun i => (bar (vals high) i + bar (vals low) i) / 2 < bar (vals close) i)
    (fun i => bar (vals close) i < (bar (vals high) i + bar (vals low) i) / 2) (ad high low close volume none) := by
  refine steered_of (ad_accumulates high low close volume hl hc hv hn fh fl fc fv fun j h l e1 e2 => ?_) (fun i h1 h2 => ?_) fun i h1 h2 => ?_
  · have := hr j (List.getElem?_eq_some_iff.1 e1).1
    rw [bar_vals e1, bar_vals e2] at this
    exact this.ne'
  · have p := pos_bar vp (i := i) (by omega)
    have r := sub_pos.2 (hr i h2)
    rw [adTerm, mul_pos_iff_of_pos_right p, div_pos_iff_of_pos_right r]
    constructor <;> intro <;> linarith
  · have p := pos_bar vp (i := i) (by omega)
    have r := sub_pos.2 (hr i h2)
    rw [adTerm, ← neg_pos, ← neg_mul, mul_pos_iff_of_pos_right p, ← neg_div, div_pos_iff_of_pos_right r]
    constructor <;> intro <;> linarith

/-- C138: Williams' `ad` rises exactly if the close rose, and falls exactly if the close fell or, after an unchanged close, the high was above it. -/
theorem ad_williams_steered (hs : ∀ i, i < high.length → bar (vals close) i ≤ bar (vals high) i) : Steered high.length 1
    (fun i => bar (vals close) (i - 1) < bar (vals close) i)
    (fun i => bar (vals close) i < bar (vals close) (i - 1) ∨ bar (vals close) i = bar (vals close) (i - 1) ∧ bar (vals close) i < bar (vals high) i)
    (ad high low close volume (some true)) := by
  refine steered_of (ad_williams_accumulates high low close volume hl hc hv hn fh fl fc fv) (fun i h1 h2 => ?_) fun i h1 h2 => ?_
  · have p := pos_bar vp (i := i) (by omega)
    rw [adWilliamsTerm, mul_pos_iff_of_pos_right p]
    split_ifs with g
    · have := min_le_right (bar (vals low) i) (bar (vals close) (i - 1))
      constructor <;> intro <;> linarith
    · have := le_max_right (bar (vals high) i) (bar (vals close) (i - 1))
      have := not_lt.1 g
      constructor <;> intro <;> linarith
  · have p := pos_bar vp (i := i) (by omega)
    have s := hs i h2
    rw [adWilliamsTerm, ← neg_pos, ← neg_mul, mul_pos_iff_of_pos_right p]
    split_ifs with g
    · have := min_le_right (bar (vals low) i) (bar (vals close) (i - 1))
      constructor
      · intro; linarith
      · rintro (h | ⟨h, -⟩) <;> linarith
    · rw [neg_pos, sub_neg, lt_max_iff]
      have := not_lt.1 g
      constructor
      · rintro (h | h)
        · rcases this.eq_or_lt with e | e
          · exact Or.inr ⟨e, h⟩
          · exact Or.inl e
        · exact Or.inl h
      · rintro (h | ⟨-, h⟩)
        · exact Or.inr h
        · exact Or.inl h

end

/-! ## Examples -/

private noncomputable def hs4 : List XF := [3, 5, 5, 9].map fin
private noncomputable def ls4 : List XF := [1, 2, 3, 4].map fin
private noncomputable def cs4 : List XF := [2, 4, 4, 6].map fin
private noncomputable def vs4 : List XF := [10, 20, 5, 30].map fin

example := obv_steered (close := cs4) (volume := vs4) rfl (by simp [cs4]) (fins_map_fin _) (fins_map_fin _) (by simp [vs4, FP.val]) (by simp [cs4])
example := vpt_steered (close := cs4) (volume := vs4) rfl (by simp [cs4]) (fins_map_fin _) (fins_map_fin _) (by simp [vs4, FP.val]) (by simp [cs4, FP.val])
example := pvi_steered (close := cs4) (volume := vs4) rfl (by simp [cs4]) (fins_map_fin _) (fins_map_fin _) (by simp [cs4, FP.val])
example := nvi_steered (close := cs4) (volume := vs4) rfl (by simp [cs4]) (fins_map_fin _) (fins_map_fin _) (by simp [cs4, FP.val])
example := tvi_steered (close := cs4) (volume := vs4) rfl (by simp [cs4]) (fins_map_fin _) (fins_map_fin _) (by simp [vs4, FP.val]) (fin 1) trivial (by simp [FP.val])
example := ad_steered hs4 ls4 cs4 vs4 rfl rfl rfl (by simp [hs4]) (fins_map_fin _) (fins_map_fin _) (fins_map_fin _) (fins_map_fin _) (by simp [vs4, FP.val])
  (fun i hi => by
    have : i < 4 := by simpa [hs4] using hi
    interval_cases i <;> norm_num [hs4, ls4, bar, vals, FP.val])
example := ad_williams_steered hs4 ls4 cs4 vs4 rfl rfl rfl (by simp [hs4]) (fins_map_fin _) (fins_map_fin _) (fins_map_fin _) (fins_map_fin _)
  (by simp [vs4, FP.val]) (fun i hi => by
    have : i < 4 := by simpa [hs4] using hi
    interval_cases i <;> norm_num [hs4, cs4, bar, vals, FP.val])

end Traquer.Volume
