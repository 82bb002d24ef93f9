import Verif.Model.Smooth
import Verif.Lemmas.Shape
import Mathlib.Data.Nat.Choose.Sum
import Mathlib.Data.Nat.Choose.Bounds
import Mathlib.Tactic.Ring
/-!
# The row of Pascal's triangle computed by pwma
-/

namespace Traquer.Smooth

/-- The loop invariant: the outer `m` entries on both sides are final, the rest is still 1. -/
def pascalInv (n m : ℕ) : List ℕ × ℕ :=
  ((List.range (n + 1)).map fun j => if j ≤ m ∨ n - m ≤ j then n.choose j else 1,
    2 + 2 * ((List.range m).map fun j => n.choose (j + 1)).sum)

theorem choose_mul_bound {n k : ℕ} (hn : n ≤ 62) (hk : k < n) : n.choose k * (n - k) < 2 ^ 64 := by
  obtain ⟨m, rfl⟩ : ∃ m, n = m + 1 := ⟨n - 1, by omega⟩
  have h1 : (m + 1).choose k * (m + 1 - k) = (m + 1) * m.choose k := by
    rw [← Nat.choose_succ_right_eq, Nat.add_one_mul_choose_eq]
  rw [h1]
  have h2 : m.choose k ≤ (61).choose k := Nat.choose_le_choose k (by omega)
  have h3 : (61).choose k ≤ (61).choose (61 / 2) := Nat.choose_le_middle k 61
  have h4 : (61 : ℕ).choose (61 / 2) = 232714176627630544 := by decide +kernel
  calc (m + 1) * m.choose k ≤ 62 * 232714176627630544 := Nat.mul_le_mul (by omega) (by omega)
    _ < 2 ^ 64 := by norm_num

theorem choose_sum_le (n m : ℕ) (hm : m ≤ n) :
    ((List.range m).map fun j => n.choose (j + 1)).sum + 1 ≤ 2 ^ n := by
  have h := Nat.sum_range_choose n
  rw [Finset.sum_range_succ'] at h
  have h2 : ((List.range m).map fun j => n.choose (j + 1)).sum = ∑ j ∈ Finset.range m, n.choose (j + 1) := rfl
  rw [h2, ← h]
  have : ∑ j ∈ Finset.range m, n.choose (j + 1) ≤ ∑ j ∈ Finset.range n, n.choose (j + 1) :=
    Finset.sum_le_sum_of_subset (fun x hx => by simp at *; omega)
  simp
  exact this

theorem pascalStep_eq (n m : ℕ) (hm : m + 1 ≤ n / 2) :
    pascalStep n (pascalInv n m) (m + 1) = (umul (n.choose m) (n - m)).bind fun _ =>
      (umul (n.choose (m + 1)) 2).bind fun _ => (uadd (pascalInv n m).2 (n.choose (m + 1) * 2)).bind fun _ =>
      some (pascalInv n (m + 1)) := by
  have hget : ((pascalInv n m).1).getD m 0 = n.choose m := by
    simp only [pascalInv]
    rw [List.getD_eq_getElem?_getD, List.getElem?_map, List.getElem?_range (by omega)]
    simp
  have hv : n.choose m * (n - m) / (m + 1) = n.choose (m + 1) := by
    rw [← Nat.choose_succ_right_eq, Nat.mul_div_cancel _ (by omega)]
  have e : pascalStep n (pascalInv n m) (m + 1) = (umul (((pascalInv n m).1).getD m 0) (n - m)).bind fun p =>
      (umul (p / (m + 1)) 2).bind fun v2 => (uadd (pascalInv n m).2 v2).bind fun d =>
      some ((((pascalInv n m).1).set (m + 1) (p / (m + 1))).set (n - (m + 1)) (p / (m + 1)), d) := rfl
  rw [e, hget]
  unfold umul
  split
  · rw [Option.bind_some, Option.bind_some, hv]
    split
    · rw [Option.bind_some, Option.bind_some]
      unfold uadd
      split
      · rw [Option.bind_some, Option.bind_some]
        congr 1
        refine Prod.ext ?_ ?_
        · simp only [pascalInv]
          apply List.ext_getElem?
          intro i
          by_cases hi : i < n + 1
          · rw [List.getElem?_set, List.getElem?_set]
            simp only [List.length_set, List.length_map, List.length_range, List.getElem?_map,
              List.getElem?_range hi, Option.map_some]
            split
            · subst_vars
              rw [if_pos (by omega), if_pos (by omega)]
              rw [← Nat.choose_symm (show m + 1 ≤ n by omega)]
            · split
              · subst_vars
                rw [if_pos (by omega), if_pos (by omega)]
              · by_cases hc : i ≤ m ∨ n - m ≤ i
                · rw [if_pos hc, if_pos (by omega)]
                · rw [if_neg hc, if_neg (by omega)]
          · rw [List.getElem?_eq_none_iff.2 (by simp; omega), List.getElem?_eq_none_iff.2 (by simp; omega)]
        · simp only [pascalInv, List.range_succ, List.map_append, List.sum_append, List.map_cons, List.map_nil,
            List.sum_cons, List.sum_nil]
          ring
      · rfl
    · rfl
  · rfl

theorem pascalStep_inv {n m : ℕ} (hn : n ≤ 62) (hm : m + 1 ≤ n / 2) :
    pascalStep n (pascalInv n m) (m + 1) = some (pascalInv n (m + 1)) := by
  have hmn : m < n := by omega
  have hb := choose_mul_bound hn hmn
  have hle : n.choose (m + 1) ≤ 2 ^ 62 := (Nat.choose_le_two_pow n (m + 1)).trans (Nat.pow_le_pow_right (by omega) hn)
  have hs := choose_sum_le n (m + 1) (by omega)
  have hs2 : (2 : ℕ) ^ n ≤ 2 ^ 62 := Nat.pow_le_pow_right (by omega) hn
  rw [List.range_succ, List.map_append, List.sum_append] at hs
  simp only [List.map_cons, List.map_nil, List.sum_cons, List.sum_nil, add_zero] at hs
  rw [pascalStep_eq n m hm]
  have h0 : umul (n.choose m) (n - m) = some (n.choose m * (n - m)) := by
    simp only [umul]; rw [if_pos hb]
  have h1 : umul (n.choose (m + 1)) 2 = some (n.choose (m + 1) * 2) := by
    simp only [umul]; rw [if_pos (by omega)]
  have h2 : uadd (pascalInv n m).2 (n.choose (m + 1) * 2) = some ((pascalInv n m).2 + n.choose (m + 1) * 2) := by
    simp only [uadd]
    rw [if_pos]
    simp only [pascalInv]
    omega
  rw [h0, Option.bind_some, h1, Option.bind_some, h2, Option.bind_some]

theorem pascalInv_zero (n : ℕ) : (List.replicate (n + 1) 1, 2) = pascalInv n 0 := by
  refine Prod.ext ?_ (by simp [pascalInv])
  simp only [pascalInv]
  apply List.ext_getElem?
  intro i
  by_cases hi : i < n + 1
  · simp only [List.getElem?_replicate, hi, if_true, List.getElem?_map, List.getElem?_range hi, Option.map_some]
    split
    · rename_i h
      rcases h with h | h
      · rw [show i = 0 by omega]; simp
      · rw [show i = n by omega]; simp
    · rfl
  · simp [hi]

theorem pascalFold {n m : ℕ} (hn : n ≤ 62) (hm : m ≤ n / 2) :
    (List.range' 1 m).foldlM (pascalStep n) (List.replicate (n + 1) 1, 2) = some (pascalInv n m) := by
  induction m with
  | zero =>
    rw [← pascalInv_zero]
    rfl
  | succ m ih =>
    rw [List.range'_1_concat, List.foldlM_append, ih (by omega)]
    simp only [Option.bind_eq_bind, Option.bind_some, List.foldlM_cons, List.foldlM_nil]
    rw [Nat.add_comm 1 m, pascalStep_inv hn hm]
    rfl

/-- Summing both halves of a row. -/
theorem choose_half_sum (n : ℕ) :
    2 + 2 * ((List.range (n / 2)).map fun j => n.choose (j + 1)).sum =
      2 ^ n + if n % 2 = 0 then n.choose (n / 2) else 0 := by
  have hL : 1 + ((List.range (n / 2)).map fun j => n.choose (j + 1)).sum = ∑ j ∈ Finset.range (n / 2 + 1), n.choose j := by
    rw [Finset.sum_range_succ', Nat.choose_zero_right, Nat.add_comm]
    rfl
  have hsplit : ∑ j ∈ Finset.range (n + 1), n.choose j = 2 ^ n := Nat.sum_range_choose n
  have hrefl : ∑ j ∈ Finset.range (n / 2 + 1), n.choose j = ∑ j ∈ Finset.range (n / 2 + 1), n.choose (n - j) :=
    Finset.sum_congr rfl fun j hj => by
      simp at hj
      rw [Nat.choose_symm (by omega)]
  rcases Nat.mod_two_eq_zero_or_one n with h | h
  · rw [if_pos h]
    obtain ⟨m, rfl⟩ : ∃ m, n = 2 * m := ⟨n / 2, by omega⟩
    have e : 2 * m / 2 = m := by omega
    rw [e] at hL
    rw [e]
    have h2 : ∑ j ∈ Finset.range (2 * m + 1), (2 * m).choose j =
        ∑ j ∈ Finset.range (m + 1), (2 * m).choose j + ∑ j ∈ Finset.range m, (2 * m).choose (m + 1 + j) := by
      rw [show 2 * m + 1 = (m + 1) + m by omega, Finset.sum_range_add]
    have h3 : ∑ j ∈ Finset.range m, (2 * m).choose (m + 1 + j) = ∑ j ∈ Finset.range m, (2 * m).choose j := by
      rw [← Finset.sum_range_reflect]
      refine Finset.sum_congr rfl fun j hj => ?_
      simp at hj
      rw [← Nat.choose_symm (by omega)]
      congr 1
      omega
    have h4 := Finset.sum_range_succ (fun j => (2 * m).choose j) m
    rw [hsplit] at h2
    rw [h3] at h2
    omega
  · rw [if_neg (by omega)]
    obtain ⟨m, rfl⟩ : ∃ m, n = 2 * m + 1 := ⟨n / 2, by omega⟩
    have e : (2 * m + 1) / 2 = m := by omega
    rw [e] at hL
    rw [e]
    have h2 : ∑ j ∈ Finset.range (2 * m + 1 + 1), (2 * m + 1).choose j =
        ∑ j ∈ Finset.range (m + 1), (2 * m + 1).choose j + ∑ j ∈ Finset.range (m + 1), (2 * m + 1).choose (m + 1 + j) := by
      rw [show 2 * m + 1 + 1 = (m + 1) + (m + 1) by omega, Finset.sum_range_add]
    have h3 : ∑ j ∈ Finset.range (m + 1), (2 * m + 1).choose (m + 1 + j) = ∑ j ∈ Finset.range (m + 1), (2 * m + 1).choose j := by
      rw [← Finset.sum_range_reflect]
      refine Finset.sum_congr rfl fun j hj => ?_
      simp at hj
      rw [← Nat.choose_symm (by omega)]
      congr 1
      omega
    rw [hsplit, h3] at h2
    omega

/-- For windows up to 63 the row is that of Pascal's triangle, the denominator is its sum, and no
intermediate result exceeds 64 bits. -/
theorem pascalRow_eq {w : ℕ} (h1 : 1 ≤ w) (h2 : w ≤ 63) :
    pascalRow w = some ((List.range w).map fun j => (w - 1).choose j, 2 ^ (w - 1)) := by
  obtain ⟨n, rfl⟩ : ∃ n, w = n + 1 := ⟨w - 1, by omega⟩
  simp only [pascalRow, Nat.add_sub_cancel, pascalFold (show n ≤ 62 by omega) (le_refl _), Option.bind_eq_bind,
    Option.bind_some]
  have hrow : (pascalInv n (n / 2)).1 = (List.range (n + 1)).map fun j => n.choose j := by
    simp only [pascalInv]
    apply List.map_congr_left
    intro j hj
    by_cases hc : j ≤ n / 2 ∨ n - n / 2 ≤ j
    · rw [if_pos hc]
    · omega
  have hden : (pascalInv n (n / 2)).2 = 2 ^ n + if n % 2 = 0 then n.choose (n / 2) else 0 := choose_half_sum n
  have hget : ((pascalInv n (n / 2)).1).getD (n / 2) 0 = n.choose (n / 2) := by
    rw [hrow, List.getD_eq_getElem?_getD, List.getElem?_map, List.getElem?_range (by omega)]
    simp
  rcases Nat.mod_two_eq_zero_or_one n with h | h
  · rw [if_pos (by omega), hget, hden, if_pos h, usub_of_le (Nat.le_add_left _ _), hrow]
    simp
  · rw [if_neg (by omega), hrow, hden, if_neg (by omega)]
    simp

theorem pascalFold_some {n : ℕ} (m : ℕ) (hm : m ≤ n / 2) :
    ∀ st, (List.range' 1 m).foldlM (pascalStep n) (List.replicate (n + 1) 1, 2) = some st → st = pascalInv n m := by
  induction m with
  | zero =>
    intro st h
    have h0 := pascalInv_zero n
    simp only [List.range'_zero, List.foldlM_nil] at h
    cases h
    exact h0
  | succ m ih =>
    intro st h
    rw [List.range'_1_concat, List.foldlM_append] at h
    simp only [Option.bind_eq_bind, List.foldlM_cons, List.foldlM_nil, Option.bind_eq_some_iff] at h
    obtain ⟨s, hs, s', hs', h⟩ := h
    rw [ih (by omega) s hs, Nat.add_comm 1 m, pascalStep_eq n m hm] at hs'
    simp only [Option.bind_eq_some_iff] at hs'
    obtain ⟨_, _, _, _, _, _, e⟩ := hs'
    cases e
    cases h
    rfl

/-- From window 64 on the computation of the row exceeds 64 bits. -/
theorem pascalRow_overflow {w : ℕ} (h : 64 ≤ w) : pascalRow w = none := by
  obtain ⟨n, rfl⟩ : ∃ n, w = n + 1 := ⟨w - 1, by omega⟩
  have hfold : (List.range' 1 (n / 2)).foldlM (pascalStep n) (List.replicate (n + 1) 1, 2) = none := by
    have e : List.range' 1 (n / 2) = List.range' 1 30 ++ (31 :: List.range' 32 (n / 2 - 31)) := by
      have e1 : List.range' 1 (n / 2) = List.range' 1 (30 + ((n / 2 - 31) + 1)) := by congr 1; omega
      rw [e1, ← List.range'_append]
      rfl
    rw [e, List.foldlM_append]
    cases h30 : (List.range' 1 30).foldlM (pascalStep n) (List.replicate (n + 1) 1, 2) with
    | none => rfl
    | some st =>
      rw [pascalFold_some 30 (by omega) st h30]
      simp only [Option.bind_eq_bind, Option.bind_some, List.foldlM_cons]
      rw [pascalStep_eq n 30 (by omega)]
      have hb : ¬ n.choose 30 * (n - 30) < 2 ^ 64 := by
        have h1 : (63 : ℕ).choose 30 ≤ n.choose 30 := Nat.choose_le_choose 30 (by omega)
        have h2 : (63 : ℕ).choose 30 = 860778005594247069 := by decide +kernel
        have h3 : 860778005594247069 * 33 ≤ n.choose 30 * (n - 30) := Nat.mul_le_mul (by omega) (by omega)
        omega
      rw [umul, if_neg hb]
      rfl
  simp only [pascalRow, Nat.add_sub_cancel, hfold]
  rfl

end Traquer.Smooth
