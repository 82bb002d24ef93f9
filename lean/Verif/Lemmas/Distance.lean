import Verif.Spec.Distance
import Mathlib.Algebra.Order.BigOperators.Ring.Finset
import Mathlib.Algebra.BigOperators.Intervals
import Mathlib.Tactic.Linarith
import Mathlib.Tactic.FieldSimp
import Mathlib.Data.List.Sort
/-!
# Distance covariance is positive semidefinite

On a finite set of reals `|x - y| = Σ_k g_k |f_k x - f_k y|` with non-negative gaps `g_k` and `0/1` valued `f_k`. Centring
turns `|f_k x_i - f_k x_j|` into `-2 c_k(i) c_k(j)` with `c_k` the centred `f_k`, so the sum of the products of two centred
distance matrices is a sum of squares.
-/

namespace Traquer
open Finset

/-- Weights and indicator functions that add up to the distance on the values of `l`. -/
structure Cuts (l : List ℝ) where
  n : ℕ
  gap : ℕ → ℝ
  ind : ℕ → ℝ → ℝ
  gap_nonneg : ∀ k, 0 ≤ gap k
  ind01 : ∀ k x, ind k x = 0 ∨ ind k x = 1
  dist_eq : ∀ x ∈ l, ∀ y ∈ l, |x - y| = ∑ k ∈ range n, gap k * |ind k x - ind k y|

theorem cuts_sorted (l : List ℝ) (h : l.Pairwise (· ≤ ·)) :
    ∃ c : Cuts l, ∀ k x, (∀ y ∈ l, x ≤ y) → c.ind k x = 0 := by
  induction l with
  | nil => exact ⟨⟨0, fun _ => 0, fun _ _ => 0, fun _ => le_rfl, fun _ _ => .inl rfl, by simp⟩, fun _ _ _ => rfl⟩
  | cons a l ih =>
    rw [List.pairwise_cons] at h
    obtain ⟨c, hc⟩ := ih h.2
    cases l with
    | nil =>
      refine ⟨⟨0, fun _ => 0, fun _ _ => 0, fun _ => le_rfl, fun _ _ => .inl rfl, ?_⟩, fun _ _ _ => rfl⟩
      intro x hx y hy
      simp only [List.mem_singleton] at hx hy
      simp [hx, hy]
    | cons b l =>
      have hab := h.1 b (by simp)
      have hb : ∀ y ∈ b :: l, b ≤ y := fun y hy => by
        rcases List.mem_cons.1 hy with rfl | hy
        · exact le_rfl
        · exact (List.pairwise_cons.1 h.2).1 y hy
      classical
      have key : ∀ y ∈ b :: l, |a - y| = ∑ k ∈ range (c.n + 1),
          (if k < c.n then c.gap k else b - a) * |(if k < c.n then c.ind k a else if a < a then 1 else 0) -
            (if k < c.n then c.ind k y else if a < y then 1 else 0)| := fun y hy => by
        rw [sum_range_succ]
        simp only [lt_irrefl, if_false]
        rw [sum_congr rfl fun k hk => by rw [if_pos (mem_range.1 hk), if_pos (mem_range.1 hk), if_pos (mem_range.1 hk)]]
        have e1 := c.dist_eq b (by simp) y hy
        have e2 : ∑ k ∈ range c.n, c.gap k * |c.ind k a - c.ind k y| = ∑ k ∈ range c.n, c.gap k * |c.ind k b - c.ind k y| :=
          sum_congr rfl fun k _ => by rw [hc k a fun y hy => h.1 y hy, hc k b hb]
        rw [e2, ← e1]
        have hy1 := hb y hy
        rw [abs_of_nonpos (by linarith), abs_of_nonpos (by linarith)]
        by_cases hlt : a < y
        · rw [if_pos hlt]; norm_num
        · rw [if_neg hlt]; have : y = a := le_antisymm (not_lt.1 hlt) (hab.trans hy1)
          have : b = a := le_antisymm (by linarith) hab
          norm_num; linarith
      refine ⟨⟨c.n + 1, fun k => if k < c.n then c.gap k else b - a,
        fun k x => if k < c.n then c.ind k x else if a < x then 1 else 0, ?_, ?_, ?_⟩, ?_⟩
      · intro k; split
        · exact c.gap_nonneg k
        · linarith
      · intro k x; split
        · exact c.ind01 k x
        · split <;> simp
      · intro x hx y hy
        rcases List.mem_cons.1 hx with e | hx
        · subst e
          rcases List.mem_cons.1 hy with e | hy
          · subst e; simp
          · exact key y hy
        · rcases List.mem_cons.1 hy with e | hy
          · subst e
            rw [abs_sub_comm, key x (by assumption)]
            exact sum_congr rfl fun k _ => by rw [abs_sub_comm (_ : ℝ)]
          · rw [sum_range_succ]
            rw [if_neg (lt_irrefl _), if_neg (lt_irrefl _), if_neg (lt_irrefl _), c.dist_eq x hx y hy]
            have e0 : ∀ k ∈ range c.n, (if k < c.n then c.gap k else b - a) *
                |(if k < c.n then c.ind k x else if a < x then 1 else 0) - if k < c.n then c.ind k y else if a < y then 1 else 0| =
                c.gap k * |c.ind k x - c.ind k y| := fun k hk => by
              rw [if_pos (mem_range.1 hk), if_pos (mem_range.1 hk), if_pos (mem_range.1 hk)]
            rw [sum_congr rfl e0]
            have hx1 := hb x hx
            have hy1 := hb y hy
            rcases eq_or_lt_of_le hab with e | e
            · rw [e]; simp
            · rw [if_pos (by linarith), if_pos (by linarith)]; simp
      · intro k x hx
        dsimp only
        split
        · exact hc k x fun y hy => hx y (List.mem_cons_of_mem _ hy)
        · rw [if_neg (not_lt.2 (hx a (by simp)))]

theorem exists_cuts (l : List ℝ) : Nonempty (Cuts l) := by
  obtain ⟨c, -⟩ := cuts_sorted (l.mergeSort (· ≤ ·)) (by
    have := List.pairwise_mergeSort (le := fun a b : ℝ => decide (a ≤ b)) (by simpa using fun a b c => le_trans) (by simpa using le_total) l
    simpa using this)
  exact ⟨⟨c.n, c.gap, c.ind, c.gap_nonneg, c.ind01, fun x hx y hy => c.dist_eq x (by simpa using hx) y (by simpa using hy)⟩⟩

/-- The indicator of a cut at the `i`-th value, minus its mean. -/
noncomputable def Cuts.dev {l : List ℝ} (c : Cuts l) (k i : ℕ) : ℝ :=
  c.ind k (l.getD i 0) - (∑ a ∈ range l.length, c.ind k (l.getD a 0)) / l.length

theorem getD_lt {l : List ℝ} {i : ℕ} (h : i < l.length) : l.getD i 0 = l[i] := by
  rw [List.getD_eq_getElem?_getD, List.getElem?_eq_getElem h]; rfl

theorem getD_mem {l : List ℝ} {i : ℕ} (h : i < l.length) : l.getD i 0 ∈ l := by
  rw [getD_lt h]; exact List.getElem_mem h

theorem abs_ind {a b : ℝ} (ha : a = 0 ∨ a = 1) (hb : b = 0 ∨ b = 1) : |a - b| = a + b - 2 * a * b := by
  rcases ha with rfl | rfl <;> rcases hb with rfl | rfl <;> norm_num

theorem Cuts.centred {l : List ℝ} (c : Cuts l) {i j : ℕ} (hi : i < l.length) (hj : j < l.length) :
    centredDist l i j = -2 * ∑ k ∈ range c.n, c.gap k * (c.dev k i * c.dev k j) := by
  have hn : (l.length : ℝ) ≠ 0 := by
    have : 0 < l.length := by omega
    positivity
  set n := l.length with hn'
  set e : ℕ → ℕ → ℝ := fun k a => c.ind k (l.getD a 0) with he
  set S : ℕ → ℝ := fun k => ∑ a ∈ range n, e k a with hS
  have hd : ∀ a b, a < n → b < n → distOf l a b = ∑ k ∈ range c.n, c.gap k * (e k a + e k b - 2 * e k a * e k b) := fun a b ha hb => by
    rw [distOf, c.dist_eq _ (getD_mem ha) _ (getD_mem hb)]
    exact sum_congr rfl fun k _ => by rw [abs_ind (c.ind01 k _) (c.ind01 k _)]
  have hrow : ∀ a, a < n → ∑ b ∈ range n, distOf l a b = ∑ k ∈ range c.n, c.gap k * (n * e k a + S k - 2 * e k a * S k) := fun a ha => by
    rw [sum_congr rfl fun b hb => hd a b ha (mem_range.1 hb), sum_comm]
    refine sum_congr rfl fun k _ => ?_
    rw [← mul_sum, sum_sub_distrib, sum_add_distrib, ← mul_sum, sum_const, card_range, nsmul_eq_mul]
  have hcol : ∀ b, b < n → ∑ a ∈ range n, distOf l a b = ∑ k ∈ range c.n, c.gap k * (n * e k b + S k - 2 * e k b * S k) := fun b hb => by
    rw [← hrow b hb]
    exact sum_congr rfl fun a _ => by rw [distOf, distOf, abs_sub_comm]
  have htot : ∑ a ∈ range n, ∑ b ∈ range n, distOf l a b = ∑ k ∈ range c.n, c.gap k * (2 * n * S k - 2 * S k * S k) := by
    rw [sum_congr rfl fun a ha => hrow a (mem_range.1 ha), sum_comm]
    refine sum_congr rfl fun k _ => ?_
    rw [← mul_sum, sum_sub_distrib, sum_add_distrib, ← mul_sum, sum_const, card_range, nsmul_eq_mul, ← sum_mul, ← mul_sum]
    simp only [hS]
    ring
  rw [centredDist, ← hn', hd i j hi hj, hrow i hi, hcol j hj, htot, sum_div, sum_div, sum_div, ← sum_sub_distrib, ← sum_sub_distrib,
    ← sum_add_distrib, mul_sum]
  refine sum_congr rfl fun k _ => ?_
  simp only [Cuts.dev, ← hn', he, hS]
  field_simp
  ring

/-- The sum of the products of two centred distance matrices is a sum of squares. -/
theorem distCov2_nonneg {xs ys : List ℝ} (h : ys.length = xs.length) : 0 ≤ distCov2 xs ys := by
  obtain ⟨c⟩ := exists_cuts xs
  obtain ⟨d⟩ := exists_cuts ys
  refine div_nonneg ?_ (by positivity)
  have e : ∑ i ∈ range xs.length, ∑ j ∈ range xs.length, centredDist xs i j * centredDist ys i j =
      4 * ∑ k ∈ range c.n, ∑ m ∈ range d.n, c.gap k * d.gap m * (∑ i ∈ range xs.length, c.dev k i * d.dev m i) ^ 2 := by
    rw [sum_congr rfl fun i hi => sum_congr rfl fun j hj => by
      rw [c.centred (mem_range.1 hi) (mem_range.1 hj), d.centred (h ▸ mem_range.1 hi) (h ▸ mem_range.1 hj)]]
    have e4 : ∀ i j, (-2 * ∑ k ∈ range c.n, c.gap k * (c.dev k i * c.dev k j)) * (-2 * ∑ m ∈ range d.n, d.gap m * (d.dev m i * d.dev m j)) =
        4 * ∑ k ∈ range c.n, ∑ m ∈ range d.n, c.gap k * d.gap m * ((c.dev k i * d.dev m i) * (c.dev k j * d.dev m j)) := fun i j => by
      rw [mul_mul_mul_comm, sum_mul_sum]
      norm_num
      exact sum_congr rfl fun k _ => sum_congr rfl fun m _ => by ring
    simp only [e4, ← mul_sum]
    congr 1
    rw [sum_congr rfl fun i _ => sum_comm, sum_comm]
    refine sum_congr rfl fun k _ => ?_
    rw [sum_congr rfl fun i _ => sum_comm, sum_comm]
    refine sum_congr rfl fun m _ => ?_
    rw [pow_two, sum_mul_sum]
    simp only [mul_sum]
  rw [e]
  exact mul_nonneg (by norm_num) (sum_nonneg fun k _ => sum_nonneg fun m _ => mul_nonneg (mul_nonneg (c.gap_nonneg k) (d.gap_nonneg m)) (sq_nonneg _))

theorem distCov2_symm {xs ys : List ℝ} (h : ys.length = xs.length) : distCov2 xs ys = distCov2 ys xs := by
  rw [distCov2, distCov2, h]
  congr 1
  exact sum_congr rfl fun i _ => sum_congr rfl fun j _ => mul_comm _ _

/-- Cauchy–Schwarz for distance covariance. -/
theorem distCov2_le {xs ys : List ℝ} (h : ys.length = xs.length) : distCov2 xs ys ^ 2 ≤ distCov2 xs xs * distCov2 ys ys := by
  simp only [distCov2, h, ← sum_product']
  rw [div_pow, div_mul_div_comm, ← pow_two]
  refine div_le_div_of_nonneg_right ?_ (by positivity)
  have := sum_mul_sq_le_sq_mul_sq (range xs.length ×ˢ range xs.length) (fun p => centredDist xs p.1 p.2) (fun p => centredDist ys p.1 p.2)
  simpa only [pow_two] using this

theorem distCov2_self_eq_zero {xs : List ℝ} : distCov2 xs xs = 0 ↔ Flat xs := by
  obtain ⟨c⟩ := exists_cuts xs
  rcases Nat.eq_zero_or_pos xs.length with h0 | h0
  · rw [List.length_eq_zero_iff] at h0
    subst h0
    simp [distCov2, Flat]
  have hn : (xs.length : ℝ) ≠ 0 := by positivity
  constructor
  · intro h
    rw [distCov2, div_eq_zero_iff, or_iff_left (pow_ne_zero _ hn)] at h
    have hz : ∀ i < xs.length, ∀ j < xs.length, centredDist xs i j = 0 := fun i hi j hj => by
      have h1 := (sum_eq_zero_iff_of_nonneg fun i _ => sum_nonneg fun j _ => mul_self_nonneg (centredDist xs i j)).1 h i (mem_range.2 hi)
      have h2 := (sum_eq_zero_iff_of_nonneg fun j _ => mul_self_nonneg (centredDist xs i j)).1 h1 j (mem_range.2 hj)
      exact mul_self_eq_zero.1 h2
    have hdev : ∀ i < xs.length, ∀ k < c.n, c.gap k = 0 ∨ c.dev k i = 0 := fun i hi k hk => by
      have h1 := hz i hi i hi
      rw [c.centred hi hi, mul_eq_zero, or_iff_right (by norm_num)] at h1
      have h2 := (sum_eq_zero_iff_of_nonneg fun k _ => mul_nonneg (c.gap_nonneg k) (mul_self_nonneg (c.dev k i))).1 h1 k (mem_range.2 hk)
      rcases mul_eq_zero.1 h2 with h2 | h2
      · exact .inl h2
      · exact .inr (mul_self_eq_zero.1 h2)
    intro x hx y hy
    obtain ⟨i, hi, rfl⟩ := List.getElem_of_mem hx
    obtain ⟨j, hj, rfl⟩ := List.getElem_of_mem hy
    rw [← sub_eq_zero, ← abs_eq_zero, c.dist_eq _ hx _ hy]
    refine sum_eq_zero fun k hk => ?_
    rcases hdev i hi k (mem_range.1 hk) with h1 | h1
    · rw [h1, zero_mul]
    · rcases hdev j hj k (mem_range.1 hk) with h2 | h2
      · rw [h2, zero_mul]
      · simp only [Cuts.dev, getD_lt hi, getD_lt hj] at h1 h2
        rw [show c.ind k xs[i] = c.ind k xs[j] by linarith]
        simp
  · intro h
    have hd : ∀ i < xs.length, ∀ j < xs.length, distOf xs i j = 0 := fun i hi j hj => by
      rw [distOf, h _ (getD_mem hi) _ (getD_mem hj)]; simp
    rw [distCov2, sum_eq_zero, zero_div]
    intro i hi
    refine sum_eq_zero fun j hj => ?_
    rw [centredDist, hd i (mem_range.1 hi) j (mem_range.1 hj), sum_eq_zero fun b hb => hd i (mem_range.1 hi) b (mem_range.1 hb),
      sum_eq_zero fun a ha => hd a (mem_range.1 ha) j (mem_range.1 hj),
      sum_eq_zero fun a ha => sum_eq_zero fun b hb => hd a (mem_range.1 ha) b (mem_range.1 hb)]
    simp

theorem distCov2_flat {xs ys : List ℝ} (h : ys.length = xs.length) (hf : Flat xs ∨ Flat ys) : distCov2 xs ys = 0 := by
  have := distCov2_le h
  rcases hf with hf | hf
  · rw [distCov2_self_eq_zero.2 hf, zero_mul] at this
    exact pow_eq_zero_iff (two_ne_zero) |>.1 (le_antisymm this (sq_nonneg _))
  · rw [distCov2_self_eq_zero.2 hf, mul_zero] at this
    exact pow_eq_zero_iff (two_ne_zero) |>.1 (le_antisymm this (sq_nonneg _))

theorem distCov2_pos {xs : List ℝ} (h : ¬ Flat xs) : 0 < distCov2 xs xs :=
  lt_of_le_of_ne (distCov2_nonneg rfl) fun e => h (distCov2_self_eq_zero.1 e.symm)

theorem distCor_range {xs ys : List ℝ} (h : ys.length = xs.length) : 0 ≤ distCor xs ys ∧ distCor xs ys ≤ 1 := by
  refine ⟨div_nonneg (Real.sqrt_nonneg _) (Real.sqrt_nonneg _), div_le_one_of_le₀ ?_ (Real.sqrt_nonneg _)⟩
  refine Real.sqrt_le_sqrt ?_
  rw [← Real.sqrt_mul (distCov2_nonneg rfl)]
  exact Real.le_sqrt_of_sq_le (distCov2_le h)

theorem centredDist_affine (xs : List ℝ) (c d : ℝ) {i j : ℕ} (hi : i < xs.length) (hj : j < xs.length) :
    centredDist (xs.map fun x => c * x + d) i j = |c| * centredDist xs i j := by
  have hd : ∀ a b, a < xs.length → b < xs.length → distOf (xs.map fun x => c * x + d) a b = |c| * distOf xs a b := fun a b ha hb => by
    simp only [distOf, List.getD_eq_getElem?_getD, List.getElem?_map, List.getElem?_eq_getElem ha, List.getElem?_eq_getElem hb, Option.map_some,
      Option.getD_some]
    rw [← abs_mul]; congr 1; ring
  simp only [centredDist, List.length_map]
  rw [hd i j hi hj, sum_congr rfl fun b hb => hd i b hi (mem_range.1 hb), sum_congr rfl fun a ha => hd a j (mem_range.1 ha) hj,
    sum_congr rfl fun a ha => sum_congr rfl fun b hb => hd a b (mem_range.1 ha) (mem_range.1 hb)]
  simp only [← mul_sum]
  ring

theorem distCor_affine {xs : List ℝ} (h : ¬ Flat xs) {c : ℝ} (hc : c ≠ 0) (d : ℝ) : distCor xs (xs.map fun x => c * x + d) = 1 := by
  have e1 : distCov2 xs (xs.map fun x => c * x + d) = |c| * distCov2 xs xs := by
    rw [distCov2, distCov2, ← mul_div_assoc, mul_sum]
    congr 1
    refine sum_congr rfl fun i hi => ?_
    rw [mul_sum]
    exact sum_congr rfl fun j hj => by rw [centredDist_affine xs c d (mem_range.1 hi) (mem_range.1 hj)]; ring
  have e2 : distCov2 (xs.map fun x => c * x + d) (xs.map fun x => c * x + d) = |c| ^ 2 * distCov2 xs xs := by
    rw [distCov2, distCov2, ← mul_div_assoc, mul_sum, List.length_map]
    congr 1
    refine sum_congr rfl fun i hi => ?_
    rw [mul_sum]
    exact sum_congr rfl fun j hj => by rw [centredDist_affine xs c d (mem_range.1 hi) (mem_range.1 hj)]; ring
  have hp := distCov2_pos h
  have hc' := abs_pos.2 hc
  have e3 : Real.sqrt (distCov2 xs xs) * Real.sqrt (|c| ^ 2 * distCov2 xs xs) = |c| * distCov2 xs xs := by
    rw [Real.sqrt_mul (by positivity) (distCov2 xs xs), Real.sqrt_sq hc'.le, mul_left_comm, Real.mul_self_sqrt hp.le]
  rw [distCor, e1, e2, e3, div_self]
  positivity

end Traquer
