import Verif.Props.Bounds
import Verif.Props.Order
/-!
# The largest statistic of a window means one odd value out (C103)
-/

namespace Traquer
open FP

/-- All values but one are equal, and that one differs. -/
def OneOdd (l : List ℝ) : Prop := ∃ o c : ℝ, o ≠ c ∧ l.Perm (o :: List.replicate (l.length - 1) c)

theorem OneOdd.shift {l : List ℝ} {m : ℝ} (h : OneOdd (l.map fun x => x - m)) : OneOdd l := by
  obtain ⟨o, c, hne, hp⟩ := h
  refine ⟨o + m, c + m, fun e => hne (by linarith), ?_⟩
  have := hp.map fun x => x + m
  simpa [List.map_map, Function.comp_def] using this

theorem sums_shift (A : ℝ) (ys : List ℝ) :
    (ys.map fun y => y + A).sum = ys.sum + ys.length * A ∧
    (ys.map fun y => y ^ 2).sum = (ys.map fun y => (y + A) ^ 2).sum - 2 * A * (ys.map fun y => y + A).sum + ys.length * A ^ 2 ∧
    (ys.map fun y => y ^ 4).sum = (ys.map fun y => (y + A) ^ 4 - 4 * A * (y + A) ^ 3).sum + 6 * A ^ 2 * (ys.map fun y => (y + A) ^ 2).sum -
      4 * A ^ 3 * (ys.map fun y => y + A).sum + ys.length * A ^ 4 := by
  induction ys with
  | nil => simp
  | cons y ys ih =>
    obtain ⟨h1, h2, h3⟩ := ih
    simp only [List.map_cons, List.sum_cons, List.length_cons, h2, h3]
    rw [h1]
    push_cast
    refine ⟨by ring, by ring, by ring⟩

theorem sq_sum_nonneg (f : ℝ → ℝ) (ys : List ℝ) : 0 ≤ (ys.map fun y => f y ^ 2).sum :=
  List.sum_nonneg fun x hx => by obtain ⟨y, -, rfl⟩ := List.mem_map.1 hx; positivity

theorem le_sq_sum (f : ℝ → ℝ) {ys : List ℝ} {y : ℝ} (h : y ∈ ys) : f y ^ 2 ≤ (ys.map fun y => f y ^ 2).sum := by
  induction ys with
  | nil => simp at h
  | cons a ys ih =>
    simp only [List.map_cons, List.sum_cons]
    rcases List.mem_cons.1 h with rfl | h
    · linarith [sq_sum_nonneg f ys]
    · linarith [ih h, sq_nonneg (f a)]

theorem eq_replicate_of_sq {ys : List ℝ} {A : ℝ} (h : (ys.map fun y => (y + A) ^ 2).sum = 0) : ys = List.replicate ys.length (-A) := by
  refine List.eq_replicate_iff.2 ⟨rfl, fun y hy => ?_⟩
  have := le_sq_sum (fun y => y + A) hy
  rw [h] at this
  nlinarith [pow_eq_zero_iff (two_ne_zero) |>.1 (le_antisymm this (sq_nonneg (y + A)))]

/-- A longest deviation can be moved to the front. -/
theorem exists_longest {d : List ℝ} (h : d ≠ []) : ∃ a ys, d.Perm (a :: ys) ∧ ∀ y ∈ ys, y ^ 2 ≤ a ^ 2 := by
  induction d with
  | nil => exact absurd rfl h
  | cons x d ih =>
    by_cases hd : d = []
    · subst hd; exact ⟨x, [], List.Perm.refl _, by simp⟩
    · obtain ⟨a, ys, hp, hy⟩ := ih hd
      rcases le_total (x ^ 2) (a ^ 2) with hx | hx
      · exact ⟨a, x :: ys, (hp.cons x).trans (List.Perm.swap _ _ _), fun y hm => by
          rcases List.mem_cons.1 hm with rfl | hm
          · exact hx
          · exact hy _ hm⟩
      · exact ⟨x, a :: ys, hp.cons x, fun y hm => by
          rcases List.mem_cons.1 hm with rfl | hm
          · exact hx
          · exact (hy _ hm).trans hx⟩

/-- The second and fourth powers of a list with sum 0, split off its longest entry `m A`. -/
theorem longest_split {m A : ℝ} {ys : List ℝ} (hm : (ys.length : ℝ) = m) (h0 : (m * A :: ys).sum = 0) :
    ((m * A :: ys).map fun x => x ^ 2).sum = (m ^ 2 + m) * A ^ 2 + (ys.map fun y => (y + A) ^ 2).sum ∧
    ((m * A :: ys).map fun x => x ^ 4).sum = (m ^ 4 + m) * A ^ 4 + 6 * A ^ 2 * (ys.map fun y => (y + A) ^ 2).sum +
      (ys.map fun y => (y + A) ^ 4 - 4 * A * (y + A) ^ 3).sum := by
  obtain ⟨h1, h2, h4⟩ := sums_shift A ys
  simp only [List.sum_cons] at h0
  have hz : (ys.map fun y => y + A).sum = 0 := by rw [h1, hm]; linarith
  simp only [List.map_cons, List.sum_cons]
  rw [h2, h4, hz, hm]
  constructor <;> ring

theorem fourth_terms_le {m A Q : ℝ} (hm : 4 ≤ m) {ys : List ℝ} (h : ∀ y ∈ ys, y ^ 2 ≤ (m * A) ^ 2 ∧ (y + A) ^ 2 ≤ Q) :
    (ys.map fun y => (y + A) ^ 4 - 4 * A * (y + A) ^ 3).sum ≤ (A ^ 2 * (2 * m ^ 2 - 2 * m - 4) + Q / 2) * (ys.map fun y => (y + A) ^ 2).sum := by
  induction ys with
  | nil => simp
  | cons y ys ih =>
    have hi := ih fun y hy => h y (List.mem_cons_of_mem _ hy)
    obtain ⟨hy, hq⟩ := h y List.mem_cons_self
    simp only [List.map_cons, List.sum_cons]
    have e : (y + A) ^ 4 - 4 * A * (y + A) ^ 3 = ((y + A) ^ 2 - 4 * A * (y + A)) * (y + A) ^ 2 := by ring
    have hAy : -(A * y) ≤ m * A ^ 2 := by
      have : (A * y) ^ 2 ≤ (m * A ^ 2) ^ 2 := by nlinarith [mul_le_mul_of_nonneg_left hy (sq_nonneg A)]
      have := abs_le_of_sq_le_sq this (by positivity)
      linarith [neg_abs_le (A * y)]
    have hb : (y + A) ^ 2 - 4 * A * (y + A) ≤ A ^ 2 * (2 * m ^ 2 - 2 * m - 4) + Q / 2 := by
      have hs : 0 ≤ A ^ 2 * (3 / 2 * m ^ 2 - 5 * m - 1 / 2) := mul_nonneg (sq_nonneg A) (by nlinarith)
      nlinarith
    have := mul_le_mul_of_nonneg_right hb (sq_nonneg (y + A))
    rw [e]
    linarith

theorem fourth_four (x y z : ℝ) : 12 * (x ^ 4 + y ^ 4 + z ^ 4 + (x + y + z) ^ 4) +
    2 * (((x + (x + y + z)) * (y - z)) ^ 2 + ((x - z) * (y + (x + y + z))) ^ 2 + ((x - y) * (z + (x + y + z))) ^ 2) =
      7 * (x ^ 2 + y ^ 2 + z ^ 2 + (x + y + z) ^ 2) ^ 2 := by ring

/-- `n (n - 1) Σ d⁴ ≤ (n² - 3n + 3) (Σ d²)²` for numbers with sum 0, with equality for one odd number out only. -/
theorem centred_fourth {d : List ℝ} (hn : 4 ≤ d.length) (h0 : d.sum = 0) :
    (d.length : ℝ) * ((d.length : ℝ) - 1) * (d.map fun x => x ^ 4).sum ≤ ((d.length : ℝ) ^ 2 - 3 * d.length + 3) * (d.map fun x => x ^ 2).sum ^ 2 ∧
    ((d.map fun x => x ^ 2).sum ≠ 0 →
      (d.length : ℝ) * ((d.length : ℝ) - 1) * (d.map fun x => x ^ 4).sum = ((d.length : ℝ) ^ 2 - 3 * d.length + 3) * (d.map fun x => x ^ 2).sum ^ 2 → OneOdd d) := by
  rcases hn.eq_or_lt with h4 | h5
  · match d, h4 with
    | [x, y, z, t], _ =>
      simp only [List.sum_cons, List.sum_nil, add_zero] at h0
      have ht : x + y + z = -t := by linarith
      have key := fourth_four x y z
      have e4 : (-t) ^ 4 = t ^ 4 := by ring
      have e2 : (-t) ^ 2 = t ^ 2 := by ring
      simp only [ht, e4, e2] at key
      simp only [List.map_cons, List.map_nil, List.sum_cons, List.sum_nil, List.length_cons, List.length_nil, add_zero]
      push_cast
      have p1 := sq_nonneg ((x + -t) * (y - z))
      have p2 := sq_nonneg ((x - z) * (y + -t))
      have p3 := sq_nonneg ((x - y) * (z + -t))
      constructor
      · linarith
      · intro hne he
        have z1 : (x + -t) * (y - z) = 0 := pow_eq_zero_iff two_ne_zero |>.1 (by linarith)
        have z2 : (x - z) * (y + -t) = 0 := pow_eq_zero_iff two_ne_zero |>.1 (by linarith)
        have z3 : (x - y) * (z + -t) = 0 := pow_eq_zero_iff two_ne_zero |>.1 (by linarith)
        have odd : ∀ o c : ℝ, [x, y, z, t].Perm [o, c, c, c] → OneOdd [x, y, z, t] := by
          intro o c hp
          refine ⟨o, c, fun e => hne ?_, hp⟩
          have hs := hp.sum_eq
          simp only [List.sum_cons, List.sum_nil, add_zero] at hs
          have hq := (hp.map fun x => x ^ 2).sum_eq
          simp only [List.map_cons, List.map_nil, List.sum_cons, List.sum_nil, add_zero] at hq
          have hc : c = 0 := by linarith
          rw [e, hc] at hq
          linarith
        have w1 : y = z ∧ z = t → OneOdd [x, y, z, t] := by rintro ⟨rfl, rfl⟩; exact odd _ _ (List.Perm.refl _)
        have w2 : x = z ∧ z = t → OneOdd [x, y, z, t] := by rintro ⟨rfl, rfl⟩; exact odd y x (List.Perm.swap _ _ _)
        have w3 : x = y ∧ y = t → OneOdd [x, y, z, t] := by
          rintro ⟨rfl, rfl⟩; exact odd z x (((List.Perm.swap _ _ _).cons x).trans (List.Perm.swap _ _ _))
        have w4 : x = y ∧ y = z → OneOdd [x, y, z, t] := by
          rintro ⟨rfl, rfl⟩; exact odd t x ((((List.Perm.swap _ _ _).cons x).cons x).trans (((List.Perm.swap _ _ _).cons x).trans (List.Perm.swap _ _ _)))
        rcases mul_eq_zero.1 z1 with a | a
        · rcases mul_eq_zero.1 z2 with b | b
          · exact w2 ⟨by linarith, by linarith⟩
          · exact w3 ⟨by linarith, by linarith⟩
        · rcases mul_eq_zero.1 z2 with b | b
          · exact w4 ⟨by linarith, by linarith⟩
          · exact w1 ⟨by linarith, by linarith⟩
    | [], h => simp at h
    | [_], h => simp at h
    | [_, _], h => simp at h
    | [_, _, _], h => simp at h
    | _ :: _ :: _ :: _ :: _ :: _, h => simp at h
  · obtain ⟨a, ys, hp, hy⟩ := exists_longest (d := d) (by rintro rfl; simp at h5)
    have hl : d.length = ys.length + 1 := by simpa using hp.length_eq
    have hs2 := (hp.map fun x => x ^ 2).sum_eq
    have hs4 := (hp.map fun x => x ^ 4).sum_eq
    rw [hp.sum_eq] at h0
    obtain ⟨m, hm⟩ : ∃ m : ℝ, (ys.length : ℝ) = m := ⟨_, rfl⟩
    have hm4 : 4 ≤ m := by rw [← hm]; exact_mod_cast (by omega : 4 ≤ ys.length)
    obtain ⟨A, rfl⟩ : ∃ A, a = m * A := ⟨a / m, by field_simp⟩
    obtain ⟨e2, e4⟩ := longest_split hm h0
    have hQ := sq_sum_nonneg (fun y => y + A) ys
    have hb := fourth_terms_le hm4 (A := A) (Q := (ys.map fun y => (y + A) ^ 2).sum) fun y h => ⟨hy y h, le_sq_sum (fun y => y + A) h⟩
    have hlen : (d.length : ℝ) = m + 1 := by rw [hl]; push_cast; rw [hm]
    rw [hs2, hs4, e2, e4, hlen]
    generalize hQe : (ys.map fun y => (y + A) ^ 2).sum = Q at *
    generalize (ys.map fun y => (y + A) ^ 4 - 4 * A * (y + A) ^ 3).sum = T at *
    have hT := mul_le_mul_of_nonneg_left hb (by positivity : 0 ≤ m * (m + 1))
    have hc : 0 < (m ^ 2 - 3 * m + 2) / 2 := by nlinarith
    have main : (m + 1) * (m + 1 - 1) * ((m ^ 4 + m) * A ^ 4 + 6 * A ^ 2 * Q + T) + (m ^ 2 - 3 * m + 2) / 2 * Q ^ 2 ≤
        ((m + 1) ^ 2 - 3 * (m + 1) + 3) * ((m ^ 2 + m) * A ^ 2 + Q) ^ 2 := by nlinarith
    refine ⟨by nlinarith [mul_nonneg hc.le (sq_nonneg Q)], fun hne he => ?_⟩
    have hQ0 : Q = 0 := by
      by_contra h
      have := mul_pos hc (lt_of_le_of_ne (sq_nonneg Q) (Ne.symm (pow_ne_zero 2 h)))
      linarith
    rw [hQ0, add_zero] at hne
    have hA : A ≠ 0 := fun h => hne (by rw [h]; ring)
    refine ⟨m * A, -A, fun e => ?_, ?_⟩
    · have : (m + 1) * A = 0 := by linarith
      rcases mul_eq_zero.1 this with h | h
      · linarith
      · exact hA h
    · rw [hl, Nat.add_sub_cancel]
      refine hp.trans ?_
      rw [← eq_replicate_of_sq (hQe.trans hQ0)]

theorem moments_odd {o c : ℝ} (m : ℕ) (k : ℕ) : ((m : ℝ) + 1) * moment k (o :: List.replicate m c) =
    ((o - c) * m / (m + 1)) ^ k + m * (-(o - c) / (m + 1)) ^ k := by
  have hm : (m : ℝ) + 1 ≠ 0 := by positivity
  have em : mean (o :: List.replicate m c) = c + (o - c) / (m + 1) := by
    simp only [mean, List.sum_cons, List.sum_replicate, List.length_cons, List.length_replicate, nsmul_eq_mul]
    push_cast
    field_simp
    ring
  have h := moment_sum (l := o :: List.replicate m c) (by simp) k
  rw [em] at h
  simp only [List.length_cons, List.length_replicate] at h
  push_cast at h
  rw [← h]
  simp only [List.map_cons, List.sum_cons, List.map_replicate, List.sum_replicate, nsmul_eq_mul]
  congr 2
  · field_simp; ring
  · field_simp; ring

theorem odd_length {l : List ℝ} (h : OneOdd l) : l ≠ [] := by
  obtain ⟨o, c, -, hp⟩ := h
  rintro rfl
  exact absurd hp.length_eq (by simp)

/-- The fourth moment against the second, sharp: `m₄ (n - 1) ≤ (n² - 3n + 3) m₂²`. -/
theorem moment_four_sharp {l : List ℝ} (hn : 4 ≤ l.length) : moment 4 l * (l.length - 1) ≤ ((l.length : ℝ) ^ 2 - 3 * l.length + 3) * moment 2 l ^ 2 := by
  have hl : l ≠ [] := by rintro rfl; simp at hn
  have hp : (0 : ℝ) < l.length := by exact_mod_cast List.length_pos_iff.2 hl
  have h := (centred_fourth (d := l.map fun x => x - mean l) (by simpa using hn) sum_deviations).1
  rw [moment_sum hl, moment_sum hl, List.length_map] at h
  have : (l.length : ℝ) ^ 2 * (moment 4 l * (l.length - 1)) ≤ (l.length : ℝ) ^ 2 * (((l.length : ℝ) ^ 2 - 3 * l.length + 3) * moment 2 l ^ 2) := by nlinarith
  exact le_of_mul_le_mul_left this (by positivity)

/-- ... with equality exactly for one odd value out. -/
theorem moment_four_odd {l : List ℝ} (hn : 4 ≤ l.length) (h2 : moment 2 l ≠ 0) :
    moment 4 l * (l.length - 1) = ((l.length : ℝ) ^ 2 - 3 * l.length + 3) * moment 2 l ^ 2 ↔ OneOdd l := by
  have hl : l ≠ [] := by rintro rfl; simp at hn
  have hp : (0 : ℝ) < l.length := by exact_mod_cast List.length_pos_iff.2 hl
  constructor
  · intro he
    have h := (centred_fourth (d := l.map fun x => x - mean l) (by simpa using hn) sum_deviations).2
    rw [moment_sum hl, moment_sum hl, List.length_map] at h
    refine (h (mul_ne_zero hp.ne' h2) ?_).shift
    linear_combination (l.length : ℝ) ^ 2 * he
  · rintro ⟨o, c, -, hperm⟩
    obtain ⟨m, hm⟩ : ∃ m, l.length = m + 1 := ⟨l.length - 1, by omega⟩
    rw [hm, Nat.add_sub_cancel] at hperm
    have e2 := moments_odd (o := o) (c := c) m 2
    have e4 := moments_odd (o := o) (c := c) m 4
    rw [← hperm.moment] at e2 e4
    have hq : (m : ℝ) + 1 ≠ 0 := by positivity
    rw [hm]
    push_cast
    have f2 : moment 2 l = (((o - c) * m / (m + 1)) ^ 2 + m * (-(o - c) / (m + 1)) ^ 2) / (m + 1) := by rw [← e2]; field_simp
    have f4 : moment 4 l = (((o - c) * m / (m + 1)) ^ 4 + m * (-(o - c) / (m + 1)) ^ 4) / (m + 1) := by rw [← e4]; field_simp
    rw [f2, f4]
    field_simp
    ring

theorem three_cubes (x y : ℝ) : 6 * (x ^ 3 + y ^ 3 - (x + y) ^ 3) ^ 2 + 2 * ((x - y) * (2 * x + y) * (x + 2 * y)) ^ 2 =
    (x ^ 2 + y ^ 2 + (x + y) ^ 2) ^ 3 := by ring

/-- The third moment reaches its bound exactly for one odd value out. -/
theorem moment_three_odd {l : List ℝ} (hn : 3 ≤ l.length) (h2 : moment 2 l ≠ 0) :
    moment 3 l ^ 2 * (l.length - 1) = ((l.length : ℝ) - 2) ^ 2 * moment 2 l ^ 3 ↔ OneOdd l := by
  have hl : l ≠ [] := by rintro rfl; simp at hn
  have hp : (0 : ℝ) < l.length := by exact_mod_cast List.length_pos_iff.2 hl
  constructor
  · intro he
    rcases hn.eq_or_lt with h3 | h4
    · have s0 := sum_deviations (l := l)
      have s2 := moment_sum hl 2
      have s3 := moment_sum hl 3
      refine OneOdd.shift (m := mean l) ?_
      have hdl : (l.map fun x => x - mean l).length = 3 := by simp [← h3]
      rw [← h3] at he s2 s3
      generalize l.map (fun x => x - mean l) = d at *
      match d, hdl with
      | [x, y, z], _ =>
        simp only [List.map_cons, List.map_nil, List.sum_cons, List.sum_nil, add_zero] at s0 s2 s3
        have hz : z = -(x + y) := by linarith
        have key := three_cubes x y
        rw [show x ^ 3 + y ^ 3 - (x + y) ^ 3 = x ^ 3 + (y ^ 3 + z ^ 3) by rw [hz]; ring,
          show x ^ 2 + y ^ 2 + (x + y) ^ 2 = x ^ 2 + (y ^ 2 + z ^ 2) by rw [hz]; ring, s2, s3] at key
        push_cast at he key
        have h0 : (x - y) * (2 * x + y) * (x + 2 * y) = 0 := pow_eq_zero_iff two_ne_zero |>.1 (by linear_combination (1 / 2) * key - 27 * he / 2 * 1)
        have odd : ∀ o c : ℝ, [x, y, z].Perm [o, c, c] → OneOdd [x, y, z] := by
          intro o c hperm
          refine ⟨o, c, fun e => h2 ?_, hperm⟩
          have hs := hperm.sum_eq
          simp only [List.sum_cons, List.sum_nil, add_zero] at hs
          have hq := (hperm.map fun x => x ^ 2).sum_eq
          simp only [List.map_cons, List.map_nil, List.sum_cons, List.sum_nil, add_zero] at hq
          have hc : c = 0 := by linarith
          rw [s2, e, hc] at hq
          push_cast at hq
          linarith
        rcases mul_eq_zero.1 h0 with h0 | h0
        · rcases mul_eq_zero.1 h0 with h0 | h0
          · obtain rfl : x = y := by linarith
            exact odd z x (((List.Perm.swap _ _ _).cons x).trans (List.Perm.swap _ _ _))
          · obtain rfl : z = x := by linarith
            exact odd y z (List.Perm.swap _ _ _)
        · obtain rfl : z = y := by linarith
          exact odd x z (List.Perm.refl _)
    · refine (moment_four_odd h4 h2).1 (le_antisymm (moment_four_sharp h4) ?_)
      have hP := sq_moment_three_le hl
      have hm : 0 < moment 2 l := lt_of_le_of_ne (moment_two_nonneg _) (Ne.symm h2)
      have h1 : (0 : ℝ) < l.length - 1 := by
        have : (4 : ℝ) ≤ l.length := by exact_mod_cast h4
        linarith
      have := mul_le_mul_of_nonneg_right hP h1.le
      rw [he] at this
      have e : moment 2 l * (((l.length : ℝ) ^ 2 - 3 * l.length + 3) * moment 2 l ^ 2) ≤ moment 2 l * (moment 4 l * (l.length - 1)) := by nlinarith
      exact le_of_mul_le_mul_left e hm
  · rintro ⟨o, c, -, hperm⟩
    obtain ⟨m, hm⟩ : ∃ m, l.length = m + 1 := ⟨l.length - 1, by omega⟩
    rw [hm, Nat.add_sub_cancel] at hperm
    have e2 := moments_odd (o := o) (c := c) m 2
    have e3 := moments_odd (o := o) (c := c) m 3
    rw [← hperm.moment] at e2 e3
    have hq : (m : ℝ) + 1 ≠ 0 := by positivity
    rw [hm]
    push_cast
    have f2 : moment 2 l = (((o - c) * m / (m + 1)) ^ 2 + m * (-(o - c) / (m + 1)) ^ 2) / (m + 1) := by rw [← e2]; field_simp
    have f3 : moment 3 l = (((o - c) * m / (m + 1)) ^ 3 + m * (-(o - c) / (m + 1)) ^ 3) / (m + 1) := by rw [← e3]; field_simp
    rw [f2, f3]
    field_simp
    ring

/-- All values are equally far from the mean exactly when the fourth moment is as small as it can be. -/
theorem moment_four_least {l : List ℝ} : moment 4 l = moment 2 l ^ 2 ↔ ∀ x ∈ l, (x - mean l) ^ 2 = moment 2 l := by
  rcases eq_or_ne l [] with rfl | hl
  · simp [moment, mean]
  have hp : (0 : ℝ) < l.length := by exact_mod_cast List.length_pos_iff.2 hl
  have key : ∀ (v : ℝ) (d : List ℝ), (d.map fun x => (x ^ 2 - v) ^ 2).sum = (d.map fun x => x ^ 4).sum - 2 * v * (d.map fun x => x ^ 2).sum + d.length * v ^ 2 := by
    intro v d
    induction d with
    | nil => simp
    | cons a d ih => simp only [List.map_cons, List.sum_cons, List.length_cons, ih]; push_cast; ring
  have h := key (moment 2 l) (l.map fun x => x - mean l)
  rw [moment_sum hl, moment_sum hl, List.length_map] at h
  have h' : ((l.map fun x => x - mean l).map fun x => (x ^ 2 - moment 2 l) ^ 2).sum = l.length * (moment 4 l - moment 2 l ^ 2) := by rw [h]; ring
  constructor
  · intro he x hx
    rw [he, sub_self, mul_zero] at h'
    have := le_sq_sum (fun x => x ^ 2 - moment 2 l) (List.mem_map_of_mem (f := fun x => x - mean l) hx)
    rw [h'] at this
    have := pow_eq_zero_iff two_ne_zero |>.1 (le_antisymm this (sq_nonneg _))
    linarith
  · intro hall
    have : ((l.map fun x => x - mean l).map fun x => (x ^ 2 - moment 2 l) ^ 2).sum = 0 := List.sum_eq_zero fun y hy => by
      obtain ⟨z, hz, rfl⟩ := List.mem_map.1 hy
      obtain ⟨x, hx, rfl⟩ := List.mem_map.1 hz
      rw [hall x hx, sub_self]; ring
    rw [h'] at this
    rcases mul_eq_zero.1 this with h | h
    · exact absurd h hp.ne'
    · linarith

/-- Samuelson's inequality is an equality exactly when the other values are equal. -/
theorem samuelson_eq {ys : List ℝ} {a : ℝ} (hy : ys ≠ []) :
    (a - mean (ys ++ [a])) ^ 2 = ((ys ++ [a]).length - 1) * moment 2 (ys ++ [a]) ↔ Flat ys := by
  have hl : ys ++ [a] ≠ [] := by simp
  obtain ⟨m, hm⟩ : ∃ m : ℝ, (ys.length : ℝ) = m := ⟨_, rfl⟩
  have hm0 : 0 < m := by rw [← hm]; exact_mod_cast List.length_pos_iff.2 hy
  have hm1 : m + 1 ≠ 0 := by positivity
  have s2 := moment_sum hl 2
  have s0 := sum_deviations (l := ys ++ [a])
  generalize mean (ys ++ [a]) = c at *
  generalize moment 2 (ys ++ [a]) = v at *
  simp only [List.length_append, List.length_cons, List.length_nil] at *
  push_cast at *
  rw [hm] at s2 ⊢
  have hperm : ((ys ++ [a]).map fun x => x - c).Perm ((a - c) :: ys.map fun x => x - c) := by
    rw [List.map_append]; exact List.perm_append_comm
  obtain ⟨A, hA⟩ : ∃ A, a - c = m * A := ⟨(a - c) / m, by field_simp⟩
  rw [hA] at hperm ⊢
  rw [hperm.sum_eq] at s0
  obtain ⟨e2, -⟩ := longest_split (m := m) (by simpa using hm) s0
  rw [(hperm.map fun x => x ^ 2).sum_eq, e2] at s2
  have hQ : (m * A) ^ 2 = (m + (0 + 1) - 1) * v ↔ ((ys.map fun x => x - c).map fun y => (y + A) ^ 2).sum = 0 := by
    have ev : v = ((m ^ 2 + m) * A ^ 2 + ((ys.map fun x => x - c).map fun y => (y + A) ^ 2).sum) / (m + 1) := by
      rw [s2]; field_simp
    generalize ((ys.map fun x => x - c).map fun y => (y + A) ^ 2).sum = Q at *
    rw [ev]
    constructor
    · intro h
      have h' : m * Q = 0 := by
        field_simp at h
        nlinarith
      rcases mul_eq_zero.1 h' with h | h
      · exact absurd h hm0.ne'
      · exact h
    · rintro rfl
      field_simp
      ring
  rw [show m + (0 + 1) - 1 = m + (0 + 1) - 1 from rfl] at hQ
  refine Iff.trans (by simpa using hQ) ⟨fun h x hx y hy => ?_, fun hf => ?_⟩
  · have := List.eq_replicate_iff.1 (eq_replicate_of_sq (by simpa using h : ((ys.map fun x => x - c).map fun y => (y + A) ^ 2).sum = 0))
    have h1 := this.2 _ (List.mem_map_of_mem (f := fun x => x - c) hx)
    have h2 := this.2 _ (List.mem_map_of_mem (f := fun x => x - c) hy)
    linarith
  · obtain ⟨y0, hy0⟩ := List.exists_mem_of_ne_nil _ hy
    have hr : (ys.map fun x => x - c) = List.replicate ys.length (y0 - c) :=
      List.eq_replicate_iff.2 ⟨by simp, fun z hz => by obtain ⟨x, hx, rfl⟩ := List.mem_map.1 hz; rw [hf x hx y0 hy0]⟩
    rw [List.sum_cons, hr, List.sum_replicate, nsmul_eq_mul, hm] at s0
    have hz : y0 - c = -A := by
      have : m * (A + (y0 - c)) = 0 := by linarith
      rcases mul_eq_zero.1 this with h | h
      · exact absurd h hm0.ne'
      · linarith
    refine List.sum_eq_zero fun q hq => ?_
    obtain ⟨x, hx, rfl⟩ := List.mem_map.1 hq
    have : x - c = -A := by rw [hf x hx y0 hy0, hz]
    simp [this]

end Traquer

namespace Traquer.Distribution
open FP FloatLit
variable (data : List XF) {w i : ℕ} (h1 : w ≤ i + 1) (h2 : i < data.length) (hd : Fins data)
include h1 h2 hd

/-- C103: `kurtosis` is at most the window, and equals it exactly if all values but one are equal. -/
theorem kurtosis_le_window (hw : 4 ≤ w) (hf : ¬ Flat (recent (vals data) w i)) :
    ∃ k, Shows i (kurtosis data w) k ∧ k ≤ w ∧ (k = w ↔ OneOdd (recent (vals data) w i)) := by
  refine ⟨_, (kurtosis_reports data w hw (by omega) hd).shows (by omega) h2 fun y hy => hy hf, ?_⟩
  have hl := window_length data h1 h2 hd
  have hp : 0 < moment 2 (recent (vals data) w i) := lt_of_le_of_ne (moment_two_nonneg _) fun h => hf (moment_two_eq_zero.1 h.symm)
  have hw4 : (4 : ℝ) ≤ w := by exact_mod_cast hw
  have hs := moment_four_sharp (l := recent (vals data) w i) (by omega)
  have he := moment_four_odd (l := recent (vals data) w i) (by omega) hp.ne'
  rw [hl] at hs he
  rw [kurtosis_formula hp hw4, ← he]
  generalize moment 4 (recent (vals data) w i) = m4 at *
  generalize moment 2 (recent (vals data) w i) = m2 at *
  generalize (w : ℝ) = n at *
  have p1 : 0 < n - 1 := by linarith
  have p2 : 0 < n - 2 := by linarith
  have p3 : 0 < n - 3 := by linarith
  have e : n - (n - 1) / ((n - 2) * (n - 3)) * ((n + 1) * (m4 / m2 ^ 2) - 3 * (n - 1)) =
      (n + 1) / ((n - 2) * (n - 3) * m2 ^ 2) * ((n ^ 2 - 3 * n + 3) * m2 ^ 2 - m4 * (n - 1)) := by field_simp; ring
  have hc : 0 < (n + 1) / ((n - 2) * (n - 3) * m2 ^ 2) := by positivity
  constructor
  · have := mul_nonneg hc.le (sub_nonneg.2 hs)
    linarith
  · constructor
    · intro h
      rw [h, sub_self] at e
      rcases mul_eq_zero.1 e.symm with h | h
      · exact absurd h hc.ne'
      · linarith
    · intro h
      rw [h, sub_self, mul_zero] at e
      linarith

/-- C103: `kurtosis` is as small as it can be exactly if all values are equally far from their mean. -/
theorem kurtosis_least (hw : 4 ≤ w) (hf : ¬ Flat (recent (vals data) w i)) :
    ∃ k, Shows i (kurtosis data w) k ∧ -2 * (w - 1) / (w - 3) ≤ k ∧
      (k = -2 * (w - 1) / (w - 3) ↔ ∃ r, ∀ x ∈ recent (vals data) w i, |x - mean (recent (vals data) w i)| = r) := by
  refine ⟨_, (kurtosis_reports data w hw (by omega) hd).shows (by omega) h2 fun y hy => hy hf, ?_⟩
  have hp : 0 < moment 2 (recent (vals data) w i) := lt_of_le_of_ne (moment_two_nonneg _) fun h => hf (moment_two_eq_zero.1 h.symm)
  have hw4 : (4 : ℝ) ≤ w := by exact_mod_cast hw
  have hs := sq_moment_two_le (recent (vals data) w i)
  have hr : (∃ r, ∀ x ∈ recent (vals data) w i, |x - mean (recent (vals data) w i)| = r) ↔ moment 4 (recent (vals data) w i) = moment 2 (recent (vals data) w i) ^ 2 := by
    rw [moment_four_least]
    constructor
    · rintro ⟨r, hr⟩ x hx
      have : moment 2 (recent (vals data) w i) = r ^ 2 := by
        have hne := List.ne_nil_of_mem hx
        have hp : ((recent (vals data) w i).length : ℝ) ≠ 0 := by exact_mod_cast (List.length_pos_iff.2 hne).ne'
        have e : (recent (vals data) w i).map (fun x => (x - mean (recent (vals data) w i)) ^ 2) = List.replicate (recent (vals data) w i).length (r ^ 2) :=
          List.eq_replicate_iff.2 ⟨by simp, fun z hz => by obtain ⟨y, hy, rfl⟩ := List.mem_map.1 hz; rw [← hr y hy, sq_abs]⟩
        rw [moment, e, mean, List.sum_replicate, List.length_replicate, nsmul_eq_mul]
        field_simp
      rw [this, ← hr x hx, sq_abs]
    · intro h
      exact ⟨√(moment 2 (recent (vals data) w i)), fun x hx => by rw [← h x hx, Real.sqrt_sq_eq_abs]⟩
  rw [kurtosis_formula hp hw4, hr]
  generalize moment 4 (recent (vals data) w i) = m4 at *
  generalize moment 2 (recent (vals data) w i) = m2 at *
  generalize (w : ℝ) = n at *
  have p1 : 0 < n - 1 := by linarith
  have p2 : 0 < n - 2 := by linarith
  have p3 : 0 < n - 3 := by linarith
  have e : (n - 1) / ((n - 2) * (n - 3)) * ((n + 1) * (m4 / m2 ^ 2) - 3 * (n - 1)) - -2 * (n - 1) / (n - 3) =
      (n - 1) * (n + 1) / ((n - 2) * (n - 3) * m2 ^ 2) * (m4 - m2 ^ 2) := by field_simp; ring
  have hc : 0 < (n - 1) * (n + 1) / ((n - 2) * (n - 3) * m2 ^ 2) := by positivity
  constructor
  · have := mul_nonneg hc.le (sub_nonneg.2 hs)
    linarith
  · constructor
    · intro h
      rw [h, sub_self] at e
      rcases mul_eq_zero.1 e.symm with h | h
      · exact absurd h hc.ne'
      · linarith
    · intro h
      rw [h, sub_self, mul_zero] at e
      rw [h]
      linarith

/-- C103: `skew` is `√w` in absolute value exactly if all values but one are equal. -/
theorem skew_extreme (hw : 3 ≤ w) (hf : ¬ Flat (recent (vals data) w i)) :
    ∃ g, Shows i (skew data w) g ∧ |g| ≤ √w ∧ (|g| = √w ↔ OneOdd (recent (vals data) w i)) := by
  obtain ⟨g, hg, hb⟩ := skew_bound data h1 h2 hd hw hf
  refine ⟨g, hg, hb, ?_⟩
  obtain rfl := hg.unique ((skew_reports data w hw (by omega) hd).shows (by omega) h2 fun y hy => hy hf)
  have hl := window_length data h1 h2 hd
  have hp : 0 < moment 2 (recent (vals data) w i) := lt_of_le_of_ne (moment_two_nonneg _) fun h => hf (moment_two_eq_zero.1 h.symm)
  have he := moment_three_odd (l := recent (vals data) w i) (by omega) hp.ne'
  rw [hl] at he
  rw [← he]
  have hw3 : (3 : ℝ) ≤ w := by exact_mod_cast hw
  have e : (moment 2 (recent (vals data) w i) ^ (3 / 2 : ℝ)) ^ 2 = moment 2 (recent (vals data) w i) ^ 3 := by
    rw [← Real.rpow_natCast, ← Real.rpow_mul hp.le, ← Real.rpow_natCast]; norm_num
  have hq : 0 < moment 2 (recent (vals data) w i) ^ (3 / 2 : ℝ) := Real.rpow_pos_of_pos hp _
  have ew : √(w : ℝ) ^ 2 = w := Real.sq_sqrt (by linarith)
  have er : √((w : ℝ) * (w - 1)) ^ 2 = w * (w - 1) := Real.sq_sqrt (by nlinarith)
  have hsq : ∀ g : ℝ, |g| = √(w : ℝ) ↔ g ^ 2 = w := fun g => by
    rw [← sq_abs g]
    exact ⟨fun h => by rw [h, ew], fun h => (pow_left_inj₀ (abs_nonneg g) (Real.sqrt_nonneg _) two_ne_zero).1 (h.trans ew.symm)⟩
  rw [hsq, div_pow, mul_pow, div_pow, er, e]
  generalize moment 3 (recent (vals data) w i) = m3 at *
  generalize moment 2 (recent (vals data) w i) = m2 at *
  generalize (w : ℝ) = n at *
  have p1 : 0 < n - 1 := by linarith
  have p2 : 0 < n - 2 := by linarith
  have pn : 0 < n := by linarith
  rw [div_eq_iff (by positivity), div_mul_eq_mul_div, div_eq_iff (by positivity)]
  constructor
  · intro h
    have : n * (m3 ^ 2 * (n - 1)) = n * ((n - 2) ^ 2 * m2 ^ 3) := by linarith
    exact mul_left_cancel₀ pn.ne' this
  · intro h
    linear_combination n * h

/-- C103: `zscore` is `√(w - 1)` in absolute value exactly if the bars of the window before the last are all equal. -/
theorem zscore_extreme (hw : 2 ≤ w) (hf : ¬ Flat (recent (vals data) w i)) :
    ∃ z, Shows i (zscore data w) z ∧ |z| ≤ √(w - 1) ∧ (|z| = √(w - 1) ↔ Flat (recent (vals data) (w - 1) (i - 1))) := by
  obtain ⟨z, s, a, hz, hs, ha, e⟩ := zscore_mul_std_dev data (by omega) h1 h2 hd hf
  obtain ⟨z', hz', hb⟩ := zscore_bound data h1 h2 hd (by omega) hf
  obtain rfl := hz.unique hz'
  refine ⟨z, hz, hb, ?_⟩
  obtain rfl := hs.unique ((std_dev_reports data w (by omega) (by omega) hd).shows (by omega) h2)
  obtain rfl := ha.unique ((Smooth.sma_reports data w (by omega) (by omega) hd).shows (by omega) h2)
  have hv : i < (vals data).length := by simpa [vals] using h2
  have hsnoc : recent (vals data) w i = recent (vals data) (w - 1) (i - 1) ++ [bar (vals data) i] := by
    rw [← lastOf_bar h1 hv, ← lastOf_bar (by omega) (by omega), lastOf, lastOf, show w = w - 1 + 1 by omega, List.range_succ, List.map_append]
    simp only [List.map_cons, List.map_nil, Nat.add_sub_cancel]
    congr 1
    · refine List.map_congr_left fun j _ => ?_
      congr 1; omega
    · congr 2; omega
  have hne : recent (vals data) (w - 1) (i - 1) ≠ [] := by
    intro h
    have := recent_length (l := vals data) (w := w - 1) (i := i - 1) (by omega) (by omega)
    rw [h] at this
    simp at this
    omega
  have hS := samuelson_eq (ys := recent (vals data) (w - 1) (i - 1)) (a := bar (vals data) i) hne
  rw [← hsnoc, window_length data h1 h2 hd] at hS
  rw [← hS, ← e]
  have hp : 0 < moment 2 (recent (vals data) w i) := lt_of_le_of_ne (moment_two_nonneg _) fun h => hf (moment_two_eq_zero.1 h.symm)
  have hw2 : (2 : ℝ) ≤ w := by exact_mod_cast hw
  have ew : √((w : ℝ) - 1) ^ 2 = w - 1 := Real.sq_sqrt (by linarith)
  rw [mul_pow, stdDev, Real.sq_sqrt hp.le, mul_left_inj' hp.ne', ← sq_abs z]
  exact ⟨fun h => by rw [h, ew], fun h => (pow_left_inj₀ (abs_nonneg z) (Real.sqrt_nonneg _) two_ne_zero).1 (h.trans ew.symm)⟩

omit h1 h2 hd in
/-- C103: a concrete window with one odd value out. -/
theorem odd_example : OneOdd (recent (vals ([fin 5, fin 1, fin 1, fin 1, fin 1] : List XF)) 5 4) ∧ ¬ Flat (recent (vals ([fin 5, fin 1, fin 1, fin 1, fin 1] : List XF)) 5 4) := by
  have e : recent (vals ([fin 5, fin 1, fin 1, fin 1, fin 1] : List XF)) 5 4 = [5, 1, 1, 1, 1] := by
    simp [recent, vals, FP.val]
  rw [e]
  refine ⟨⟨5, 1, by norm_num, List.Perm.refl _⟩, fun h => ?_⟩
  have := h 5 (by simp) 1 (by simp)
  norm_num at this

/-- The hypotheses of the four theorems hold for it. -/
example : ∃ k, Shows 4 (kurtosis ([fin 5, fin 1, fin 1, fin 1, fin 1] : List XF) 5) k ∧ k = 5 := by
  have hd : Fins ([fin 5, fin 1, fin 1, fin 1, fin 1] : List XF) := by
    intro x hx
    simp only [List.mem_cons, List.not_mem_nil, or_false] at hx
    rcases hx with rfl | rfl | rfl | rfl | rfl <;> simp [FP.Finite]
  obtain ⟨k, hk, -, h⟩ := kurtosis_le_window ([fin 5, fin 1, fin 1, fin 1, fin 1] : List XF) (w := 5) (i := 4) (by norm_num) (by simp) hd (by norm_num) odd_example.2
  exact ⟨k, hk, by simpa using h.2 odd_example.1⟩

end Traquer.Distribution
