import Verif.Props.Quickselect
import Verif.Props.ShapeStats
import Verif.Lemmas.Range
import Verif.Lemmas.RoundsTo
import Mathlib.Data.List.Sort
import Mathlib.Algebra.Order.Floor.Semifield
/-!
# C40, C06: quantile and median
-/

namespace Traquer

/-- The `k`-th smallest value of a list, counting from 0. -/
noncomputable def orderStat (l : List ℝ) (k : ℕ) : ℝ := (l.insertionSort (· ≤ ·))[k]?.getD 0

/-- The value at position `p` of the sorted list, interpolating linearly between neighbouring positions. -/
noncomputable def quantileOf (l : List ℝ) (p : ℝ) : ℝ :=
  orderStat l ⌊p⌋₊ * (1 - Int.fract p) + orderStat l (⌊p⌋₊ + 1) * Int.fract p

theorem insertionSort_of_splits {P Q : List ℝ} {x : ℝ} (h1 : ∀ y ∈ P, y ≤ x) (h2 : ∀ y ∈ Q, x ≤ y) {l : List ℝ}
    (hp : (P ++ x :: Q).Perm l) :
    l.insertionSort (· ≤ ·) = P.insertionSort (· ≤ ·) ++ x :: Q.insertionSort (· ≤ ·) := by
  refine List.Perm.eq_of_pairwise' (r := (· ≤ ·)) (List.pairwise_insertionSort (r := (· ≤ ·)) l) ?_ ?_
  · rw [List.pairwise_append, List.pairwise_cons]
    refine ⟨List.pairwise_insertionSort (r := (· ≤ ·)) P, ⟨fun y hy => h2 y ((List.perm_insertionSort _ Q).mem_iff.1 hy),
      List.pairwise_insertionSort (r := (· ≤ ·)) Q⟩, fun y hy z hz => ?_⟩
    have hy := h1 y ((List.perm_insertionSort _ P).mem_iff.1 hy)
    rcases List.mem_cons.1 hz with rfl | hz
    · exact hy
    · exact hy.trans (h2 z ((List.perm_insertionSort _ Q).mem_iff.1 hz))
  · exact (List.perm_insertionSort _ l).trans (hp.symm.trans
      ((List.perm_insertionSort _ P).symm.append ((List.perm_insertionSort _ Q).symm.cons x)))

theorem orderStat_of_splits {P Q l : List ℝ} {x : ℝ} (h1 : ∀ y ∈ P, y ≤ x) (h2 : ∀ y ∈ Q, x ≤ y) (hp : (P ++ x :: Q).Perm l) :
    orderStat l P.length = x := by
  have := List.length_insertionSort (r := (· ≤ ·)) P
  rw [orderStat, insertionSort_of_splits h1 h2 hp, List.getElem?_append_right (by omega), this, Nat.sub_self]
  rfl

theorem orderStat_zero {l : List ℝ} (h : l ≠ []) : orderStat l 0 = minOf l := by
  have hp := List.perm_insertionSort (· ≤ ·) l
  have hs := List.pairwise_insertionSort (r := (· ≤ ·)) l
  rw [orderStat]
  cases e : l.insertionSort (· ≤ ·) with
  | nil => rw [e] at hp; exact absurd hp.symm.eq_nil h
  | cons m t =>
    rw [e] at hp hs
    refine le_antisymm ?_ (minOf_le (hp.mem_iff.1 (by simp)))
    have := hp.mem_iff.2 (minOf_mem h)
    rcases List.mem_cons.1 this with e | e
    · simp [e]
    · exact List.rel_of_pairwise_cons hs e

theorem orderStat_succ_of_splits {P Q l : List ℝ} {x : ℝ} (h1 : ∀ y ∈ P, y ≤ x) (h2 : ∀ y ∈ Q, x ≤ y) (hp : (P ++ x :: Q).Perm l)
    (hQ : Q ≠ []) : orderStat l (P.length + 1) = minOf Q := by
  have := List.length_insertionSort (r := (· ≤ ·)) P
  rw [← orderStat_zero hQ, orderStat, insertionSort_of_splits h1 h2 hp, List.getElem?_append_right (by omega), this,
    show P.length + 1 - P.length = 0 + 1 by omega, List.getElem?_cons_succ]
  rfl

/-- Order statistics are values of the list. -/
theorem orderStat_mem {l : List ℝ} {k : ℕ} (h : k < l.length) : orderStat l k ∈ l := by
  have e := List.length_insertionSort (r := (· ≤ ·)) l
  rw [orderStat, List.getElem?_eq_getElem (by omega)]
  exact (List.perm_insertionSort (· ≤ ·) l).mem_iff.1 (List.getElem_mem _)

theorem orderStat_mono {l : List ℝ} {j k : ℕ} (h : j ≤ k) (hk : k < l.length) : orderStat l j ≤ orderStat l k := by
  have e := List.length_insertionSort (r := (· ≤ ·)) l
  rcases Nat.eq_or_lt_of_le h with rfl | h
  · exact le_rfl
  · rw [orderStat, orderStat, List.getElem?_eq_getElem (by omega), List.getElem?_eq_getElem (by omega)]
    exact List.pairwise_iff_getElem.1 (List.pairwise_insertionSort (r := (· ≤ ·)) l) j k _ _ h

end Traquer

namespace Traquer.Distribution
open FP FloatLit
variable {ρ : Rounding}

theorem isUsize {x : FP ρ} {a : ℝ} (hx : x ⇓ a) (ha : a < 2 ^ 64) : Traquer.toUsize x = ⌊a⌋₊ := by
  rcases is_iff.1 hx with rfl | ⟨rfl, rfl⟩
  · show min ⌊a⌋₊ (2 ^ 64 - 1) = _
    apply min_eq_left
    by_cases h : 0 ≤ a
    · have : ⌊a⌋₊ < 2 ^ 64 := (Nat.floor_lt h).2 (by exact_mod_cast ha)
      omega
    · rw [Nat.floor_of_nonpos (le_of_lt (not_le.1 h))]; omega
  · simp [Traquer.toUsize, FloatOps.toUsize, FP.toUsize]

theorem isNatMk {s : Bool} {z : ℤ} {n : ℕ} (hn : n ≤ 2 ^ 53) (h0 : 0 ≤ z) (h1 : z ≤ n) : (mk s z : FP ρ) ⇓ z := by
  obtain ⟨m, rfl⟩ := Int.eq_ofNat_of_zero_le h0
  have hm : m ≤ 2 ^ 53 := by omega
  have e : ρ.rnd ((m : ℤ) : ℝ) = m := by rw [Int.cast_natCast]; exact ρ.nat m hm
  exact (mk_is (by rw [e]; exact ρ.fits_nat m hm)).congr (by rw [e]; simp)

theorem isFloor {x : FP ρ} {a : ℝ} {n : ℕ} (hn : n ≤ 2 ^ 53) (hx : x ⇓ a) (h0 : 0 ≤ a) (h1 : a ≤ n) : Traquer.floor x ⇓ ⌊a⌋ := by
  rcases is_iff.1 hx with rfl | ⟨rfl, rfl⟩
  · exact isNatMk hn (Int.floor_nonneg.2 h0) (by exact_mod_cast (Int.floor_le a).trans h1)
  · exact is_negz.congr (by simp)

theorem isCeil {x : FP ρ} {a : ℝ} {n : ℕ} (hn : n ≤ 2 ^ 53) (hx : x ⇓ a) (h0 : 0 ≤ a) (h1 : a ≤ n) : Traquer.ceil x ⇓ ⌈a⌉ := by
  rcases is_iff.1 hx with rfl | ⟨rfl, rfl⟩
  · exact isNatMk hn (Int.ceil_nonneg h0) (Int.ceil_le.2 (by exact_mod_cast h1))
  · exact is_negz.congr (by simp)

theorem mul_nan' (x : FP ρ) : x * FP.nan = FP.nan := by cases x <;> rfl

/-- The position in the sorted window computed for the percentage `q`. -/
noncomputable def posOf (w : ℕ) (q : FP ρ) : FP ρ := flt (w - 1) * (clampLit q 0 100 / 100)

/-- The clamped percentage. -/
theorem clamp_range (q : FP ρ) : clampLit q 0 100 = FP.nan ∨ ∃ r, clampLit q 0 100 ⇓ r ∧ 0 ≤ r ∧ r ≤ 100 := by
  have i0 := isZero (ρ := ρ)
  have i1 := isLit (ρ := ρ) 100 (by norm_num)
  by_cases hf : q.Finite
  · refine .inr ⟨_, is_clampLit hf.is i0 i1 (by norm_num), le_max_left _ _, max_le (by norm_num) (min_le_right _ _)⟩
  · cases q with
    | fin r => exact absurd trivial hf
    | negz => exact absurd trivial hf
    | nan =>
      left
      unfold clampLit
      rw [if_neg, if_neg]
      · show ¬ FP.lt _ _ = true
        simp [FP.lt, FP.isNaN]
      · show ¬ FP.lt _ _ = true
        simp [FP.lt, FP.isNaN]
    | inf s =>
      right
      cases s
      · refine ⟨100, ?_, by norm_num, le_rfl⟩
        unfold clampLit
        have h1 : ((inf false : FP ρ) <. 0) = false := by
          rw [toE_lt rfl i0.not_nan, i0.toE]; simp [FP.toE]
        have h2 : ((100 : FP ρ) <. inf false) = true := by
          rw [toE_lt i1.not_nan rfl, i1.toE]; exact decide_eq_true (EReal.coe_lt_top _)
        rw [if_neg (by rw [h1]; simp), if_pos h2]; exact i1
      · refine ⟨0, ?_, le_rfl, by norm_num⟩
        unfold clampLit
        have h1 : ((inf true : FP ρ) <. 0) = true := by
          rw [toE_lt rfl i0.not_nan, i0.toE]; exact decide_eq_true (EReal.bot_lt_coe _)
        rw [if_pos h1]; exact i0

theorem posOf_range {w : ℕ} (hw : 1 ≤ w) (hw' : w ≤ 2 ^ 53) (q : FP ρ) :
    posOf w q = FP.nan ∨ ∃ r, posOf w q ⇓ r ∧ 0 ≤ r ∧ r ≤ (w - 1 : ℕ) := by
  have i1 := isLit (ρ := ρ) 100 (by norm_num)
  rcases clamp_range q with h | ⟨r, h, h0, h1⟩
  · left; rw [posOf, h, FP.nan_div, mul_nan']
  · right
    obtain ⟨s, hs, s0, s1⟩ := (rounds_div h i1 (by norm_num)).between (n := 1) (by norm_num) (div_nonneg h0 (by norm_num))
      (by rw [div_le_iff₀ (by norm_num)]; simpa using h1)
    have hf := isFlt (ρ := ρ) (n := w - 1) (by omega)
    exact (rounds_mul hf hs).between (n := w - 1) (by omega) (mul_nonneg (by positivity) s0)
      (mul_le_of_le_one_right (by positivity) (by simpa using s1))

/-- C06/C40, in every rounding: one output per bar, whatever the data (NaN and infinities included) and whatever `q`. -/
theorem quantile_aligned (data : List (FP ρ)) (w : ℕ) (q : FP ρ) (hw : 1 ≤ w) (hw' : w ≤ 2 ^ 53) (hn : w ≤ data.length + 1) :
    Aligned data.length (w - 1) (quantile data w q) := by
  run_model [quantile, quantileT]
  refine aligned_mapP ?_ (by simp; omega) (by omega)
  intro x hx
  have hl := windowsOf_mem_length hx
  have qs : ∀ k, k < w → ∃ P y Q, quickselect (fun x y => x <. y) x k = some (P ++ y :: Q, y) ∧ (P ++ y :: Q).length = w := fun k hk => by
    obtain ⟨P, y, Q, e, -, hp, -⟩ := quickselect_spec (fun x y => x <. y) x k (by omega)
    exact ⟨P, y, Q, e, hp.length_eq.trans hl⟩
  have big : ((2 : ℝ) ^ 53 : ℝ) < 2 ^ 64 := by norm_num
  have hwR : ((w - 1 : ℕ) : ℝ) < 2 ^ 64 := lt_of_le_of_lt (by exact_mod_cast (show w - 1 ≤ 2 ^ 53 by omega)) big
  change (if fract (posOf w q) ==. 0 then _ else _ : Option (FP ρ)).isSome = true
  rcases posOf_range hw hw' q with h | ⟨r, h, h0, h1⟩
  · have hz : toUsize (floor (posOf w q)) = 0 := by rw [h]; rfl
    have hz2 : toUsize (ceil (posOf w q)) = 0 := by rw [h]; rfl
    obtain ⟨P, y, Q, e, l⟩ := qs 0 (by omega)
    rw [if_neg (by rw [h]; simp [Traquer.fract, FloatOps.fract, FP.fract, FloatOps.feq, FP.feq, FP.isNaN])]
    simp only [posOf] at hz hz2
    simp only [hz, hz2, e, Option.bind_some]
    simp [sliceFrom]
  · have u1 : ∀ z : ℤ, 0 ≤ z → z ≤ (w - 1 : ℕ) → ⌊(z : ℝ)⌋₊ < w := fun z z0 z1 => by
      obtain ⟨m, rfl⟩ := Int.eq_ofNat_of_zero_le z0
      rw [Int.cast_natCast, Nat.floor_natCast]; omega
    split
    · obtain ⟨P, y, Q, e, l⟩ := qs ⌊r⌋₊ (by
        have := Nat.floor_le_of_le h1
        omega)
      have := isUsize h (lt_of_le_of_lt h1 hwR)
      simp only [posOf] at this
      simp only [this, e, Option.bind_some, Option.isSome_some]
    · have f1 := isFloor (by omega) h h0 h1
      have f2 := isCeil (by omega) h h0 h1
      have z1 : ⌊r⌋ ≤ (w - 1 : ℕ) := by exact_mod_cast (Int.floor_le r).trans h1
      have z2 : ⌈r⌉ ≤ (w - 1 : ℕ) := Int.ceil_le.2 (by exact_mod_cast h1)
      have t1 := isUsize f1 (lt_of_le_of_lt (by exact_mod_cast z1) hwR)
      have t2 := isUsize f2 (lt_of_le_of_lt (by exact_mod_cast z2) hwR)
      have l1 := u1 _ (Int.floor_nonneg.2 h0) z1
      have l2 := u1 _ (Int.ceil_nonneg h0) z2
      obtain ⟨P, y, Q, e, l⟩ := qs _ l1
      simp only [posOf] at t1 t2
      simp only [t1, t2, e, Option.bind_some]
      rw [sliceFrom, if_pos (by omega)]
      simp

/-- C06: `median` likewise. -/
theorem median_aligned (data : List (FP ρ)) (w : ℕ) (hw : 1 ≤ w) (hw' : w ≤ 2 ^ 53) (hn : w ≤ data.length + 1) :
    Aligned data.length (w - 1) (median data w) := quantile_aligned data w 50 hw hw' hn

/-! ## The value -/

theorem totalOn_of_fins {l : List (FP ρ)} (h : Fins l) : TotalOn (fun x y => x <. y) l := by
  constructor
  · intro x hx y hy hlt
    rw [is_lt (h x hx).is (h y hy).is] at hlt
    rw [is_lt (h y hy).is (h x hx).is]
    simp only [decide_eq_true_eq, decide_eq_false_iff_not, not_lt] at *
    exact hlt.le
  · intro x hx y hy z hz h1 h2
    rw [is_lt (h y hy).is (h x hx).is] at h1
    rw [is_lt (h z hz).is (h y hy).is] at h2
    rw [is_lt (h z hz).is (h x hx).is]
    simp only [decide_eq_false_iff_not, not_lt] at *
    exact h1.trans h2

/-- In every rounding quickselect returns the `k`-th smallest value, and what follows it in the rearranged slice are the
larger ones. -/
theorem quickselect_orderStat {l : List (FP ρ)} (h : Fins l) {k : ℕ} (hk : k < l.length) :
    ∃ d y, quickselect (fun x y => x <. y) l k = some (d, y) ∧ d.length = l.length ∧ y ⇓ orderStat (vals l) k ∧
      Fins (d.drop (k + 1)) ∧ (k + 1 < l.length → minOf (vals (d.drop (k + 1))) = orderStat (vals l) (k + 1)) := by
  obtain ⟨P, y, Q, e, hP, hp, hs⟩ := quickselect_spec (fun x y => x <. y) l k hk
  have hs := hs (totalOn_of_fins h)
  have fd : Fins (P ++ y :: Q) := fun x hx => h x (hp.mem_iff.1 hx)
  have fy := fd y (by simp)
  have fP : ∀ z ∈ P, z.Finite := fun z hz => fd z (by simp [hz])
  have fQ : ∀ z ∈ Q, z.Finite := fun z hz => fd z (by simp [hz])
  have h1 : ∀ z ∈ vals P, z ≤ y.val := fun z hz => by
    obtain ⟨z, hz', rfl⟩ := List.mem_map.1 hz
    have := hs.1 z hz'
    simp only [is_lt fy.is (fP z hz').is] at this
    simpa using this
  have h2 : ∀ z ∈ vals Q, y.val ≤ z := fun z hz => by
    obtain ⟨z, hz', rfl⟩ := List.mem_map.1 hz
    have := hs.2 z hz'
    simp only [is_lt (fQ z hz').is fy.is] at this
    simpa using this
  have hpv : (vals P ++ y.val :: vals Q).Perm (vals l) := by
    have := hp.map FP.val
    simpa [vals] using this
  have hd : (P ++ y :: Q).drop (k + 1) = Q := by
    rw [← hP, show P ++ y :: Q = (P ++ [y]) ++ Q by simp, List.drop_left' (by simp)]
  refine ⟨_, y, e, hp.length_eq, fy.is.congr ?_, by rw [hd]; exact fQ, fun hk2 => ?_⟩
  · have := orderStat_of_splits h1 h2 hpv
    rw [vals_length, hP] at this
    exact this.symm
  · have hQ : vals Q ≠ [] := by
      intro hq
      have := hp.length_eq
      have hq : Q.length = 0 := by rw [← vals_length, hq]; rfl
      simp at this
      omega
    have := orderStat_succ_of_splits h1 h2 hpv hQ
    rw [vals_length, hP] at this
    rw [hd]; exact this.symm

/-- C40: `quantile` reports the linear interpolation of the sorted window at position `(w - 1) * q / 100`, `q` clamped to 0..100. -/
theorem quantile_reports (data : List XF) (w : ℕ) (q : XF) (r : ℝ) (hq : q ⇓ r) (hw : 1 ≤ w) (hw' : w ≤ 2 ^ 53)
    (hn : w ≤ data.length + 1) (hd : Fins data) :
    Reports data.length (w - 1) (fun i => quantileOf (recent (vals data) w i) ((w - 1 : ℕ) * (max 0 (min r 100) / 100)))
      (quantile data w q) := by
  run_model [quantile, quantileT]
  refine (reportsP_mapP_windows (P := fun i y => y ⇓ quantileOf (recent (vals data) w i) ((w - 1 : ℕ) * (max 0 (min r 100) / 100)))
    hw hn fun i h1 h2 => ?_)
  have big : ((2 : ℝ) ^ 53 : ℝ) < 2 ^ 64 := by norm_num
  have hwR : ((w - 1 : ℕ) : ℝ) < 2 ^ 64 := lt_of_le_of_lt (by exact_mod_cast (show w - 1 ≤ 2 ^ 53 by omega)) big
  have hp : (flt (w - 1) * (clampLit q 0 100 / 100) : XF) ⇓ ((w - 1 : ℕ) * (max 0 (min r 100) / 100) : ℝ) :=
    is_mul (is_flt _) (is_div (is_clampLit hq is_zero (is_lit 100) (by norm_num)) (is_lit 100) (by norm_num))
  have p0 : (0 : ℝ) ≤ (w - 1 : ℕ) * (max 0 (min r 100) / 100) :=
    mul_nonneg (by positivity) (div_nonneg (le_max_left _ _) (by norm_num))
  have p1 : ((w - 1 : ℕ) * (max 0 (min r 100) / 100) : ℝ) ≤ (w - 1 : ℕ) :=
    mul_le_of_le_one_right (by positivity) (by
      rw [div_le_one (by norm_num)]; exact max_le (by norm_num) (min_le_right _ _))
  generalize ((w - 1 : ℕ) * (max 0 (min r 100) / 100) : ℝ) = p at hp p0 p1
  have fr := hd.recent w i
  have lr := recent_length (l := data) h1 h2
  have pf : ⌊p⌋₊ ≤ w - 1 := Nat.floor_le_of_le p1
  have fz : (⌊p⌋ : ℝ) = (⌊p⌋₊ : ℝ) := natCast_floor_eq_intCast_floor p0 |>.symm
  have ef := is_feq (is_fract hp p0) (is_zero)
  rw [← recent_vals]
  by_cases hf : Int.fract p = 0
  · obtain ⟨d, y, e, -, hy, -⟩ := quickselect_orderStat fr (k := ⌊p⌋₊) (by omega)
    rw [if_pos (by rw [ef]; exact decide_eq_true hf), is_toUsize hp (lt_of_le_of_lt p1 hwR), e]
    refine ⟨y, rfl, hy.congr ?_⟩
    simp [quantileOf, hf]
  · have hlt : p < (w - 1 : ℕ) := by
      rcases p1.lt_or_eq with h | h
      · exact h
      · exact absurd (by rw [h]; simp) hf
    have hlt2 : ⌊p⌋₊ < w - 1 := (Nat.floor_lt p0).2 hlt
    have hc : ⌈p⌉ = ⌊p⌋ + 1 := by
      rw [Int.ceil_eq_iff]
      have : 0 < Int.fract p := lt_of_le_of_ne (Int.fract_nonneg p) (Ne.symm hf)
      have h1 := Int.floor_le p
      have h2 := Int.lt_floor_add_one p
      have : 0 < p - ⌊p⌋ := this
      push_cast
      constructor <;> linarith
    have t1 : toUsize (floor (flt (w - 1) * (clampLit q 0 100 / 100) : XF)) = ⌊p⌋₊ := by
      rw [is_toUsize (is_floor hp) (lt_of_le_of_lt ((Int.floor_le p).trans p1) hwR), fz, Nat.floor_natCast]
    have t2 : toUsize (ceil (flt (w - 1) * (clampLit q 0 100 / 100) : XF)) = ⌊p⌋₊ + 1 := by
      have e : (⌈p⌉ : ℝ) = ((⌊p⌋₊ + 1 : ℕ) : ℝ) := by rw [hc]; push_cast; rw [fz]
      rw [is_toUsize (is_ceil hp) (by rw [e]; exact lt_of_le_of_lt (by exact_mod_cast (show ⌊p⌋₊ + 1 ≤ w - 1 by omega)) hwR), e,
        Nat.floor_natCast]
    obtain ⟨d, y, e, ld, hy, fq, hm⟩ := quickselect_orderStat fr (k := ⌊p⌋₊) (by omega)
    rw [if_neg (by rw [ef]; simpa using hf)]
    simp only [t1, t2, e, Option.bind_some]
    rw [sliceFrom, if_pos (by omega), Option.bind_some]
    have hu := foldMin_is fq (by intro h; have := congrArg List.length h; simp at this; omega)
    rw [hm (by omega)] at hu
    refine ⟨_, rfl, (is_add (is_mul hy (is_sub (is_ceil hp) hp)) (is_mul hu (is_sub hp (is_floor hp)))).congr ?_⟩
    rw [quantileOf, Int.fract, hc]
    push_cast
    ring

/-- C40: `median` is the mean of the two middle order statistics (the middle one for an odd window). -/
theorem median_reports (data : List XF) (w : ℕ) (hw : 1 ≤ w) (hw' : w ≤ 2 ^ 53) (hn : w ≤ data.length + 1) (hd : Fins data) :
    Reports data.length (w - 1) (fun i => (orderStat (recent (vals data) w i) ((w - 1) / 2) + orderStat (recent (vals data) w i) (w / 2)) / 2)
      (median data w) := by
  refine (quantile_reports data w 50 50 (is_lit 50) hw hw' hn hd).congr fun i h1 h2 => ?_
  have e : ((w - 1 : ℕ) * (max 0 (min (50 : ℝ) 100) / 100) : ℝ) = ((w - 1 : ℕ) : ℝ) / 2 := by
    rw [min_eq_left (by norm_num), max_eq_right (by norm_num)]; ring
  have hfl : ⌊((w - 1 : ℕ) : ℝ) / 2⌋₊ = (w - 1) / 2 := by
    have := Nat.floor_div_eq_div (K := ℝ) (w - 1) 2
    simpa using this
  rw [e, quantileOf, hfl]
  have hdm := Nat.div_add_mod (w - 1) 2
  have hpos : (0 : ℝ) ≤ ((w - 1 : ℕ) : ℝ) / 2 := by positivity
  have hfr : Int.fract (((w - 1 : ℕ) : ℝ) / 2) = ((w - 1) % 2 : ℕ) / 2 := by
    rw [Int.fract, ← natCast_floor_eq_intCast_floor hpos, hfl]
    have : ((w - 1 : ℕ) : ℝ) = (2 * ((w - 1) / 2) + (w - 1) % 2 : ℕ) := by rw [hdm]
    rw [this]; push_cast
    have : (2 * ((w - 1) / 2) + (w - 1) % 2) / 2 = (w - 1) / 2 := by omega
    ring_nf
  rw [hfr]
  rcases Nat.mod_two_eq_zero_or_one (w - 1) with h | h
  · rw [h, show w / 2 = (w - 1) / 2 by omega]
    push_cast; ring
  · rw [h, show w / 2 = (w - 1) / 2 + 1 by omega]
    push_cast; ring

/-- C40: so every quantile lies between the smallest and the largest value of the window. -/
theorem quantile_within (data : List XF) (w : ℕ) (q : XF) (r : ℝ) (hq : q ⇓ r) (hw : 1 ≤ w) (hw' : w ≤ 2 ^ 53)
    (hn : w ≤ data.length + 1) (hd : Fins data) :
    ReportsP data.length (w - 1) (fun i y => ∃ v, y ⇓ v ∧ minOf (recent (vals data) w i) ≤ v ∧ v ≤ maxOf (recent (vals data) w i))
      (quantile data w q) := by
  refine (quantile_reports data w q r hq hw hw' hn hd).toP fun i y h1 h2 hy => ⟨_, hy, ?_⟩
  have lr : (recent (vals data) w i).length = w := recent_length (by omega) (by simpa using h2)
  have p0 : (0 : ℝ) ≤ (w - 1 : ℕ) * (max 0 (min r 100) / 100) :=
    mul_nonneg (by positivity) (div_nonneg (le_max_left _ _) (by norm_num))
  have p1 : ((w - 1 : ℕ) * (max 0 (min r 100) / 100) : ℝ) ≤ (w - 1 : ℕ) :=
    mul_le_of_le_one_right (by positivity) (by
      rw [div_le_one (by norm_num)]; exact max_le (by norm_num) (min_le_right _ _))
  generalize ((w - 1 : ℕ) * (max 0 (min r 100) / 100) : ℝ) = p at p0 p1
  have pf : ⌊p⌋₊ ≤ w - 1 := Nat.floor_le_of_le p1
  have m1 := orderStat_mem (l := recent (vals data) w i) (k := ⌊p⌋₊) (by omega)
  have a1 := minOf_le m1
  have a2 := le_maxOf m1
  rcases Nat.eq_or_lt_of_le pf with h | h
  · have hp : p = (w - 1 : ℕ) := le_antisymm p1 (by rw [← h]; exact Nat.floor_le p0)
    have hf : Int.fract p = 0 := by rw [hp]; simp
    rw [quantileOf, hf, sub_zero, mul_one, mul_zero, add_zero]
    exact ⟨a1, a2⟩
  · have m2 := orderStat_mem (l := recent (vals data) w i) (k := ⌊p⌋₊ + 1) (by omega)
    have b1 := minOf_le m2
    have b2 := le_maxOf m2
    have f0 := Int.fract_nonneg p
    have f1 := (Int.fract_lt_one p).le
    have := convex_range (a := orderStat (recent (vals data) w i) (⌊p⌋₊ + 1)) (b := orderStat (recent (vals data) w i) ⌊p⌋₊)
      ⟨b1, b2⟩ ⟨a1, a2⟩ f0 f1
    rw [quantileOf]
    constructor <;> linarith [this.1, this.2]

example : Reports 5 2 (fun i => (orderStat (recent [5, 1, 4, 2, 3] 3 i) 1 + orderStat (recent [5, 1, 4, 2, 3] 3 i) 1) / 2)
    (median ([5, 1, 4, 2, 3].map (fin : ℝ → XF)) 3) := by
  have := median_reports ([5, 1, 4, 2, 3].map (fin : ℝ → XF)) 3 (by decide) (by norm_num) (by simp) (fins_map_fin _)
  rwa [vals_map_fin] at this

theorem rounds_nat {x : FP ρ} {a : ℝ} {n : ℕ} (h : Rounds x a) (ha : a = n) (hn : n ≤ 2 ^ 53) : x ⇓ n := by
  subst ha
  rcases h.cases with ⟨-, h⟩ | ⟨h, -⟩
  · exact h.congr (ρ.nat n hn)
  · rw [ρ.nat n hn] at h; exact absurd (ρ.fits_nat n hn) h

/-- Where the position is a whole number `k`, every rounding reports the `k`-th smallest value exactly. -/
theorem quantile_whole (data : List (FP ρ)) (w k : ℕ) (q : FP ρ) (hw : 1 ≤ w) (hw' : w ≤ 2 ^ 53) (hn : w ≤ data.length + 1)
    (hd : Fins data) (hk : k < w) (hp : posOf w q ⇓ k) :
    Reports data.length (w - 1) (fun i => orderStat (recent (vals data) w i) k) (quantile data w q) := by
  run_model [quantile, quantileT]
  refine (reportsP_mapP_windows (P := fun i y => y ⇓ orderStat (recent (vals data) w i) k) hw hn fun i h1 h2 => ?_)
  have lr := recent_length (l := data) h1 h2
  obtain ⟨d, y, e, -, hy, -⟩ := quickselect_orderStat (hd.recent w i) (k := k) (by omega)
  have hlt : (k : ℝ) < 2 ^ 64 := lt_of_lt_of_le (by exact_mod_cast hk) (show (w : ℝ) ≤ 2 ^ 64 by
    exact_mod_cast (show w ≤ 2 ^ 64 by omega))
  have hu := isUsize hp hlt
  rw [Nat.floor_natCast] at hu
  have hf : (fract (posOf w q) ==. 0) = true := by
    have : fract (posOf w q) ⇓ (0 : ℝ) := by
      rcases is_iff.1 hp with e | ⟨e, -⟩
      · rw [e]
        show FP.fract (fin (k : ℝ) : FP ρ) ⇓ 0
        rw [FP.fract, if_pos (by positivity)]
        have := isNatMk (ρ := ρ) (s := false) (z := 0) (n := 0) (by norm_num) le_rfl (by simp)
        simpa using this
      · rw [e]; exact is_fin 0
    rw [is_feq this isZero]; simp
  simp only [posOf] at hf hu
  rw [if_pos hf, hu, e, ← recent_vals]
  exact ⟨y, rfl, hy⟩

/-- C40: the 0th percentile is the smallest value of the window, in every rounding. -/
theorem quantile_min (data : List (FP ρ)) (w : ℕ) (hw : 1 ≤ w) (hw' : w ≤ 2 ^ 53) (hn : w ≤ data.length + 1) (hd : Fins data) :
    Reports data.length (w - 1) (fun i => minOf (recent (vals data) w i)) (quantile data w 0) := by
  have i1 := isLit (ρ := ρ) 100 (by norm_num)
  have hc := is_clampLit (isZero (ρ := ρ)) isZero i1 (by norm_num)
  have h0 := rounds_nat (n := 0) (rounds_div hc i1 (by norm_num)) (by norm_num) (by norm_num)
  have hp : posOf w (0 : FP ρ) ⇓ (0 : ℕ) := rounds_nat (n := 0) (rounds_mul (isFlt (n := w - 1) (by omega)) h0) (by simp) (by norm_num)
  refine (quantile_whole data w 0 0 hw hw' hn hd (by omega) hp).congr fun i h1 h2 => ?_
  refine orderStat_zero fun h => ?_
  have := recent_length (l := vals data) (w := w) (i := i) (by omega) (by simpa using h2)
  rw [h] at this
  simp at this
  omega

/-- C40: the 100th percentile is the largest value of the window, in every rounding. -/
theorem quantile_max (data : List (FP ρ)) (w : ℕ) (hw : 1 ≤ w) (hw' : w ≤ 2 ^ 53) (hn : w ≤ data.length + 1) (hd : Fins data) :
    Reports data.length (w - 1) (fun i => maxOf (recent (vals data) w i)) (quantile data w 100) := by
  have i1 := isLit (ρ := ρ) 100 (by norm_num)
  have hc := is_clampLit i1 (isZero (ρ := ρ)) i1 (by norm_num)
  have h0 := rounds_nat (n := 1) (rounds_div hc i1 (by norm_num)) (by norm_num) (by norm_num)
  have hp : posOf w (100 : FP ρ) ⇓ (w - 1 : ℕ) := rounds_nat (n := w - 1) (rounds_mul (isFlt (n := w - 1) (by omega)) h0) (by simp) (by omega)
  refine (quantile_whole data w (w - 1) 100 hw hw' hn hd (by omega) hp).congr fun i h1 h2 => ?_
  have hl := recent_length (l := vals data) (w := w) (i := i) (by omega) (by simpa using h2)
  have hne : recent (vals data) w i ≠ [] := by intro h; rw [h] at hl; simp at hl; omega
  refine le_antisymm (le_maxOf (orderStat_mem (by omega))) ?_
  obtain ⟨k, hk, e⟩ : ∃ k < w, orderStat (recent (vals data) w i) k = maxOf (recent (vals data) w i) := by
    have := (List.perm_insertionSort (· ≤ ·) (recent (vals data) w i)).mem_iff.2 (maxOf_mem hne)
    obtain ⟨k, hk⟩ := List.mem_iff_getElem?.1 this
    have hlt := (List.getElem?_eq_some_iff.1 hk).1
    rw [List.length_insertionSort, hl] at hlt
    exact ⟨k, hlt, by rw [orderStat, hk]; rfl⟩
  rw [← e]
  exact orderStat_mono (by omega) (by omega)

example (ρ : Rounding) : Reports 5 2 (fun i => maxOf (recent [5, 1, 4, 2, 3] 3 i)) (quantile ([5, 1, 4, 2, 3].map (fin : ℝ → FP ρ)) 3 100) := by
  have := quantile_max ([5, 1, 4, 2, 3].map (fin : ℝ → FP ρ)) 3 (by decide) (by norm_num) (by simp) (fins_map_fin _)
  rwa [vals_map_fin] at this

end Traquer.Distribution
