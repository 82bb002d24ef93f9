import Verif.Props.Averages64
import Verif.Props.Pearson
import Verif.Props.Whole64c
import Verif.Props.Signed64
import Verif.Props.Flat64
import Verif.Lemmas.Whole
import Mathlib.Tactic.IntervalCases
/-!
# C119: when the correlation survives rounding, and when it is lost

`pcc` computes `n Σxy - Σx Σy` over the roots of `n Σx² - (Σx)²` and `n Σy² - (Σy)²`. For whole numbers small enough for these totals to stay within
`2^53` the differences are exact, and four roundings are left. For larger ones the differences cancel and nothing is left.
-/

namespace Traquer.Correlation
open FP FloatLit Volume

/-- `y` is the correlation coefficient of the two series to within `k` units of rounding, NaN if one of them is constant. -/
def CorrWithin (k : ℝ) (xs ys : List ℝ) (y : F64) : Prop :=
  (¬ Flat xs → ¬ Flat ys → WithinUnits k (pearson xs ys) y) ∧ (Flat xs ∨ Flat ys → y = FP.nan)

/-- A whole number within `2^53` has no error. -/
theorem whole_rel {x : F64} {a : ℝ} {c : ℕ} (h : Whole x a c) (hc : c ≤ 2 ^ 53) : Rel x a 0 := by
  refine Rel.of_is h.1 fun b hb => ?_
  rw [hb.unique h.1]
  obtain ⟨z, rfl⟩ := h.2.1
  exact rnd_int (h.2.2.trans (by exact_mod_cast hc))

/-- The root of a number off by `k` roundings is off by `k + 1`. -/
theorem Rel.root {x : F64} {a : ℝ} {k : ℕ} (h : Rel x a k) (ha : 0 < a) (hk : 2 * (k : ℝ) * unit64 ≤ 1) (hc : Clear64 (Real.sqrt a))
    (hB : 2 * |Real.sqrt a| ≤ max64) : Rel (sqrt x) (Real.sqrt a) (k + 1) := by
  obtain ⟨t, hx, t1, t2, -⟩ := h
  have tp : 0 < t := lt_of_lt_of_le (inv_pos.2 (off_pos k)) t1
  have hr := rounds_sqrt hx (by positivity)
  rw [Real.sqrt_mul ha.le] at hr
  refine Rel.round_clear hr ?_ ?_ hk hc hB
  · rcases le_total t 1 with h | h
    · exact t1.trans (Real.le_sqrt_of_sq_le (by nlinarith))
    · exact (inv_le_one_of_one_le₀ (off_ge k)).trans (Real.one_le_sqrt.2 h)
  · rcases le_total t 1 with h | h
    · exact (Real.sqrt_le_one.2 h).trans (off_ge k)
    · exact (Real.sqrt_le_iff.2 ⟨tp.le, by nlinarith⟩).trans t2

/-- Sums of the products of two lists of whole numbers. -/
theorem whole_dot {l : List (F64 × F64)} {f : F64 × F64 → F64} {g : F64 × F64 → ℝ} {c : ℕ} (h : ∀ p ∈ l, Whole (f p) (g p) c)
    (hb : l.length * c ≤ 2 ^ 53) : Whole (l.foldl (fun s p => s + f p) 0) (l.map g).sum (l.length * c) := by
  have := Whole.fsum (v := l.map f) (r := l.map g) (c := c) (by
    rw [List.forall₂_map_left_iff, List.forall₂_map_right_iff]
    exact List.forall₂_same.2 h) (by simpa using hb)
  rw [Traquer.fsum, List.foldl_map, List.length_map] at this
  exact this

theorem Rel.is_zero {x : F64} {k : ℕ} (h : Rel x 0 k) : x ⇓ 0 := by
  obtain ⟨t, h, -⟩ := h
  rwa [zero_mul] at h

theorem sqrt_is_zero {x : F64} (h : x ⇓ 0) : sqrt x ⇓ 0 := by
  have := rounds_sqrt h le_rfl
  rw [Real.sqrt_zero] at this
  exact is64 this rnd64_zero (le_max64_of (by norm_num))

/-- The closing quotient, from a numerator and two squared denominators that are off by a few roundings. -/
theorem corr_quot {xs ys : List ℝ} {n d1 d2 : F64} {K : ℝ} {i j k : ℕ} (hl : ys.length = xs.length) (hK : 0 < K)
    (hn : Rel n (K * covar xs ys) i) (h1 : Rel d1 (K * moment 2 xs) j) (h2 : Rel d2 (K * moment 2 ys) k) (small : i + j + k ≤ 2 ^ 20)
    (c0 : covar xs ys ≠ 0 → 2 ^ (-60 : ℤ) ≤ |K * covar xs ys|) (c1 : ¬ Flat xs → 2 ^ (-60 : ℤ) ≤ K * moment 2 xs)
    (c2 : ¬ Flat ys → 2 ^ (-60 : ℤ) ≤ K * moment 2 ys) (b1 : K * moment 2 xs ≤ 2 ^ 60) (b2 : K * moment 2 ys ≤ 2 ^ 60) :
    CorrWithin (2 * (i + j + k + 4)) xs ys (n / (sqrt d1 * sqrt d2)) := by
  have root : ∀ {d : F64} {l : List ℝ} {j : ℕ}, Rel d (K * moment 2 l) j → j ≤ 2 ^ 20 → ¬ Flat l → 2 ^ (-60 : ℤ) ≤ K * moment 2 l → K * moment 2 l ≤ 2 ^ 60 →
      Rel (sqrt d) (Real.sqrt K * stdDev l) (j + 1) ∧ 2 ^ (-30 : ℤ) ≤ Real.sqrt K * stdDev l ∧ Real.sqrt K * stdDev l ≤ 2 ^ 30 := by
    intro d l j h hj hf lo hi
    have e : Real.sqrt (K * moment 2 l) = Real.sqrt K * stdDev l := Real.sqrt_mul hK.le _
    have l1 : (2 : ℝ) ^ (-30 : ℤ) ≤ Real.sqrt (K * moment 2 l) := Real.le_sqrt_of_sq_le (by refine le_trans ?_ lo; norm_num)
    have l2 : Real.sqrt (K * moment 2 l) ≤ 2 ^ 30 := Real.sqrt_le_iff.2 ⟨by norm_num, by refine hi.trans ?_; norm_num⟩
    rw [← e]
    exact ⟨Rel.root h (lt_of_lt_of_le (by positivity) lo) (units_ok (by omega)) (clear_of_le (e := -30) (by norm_num) l1)
      (fits_of_le (e := 30) (by norm_num) (by rwa [abs_of_nonneg (Real.sqrt_nonneg _)])), l1, l2⟩
  constructor
  · intro f1 f2
    obtain ⟨r1, lo1, hi1⟩ := root h1 (by omega) f1 (c1 f1) b1
    obtain ⟨r2, lo2, hi2⟩ := root h2 (by omega) f2 (c2 f2) b2
    set u := Real.sqrt K * stdDev xs with hu
    set v := Real.sqrt K * stdDev ys with hv
    have z : (0 : ℝ) < 2 ^ (-30 : ℤ) := by positivity
    have lo : (2 : ℝ) ^ (-60 : ℤ) ≤ u * v := by
      refine le_trans ?_ (mul_le_mul lo1 lo2 z.le (z.le.trans lo1))
      norm_num
    have hi : u * v ≤ 2 ^ 60 := by
      refine (mul_le_mul hi1 hi2 (z.le.trans lo2) (by norm_num)).trans ?_
      norm_num
    have uv : 0 < u * v := lt_of_lt_of_le (by positivity) lo
    have den := Rel.mul r1 r2 (units_ok (by omega)) (clear_of_le (e := -60) (by norm_num) lo) (fits_of_le (e := 60) (by norm_num) (by rwa [abs_of_pos uv]))
    have e : K * covar xs ys / (u * v) = pearson xs ys := by
      have : u * v = K * (stdDev xs * stdDev ys) := by
        rw [hu, hv, mul_mul_mul_comm, Real.mul_self_sqrt hK.le]
      rw [this, pearson, mul_div_mul_left _ _ hK.ne']
    have pr := pearson_range hl
    have q := Rel.quot hn den uv.ne' (units_ok (by omega)) (by
      by_cases h0 : covar xs ys = 0
      · exact .inl (by rw [h0]; simp)
      · refine .inr ?_
        rw [abs_div, abs_of_pos uv, le_div_iff₀ uv]
        refine le_trans ?_ (c0 h0)
        refine (mul_le_mul_of_nonneg_left hi (by positivity)).trans ?_
        have : (2 : ℝ) ^ (-1021 : ℤ) ≤ 2 ^ (-120 : ℤ) := zpow_le_zpow_right₀ (by norm_num) (by norm_num)
        refine (mul_le_mul_of_nonneg_right this (by positivity)).trans ?_
        norm_num) (fits_of_le (e := 0) (by norm_num) (by rw [e]; simpa using abs_le.2 pr))
    rw [e] at q
    have := Rel.withinUnits q (by omega)
    convert this using 1
    push_cast
    ring
  · intro hf
    have n0 : n ⇓ 0 := Rel.is_zero (by rwa [covar_flat hl hf, mul_zero] at hn)
    have fin : ∀ {d : F64} {l : List ℝ} {j : ℕ}, Rel d (K * moment 2 l) j → j ≤ 2 ^ 20 → (¬ Flat l → 2 ^ (-60 : ℤ) ≤ K * moment 2 l) → K * moment 2 l ≤ 2 ^ 60 →
        ∃ b, sqrt d ⇓ b := by
      intro d l j h hj lo hi
      by_cases f : Flat l
      · exact ⟨0, sqrt_is_zero (Rel.is_zero (by rwa [moment_two_eq_zero.2 f, mul_zero] at h))⟩
      · obtain ⟨t, h, -⟩ := (root h hj f (lo f) hi).1
        exact ⟨_, h⟩
    obtain ⟨a, ha⟩ := fin h1 (by omega) c1 b1
    obtain ⟨b, hb⟩ := fin h2 (by omega) c2 b2
    have zz : sqrt d1 ⇓ 0 ∨ sqrt d2 ⇓ 0 := by
      rcases hf with f | f
      · exact .inl (sqrt_is_zero (Rel.is_zero (by rwa [moment_two_eq_zero.2 f, mul_zero] at h1)))
      · exact .inr (sqrt_is_zero (Rel.is_zero (by rwa [moment_two_eq_zero.2 f, mul_zero] at h2)))
    refine nan_of_zero_div n0 (is64 (rounds_mul ha hb) ?_ (le_max64_of (by norm_num)))
    rcases zz with h | h
    · rw [ha.unique h, zero_mul, rnd64_zero]
    · rw [hb.unique h, mul_zero, rnd64_zero]

theorem pccWin_whole {xw yw : List F64} {w c m : ℕ} (hx : Wholes c xw) (hy : Wholes m yw) (lx : xw.length = w) (ly : yw.length = w) (hw : 1 ≤ w)
    (h1 : 2 * (w * c) ^ 2 ≤ 2 ^ 53) (h2 : 2 * (w * m) ^ 2 ≤ 2 ^ 53) (h3 : w ≤ 2 ^ 53) :
    CorrWithin 8 (vals xw) (vals yw) (pccWin w xw yw) := by
  have hl : (vals yw).length = (vals xw).length := by simp [lx, ly]
  have fx : ∀ p ∈ xw.zip yw, Whole p.1 p.1.val c := fun p hp => hx.of_mem (zip_mem hp).1
  have fy : ∀ p ∈ xw.zip yw, Whole p.2 p.2.val m := fun p hp => hy.of_mem (zip_mem hp).2
  have lz : (xw.zip yw).length = w := by simp [lx, ly]
  have e1 : ∀ g : ℝ → ℝ → ℝ, ((xw.zip yw).map fun p => g p.1.val p.2.val) = ((vals xw).zip (vals yw)).map fun p => g p.1 p.2 := fun g => by
    rw [zip_vals, List.map_map]; rfl
  have one : ∀ a : ℕ, a ≤ w * a := fun a => Nat.le_mul_of_pos_left _ hw
  have cc : w * (w * (c * c)) ≤ 2 ^ 52 := by nlinarith
  have mm : w * (w * (m * m)) ≤ 2 ^ 52 := by nlinarith
  have cm : w * (w * (c * m)) ≤ 2 ^ 52 := by nlinarith [sq_nonneg ((w * c : ℤ) - w * m), two_mul_le_add_sq (w * c) (w * m)]
  have c1 : w * c ≤ 2 ^ 53 := by nlinarith [Nat.le_self_pow (n := 2) (by norm_num) (w * c)]
  have m1 : w * m ≤ 2 ^ 53 := by nlinarith [Nat.le_self_pow (n := 2) (by norm_num) (w * m)]
  have sxy := (whole_dot (fun p hp => (fx p hp).mul (fy p hp) (by linarith [one (c * m), one (w * (c * m))])) (by
    rw [lz]; linarith [one (w * (c * m))])).congr (b := (((vals xw).zip (vals yw)).map fun p => p.1 * p.2).sum) (by rw [e1 fun a b => a * b])
  have sx := (whole_dot fx (by rwa [lz])).congr (b := (vals xw).sum) (by rw [e1 fun a _ => a, zip_fst hl])
  have sy := (whole_dot fy (by rwa [lz])).congr (b := (vals yw).sum) (by rw [e1 fun _ b => b, zip_snd hl])
  have sx2 := (whole_dot (fun p hp => (fx p hp).mul (fx p hp) (by linarith [one (c * c), one (w * (c * c))])) (by
    rw [lz]; linarith [one (w * (c * c))])).congr (b := ((vals xw).map fun x => x ^ 2).sum) (by
      rw [e1 fun a _ => a * a, map_zip_fst hl fun x => x * x]; simp only [pow_two])
  have sy2 := (whole_dot (fun p hp => (fy p hp).mul (fy p hp) (by linarith [one (m * m), one (w * (m * m))])) (by
    rw [lz]; linarith [one (w * (m * m))])).congr (b := ((vals yw).map fun x => x ^ 2).sum) (by
      rw [e1 fun _ b => b * b, map_zip_snd hl fun x => x * x]; simp only [pow_two])
  rw [lz] at sxy sx sy sx2 sy2
  have hw0 : (0 : ℝ) < w := by exact_mod_cast hw
  have vx : (w : ℝ) * ((vals xw).map fun x => x ^ 2).sum - (vals xw).sum * (vals xw).sum = (w : ℝ) ^ 2 * moment 2 (vals xw) := by
    have := moment_two_eq (vals xw)
    rw [vals_length, lx] at this
    rw [this]; ring
  have vy : (w : ℝ) * ((vals yw).map fun x => x ^ 2).sum - (vals yw).sum * (vals yw).sum = (w : ℝ) ^ 2 * moment 2 (vals yw) := by
    have := moment_two_eq (vals yw)
    rw [vals_length, ly] at this
    rw [this]; ring
  have cxy := covar_eq hl
  rw [vals_length, lx] at cxy
  have wf : Whole (flt w : F64) w w := Whole.nat h3
  have diff : ∀ {p q r : F64} {a b d : ℝ} {k l m : ℕ}, Whole p a k → Whole q b l → Whole r d m → w * k ≤ 2 ^ 52 → l * m ≤ 2 ^ 52 →
      Rel (flt w * p - q * r) (w * a - b * d) 0 ∧ (∃ z : ℤ, w * a - b * d = z) ∧ |w * a - b * d| ≤ 2 ^ 53 := by
    intro p q r a b d k l m hp hq hr i1 i2
    have := (wf.mul hp (by omega)).sub (hq.mul hr (by omega)) (by omega)
    exact ⟨whole_rel this (by omega), this.2.1, this.2.2.trans (by
      have : w * k + l * m ≤ 2 ^ 53 := by omega
      exact_mod_cast this)⟩
  obtain ⟨n1, n2, -⟩ := diff sxy sx sy cm (by nlinarith)
  obtain ⟨d1, d2, d3⟩ := diff sx2 sx sx cc (by nlinarith)
  obtain ⟨g1, g2, g3⟩ := diff sy2 sy sy mm (by nlinarith)
  rw [← cxy] at n1 n2
  rw [vx] at d1 d2 d3
  rw [vy] at g1 g2 g3
  have far : ∀ {a : ℝ}, (∃ z : ℤ, a = z) → a ≠ 0 → (2 : ℝ) ^ (-60 : ℤ) ≤ |a| := by
    rintro a ⟨z, rfl⟩ h
    have : (1 : ℤ) ≤ |z| := Int.one_le_abs (by exact_mod_cast h)
    have : (1 : ℝ) ≤ |(z : ℝ)| := by exact_mod_cast this
    refine le_trans ?_ this
    exact zpow_le_one_of_nonpos₀ (by norm_num) (by norm_num)
  have mom : ∀ {l : List ℝ}, (∃ z : ℤ, (w : ℝ) ^ 2 * moment 2 l = z) → ¬ Flat l → (2 : ℝ) ^ (-60 : ℤ) ≤ (w : ℝ) ^ 2 * moment 2 l := by
    intro l hz hf
    have := far hz (mul_ne_zero (by positivity) fun e => hf (moment_two_eq_zero.1 e))
    rwa [abs_of_nonneg (mul_nonneg (sq_nonneg _) (moment_two_nonneg _))] at this
  have top : ∀ {a : ℝ}, |a| ≤ 2 ^ 53 → a ≤ 2 ^ 60 := fun h => (le_abs_self _).trans (h.trans (by norm_num))
  simp only [pccWin, pccSums, pccFold]
  have := corr_quot hl (K := (w : ℝ) ^ 2) (by positivity) n1 d1 g1 (by norm_num) (fun h => far n2 (mul_ne_zero (by positivity) h)) (mom d2) (mom g2) (top d3) (top g3)
  convert this using 1
  norm_num

/-- C119: the correlation of whole numbers is within eight units of rounding of Pearson's coefficient, and NaN exactly for a constant window,
as long as `2 (w c)²` stays within `2^53`. -/
theorem pcc_whole (s1 s2 : List F64) (w c m : ℕ) (h : s2.length = s1.length) (hw : 1 ≤ w) (hn : w ≤ s1.length + 1) (hx : Wholes c s1) (hy : Wholes m s2)
    (h1 : 2 * (w * c) ^ 2 ≤ 2 ^ 53) (h2 : 2 * (w * m) ^ 2 ≤ 2 ^ 53) (h3 : w ≤ 2 ^ 53) :
    ReportsP s1.length (w - 1) (fun i => CorrWithin 8 (recent (vals s1) w i) (recent (vals s2) w i)) (pcc s1 s2 w) := by
  run_model [pcc]
  refine reportsP_windows2 (P := fun i => CorrWithin 8 (recent (vals s1) w i) (recent (vals s2) w i)) hw h hn fun i hi hl => ?_
  rw [← recent_vals, ← recent_vals]
  exact pccWin_whole (hx.recent w i) (hy.recent w i) (recent_length hi hl) (recent_length hi (by omega)) hw h1 h2 h3

/-! ## Spearman -/

/-- `x` is a multiple of `2^-j`, at most `c` of them in size. -/
def Grid (j : ℕ) (x : F64) (a : ℝ) (c : ℕ) : Prop := x ⇓ a ∧ ∃ z : ℤ, a * 2 ^ j = z ∧ |z| ≤ c

theorem grid_rnd {j : ℕ} {a : ℝ} {z : ℤ} (hj : j ≤ 10) (e : a * 2 ^ j = z) (hz : |z| ≤ 2 ^ 53) : rnd64 a = a ∧ |a| ≤ max64 := by
  have p : (0 : ℝ) < 2 ^ j := by positivity
  have ea : a = z * 2 ^ (-(j : ℤ)) := by
    rw [zpow_neg, zpow_natCast, ← e, mul_assoc, mul_inv_cancel₀ p.ne', mul_one]
  refine ⟨by rw [ea]; exact rnd64_exact hz (by omega), le_max64_of ?_⟩
  have h1 : |(z : ℝ)| ≤ 2 ^ 53 := by exact_mod_cast hz
  rw [← e, abs_mul, abs_of_pos p] at h1
  have h2 : (1 : ℝ) ≤ 2 ^ j := one_le_pow₀ (by norm_num)
  nlinarith [abs_nonneg a]

theorem Grid.of_rounds {j : ℕ} {x : F64} {a : ℝ} {z : ℤ} {c : ℕ} (h : Rounds x a) (hj : j ≤ 10) (e : a * 2 ^ j = z) (hz : |z| ≤ c) (hc : c ≤ 2 ^ 53) :
    Grid j x a c := by
  obtain ⟨h1, h2⟩ := grid_rnd hj e (hz.trans (by exact_mod_cast hc))
  exact ⟨is64 h h1 h2, z, e, hz⟩

theorem Grid.rel {j : ℕ} {x : F64} {a : ℝ} {c : ℕ} (h : Grid j x a c) (hj : j ≤ 10) (hc : c ≤ 2 ^ 53) : Rel x a 0 := by
  obtain ⟨h, z, e, hz⟩ := h
  obtain ⟨h1, h2⟩ := grid_rnd hj e (hz.trans (by exact_mod_cast hc))
  refine Rel.of_is h fun b hb => ?_
  rw [hb.unique h]
  exact ⟨h1, h2⟩

theorem Grid.sub {j : ℕ} {x y : F64} {a b : ℝ} {c d : ℕ} (hx : Grid j x a c) (hy : Grid j y b d) (hj : j ≤ 10) (h : c + d ≤ 2 ^ 53) :
    Grid j (x - y) (a - b) (c + d) := by
  obtain ⟨hx, z, e, hz⟩ := hx
  obtain ⟨hy, z', e', hz'⟩ := hy
  refine Grid.of_rounds (rounds_sub hx hy) hj (z := z - z') (by push_cast; rw [← e, ← e']; ring) ?_ h
  push_cast
  exact (abs_sub z z').trans (add_le_add hz hz')

theorem Grid.add {j : ℕ} {x y : F64} {a b : ℝ} {c d : ℕ} (hx : Grid j x a c) (hy : Grid j y b d) (hj : j ≤ 10) (h : c + d ≤ 2 ^ 53) :
    Grid j (x + y) (a + b) (c + d) := by
  obtain ⟨hx, z, e, hz⟩ := hx
  obtain ⟨hy, z', e', hz'⟩ := hy
  refine Grid.of_rounds (rounds_add hx hy) hj (z := z + z') (by push_cast; rw [← e, ← e']; ring) ?_ h
  push_cast
  exact (abs_add_le z z').trans (add_le_add hz hz')

theorem Grid.mul {i j : ℕ} {x y : F64} {a b : ℝ} {c d : ℕ} (hx : Grid i x a c) (hy : Grid j y b d) (hj : i + j ≤ 10) (h : c * d ≤ 2 ^ 53) :
    Grid (i + j) (x * y) (a * b) (c * d) := by
  obtain ⟨hx, z, e, hz⟩ := hx
  obtain ⟨hy, z', e', hz'⟩ := hy
  refine Grid.of_rounds (rounds_mul hx hy) hj (z := z * z') (by push_cast; rw [← e, ← e', pow_add]; ring) ?_ h
  push_cast
  rw [abs_mul]
  exact mul_le_mul hz hz' (abs_nonneg _) (by positivity)

theorem Grid.fold {α : Type} {j c : ℕ} {l : List α} {f : α → F64} {g : α → ℝ} (hj : j ≤ 10) (h : ∀ p ∈ l, Grid j (f p) (g p) c) :
    ∀ (acc : F64) (s : ℝ) (d : ℕ), Grid j acc s d → d + l.length * c ≤ 2 ^ 53 →
      Grid j (l.foldl (fun s p => s + f p) acc) (s + (l.map g).sum) (d + l.length * c) := by
  induction l with
  | nil => intro acc s d h0 _; simpa using h0
  | cons p l ih =>
    intro acc s d h0 hb
    have e : d + (p :: l).length * c = d + c + l.length * c := by rw [List.length_cons, Nat.succ_mul]; omega
    rw [e] at hb ⊢
    have := ih (fun q hq => h q (List.mem_cons_of_mem _ hq)) (acc + f p) (s + g p) (d + c) (h0.add (h p List.mem_cons_self) hj (by omega)) hb
    rwa [add_assoc, ← List.sum_cons, ← List.map_cons] at this

theorem Grid.zero {j : ℕ} : Grid j (0 : F64) 0 0 := ⟨isZero, 0, by simp, by simp⟩

theorem Grid.total {α : Type} {j c : ℕ} {l : List α} {f : α → F64} {g : α → ℝ} (hj : j ≤ 10) (h : ∀ p ∈ l, Grid j (f p) (g p) c)
    (hb : l.length * c ≤ 2 ^ 53) : Grid j (l.foldl (fun s p => s + f p) 0) (l.map g).sum (l.length * c) := by
  have := Grid.fold hj h 0 0 0 Grid.zero (by omega)
  rwa [zero_add, Nat.zero_add] at this

/-- Different values have the ranks 1 to n, in some order. -/
theorem sum_ranksOf {xs : List ℝ} (h : xs.Nodup) : 2 * (ranksOf xs).sum = xs.length * (xs.length + 1) := by
  have key : ∀ l : List ℝ, l.Nodup → 2 * (l.map fun x => ((l.countP fun y => decide (y < x)) : ℝ)).sum + l.length = l.length * l.length := by
    intro l
    induction l with
    | nil => intro _; simp
    | cons a t ih =>
      intro hn
      obtain ⟨ha, hn⟩ := List.nodup_cons.1 hn
      have i := ih hn
      have split : ∀ t' : List ℝ, (∀ x ∈ t', x ≠ a) → (t'.map fun x => (((a :: t).countP fun y => decide (y < x)) : ℝ)).sum + t'.countP (fun y => decide (y < a)) =
          (t'.map fun x => ((t.countP fun y => decide (y < x)) : ℝ)).sum + t'.length := by
        intro t'
        induction t' with
        | nil => intro _; simp
        | cons b t' ih' =>
          intro hne
          have i' := ih' fun x hx => hne x (List.mem_cons_of_mem _ hx)
          have hb := hne b List.mem_cons_self
          rw [List.map_cons, List.map_cons, List.sum_cons, List.sum_cons, List.countP_cons, List.countP_cons, List.length_cons]
          rcases lt_or_gt_of_ne hb with h | h
          · have h' : ¬ a < b := not_lt.2 h.le
            simp only [h, h', decide_true, decide_false, if_true, Bool.false_eq_true, if_false]
            push_cast
            linarith
          · have h' : ¬ b < a := not_lt.2 (le_of_lt h)
            have h : a < b := h
            simp only [h, h', decide_true, decide_false, if_true, Bool.false_eq_true, if_false]
            push_cast
            linarith
      have s := split t fun x hx e => ha (e ▸ hx)
      rw [List.map_cons, List.sum_cons, List.length_cons]
      have c : ((a :: t).countP fun y => decide (y < a)) = t.countP fun y => decide (y < a) := by simp
      rw [c]
      push_cast
      linarith
  have k := key xs h
  have e : (ranksOf xs).sum = (xs.map fun x => ((xs.countP fun y => decide (y < x)) : ℝ)).sum + xs.length := by
    rw [ranksOf, List.sum_map_add]; simp
  rw [e]
  linarith

open Distribution in
theorem rank_ranks64 (srt : Sorter F64) (hs : srt.Valid) {xw : List F64} (hx : Fins xw) (hne : xw ≠ []) (hl : xw.length < 2 ^ 53) :
    ∃ r, rank srt xw none = some r ∧ vals r = ranksOf (vals xw) ∧ r.length = xw.length ∧ ∀ x ∈ r, Grid 1 x x.val (2 * xw.length) := by
  obtain ⟨r, e, l, h⟩ := rank_min srt hs xw (NoNaN.of_fins hx) hne none (.inl rfl)
  have hr : r = xw.map fun x => flt (numBelow xw x + 1) := by
    apply List.ext_getElem?
    intro i
    by_cases hi : i < xw.length
    · rw [h i _ (List.getElem?_eq_getElem hi)]; simp [hi]
    · rw [List.getElem?_eq_none (by omega), List.getElem?_eq_none (by simp; omega)]
  have nb : ∀ x ∈ xw, numBelow xw x + 1 ≤ xw.length := by
    intro x hx'
    have : numBelow xw x < xw.length := by
      rw [numBelow]
      refine lt_of_le_of_ne List.countP_le_length fun he => ?_
      have := List.countP_eq_length.1 he x hx'
      rw [is_lt (hx x hx').is (hx x hx').is] at this
      simp at this
    omega
  have hv : ∀ x ∈ xw, (flt (numBelow xw x + 1) : F64) ⇓ ((numBelow xw x + 1 : ℕ) : ℝ) := fun x hx' => isFlt (by have := nb x hx'; omega)
  refine ⟨r, e, ?_, l, ?_⟩
  · rw [hr, ranksOf, vals, vals, List.map_map, List.map_map]
    refine List.map_congr_left fun x hx' => ?_
    simp only [Function.comp]
    rw [(hv x hx').val_eq]
    push_cast
    congr 2
    rw [numBelow, List.countP_map]
    refine List.countP_congr fun y hy => ?_
    rw [is_lt (hx y hy).is (hx x hx').is]; rfl
  · intro y hy
    rw [hr] at hy
    obtain ⟨x, hx', rfl⟩ := List.mem_map.1 hy
    have v := hv x hx'
    have n := nb x hx'
    refine ⟨by rw [v.val_eq]; exact v, 2 * (numBelow xw x + 1 : ℕ), by rw [v.val_eq]; push_cast; ring, ?_⟩
    rw [abs_of_nonneg (by positivity)]
    exact_mod_cast (by omega : 2 * (numBelow xw x + 1) ≤ 2 * xw.length)

open Distribution in
theorem cov_stdev_untied {rx ry : List F64} {w : ℕ} (gx : ∀ x ∈ rx, Grid 1 x x.val (2 * w)) (gy : ∀ x ∈ ry, Grid 1 x x.val (2 * w))
    (lx : rx.length = w) (ly : ry.length = w) (hw : 2 ≤ w) (hw' : w ≤ 50000) (sx : 2 * (vals rx).sum = w * (w + 1)) (sy : 2 * (vals ry).sum = w * (w + 1)) :
    ∃ a b c, cov_stdev rx ry = some (a, b, c) ∧ CorrWithin 14 (vals rx) (vals ry) (a / (b * c)) := by
  have hl : (vals ry).length = (vals rx).length := by simp [lx, ly]
  have hw0 : (0 : ℝ) < w := by exact_mod_cast (by omega : 0 < w)
  have ww : w * (2 * w) ≤ 2 ^ 53 := by nlinarith
  have avg : ∀ {l : List F64}, (∀ x ∈ l, Grid 1 x x.val (2 * w)) → l.length = w → 2 * (vals l).sum = w * (w + 1) →
      Grid 1 (l.foldl (fun acc x => acc + x) 0 / flt l.length) (mean (vals l)) (w + 1) := fun {l} g hl hs => by
    have := Grid.total (j := 1) (by norm_num) g (by rwa [hl])
    refine Grid.of_rounds (z := w + 1) (c := w + 1) ?_ (by norm_num) ?_ (by rw [abs_of_nonneg (by positivity)]; push_cast; rfl) (by omega)
    · have r := rounds_div this.1 (isFlt (n := l.length) (by omega)) (by rw [hl]; positivity)
      rwa [show (l.map fun x => x.val).sum / (l.length : ℝ) = mean (vals l) by rw [mean, vals_length]; rfl] at r
    · rw [mean, vals_length, hl, pow_one, div_mul_eq_mul_div, mul_comm, hs]
      push_cast
      field_simp
  have ax := avg gx lx sx
  have ay := avg gy ly sy
  have B : w * ((2 * w + (w + 1)) * (2 * w + (w + 1))) ≤ 2 ^ 53 := by
    have h1 : 2 * w + (w + 1) ≤ 150001 := by omega
    calc w * ((2 * w + (w + 1)) * (2 * w + (w + 1))) ≤ 50000 * (150001 * 150001) := Nat.mul_le_mul hw' (Nat.mul_le_mul h1 h1)
      _ ≤ 2 ^ 53 := by norm_num
  have B' : (2 * w + (w + 1)) * (2 * w + (w + 1)) ≤ 2 ^ 53 := le_trans (Nat.le_mul_of_pos_left _ (by omega)) B
  have dx : ∀ x ∈ rx, Grid 1 (x - rx.foldl (fun acc x => acc + x) 0 / flt rx.length) (x.val - mean (vals rx)) (2 * w + (w + 1)) :=
    fun x hx => (gx x hx).sub ax (by norm_num) (by omega)
  have dy : ∀ x ∈ ry, Grid 1 (x - ry.foldl (fun acc x => acc + x) 0 / flt ry.length) (x.val - mean (vals ry)) (2 * w + (w + 1)) :=
    fun x hx => (gy x hx).sub ay (by norm_num) (by omega)
  have cxy := Grid.total (j := 2) (l := rx.zip ry) (by norm_num) (fun p hp => (dx _ (zip_mem hp).1).mul (dy _ (zip_mem hp).2) (by norm_num) B')
    (by simpa [lx, ly] using B)
  have ce : ((rx.zip ry).map fun p => (p.1.val - mean (vals rx)) * (p.2.val - mean (vals ry))).sum = w * covar (vals rx) (vals ry) := by
    rw [covar, mean_of_length (l := List.map _ ((vals rx).zip (vals ry))) (w := w) (by simp [lx, ly]), zip_vals, List.map_map]
    field_simp
    rfl
  rw [ce] at cxy
  have sq : ∀ {l : List F64} {m : F64}, l.length = w → (∀ x ∈ l, Grid 1 (x - m) (x.val - mean (vals l)) (2 * w + (w + 1))) →
      Grid 2 (powDev l m 2) (w * moment 2 (vals l)) (w * ((2 * w + (w + 1)) * (2 * w + (w + 1)))) := fun {l m} hl g => by
    have one : Grid 0 (1 : F64) 1 1 := ⟨isOne, 1, by simp, by simp⟩
    have := Grid.total (j := 2) (l := l) (f := fun x => powi (x - m) 2) (g := fun x => 1 * ((x.val - mean (vals l)) * (x.val - mean (vals l)))) (by norm_num) (fun x hx => by
      rw [show powi (x - m) 2 = 1 * ((x - m) * (x - m)) by simp [powi, powiLoop]]
      have := one.mul ((g x hx).mul (g x hx) (by norm_num) B') (by norm_num) (by omega)
      simpa using this) (by rwa [hl])
    rw [hl] at this
    have e : (l.map fun x => 1 * ((x.val - mean (vals l)) * (x.val - mean (vals l)))).sum = w * moment 2 (vals l) := by
      rw [moment, mean_of_length (l := List.map _ (vals l)) (w := w) (by simp [hl])]
      rw [mul_div_cancel₀ _ hw0.ne', vals, List.map_map]
      congr 1
      refine List.map_congr_left fun x _ => ?_
      simp [pow_two]
    rw [e] at this
    exact this
  have px := sq lx dx
  have py := sq ly dy
  rw [show (rx.zip ry).length = w by simp [lx, ly]] at cxy
  refine ⟨_, _, _, by run_model [cov_stdev]; rfl, ?_⟩
  have hw1 : (0 : ℝ) < (w - 1 : ℕ) := by exact_mod_cast (by omega : 0 < w - 1)
  have w1 : ((w - 1 : ℕ) : ℝ) ≤ 2 ^ 16 := by exact_mod_cast (by omega : w - 1 ≤ 2 ^ 16)
  have w1' : (1 : ℝ) ≤ (w - 1 : ℕ) := by exact_mod_cast (by omega : 1 ≤ w - 1)
  have n1 : Rel (flt (rx.length - 1) : F64) ((w - 1 : ℕ) : ℝ) 0 := by rw [lx]; exact Smooth.relNat (by omega)
  have n2 : Rel (flt (ry.length - 1) : F64) ((w - 1 : ℕ) : ℝ) 0 := by rw [ly]; exact Smooth.relNat (by omega)
  have lo : ∀ {a : ℝ} {x : F64} {c : ℕ}, Grid 2 x a c → a ≠ 0 → (2 : ℝ) ^ (-60 : ℤ) ≤ |a / (w - 1 : ℕ)| := fun {a x c} g h => by
    obtain ⟨-, z, e, -⟩ := g
    have hz : z ≠ 0 := fun h0 => h (by rw [h0] at e; simpa using e)
    have : (1 : ℤ) ≤ |z| := Int.one_le_abs hz
    have : (1 : ℝ) ≤ |(z : ℝ)| := by exact_mod_cast this
    rw [← e, abs_mul, abs_of_nonneg (by norm_num : (0 : ℝ) ≤ 2 ^ 2)] at this
    rw [abs_div, abs_of_pos hw1, le_div_iff₀ hw1]
    calc (2 : ℝ) ^ (-60 : ℤ) * (w - 1 : ℕ) ≤ 2 ^ (-60 : ℤ) * 2 ^ 16 := mul_le_mul_of_nonneg_left w1 (by positivity)
      _ ≤ 1 / 4 := by norm_num
      _ ≤ |a| := by linarith
  have hi : ∀ {a : ℝ} {x : F64} {c : ℕ}, Grid 2 x a c → c ≤ 2 ^ 53 → |a / (w - 1 : ℕ)| ≤ 2 ^ 53 := fun {a x c} g h => by
    obtain ⟨-, z, e, hz⟩ := g
    have : |(z : ℝ)| ≤ 2 ^ 53 := by exact_mod_cast hz.trans (by exact_mod_cast h)
    rw [← e, abs_mul, abs_of_nonneg (by norm_num : (0 : ℝ) ≤ 2 ^ 2)] at this
    rw [abs_div, abs_of_pos hw1]
    exact (div_le_self (abs_nonneg _) w1').trans (by linarith [abs_nonneg a])
  have quo : ∀ {a : ℝ} {x y : F64} {c : ℕ}, Grid 2 x a c → c ≤ 2 ^ 53 → Rel y ((w - 1 : ℕ) : ℝ) 0 → Rel (x / y) (a / (w - 1 : ℕ)) 1 := fun {a x y c} g h hy => by
    refine Rel.quot (g.rel (by norm_num) h) hy hw1.ne' (units_ok (by norm_num)) ?_ (fits_of_le (e := 53) (by norm_num) (hi g h))
    by_cases h0 : a = 0
    · exact .inl (by rw [h0, zero_div])
    · exact .inr (le_trans (zpow_le_zpow_right₀ (by norm_num) (by norm_num)) (lo g h0))
  have re : ∀ a : ℝ, w * a / (w - 1 : ℕ) = w / (w - 1 : ℕ) * a := fun a => by ring
  have q0 := quo cxy B n1
  have q1 := quo px B n1
  have q2 := quo py B n2
  rw [re] at q0 q1 q2
  have mom : ∀ {l : List ℝ} {x : F64} {c : ℕ}, Grid 2 x (w * moment 2 l) c → ¬ Flat l → (2 : ℝ) ^ (-60 : ℤ) ≤ w / (w - 1 : ℕ) * moment 2 l := by
    intro l x c g hf
    have := lo g (mul_ne_zero hw0.ne' fun e => hf (moment_two_eq_zero.1 e))
    rwa [re, abs_of_nonneg (mul_nonneg (by positivity) (moment_two_nonneg _))] at this
  have top : ∀ {l : List ℝ} {x : F64} {c : ℕ}, Grid 2 x (w * moment 2 l) c → c ≤ 2 ^ 53 → w / (w - 1 : ℕ) * moment 2 l ≤ 2 ^ 60 := by
    intro l x c g h
    have := hi g h
    rw [re] at this
    exact (le_abs_self _).trans (this.trans (by norm_num))
  have := corr_quot hl (K := (w : ℝ) / (w - 1 : ℕ)) (by positivity) q0 q1 q2 (by norm_num) (fun h => by
    rw [← re]; exact lo cxy (mul_ne_zero hw0.ne' h)) (mom px) (mom py) (top px B) (top py B)
  convert this using 1
  norm_num

theorem ranks_not_flat {xs : List ℝ} (h : xs.Nodup) (hl : 2 ≤ xs.length) : ¬ Flat (ranksOf xs) := by
  intro hf
  obtain ⟨m, hm, hmin⟩ := Finset.exists_min_image xs.toFinset id (by
    obtain ⟨x, hx⟩ := List.exists_mem_of_length_pos (show 0 < xs.length by omega)
    exact ⟨x, by simpa using hx⟩)
  have hm : m ∈ xs := by simpa using hm
  have r1 : (1 : ℝ) ∈ ranksOf xs := by
    refine List.mem_map.2 ⟨m, hm, ?_⟩
    have : (xs.countP fun y => decide (y < m)) = 0 := List.countP_eq_zero.2 fun y hy => by
      simpa using hmin y (by simpa using hy)
    rw [this]; simp
  have all : ranksOf xs = List.replicate xs.length 1 := List.eq_replicate_iff.2 ⟨by simp [ranksOf], fun y hy => hf y hy 1 r1⟩
  have s := sum_ranksOf h
  rw [all, List.sum_replicate] at s
  have : (2 : ℝ) ≤ xs.length := by exact_mod_cast hl
  simp at s
  nlinarith

open Distribution in
/-- C119: on windows of different prices, up to 50000 of them, `srcc` is within 14 units of rounding of Spearman's coefficient, whatever the prices. -/
theorem srcc_untied (srt : Sorter F64) (hs : srt.Valid) (s1 s2 : List F64) (w : ℕ) (h : s2.length = s1.length) (hw : 2 ≤ w) (hw' : w ≤ 50000)
    (hn : w ≤ s1.length + 1) (h1 : Fins s1) (h2 : Fins s2) (d1 : ∀ i, w ≤ i + 1 → i < s1.length → (recent (vals s1) w i).Nodup)
    (d2 : ∀ i, w ≤ i + 1 → i < s1.length → (recent (vals s2) w i).Nodup) :
    ReportsP s1.length (w - 1) (fun i => WithinUnits 14 (pearson (ranksOf (recent (vals s1) w i)) (ranksOf (recent (vals s2) w i))))
      (srcc srt s1 s2 w) := by
  have it : Items s1.length (w - 1) (fun i y => WithinUnits 14 (pearson (ranksOf (recent (vals s1) w i)) (ranksOf (recent (vals s2) w i))) y)
      (srcc srt s1 s2 w) := by
    run_model [srcc]
    refine items_windows2 (d := FP.nan) (by omega) h hn fun i hi hl => ?_
    have l1 : (recent s1 w i).length = w := recent_length hi hl
    have l2 : (recent s2 w i).length = w := recent_length hi (by omega)
    have m1 := d1 i hi hl
    have m2 := d2 i hi hl
    rw [← recent_vals] at m1 m2
    obtain ⟨rx, e1, v1, k1, g1⟩ := rank_ranks64 srt hs (h1.recent w i) (by intro e; rw [e] at l1; simp at l1; omega) (by omega)
    obtain ⟨ry, e2, v2, k2, g2⟩ := rank_ranks64 srt hs (h2.recent w i) (by intro e; rw [e] at l2; simp at l2; omega) (by omega)
    rw [l1] at g1 k1
    rw [l2] at g2 k2
    have t1 := sum_ranksOf m1
    have t2 := sum_ranksOf m2
    have f1 := ranks_not_flat m1 (by rw [vals_length, l1]; exact hw)
    have f2 := ranks_not_flat m2 (by rw [vals_length, l2]; exact hw)
    rw [vals_length, l1, ← v1] at t1
    rw [vals_length, l2, ← v2] at t2
    rw [← v1] at f1
    rw [← v2] at f2
    obtain ⟨a, b, c, e3, hc⟩ := cov_stdev_untied g1 g2 k1 k2 hw hw' t1 t2
    refine ⟨a / (b * c), by simp only [e1, e2, e3, Option.bind_some], ?_⟩
    rw [← recent_vals, ← recent_vals, ← v1, ← v2]
    exact hc.1 f1 f2
  refine (srcc_aligned srt hs s1 s2 w h (by omega) hn (NoNaN.of_fins h1) (NoNaN.of_fins h2)).reportsP ?_
  obtain ⟨o, e, l, hi⟩ := it
  intro out eo
  cases e.symm.trans eo
  exact hi

/-! ## Where the correlation is lost -/

theorem rnd64_drop_one {n : ℤ} {e : ℕ} (h1 : 2 ^ 52 ≤ n) (h2 : n < 2 ^ 53) (he : 2 ≤ e) : rnd64 ((n : ℝ) * 2 ^ e + 1) = n * 2 ^ e := by
  have q : (4 : ℝ) ≤ 2 ^ e := by
    have := pow_le_pow_right₀ (show (1 : ℝ) ≤ 2 by norm_num) he
    norm_num at this
    exact this
  have p : (0 : ℝ) < 2 ^ e := by linarith
  have n1 : (2 : ℝ) ^ 52 ≤ n := by exact_mod_cast h1
  have n2 : (n : ℝ) + 1 ≤ 2 ^ 53 := by exact_mod_cast h2
  have d : ((n : ℝ) * 2 ^ e + 1) / 2 ^ e = n + 1 / 2 ^ e := by field_simp
  have s : (1 : ℝ) / 2 ^ e ≤ 1 / 4 := one_div_le_one_div_of_le (by norm_num) q
  have s0 : (0 : ℝ) < 1 / 2 ^ e := by positivity
  have := rnd64_eq (x := (n : ℝ) * 2 ^ e + 1) (e := e) (n := n) (by
    rw [zpow_add₀ (by norm_num), zpow_natCast]
    have := mul_le_mul_of_nonneg_right n1 p.le
    rw [show (2 : ℝ) ^ (52 : ℤ) = 2 ^ 52 by norm_num]
    linarith) (by
    rw [zpow_add₀ (by norm_num), zpow_natCast]
    have := mul_le_mul_of_nonneg_right n2 p.le
    rw [show (2 : ℝ) ^ (53 : ℤ) = 2 ^ 53 by norm_num]
    linarith) (by omega) (roundEven_eq (by rw [zpow_natCast, d]; linarith) (by rw [zpow_natCast, d]; linarith))
  rw [this, zpow_natCast]

/-- C119: two prices of `2^k` and `2^k + 1`, for `k` from 27 to 51, move; their correlation with themselves is 1; `pcc` gives NaN. -/
theorem pcc_lost {k : ℕ} (h1 : 27 ≤ k) (h2 : k ≤ 51) :
    pcc [(fin (2 ^ k) : F64), fin (2 ^ k + 1)] [fin (2 ^ k), fin (2 ^ k + 1)] 2 = some [FP.nan, FP.nan] ∧
    pearson [2 ^ k, 2 ^ k + 1] [2 ^ k, 2 ^ k + 1] = 1 := by
  obtain ⟨t, ht⟩ : ∃ t, k = 27 + t := ⟨k - 27, by omega⟩
  have t24 : t ≤ 24 := by omega
  obtain ⟨u, hu⟩ : ∃ u, u = 25 - t := ⟨_, rfl⟩
  have ku : k + u = 52 := by omega
  have K1 : (1 : ℝ) ≤ 2 ^ k := one_le_pow₀ (by norm_num)
  have K2 : (2 : ℝ) ^ k ≤ 2 ^ 51 := pow_le_pow_right₀ (by norm_num) h2
  have U : (2 : ℝ) ^ k * 2 ^ u = 2 ^ 52 := by rw [← pow_add, ku]
  have u1 : 1 ≤ u := by omega
  have u2 : u ≤ 25 := by omega
  have UZ : (2 : ℤ) ^ u ≤ 2 ^ 25 := pow_le_pow_right₀ (by norm_num) u2
  have UP : (0 : ℤ) < 2 ^ u := by positivity
  -- e = 2 k - 52 = k - u
  obtain ⟨e, he⟩ : ∃ e, k = u + e := ⟨k - u, by omega⟩
  have e2 : 2 ≤ e := by omega
  have E : (2 : ℝ) ^ k = 2 ^ u * 2 ^ e := by rw [← pow_add, ← he]
  have big : ∀ {a : ℝ}, |a| ≤ 2 ^ 120 → |a| ≤ max64 := fun {a} h => by
    have := fits_of_le (a := a) (e := 120) (by norm_num) h
    linarith [abs_nonneg a]
  have bigK : ∀ {a : ℝ} {B : ℝ}, 0 ≤ a → a ≤ B → B ≤ 2 ^ 120 → |a| ≤ max64 := fun h0 h hB => big (by rw [abs_of_nonneg h0]; linarith)
  have kk : (2 : ℝ) ^ k * 2 ^ k ≤ 2 ^ 102 := by
    refine (mul_le_mul K2 K2 (by positivity) (by norm_num)).trans ?_
    norm_num
  have a : (fin (2 ^ k) : F64) ⇓ 2 ^ k := is_fin _
  have b : (fin (2 ^ k + 1) : F64) ⇓ 2 ^ k + 1 := is_fin _
  have z : (0 : F64) ⇓ 0 := isZero
  have two : (flt 2 : F64) ⇓ 2 := by simpa using isFlt (ρ := Rounding.binary64) (n := 2) (by norm_num)
  have aa : (fin (2 ^ k) * fin (2 ^ k) : F64) ⇓ 2 ^ k * 2 ^ k := is64 (rounds_mul a a) (by
    have := rnd64_exact (m := 1) (e := ((2 * k : ℕ) : ℤ)) (by norm_num) (by omega)
    rw [zpow_natCast, two_mul, pow_add] at this
    simpa using this) (bigK (by positivity) kk (by norm_num))
  have bb : (fin (2 ^ k + 1) * fin (2 ^ k + 1) : F64) ⇓ 2 ^ k * 2 ^ k + 2 * 2 ^ k := is64 (rounds_mul b b) (by
    have := rnd64_drop_one (n := 2 ^ 52 + 2 * 2 ^ u) (e := e) (by omega) (by omega) e2
    push_cast at this
    rw [show (4503599627370496 : ℝ) = 2 ^ 52 by norm_num] at this
    have r : ((2 : ℝ) ^ 52 + 2 * 2 ^ u) * 2 ^ e = 2 ^ k * 2 ^ k + 2 * 2 ^ k := by
      rw [← U]
      calc ((2 : ℝ) ^ k * 2 ^ u + 2 * 2 ^ u) * 2 ^ e = 2 ^ k * (2 ^ u * 2 ^ e) + 2 * (2 ^ u * 2 ^ e) := by ring
        _ = _ := by rw [← E]
    rw [r] at this
    rw [show ((2 : ℝ) ^ k + 1) * (2 ^ k + 1) = 2 ^ k * 2 ^ k + 2 * 2 ^ k + 1 by ring]
    exact this) (bigK (by positivity) (add_le_add kk (mul_le_mul_of_nonneg_left K2 (by norm_num))) (by norm_num))
  have M : ∀ j : ℕ, j ≤ 2 → rnd64 (((2 : ℝ) ^ 52 + 2 ^ u) * 2 ^ (e + j)) = (2 ^ 52 + 2 ^ u) * 2 ^ (e + j) := fun j _ => by
    have := rnd64_exact (m := 2 ^ 52 + 2 ^ u) (e := ((e + j : ℕ) : ℤ)) (by rw [abs_of_pos (by omega)]; omega) (by omega)
    rw [zpow_natCast] at this
    push_cast at this
    rw [show (4503599627370496 : ℝ) = 2 ^ 52 by norm_num] at this
    exact this
  have R : ∀ j : ℕ, ((2 : ℝ) ^ 52 + 2 ^ u) * 2 ^ (e + j) = (2 ^ k * 2 ^ k + 2 ^ k) * 2 ^ j := fun j => by
    rw [← U, pow_add]
    calc ((2 : ℝ) ^ k * 2 ^ u + 2 ^ u) * (2 ^ e * 2 ^ j) = (2 ^ k * (2 ^ u * 2 ^ e) + 2 ^ u * 2 ^ e) * 2 ^ j := by ring
      _ = _ := by rw [← E]
  have M1 := M 1 (by norm_num)
  have M2 := M 2 (by norm_num)
  rw [R] at M1 M2
  have s0 : (0 + fin (2 ^ k) * fin (2 ^ k) : F64) ⇓ 2 ^ k * 2 ^ k := is64 (rounds_add z aa) (by
    have := rnd64_exact (m := 1) (e := ((2 * k : ℕ) : ℤ)) (by norm_num) (by omega)
    rw [zpow_natCast, two_mul, pow_add] at this
    simpa using this) (bigK (by positivity) kk (by norm_num))
  have s2 : (0 + fin (2 ^ k) * fin (2 ^ k) + fin (2 ^ k + 1) * fin (2 ^ k + 1) : F64) ⇓ (2 ^ k * 2 ^ k + 2 ^ k) * 2 ^ 1 := is64 (rounds_add s0 bb) (by
    rw [show (2 : ℝ) ^ k * 2 ^ k + (2 ^ k * 2 ^ k + 2 * 2 ^ k) = (2 ^ k * 2 ^ k + 2 ^ k) * 2 ^ 1 by ring]
    exact M1) (bigK (by positivity) (mul_le_mul_of_nonneg_right (add_le_add kk K2) (by norm_num)) (by norm_num))
  have d2 : (flt 2 * (0 + fin (2 ^ k) * fin (2 ^ k) + fin (2 ^ k + 1) * fin (2 ^ k + 1)) : F64) ⇓ (2 ^ k * 2 ^ k + 2 ^ k) * 2 ^ 2 := is64 (rounds_mul two s2) (by
    rw [show (2 : ℝ) * ((2 ^ k * 2 ^ k + 2 ^ k) * 2 ^ 1) = (2 ^ k * 2 ^ k + 2 ^ k) * 2 ^ 2 by ring]
    exact M2) (bigK (by positivity) (mul_le_mul_of_nonneg_right (add_le_add kk K2) (by norm_num)) (by norm_num))
  have K2z : (2 : ℤ) ^ k ≤ 2 ^ 51 := pow_le_pow_right₀ (by norm_num) h2
  have K1z : (0 : ℤ) < 2 ^ k := by positivity
  have x0 : (0 + fin (2 ^ k) : F64) ⇓ ((2 ^ k : ℤ) : ℝ) := int64 (rounds_add z a) (by push_cast; ring) (by rw [abs_of_pos K1z]; omega)
  have x1 : (0 + fin (2 ^ k) + fin (2 ^ k + 1) : F64) ⇓ ((2 * 2 ^ k + 1 : ℤ) : ℝ) :=
    int64 (rounds_add x0 b) (by push_cast; ring) (by rw [abs_of_pos (by omega)]; omega)
  have xx : ((0 + fin (2 ^ k) + fin (2 ^ k + 1)) * (0 + fin (2 ^ k) + fin (2 ^ k + 1)) : F64) ⇓ (2 ^ k * 2 ^ k + 2 ^ k) * 2 ^ 2 := is64 (rounds_mul x1 x1) (by
    have := rnd64_drop_one (n := 2 ^ 52 + 2 ^ u) (e := e + 2) (by omega) (by omega) (by omega)
    push_cast at this ⊢
    rw [show (4503599627370496 : ℝ) = 2 ^ 52 by norm_num] at this
    rw [R 2] at this
    rw [show (2 * (2 : ℝ) ^ k + 1) * (2 * 2 ^ k + 1) = (2 ^ k * 2 ^ k + 2 ^ k) * 2 ^ 2 + 1 by ring]
    exact this) (bigK (by positivity) (mul_le_mul_of_nonneg_right (add_le_add kk K2) (by norm_num)) (by norm_num))
  have D : (flt 2 * (0 + fin (2 ^ k) * fin (2 ^ k) + fin (2 ^ k + 1) * fin (2 ^ k + 1)) -
      (0 + fin (2 ^ k) + fin (2 ^ k + 1)) * (0 + fin (2 ^ k) + fin (2 ^ k + 1)) : F64) ⇓ 0 := is64 (rounds_sub d2 xx) (by rw [sub_self, rnd64_zero]) (big (by norm_num))
  constructor
  · have : pcc [(fin (2 ^ k) : F64), fin (2 ^ k + 1)] [fin (2 ^ k), fin (2 ^ k + 1)] 2 =
        some [FP.nan, (flt 2 * (0 + fin (2 ^ k) * fin (2 ^ k) + fin (2 ^ k + 1) * fin (2 ^ k + 1)) -
          (0 + fin (2 ^ k) + fin (2 ^ k + 1)) * (0 + fin (2 ^ k) + fin (2 ^ k + 1)) : F64) /
          (sqrt (flt 2 * (0 + fin (2 ^ k) * fin (2 ^ k) + fin (2 ^ k + 1) * fin (2 ^ k + 1)) -
          (0 + fin (2 ^ k) + fin (2 ^ k + 1)) * (0 + fin (2 ^ k) + fin (2 ^ k + 1)) : F64) * sqrt (flt 2 * (0 + fin (2 ^ k) * fin (2 ^ k) + fin (2 ^ k + 1) * fin (2 ^ k + 1)) -
          (0 + fin (2 ^ k) + fin (2 ^ k + 1)) * (0 + fin (2 ^ k) + fin (2 ^ k + 1)) : F64))] := rfl
    rw [this]
    have r := sqrt_is_zero D
    rw [nan_of_zero_div D (is64 (rounds_mul r r) (by rw [mul_zero, rnd64_zero]) (big (by norm_num)))]
  · have hf : ¬ Flat [(2 : ℝ) ^ k, 2 ^ k + 1] := fun h => by
      have := h (2 ^ k) (by simp) (2 ^ k + 1) (by simp)
      linarith
    simpa using pearson_affine hf one_ne_zero 0

end Traquer.Correlation

namespace Traquer.Correlation
open FP

/-! The hypotheses are met by quotes in whole cents, and for `srcc` by any prices that differ. -/

private noncomputable abbrev cents (l : List ℕ) : List F64 := l.map fun n : ℕ => fin (n : ℝ)

private theorem cents_whole (l : List ℕ) {c : ℕ} (h : ∀ n ∈ l, n ≤ c) : Wholes c (cents l) := by
  intro x hx
  obtain ⟨n, hn, rfl⟩ := List.mem_map.1 hx
  exact ⟨trivial, ⟨n, by simp [FP.val]⟩, by simpa [FP.val] using h n hn⟩

example := pcc_whole (cents [18902, 19324, 19225, 19193]) (cents [3701, 3702, 3700, 3709]) 3 25000 5000 (by simp) (by norm_num) (by simp)
  (cents_whole _ (by decide)) (cents_whole _ (by decide)) (by norm_num) (by norm_num) (by norm_num)

example (srt : Distribution.Sorter F64) (hs : srt.Valid) := srcc_untied srt hs [fin 0.1, fin 7, fin 1000000.5] [fin 3, fin 2, fin 5] 2 (by simp) (by norm_num)
  (by norm_num) (by simp) (by intro x hx; simp at hx; rcases hx with rfl | rfl | rfl <;> trivial) (by intro x hx; simp at hx; rcases hx with rfl | rfl | rfl <;> trivial)
  (by intro i h1 h2; simp at h2; interval_cases i <;> norm_num [recent, vals, FP.val])
  (by intro i h1 h2; simp at h2; interval_cases i <;> norm_num [recent, vals, FP.val])

end Traquer.Correlation
