import Verif.Model.Checked
import Mathlib.Tactic.Linarith
import Mathlib.Tactic.Ring
import Mathlib.Tactic.NormNum
/-!
# C93: how large a window may be before a product of machine integers overflows

On a 64-bit target, `wma` and `lrf` are free of overflow exactly for windows below `2^32`, `kurtosis` exactly for windows up to 2642245,
`skew`, `krcc` up to `2^32` and `dcor` below `2^32`. Within the limit a build with overflow checks returns what the model over the natural
numbers returns; beyond it the call panics.
-/

namespace Traquer
variable {F : Type} [FloatOps F]

theorem umul_some {a b : ℕ} (h : a * b < 2 ^ 64) : umul a b = some (a * b) := if_pos h
theorem umul_none {a b : ℕ} (h : 2 ^ 64 ≤ a * b) : umul a b = none := if_neg (by omega)
theorem uadd_some {a b : ℕ} (h : a + b < 2 ^ 64) : uadd a b = some (a + b) := if_pos h
theorem uadd_none {a b : ℕ} (h : 2 ^ 64 ≤ a + b) : uadd a b = none := if_neg (by omega)

namespace Smooth

/-- C93 -/
theorem wma_fits (data : List F) {w : ℕ} (hw : w < 2 ^ 32) : wmaChecked data w = wma data w := by
  have h : w * w + w < 2 ^ 64 := by nlinarith
  rw [wmaChecked, umul_some (by omega)]
  simp only [Option.bind_eq_bind, Option.bind_some, uadd_some h]

/-- C93 -/
theorem wma_overflows (data : List F) {w : ℕ} (hw : 2 ^ 32 ≤ w) : wmaChecked data w = none := by
  have h : 2 ^ 64 ≤ w * w := by nlinarith
  rw [wmaChecked, umul_none h]
  rfl

/-- C93 -/
theorem lrf_fits (data : List F) {w : ℕ} (hw : w < 2 ^ 32) : lrfChecked data w = lrf data w := by
  have h : w * (w + 1) < 2 ^ 64 := by nlinarith
  simp only [lrfChecked, uadd_some (show w + 1 < 2 ^ 64 by omega), Option.bind_eq_bind, Option.bind_some, umul_some h,
    umul_some (show 2 * w < 2 ^ 64 by omega), uadd_some (show 2 * w + 1 < 2 ^ 64 by omega)]

/-- C93 -/
theorem lrf_overflows (data : List F) {w : ℕ} (hw : 2 ^ 32 ≤ w) : lrfChecked data w = none := by
  have h : 2 ^ 64 ≤ w * (w + 1) := by nlinarith
  unfold lrfChecked
  by_cases h1 : w + 1 < 2 ^ 64
  · simp only [uadd_some h1, Option.bind_eq_bind, Option.bind_some, umul_none h, Option.bind_none]
  · simp only [uadd_none (by omega : 2 ^ 64 ≤ w + 1), Option.bind_eq_bind, Option.bind_none]

end Smooth

namespace Distribution

/-- C93: 2642245 is the largest window of `kurtosis`. -/
theorem kurtosis_fits (data : List F) {w : ℕ} (hw : w ≤ 2642245) : kurtosisChecked data w = kurtosis data w := by
  have h1 : (w + 1) * w ≤ 2642246 * 2642245 := Nat.mul_le_mul (by omega) hw
  have h2 : (w + 1) * w * (w - 1) ≤ 2642246 * 2642245 * 2642244 := Nat.mul_le_mul h1 (by omega)
  have h3 : (w - 2) * (w - 3) ≤ 2642245 * 2642245 := Nat.mul_le_mul (by omega) (by omega)
  have h4 : (w - 1) * (w - 1) ≤ 2642245 * 2642245 := Nat.mul_le_mul (by omega) (by omega)
  norm_num at h1 h2 h3 h4
  unfold kurtosisChecked
  simp only [uadd_some (show w + 1 < 2 ^ 64 by omega), Option.bind_eq_bind, Option.bind_some, umul_some (show (w + 1) * w < 2 ^ 64 by omega)]
  by_cases hw3 : 3 ≤ w
  · have u : ∀ k, k ≤ 3 → usub w k = some (w - k) := fun k hk => if_pos (by omega)
    simp only [u 1 (by omega), u 2 (by omega), u 3 (by omega), Option.bind_some, umul_some (show (w + 1) * w * (w - 1) < 2 ^ 64 by omega),
      umul_some (show (w - 2) * (w - 3) < 2 ^ 64 by omega), umul_some (show (w - 1) * (w - 1) < 2 ^ 64 by omega)]
  · have u3 : usub w 3 = none := if_neg (by omega)
    have e : kurtosis data w = none := by
      unfold kurtosis
      simp only [u3, Option.bind_eq_bind, Option.bind_none, Option.bind_fun_none]
    rw [e]
    simp only [u3, Option.bind_none, Option.bind_fun_none]

/-- C93: with any larger window `kurtosis` panics when it is called. -/
theorem kurtosis_overflows (data : List F) {w : ℕ} (hw : 2642246 ≤ w) : kurtosisChecked data w = none := by
  have h2 : 2642247 * 2642246 * 2642245 ≤ (w + 1) * w * (w - 1) := Nat.mul_le_mul (Nat.mul_le_mul (by omega) hw) (by omega)
  norm_num at h2
  unfold kurtosisChecked
  by_cases h1 : w + 1 < 2 ^ 64
  · by_cases h0 : (w + 1) * w < 2 ^ 64
    · have u1 : usub w 1 = some (w - 1) := if_pos (by omega)
      simp only [uadd_some h1, umul_some h0, u1, umul_none (show 2 ^ 64 ≤ (w + 1) * w * (w - 1) by omega), Option.bind_eq_bind, Option.bind_some,
        Option.bind_none]
    · simp only [uadd_some h1, umul_none (show 2 ^ 64 ≤ (w + 1) * w by omega), Option.bind_eq_bind, Option.bind_some, Option.bind_none]
  · simp only [uadd_none (by omega : 2 ^ 64 ≤ w + 1), Option.bind_eq_bind, Option.bind_none]

/-- C93 -/
theorem skew_fits (data : List F) {w : ℕ} (hw : w ≤ 2 ^ 32) : skewChecked data w = skew data w := by
  unfold skewChecked
  cases e : skew data w with
  | none => rfl
  | some r =>
    simp only [Option.bind_eq_bind, Option.bind_some]
    have hw1 : 1 ≤ w := by
      by_contra h
      have : usub w 1 = none := if_neg (by omega)
      simp [skew, this] at e
    have h : w * (w - 1) < 2 ^ 64 := by
      have := Nat.mul_le_mul hw (show w - 1 ≤ 2 ^ 32 - 1 by omega)
      norm_num at this ⊢
      omega
    simp only [show usub w 1 = some (w - 1) from if_pos hw1, umul_some h, Option.bind_some, ite_self]

/-- C93 -/
theorem skew_overflows (data : List F) {w : ℕ} (hw : 2 ^ 32 < w) (hn : w ≤ data.length) : skewChecked data w = none := by
  unfold skewChecked
  cases skew data w with
  | none => rfl
  | some r =>
    have h : 2 ^ 64 ≤ w * (w - 1) := by
      have := Nat.mul_le_mul (show 2 ^ 32 + 1 ≤ w by omega) (show 2 ^ 32 ≤ w - 1 by omega)
      norm_num at this ⊢
      omega
    simp only [Option.bind_eq_bind, Option.bind_some, if_pos hn, show usub w 1 = some (w - 1) from if_pos (by omega), umul_none h, Option.bind_none]

end Distribution

namespace Correlation

/-- C93 -/
theorem krcc_fits (s1 s2 : List F) {w : ℕ} (hw : w ≤ 2 ^ 32) : krccChecked s1 s2 w = krcc s1 s2 w := by
  unfold krccChecked
  cases e : krcc s1 s2 w with
  | none => rfl
  | some r =>
    simp only [Option.bind_eq_bind, Option.bind_some]
    have hw1 : 1 ≤ w := by
      by_contra h
      have : usub w 1 = none := if_neg (by omega)
      simp [krcc, this] at e
    have h : w * (w - 1) < 2 ^ 64 := by
      have := Nat.mul_le_mul hw (show w - 1 ≤ 2 ^ 32 - 1 by omega)
      norm_num at this ⊢
      omega
    simp only [show usub w 1 = some (w - 1) from if_pos hw1, umul_some h, Option.bind_some, ite_self]

/-- C93 -/
theorem krcc_overflows (s1 s2 : List F) {w : ℕ} (hw : 2 ^ 32 < w) (h1 : w ≤ s1.length) (h2 : w ≤ s2.length) : krccChecked s1 s2 w = none := by
  unfold krccChecked
  cases krcc s1 s2 w with
  | none => rfl
  | some r =>
    have h : 2 ^ 64 ≤ w * (w - 1) := by
      have := Nat.mul_le_mul (show 2 ^ 32 + 1 ≤ w by omega) (show 2 ^ 32 ≤ w - 1 by omega)
      norm_num at this ⊢
      omega
    simp only [Option.bind_eq_bind, Option.bind_some, if_pos (And.intro h1 h2), show usub w 1 = some (w - 1) from if_pos (by omega), umul_none h,
      Option.bind_none]

/-- C93 -/
theorem dcor_fits (s1 s2 : List F) {w : ℕ} (hw : w < 2 ^ 32) : dcorChecked s1 s2 w = dcor s1 s2 w := by
  unfold dcorChecked
  cases dcor s1 s2 w with
  | none => rfl
  | some r => simp only [Option.bind_eq_bind, Option.bind_some, umul_some (show w * w < 2 ^ 64 by nlinarith), ite_self]

/-- C93 -/
theorem dcor_overflows (s1 s2 : List F) {w : ℕ} (hw : 2 ^ 32 ≤ w) (h1 : w ≤ s1.length) (h2 : w ≤ s2.length) : dcorChecked s1 s2 w = none := by
  unfold dcorChecked
  cases dcor s1 s2 w with
  | none => rfl
  | some r => simp only [Option.bind_eq_bind, Option.bind_some, if_pos (And.intro h1 h2), umul_none (show 2 ^ 64 ≤ w * w by nlinarith), Option.bind_none]

end Correlation

section Examples
variable (x : F)

example := Smooth.wma_fits [x, x, x] (w := 2) (by norm_num)
example := Smooth.wma_overflows [x, x, x] (w := 2 ^ 32) (by norm_num)
example := Smooth.lrf_fits [x, x, x] (w := 2) (by norm_num)
example := Smooth.lrf_overflows [x, x, x] (w := 2 ^ 32) (by norm_num)
example := Distribution.kurtosis_fits [x, x, x, x, x] (w := 4) (by norm_num)
example := Distribution.kurtosis_overflows [x, x, x] (w := 3000000) (by norm_num)
example := Distribution.skew_fits [x, x, x] (w := 3) (by norm_num)
example := Distribution.skew_overflows (List.replicate (2 ^ 33) x) (w := 2 ^ 33) (by norm_num) (by rw [List.length_replicate])
example := Correlation.krcc_fits [x, x, x] [x, x, x] (w := 2) (by norm_num)
example := Correlation.krcc_overflows (List.replicate (2 ^ 33) x) (List.replicate (2 ^ 33) x) (w := 2 ^ 33) (by norm_num)
  (by rw [List.length_replicate]) (by rw [List.length_replicate])
example := Correlation.dcor_fits [x, x, x] [x, x, x] (w := 2) (by norm_num)
example := Correlation.dcor_overflows (List.replicate (2 ^ 33) x) (List.replicate (2 ^ 33) x) (w := 2 ^ 33) (by norm_num)
  (by rw [List.length_replicate]) (by rw [List.length_replicate])

end Examples

end Traquer
