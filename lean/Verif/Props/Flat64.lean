import Verif.Props.ErrorDispersion
/-!
# C75: flat windows in binary64 arithmetic
-/

namespace Traquer
open FP FloatLit

/-! ## Evaluating a rounding -/

theorem roundEven_eq {y : ℝ} {n : ℤ} (h1 : (n : ℝ) - 1 / 2 < y) (h2 : y < n + 1 / 2) : roundEven y = n := by
  have h := roundEven_near y
  rw [abs_le] at h
  have a : ((n - 1 : ℤ) : ℝ) < roundEven y := by push_cast; linarith
  have b : (roundEven y : ℝ) < ((n + 1 : ℤ) : ℝ) := by push_cast; linarith
  have a' : n - 1 < roundEven y := by exact_mod_cast a
  have b' : roundEven y < n + 1 := by exact_mod_cast b
  omega

/-- Halfway between `n` and the even `n + 1`. -/
theorem roundEven_up {n : ℤ} (h : ¬ Even n) : roundEven (n + 1 / 2 : ℝ) = n + 1 := by
  have hf : ⌊(n + 1 / 2 : ℝ)⌋ = n := by
    rw [Int.floor_eq_iff]
    constructor <;> linarith
  have hr : Int.fract (n + 1 / 2 : ℝ) = 1 / 2 := by rw [← Int.self_sub_floor, hf]; ring
  rw [roundEven, hr, hf, if_neg (lt_irrefl _), if_neg (lt_irrefl _), if_neg h]

theorem rnd64_eq {x : ℝ} {e n : ℤ} (h1 : (2 : ℝ) ^ (e + 52) ≤ x) (h2 : x < (2 : ℝ) ^ (e + 53)) (he : -1074 ≤ e)
    (hn : roundEven (x / 2 ^ e) = n) : rnd64 x = n * 2 ^ e := by
  have x0 : 0 < x := (two_zpow_pos _).trans_le h1
  have hl : lastBit x = e := by
    have : Int.log 2 |x| = e + 52 := by
      rw [abs_of_pos x0]
      refine le_antisymm ?_ ?_
      · have := (Int.lt_zpow_iff_log_lt (b := 2) (by norm_num) x0).1 (by exact_mod_cast h2)
        omega
      · exact (Int.zpow_le_iff_le_log (b := 2) (by norm_num) x0).1 (by exact_mod_cast h1)
    rw [lastBit, this]
    omega
  rw [rnd64, hl, hn]

/-- A number of binary64 that is small enough. -/
theorem is64 {x : F64} {a b : ℝ} (h : Rounds x a) (hr : rnd64 a = b) (hb : |b| ≤ max64) : x ⇓ b := by
  rcases h.cases with ⟨-, i⟩ | ⟨n, -⟩
  · have e : Rounding.binary64.rnd a = b := hr
    rwa [e] at i
  · refine absurd ?_ n
    show |rnd64 a| ≤ max64
    rwa [hr]

/-- An exact operation. -/
theorem exact64 {x : F64} {a : ℝ} (h : Rounds x a) {m e : ℤ} (ha : a = m * 2 ^ e) (hm : |m| ≤ 2 ^ 53) (he : -1074 ≤ e)
    (hb : |a| ≤ max64) : x ⇓ a :=
  is64 h (by rw [ha]; exact rnd64_exact hm he) hb

/-! ## Flat windows of short numbers -/

/-- `r` is a binary64 number that can be multiplied by every number up to `n` without rounding or overflow. An example: an integer,
or a number of hundredths rounded to a few bits. -/
def Spare (n : ℕ) (r : ℝ) : Prop := (∃ m e : ℤ, r = m * 2 ^ e ∧ |m| * n ≤ 2 ^ 53 ∧ -1074 ≤ e) ∧ n * |r| ≤ max64

theorem Spare.mono {n k : ℕ} {r : ℝ} (h : Spare n r) (hk : k ≤ n) : Spare k r := by
  obtain ⟨⟨m, e, h1, h2, h3⟩, h4⟩ := h
  have hk' : (k : ℤ) ≤ n := by exact_mod_cast hk
  have hk'' : (k : ℝ) ≤ n := by exact_mod_cast hk
  exact ⟨⟨m, e, h1, (mul_le_mul_of_nonneg_left hk' (abs_nonneg m)).trans h2, h3⟩,
    (mul_le_mul_of_nonneg_right hk'' (abs_nonneg r)).trans h4⟩

theorem Spare.rnd {n k : ℕ} {r : ℝ} (h : Spare n r) (hk : k ≤ n) {x : F64} (hx : Rounds x (k * r)) : x ⇓ k * r := by
  obtain ⟨⟨m, e, h1, h2, h3⟩, h4⟩ := h.mono hk
  refine exact64 hx (m := k * m) (e := e) (by rw [h1]; push_cast; ring) ?_ h3 ?_
  · rw [abs_mul, mul_comm]
    simpa using h2
  · rw [abs_mul]
    simpa using h4

theorem flat_fsum {n : ℕ} {r : ℝ} (h : Spare n r) : ∀ {l : List F64}, (∀ x ∈ l, x ⇓ r) → l.length ≤ n → fsum l ⇓ l.length * r := by
  intro l
  induction l using List.reverseRecOn with
  | nil => intro _ _; simpa [fsum] using isZero (ρ := Rounding.binary64)
  | append_singleton l x ih =>
    intro hl hn
    simp only [List.length_append, List.length_singleton] at hn ⊢
    have e1 : fsum (l ++ [x]) = fsum l + x := by simp [fsum]
    rw [e1]
    have := rounds_add (ih (fun y hy => hl y (by simp [hy])) (by omega)) (hl x (by simp))
    rw [show (l.length : ℝ) * r + r = ((l.length + 1 : ℕ) : ℝ) * r by push_cast; ring] at this
    exact h.rnd hn this

theorem flat_mean {n : ℕ} {r : ℝ} (h : Spare n r) {l : List F64} (hl : ∀ x ∈ l, x ⇓ r) (h1 : 1 ≤ n) (h53 : n ≤ 2 ^ 53)
    (hn : l.length = n) : fsum l / flt n ⇓ r := by
  have n0 : (n : ℝ) ≠ 0 := by
    have : (1 : ℝ) ≤ n := by exact_mod_cast h1
    linarith
  have := rounds_div (flat_fsum h hl hn.le) (isFlt h53) n0
  rw [hn, mul_div_cancel_left₀ _ n0] at this
  have h' := h.rnd h1 (x := fsum l / flt n) (by simpa using this)
  simpa using h'

theorem zero_fsum {l : List F64} (hl : ∀ x ∈ l, x ⇓ 0) : fsum l ⇓ 0 := by
  have : Spare l.length 0 := ⟨⟨0, 0, by simp, by simp, by norm_num⟩, by
    simp
    exact (by norm_num : (0 : ℝ) ≤ 2).trans two_le_max64⟩
  simpa using flat_fsum this hl le_rfl

theorem zero64 {x : F64} (h : Rounds x 0) : x ⇓ 0 :=
  is64 h rnd64_zero (by simp; exact (by norm_num : (0 : ℝ) ≤ 2).trans two_le_max64)

theorem flat_var {n : ℕ} {r : ℝ} (h : Spare n r) {l : List F64} (hl : ∀ x ∈ l, x ⇓ r) (h1 : 1 ≤ n) (h53 : n ≤ 2 ^ 53)
    (hn : l.length = n) : Distribution.powDev l (Distribution.winMean l n) 2 / flt n ⇓ 0 := by
  have n0 : (n : ℝ) ≠ 0 := by
    have : (1 : ℝ) ≤ n := by exact_mod_cast h1
    linarith
  have hm := flat_mean h hl h1 h53 hn
  rw [Distribution.powDev, foldl_add_map]
  have hs : fsum (l.map fun x => powi (x - Distribution.winMean l n) 2) ⇓ 0 := zero_fsum fun y hy => by
    obtain ⟨x, hx, rfl⟩ := List.mem_map.1 hy
    have hd : x - Distribution.winMean l n ⇓ 0 := zero64 (by simpa [Distribution.winMean] using rounds_sub (hl x hx) hm)
    rw [powi_sq]
    have hq := rounds_mul hd hd
    exact one_mul_rounded hq (zero64 (by simpa using hq))
  exact zero64 (by simpa using rounds_div hs (isFlt h53) n0)

theorem nan_of_zero_div {x y : F64} (hx : x ⇓ 0) (hy : y ⇓ 0) : x / y = FP.nan := by
  rcases is_iff.1 hx with rfl | ⟨rfl, -⟩ <;> rcases is_iff.1 hy with rfl | ⟨rfl, -⟩ <;> simp [div_def, FP.div, val]

section
variable {data : List F64} {w : ℕ} {r : ℝ} (hw : 1 ≤ w) (hn : w ≤ data.length + 1) (h53 : w ≤ 2 ^ 53) (hr : Spare w r)
include hw hn h53 hr

/-- C75: at a bar whose last `w` values all equal a number with `log2 w` bits to spare, the binary64 sma is exactly that number. -/
theorem sma_flat64 : ReportsP data.length (w - 1) (fun i y => (∀ x ∈ recent data w i, x ⇓ r) → y ⇓ r) (Smooth.sma data w) := by
  run_model [Smooth.sma]
  exact reportsP_windows hw hn fun i h1 h2 hf => flat_mean hr hf hw h53 (recent_length h1 h2)

/-- C75: and the binary64 variance and standard deviation are exactly zero. -/
theorem variance_flat64 :
    ReportsP data.length (w - 1) (fun i y => (∀ x ∈ recent data w i, x ⇓ r) → y ⇓ 0) (Distribution.variance data w) := by
  run_model [Distribution.variance]
  exact reportsP_windows hw hn fun i h1 h2 hf => flat_var hr hf hw h53 (recent_length h1 h2)

theorem std_dev_flat64 :
    ReportsP data.length (w - 1) (fun i y => (∀ x ∈ recent data w i, x ⇓ r) → y ⇓ 0) (Distribution.std_dev data w) := by
  run_model [Distribution.std_dev, Distribution.stdDevRaw]
  refine reportsP_windows hw hn fun i h1 h2 hf => ?_
  exact zero64 (by simpa [Distribution.stdDevWin] using rounds_sqrt (flat_var hr hf hw h53 (recent_length h1 h2)) le_rfl)

/-- C75: and the binary64 zscore is NaN. -/
theorem zscore_flat64 :
    ReportsP data.length (w - 1) (fun i y => (∀ x ∈ recent data w i, x ⇓ r) → y = FP.nan) (Distribution.zscore data w) := by
  run_model [Distribution.zscore]
  refine reportsP_mapP_windows hw hn fun i h1 h2 => ?_
  have l := recent_length h1 h2
  have e : (recent data w i)[w - 1]? = some ((recent data w i)[w - 1]'(by omega)) := List.getElem?_eq_getElem _
  rw [e]
  refine ⟨_, rfl, fun hf => ?_⟩
  refine nan_of_zero_div ?_ (zero64 (by simpa using rounds_sqrt (flat_var hr hf hw h53 l) le_rfl))
  exact zero64 (by simpa [Distribution.winMean] using rounds_sub (hf _ (List.getElem_mem _)) (flat_mean hr hf hw h53 l))

end

/-! ## A flat window of an ordinary price -/

/-- The double nearest to 102.4. -/
noncomputable def c1024 : ℝ := 7205759403792794 * 2 ^ (-46 : ℤ)

theorem lit1024 : (102.4 : F64) ⇓ c1024 := by
  refine is64 (a := (102.4 : ℝ)) ⟨false, rfl⟩ ?_ ?_
  · rw [rnd64_eq (e := -46) (n := 7205759403792794) (by norm_num) (by norm_num) (by norm_num) (roundEven_eq (by norm_num) (by norm_num))]
    norm_num [c1024]
  · exact le_trans (by norm_num [c1024]) large_le_max64

/-- Three times 102.4, over three, is not 102.4. -/
theorem mean1024 : fsum ([102.4, 102.4, 102.4] : List F64) / flt 3 ⇓ c1024 + 2 ^ (-46 : ℤ) := by
  have h0 : (0 : F64) + 102.4 ⇓ c1024 := exact64 (by simpa using rounds_add isZero lit1024) (m := 7205759403792794) (e := -46)
    (by norm_num [c1024]) (by norm_num) (by norm_num) (le_trans (by norm_num [c1024]) large_le_max64)
  have h1 : (0 : F64) + 102.4 + 102.4 ⇓ c1024 + c1024 := exact64 (rounds_add h0 lit1024) (m := 7205759403792794) (e := -45)
    (by norm_num [c1024]) (by norm_num) (by norm_num) (le_trans (by norm_num [c1024]) large_le_max64)
  have h2 : (0 : F64) + 102.4 + 102.4 + 102.4 ⇓ 5404319552844596 * 2 ^ (-44 : ℤ) := by
    refine is64 (rounds_add h1 lit1024) ?_ (le_trans (by norm_num) large_le_max64)
    rw [rnd64_eq (e := -44) (n := 5404319552844595 + 1) (by norm_num [c1024]) (by norm_num [c1024]) (by norm_num) (by
      rw [← roundEven_up (n := 5404319552844595) (by decide)]
      congr 1
      norm_num [c1024])]
    norm_num
  refine is64 (rounds_div h2 (isFlt (n := 3) (by norm_num)) (by norm_num)) ?_ (le_trans (by norm_num [c1024]) large_le_max64)
  rw [rnd64_eq (e := -46) (n := 7205759403792795) (by norm_num) (by norm_num) (by norm_num) (roundEven_eq (by norm_num) (by norm_num))]
  norm_num [c1024]

theorem powi64 {x : F64} {a : ℝ} (hx : x ⇓ a) {m e : ℤ} (ha : a * a = m * 2 ^ e) (hm : |m| ≤ 2 ^ 53) (he : -1074 ≤ e)
    (hb : |a * a| ≤ max64) : powi x 2 ⇓ a * a := by
  rw [powi_sq]
  exact one_mul_rounded (rounds_mul hx hx) (exact64 (rounds_mul hx hx) ha hm he hb)

theorem dev1024 : (102.4 : F64) - Distribution.winMean [102.4, 102.4, 102.4] 3 ⇓ -2 ^ (-46 : ℤ) := by
  have := rounds_sub lit1024 mean1024
  rw [show c1024 - (c1024 + 2 ^ (-46 : ℤ)) = -2 ^ (-46 : ℤ) by ring] at this
  exact exact64 this (m := -1) (e := -46) (by norm_num) (by norm_num) (by norm_num) (le_trans (by norm_num) large_le_max64)

theorem var1024 : Distribution.powDev ([102.4, 102.4, 102.4] : List F64) (Distribution.winMean [102.4, 102.4, 102.4] 3) 2 / flt 3 ⇓
    2 ^ (-92 : ℤ) := by
  have hq := powi64 dev1024 (m := 1) (e := -92) (by norm_num) (by norm_num) (by norm_num) (le_trans (by norm_num) large_le_max64)
  rw [show (-2 ^ (-46 : ℤ) : ℝ) * -2 ^ (-46 : ℤ) = 2 ^ (-92 : ℤ) by norm_num] at hq
  rw [Distribution.powDev]
  simp only [List.foldl_cons, List.foldl_nil]
  generalize powi ((102.4 : F64) - Distribution.winMean [102.4, 102.4, 102.4] 3) 2 = q at hq
  have h0 : (0 : F64) + q ⇓ 2 ^ (-92 : ℤ) := exact64 (by simpa using rounds_add isZero hq) (m := 1) (e := -92)
    (by norm_num) (by norm_num) (by norm_num) (le_trans (by norm_num) large_le_max64)
  have h1 : (0 : F64) + q + q ⇓ 2 ^ (-92 : ℤ) + 2 ^ (-92 : ℤ) := exact64 (rounds_add h0 hq) (m := 2) (e := -92)
    (by norm_num) (by norm_num) (by norm_num) (le_trans (by norm_num) large_le_max64)
  have h2 : (0 : F64) + q + q + q ⇓ 2 ^ (-92 : ℤ) + 2 ^ (-92 : ℤ) + 2 ^ (-92 : ℤ) := exact64 (rounds_add h1 hq) (m := 3) (e := -92)
    (by norm_num) (by norm_num) (by norm_num) (le_trans (by norm_num) large_le_max64)
  have h3 := rounds_div h2 (isFlt (n := 3) (by norm_num)) (by norm_num)
  rw [show ((2 : ℝ) ^ (-92 : ℤ) + 2 ^ (-92 : ℤ) + 2 ^ (-92 : ℤ)) / (3 : ℕ) = 2 ^ (-92 : ℤ) by norm_num] at h3
  exact exact64 h3 (m := 1) (e := -92) (by norm_num) (by norm_num) (by norm_num) (le_trans (by norm_num) large_le_max64)

theorem sd1024 : Distribution.stdDevWin 3 ([102.4, 102.4, 102.4] : List F64) ⇓ 2 ^ (-46 : ℤ) := by
  have h := rounds_sqrt var1024 (by positivity)
  rw [show Real.sqrt (2 ^ (-92 : ℤ)) = 2 ^ (-46 : ℤ) by
    rw [show (2 : ℝ) ^ (-92 : ℤ) = (2 ^ (-46 : ℤ)) ^ 2 by norm_num, Real.sqrt_sq (by positivity)]] at h
  exact exact64 h (m := 1) (e := -46) (by norm_num) (by norm_num) (by norm_num) (le_trans (by norm_num) large_le_max64)

/-- C75: without spare bits a flat window need not look flat. On three bars at 102.4 the binary64 sma is one unit in the last place
above 102.4, the standard deviation is that unit instead of zero, and the zscore of the last bar is exactly -1 instead of NaN. -/
theorem flat_1024 :
    (∃ y, Smooth.sma ([102.4, 102.4, 102.4] : List F64) 3 = some [nan, nan, y] ∧ y ⇓ c1024 + 2 ^ (-46 : ℤ)) ∧
    (∃ y, Distribution.std_dev ([102.4, 102.4, 102.4] : List F64) 3 = some [nan, nan, y] ∧ y ⇓ 2 ^ (-46 : ℤ)) ∧
    (∃ y, Distribution.zscore ([102.4, 102.4, 102.4] : List F64) 3 = some [nan, nan, y] ∧ y ⇓ -1) := by
  refine ⟨⟨_, rfl, mean1024⟩, ⟨_, rfl, sd1024⟩, ⟨_, rfl, ?_⟩⟩
  have h := rounds_div dev1024 sd1024 (by positivity)
  rw [show (-2 ^ (-46 : ℤ) : ℝ) / 2 ^ (-46 : ℤ) = -1 by norm_num] at h
  exact exact64 h (m := -1) (e := 0) (by norm_num) (by norm_num) (by norm_num) (le_trans (by norm_num) large_le_max64)

/-! ## The hypotheses are met -/

/-- 102.5 has 8 significant bits: windows of up to `2^45` bars stay exact. -/
theorem spare_example : Spare 1000000 102.5 :=
  ⟨⟨205, -1, by norm_num, by norm_num, by norm_num⟩, le_trans (by norm_num [abs_of_pos]) large_le_max64⟩

theorem lit1025 : (102.5 : F64) ⇓ 102.5 :=
  exact64 (a := (102.5 : ℝ)) ⟨false, rfl⟩ (m := 205) (e := -1) (by norm_num) (by norm_num) (by norm_num)
    (le_trans (by norm_num [abs_of_pos]) large_le_max64)

example : ∃ y, (Smooth.sma ([102.5, 102.5, 102.5] : List F64) 3) = some [nan, nan, y] ∧ y ⇓ 102.5 :=
  ⟨_, rfl, flat_mean (spare_example.mono (by norm_num : 3 ≤ 1000000)) (l := [102.5, 102.5, 102.5]) (by simp [lit1025]) (by norm_num)
    (by norm_num) rfl⟩

end Traquer
