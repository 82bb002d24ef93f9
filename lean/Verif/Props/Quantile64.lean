import Verif.Props.Averages64
import Verif.Props.Overlay64
import Verif.Props.Quantile
import Verif.Props.Aroon
/-!
# C123: order statistics in binary64

The position of a quantile inside the sorted window is itself rounded, and may fall on the other side of a whole number. The interpolation is
continuous, so that a misplaced index costs no more than the rounding of the position.
-/

namespace Traquer.Distribution
open FP FloatLit

theorem abs_orderStat_le {l : List ℝ} {M : ℝ} (h0 : 0 ≤ M) (h : ∀ x ∈ l, |x| ≤ M) (k : ℕ) : |orderStat l k| ≤ M := by
  rw [orderStat]
  cases e : (l.insertionSort (· ≤ ·))[k]? with
  | none => simpa using h0
  | some x => exact h x ((List.perm_insertionSort (· ≤ ·) l).mem_iff.1 (List.mem_of_getElem? e))

/-- Interpolation between numbers of magnitude at most `M` has slope at most `2 M`, even across a whole number. -/
theorem quantileOf_near {l : List ℝ} {M p p' : ℝ} (h0 : 0 ≤ M) (h : ∀ x ∈ l, |x| ≤ M) (hp : 0 ≤ p) (hp' : 0 ≤ p') (hd : |p' - p| < 1) :
    |quantileOf l p' - quantileOf l p| ≤ 2 * M * |p' - p| := by
  wlog hle : p ≤ p' generalizing p p'
  · rw [abs_sub_comm, abs_sub_comm p']
    exact this hp' hp (by rwa [abs_sub_comm]) (by linarith)
  have gap : ∀ i j, |orderStat l i - orderStat l j| ≤ 2 * M := fun i j => by
    have a1 := abs_orderStat_le h0 h i
    have a2 := abs_orderStat_le h0 h j
    have := abs_sub (orderStat l i) (orderStat l j)
    linarith
  rw [abs_of_nonneg (by linarith : 0 ≤ p' - p)] at hd ⊢
  have f0 := Int.fract_nonneg p
  have f0' := Int.fract_nonneg p'
  have f1 := Int.fract_lt_one p
  have f1' := Int.fract_lt_one p'
  have e : p = ⌊p⌋₊ + Int.fract p := by rw [natCast_floor_eq_intCast_floor hp]; exact (Int.floor_add_fract p).symm
  have e' : p' = ⌊p'⌋₊ + Int.fract p' := by rw [natCast_floor_eq_intCast_floor hp']; exact (Int.floor_add_fract p').symm
  have hk : ⌊p⌋₊ ≤ ⌊p'⌋₊ := Nat.floor_le_floor hle
  have hk1 : ⌊p'⌋₊ ≤ ⌊p⌋₊ + 1 := by
    by_contra hc
    push Not at hc
    have : (⌊p⌋₊ : ℝ) + 2 ≤ ⌊p'⌋₊ := by exact_mod_cast hc
    linarith
  unfold quantileOf
  generalize Int.fract p = f at *
  generalize Int.fract p' = f' at *
  rcases Nat.eq_or_lt_of_le hk with hk | hk
  · rw [← hk] at e' ⊢
    have ed : p' - p = f' - f := by linarith
    rw [ed, show ∀ a b : ℝ, a * (1 - f') + b * f' - (a * (1 - f) + b * f) = (b - a) * (f' - f) by intros; ring, abs_mul, abs_of_nonneg (by linarith : 0 ≤ f' - f)]
    exact mul_le_mul_of_nonneg_right (gap _ _) (by linarith)
  · have hk : ⌊p'⌋₊ = ⌊p⌋₊ + 1 := by omega
    rw [hk] at e' ⊢
    push_cast at e'
    have ed : p' - p = (1 - f) + f' := by linarith
    rw [ed, show ∀ a b c : ℝ, b * (1 - f') + c * f' - (a * (1 - f) + b * f) = (b - a) * (1 - f) + (c - b) * f' by intros; ring, mul_add]
    refine (abs_add_le _ _).trans (add_le_add ?_ ?_)
    · rw [abs_mul, abs_of_nonneg (by linarith : 0 ≤ 1 - f)]
      exact mul_le_mul_of_nonneg_right (gap _ _) (by linarith)
    · rw [abs_mul, abs_of_nonneg f0']
      exact mul_le_mul_of_nonneg_right (gap _ _) f0'

theorem one_le_max64 : (1 : ℝ) ≤ max64 := le_trans (one_le_pow₀ (by norm_num)) max64_ge

theorem fract64 {x : F64} {a : ℝ} (hx : x ⇓ a) (ha : 0 ≤ a) : Traquer.fract x ⇓ rnd64 (Int.fract a) := by
  rcases is_iff.1 hx with rfl | ⟨rfl, rfl⟩
  · have e : Traquer.fract (fin a : F64) = mk false (a - (⌊a⌋ : ℝ)) := by
      show FP.fract (fin a) = _
      rw [FP.fract, if_pos ha]
    rw [e]
    refine rounds64 ⟨_, rfl⟩ ?_
    rw [abs_of_nonneg (Int.fract_nonneg a)]
    exact (Int.fract_lt_one a).le.trans one_le_max64
  · rw [Int.fract_zero, rnd64_zero]
    exact is_fin 0

theorem posOf_near {w : ℕ} (hw : 1 ≤ w) (hw' : w < 2 ^ 48) {q : F64} {r : ℝ} (hq : q ⇓ r) :
    ∃ p, posOf w q ⇓ p ∧ 0 ≤ p ∧ p ≤ (w - 1 : ℕ) ∧ |p - (w - 1 : ℕ) * (max 0 (min r 100) / 100)| ≤ (4 * w - 2) * unit64 := by
  have i1 := isLit (ρ := Rounding.binary64) 100 (by norm_num)
  have hc := is_clampLit hq isZero i1 (by norm_num)
  set c : ℝ := max 0 (min r 100) with hcd
  have c0 : 0 ≤ c := le_max_left _ _
  have c1 : c ≤ 100 := max_le (by norm_num) (min_le_right _ _)
  have q1 : c / 100 ≤ 1 := by rw [div_le_one (by norm_num)]; exact c1
  have q0 : 0 ≤ c / 100 := by positivity
  have wc : ((w - 1 : ℕ) : ℝ) ≤ 2 ^ 48 := by exact_mod_cast (show w - 1 ≤ 2 ^ 48 by omega)
  have w0 : (0 : ℝ) ≤ ((w - 1 : ℕ) : ℝ) := Nat.cast_nonneg _
  have n1 := Nearly.of_rounds (k := 0) (c := 1) sized_one (rounds_div hc i1 (by norm_num)) (a := c / 100) (by simp) (by rw [abs_of_nonneg q0]; linarith)
    (by norm_num) (by norm_num)
  have n2 := Nearly.smul sized_one (isFlt (n := w - 1) (by omega)) n1 (by rw [abs_of_nonneg w0]; norm_num; linarith) (by rw [abs_of_nonneg w0]; norm_num; linarith)
  obtain ⟨p, hp, ep⟩ := n2.approx
  rcases posOf_range hw (by omega) q with h | ⟨p', h, h0, h1⟩
  · exfalso
    rw [posOf] at h
    rw [h] at hp
    exact absurd hp.1 (by simp [FP.Finite])
  · have : p' = p := h.unique hp
    subst this
    refine ⟨p', h, h0, h1, ep.trans (le_of_eq ?_)⟩
    rw [abs_of_nonneg w0, Nat.cast_sub hw]
    push_cast
    ring

/-- C123: `quantile` is within `8 w + 18` units of rounding of the interpolated order statistic, although the position may be rounded to the
other side of a whole number. -/
theorem quantile_error (data : List F64) (w : ℕ) (q : F64) (r M : ℝ) (hq : q ⇓ r) (hw : 1 ≤ w) (hw' : w < 2 ^ 48) (hn : w ≤ data.length + 1)
    (hM : tiny64 ≤ M) (hB : M ≤ 2 ^ 800) (hd : Bounded M data) :
    ReportsP data.length (w - 1) (fun i y => Approx y (quantileOf (recent (vals data) w i) ((w - 1 : ℕ) * (max 0 (min r 100) / 100)))
      ((8 * w + 18) * unit64 * M)) (quantile data w q) := by
  have hS := Smooth.sized_of hM hB
  have fd : Fins data := bounded_fins hd
  run_model [quantile, quantileT]
  refine reportsP_mapP_windows (P := fun i y => Approx y (quantileOf (recent (vals data) w i) ((w - 1 : ℕ) * (max 0 (min r 100) / 100)))
      ((8 * w + 18) * unit64 * M)) hw hn fun i h1 h2 => ?_
  obtain ⟨p, hp, p0, p1, ep⟩ := posOf_near hw hw' hq
  rw [posOf] at hp
  have big : ((2 : ℝ) ^ 53 : ℝ) < 2 ^ 64 := by norm_num
  have hwR : ((w - 1 : ℕ) : ℝ) < 2 ^ 64 := lt_of_le_of_lt (by exact_mod_cast (show w - 1 ≤ 2 ^ 53 by omega)) big
  have e0 : 0 ≤ ((w - 1 : ℕ) * (max 0 (min r 100) / 100) : ℝ) := by positivity
  generalize ((w - 1 : ℕ) * (max 0 (min r 100) / 100) : ℝ) = P at ep e0
  have fr := fd.recent w i
  have lr := recent_length (l := data) h1 h2
  have bl : ∀ x ∈ recent (vals data) w i, |x| ≤ M := fun x hx => by
    rw [← recent_vals] at hx
    obtain ⟨y, hy, rfl⟩ := List.mem_map.1 hx
    obtain ⟨v, hv, bv⟩ := hd y (List.mem_of_mem_drop (List.mem_of_mem_take hy))
    rwa [hv.2]
  have u0 := unit64_pos
  have wR : (w : ℝ) ≤ 2 ^ 48 := by exact_mod_cast hw'.le
  have w1 : (1 : ℝ) ≤ w := by exact_mod_cast hw
  have hlt : |p - P| < 1 := by
    refine ep.trans_lt ?_
    have : (4 * (w : ℝ) - 2) * unit64 < 2 ^ 53 * unit64 := mul_lt_mul_of_pos_right (by norm_num; linarith) u0
    rwa [mul_comm (2 ^ 53) unit64, unit64_eq] at this
  have lip := quantileOf_near (l := recent (vals data) w i) hS.nonneg bl e0 p0 hlt
  have lip' : |quantileOf (recent (vals data) w i) p - quantileOf (recent (vals data) w i) P| ≤ (8 * w - 4) * unit64 * M := by
    refine lip.trans ?_
    have := mul_le_mul_of_nonneg_left ep (show 0 ≤ 2 * M by linarith [hS.nonneg])
    linarith
  suffices h : ∃ y, (if fract (flt (w - 1) * (clampLit q 0 100 / 100)) ==. 0 then _ else _ : Option F64) = some y ∧
      Approx y (quantileOf (recent (vals data) w i) p) (22 * unit64 * M) by
    obtain ⟨y, hy, v, hv, ev⟩ := h
    refine ⟨y, hy, v, hv, ?_⟩
    have := abs_sub_le v (quantileOf (recent (vals data) w i) p) (quantileOf (recent (vals data) w i) P)
    linarith
  have pf : ⌊p⌋₊ ≤ w - 1 := Nat.floor_le_of_le p1
  have fz : (⌊p⌋ : ℝ) = (⌊p⌋₊ : ℝ) := natCast_floor_eq_intCast_floor p0 |>.symm
  have ef := is_feq (fract64 hp p0) (isZero (ρ := Rounding.binary64))
  have f0 := Int.fract_nonneg p
  have f1 := (Int.fract_lt_one p).le
  rw [← recent_vals] at *
  by_cases hf : rnd64 (Int.fract p) = 0
  · obtain ⟨d, y, e, -, hy, -⟩ := quickselect_orderStat fr (k := ⌊p⌋₊) (by omega)
    rw [if_pos (by rw [ef]; exact decide_eq_true hf), isUsize hp (lt_of_le_of_lt p1 hwR), e]
    refine ⟨y, rfl, _, hy, ?_⟩
    have er := rnd64_error (Int.fract p)
    rw [hf, zero_sub, abs_neg, abs_of_nonneg f0] at er
    have fs : Int.fract p ≤ unit64 := by
      have a1 : (2⁻¹ : ℝ) ^ 1075 ≤ 2⁻¹ ^ 54 := pow_le_pow_of_le_one (by norm_num) (by norm_num) (by norm_num)
      have a2 : (2⁻¹ : ℝ) ^ 54 = unit64 / 2 := by unfold unit64; norm_num
      have a3 : (2⁻¹ : ℝ) ^ 53 ≤ 1 / 2 := by norm_num
      rw [a2] at a1
      have a4 := er.trans (add_le_add (mul_le_mul_of_nonneg_right a3 f0) a1)
      generalize Int.fract p = f at a4
      clear er
      linarith only [a4]
    have g1 := abs_orderStat_le hS.nonneg bl ⌊p⌋₊
    have g2 := abs_orderStat_le hS.nonneg bl (⌊p⌋₊ + 1)
    rw [quantileOf, show ∀ a b f : ℝ, a - (a * (1 - f) + b * f) = (a - b) * f by intros; ring, abs_mul, abs_of_nonneg f0]
    have g3 := (abs_sub (orderStat (vals (recent data w i)) ⌊p⌋₊) (orderStat (vals (recent data w i)) (⌊p⌋₊ + 1)))
    refine (mul_le_mul (g3.trans (add_le_add g1 g2)) fs f0 (by linarith [hS.nonneg])).trans ?_
    nlinarith [hS.unit_nonneg]
  · have hf' : Int.fract p ≠ 0 := fun h => hf (by rw [h, rnd64_zero])
    have hlt : p < (w - 1 : ℕ) := by
      rcases p1.lt_or_eq with h | h
      · exact h
      · exact absurd (by rw [h]; simp) hf'
    have hlt2 : ⌊p⌋₊ < w - 1 := (Nat.floor_lt p0).2 hlt
    have hc : ⌈p⌉ = ⌊p⌋ + 1 := by
      rw [Int.ceil_eq_iff]
      have : 0 < Int.fract p := lt_of_le_of_ne (Int.fract_nonneg p) (Ne.symm hf')
      have h1 := Int.floor_le p
      have h2 := Int.lt_floor_add_one p
      have : 0 < p - ⌊p⌋ := this
      push_cast
      constructor <;> linarith
    have g1 := isFloor (n := w - 1) (by omega) hp p0 p1
    have g2 := isCeil (n := w - 1) (by omega) hp p0 p1
    have t1 : toUsize (floor (flt (w - 1) * (clampLit q 0 100 / 100) : F64)) = ⌊p⌋₊ := by
      rw [isUsize g1 (lt_of_le_of_lt ((Int.floor_le p).trans p1) hwR), fz, Nat.floor_natCast]
    have t2 : toUsize (ceil (flt (w - 1) * (clampLit q 0 100 / 100) : F64)) = ⌊p⌋₊ + 1 := by
      have e : (⌈p⌉ : ℝ) = ((⌊p⌋₊ + 1 : ℕ) : ℝ) := by rw [hc]; push_cast; rw [fz]
      rw [isUsize g2 (by rw [e]; exact lt_of_le_of_lt (by exact_mod_cast (show ⌊p⌋₊ + 1 ≤ w - 1 by omega)) hwR), e, Nat.floor_natCast]
    obtain ⟨d, y, e, ld, hy, fq, hm⟩ := quickselect_orderStat fr (k := ⌊p⌋₊) (by omega)
    rw [if_neg (by rw [ef]; simpa using hf)]
    simp only [t1, t2, e, Option.bind_some]
    rw [sliceFrom, if_pos (by omega), Option.bind_some]
    have hu := foldMin_is fq (by intro h; have := congrArg List.length h; simp at this; omega)
    rw [hm (by omega)] at hu
    refine ⟨_, rfl, ?_⟩
    have a1 : Nearly 1 _ (1 - Int.fract p) 1 (0 + 1 + 2) := Nearly.of_rounds sized_one (rounds_sub g2 hp) (k := 0) (c := 1) (by
      rw [hc, show ((⌊p⌋ + 1 : ℤ) : ℝ) - p - (1 - Int.fract p) = 0 by rw [Int.fract]; push_cast; ring]; simp)
      (by rw [abs_of_nonneg (by linarith)]; linarith) (by norm_num) (by norm_num)
    have a2 : Nearly 1 _ (Int.fract p) 1 (0 + 1 + 2) := Nearly.of_rounds sized_one (rounds_sub hp g1) (k := 0) (c := 1) (by
      rw [show p - (⌊p⌋ : ℝ) - Int.fract p = 0 by rw [Int.fract]; ring]; simp)
      (by rw [abs_of_nonneg f0]; linarith) (by norm_num) (by norm_num)
    have b1 : Nearly M y _ 1 0 := Nearly.exact hy (by rw [one_mul]; exact abs_orderStat_le hS.nonneg bl _)
    have b2 : Nearly M _ _ 1 0 := Nearly.exact hu (by rw [one_mul]; exact abs_orderStat_le hS.nonneg bl _)
    have hS' : Sized (M * 1) := by rwa [mul_one]
    have m1 := Nearly.mul hS sized_one hS' b1 a1 (by norm_num) (by norm_num) (by norm_num)
    have m2 := Nearly.mul hS sized_one hS' b2 a2 (by norm_num) (by norm_num) (by norm_num)
    have s := (Nearly.add hS' m1 m2 (by norm_num) (by norm_num)).approx
    rw [mul_one] at s
    refine s.mono (le_of_eq ?_)
    norm_num

/-- Halving a number of the format is exact unless the number is subnormal. -/
theorem rnd64_halve {a : ℝ} (hs : rnd64 a = a) (ha : a = 0 ∨ (2 : ℝ) ^ (-1021 : ℤ) ≤ |a|) : rnd64 (a * (1 / 2)) = a * (1 / 2) := by
  rcases ha with rfl | ha
  · simp [rnd64_zero]
  have pos : 0 < |a| := lt_of_lt_of_le (by positivity) ha
  have hl : -1021 ≤ Int.log 2 |a| := by
    rw [← Int.zpow_le_iff_le_log (by norm_num) pos]
    exact_mod_cast ha
  have hb : -1073 ≤ lastBit a := by unfold lastBit; omega
  have e : a = roundEven (a / 2 ^ lastBit a) * 2 ^ lastBit a := by
    conv_lhs => rw [← hs, rnd64]
  have lt := lt_last a
  rw [zpow_add₀ (by norm_num)] at lt
  generalize roundEven (a / 2 ^ lastBit a) = m at e
  generalize lastBit a = b at *
  have hm : |m| ≤ 2 ^ 53 := by
    have bp : (0 : ℝ) < 2 ^ b := by positivity
    rw [e, abs_mul, abs_of_pos bp] at lt
    have : |(m : ℝ)| ≤ 2 ^ (53 : ℤ) := by nlinarith
    exact_mod_cast this
  have := rnd64_exact hm (e := b - 1) (by omega)
  rw [e, show (m : ℝ) * 2 ^ b * (1 / 2) = m * 2 ^ (b - 1) by rw [zpow_sub₀ (by norm_num)]; ring]
  exact this

theorem rnd64_half : rnd64 (1 / 2) = 1 / 2 := by
  have := rnd64_exact (m := 1) (e := -1) (by norm_num) (by norm_num)
  norm_num at this ⊢
  exact this

theorem posOf_fifty {w : ℕ} (hw' : w ≤ 2 ^ 53) : posOf w (50 : F64) ⇓ ((w - 1 : ℕ) : ℝ) / 2 := by
  have i1 := isLit (ρ := Rounding.binary64) 100 (by norm_num)
  have hc := is_clampLit (isLit (ρ := Rounding.binary64) 50 (by norm_num)) isZero i1 (by norm_num)
  have h1 : (clampLit (50 : F64) 0 100 / 100) ⇓ (1 / 2 : ℝ) := by
    have := rounds64 (rounds_div hc i1 (by norm_num)) (by norm_num; exact le_trans (by norm_num) one_le_max64)
    refine this.congr ?_
    rw [show (max 0 (min (OfNat.ofNat 50) (OfNat.ofNat 100)) / OfNat.ofNat 100 : ℝ) = 1 / 2 by norm_num]
    exact rnd64_half
  have hk : ((w - 1 : ℕ) : ℝ) ≤ 2 ^ 53 := by exact_mod_cast (show w - 1 ≤ 2 ^ 53 by omega)
  have h2 := rounds64 (rounds_mul (isFlt (n := w - 1) (by omega)) h1) (by
    rw [abs_of_nonneg (by positivity)]
    refine le_trans ?_ max64_ge
    refine le_trans ?_ (pow_le_pow_right₀ (by norm_num) (show 53 ≤ 1000 by norm_num))
    linarith)
  refine h2.congr ?_
  have := rnd64_exact (m := (w - 1 : ℕ)) (e := -1) (by rw [abs_of_nonneg (by positivity)]; exact_mod_cast (show w - 1 ≤ 2 ^ 53 by omega)) (by norm_num)
  rw [show (((w - 1 : ℕ) : ℤ) : ℝ) * 2 ^ (-1 : ℤ) = ((w - 1 : ℕ) : ℝ) * (1 / 2) by push_cast; norm_num] at this
  rw [this]
  ring

/-- C123: `median` is the mean of the two middle values of the window, rounded once: it does not overflow, and it is exact for an odd window. -/
theorem median_rounded (data : List F64) (w : ℕ) (hw : 1 ≤ w) (hw' : w ≤ 2 ^ 53) (hn : w ≤ data.length + 1)
    (hd : ∀ x ∈ data, ∃ a, x ⇓ a ∧ Stored x ∧ (a = 0 ∨ (2 : ℝ) ^ (-1021 : ℤ) ≤ |a|)) :
    Reports data.length (w - 1)
      (fun i => rnd64 ((orderStat (recent (vals data) w i) ((w - 1) / 2) + orderStat (recent (vals data) w i) (w / 2)) / 2)) (median data w) := by
  have fd : Fins data := fun x hx => (hd x hx).choose_spec.1.1
  have hp := posOf_fifty hw'
  have os : ∀ i k, w ≤ i + 1 → i < data.length → k < w → let a := orderStat (recent (vals data) w i) k
      rnd64 a = a ∧ |a| ≤ max64 ∧ rnd64 (a * (1 / 2)) = a * (1 / 2) := by
    intro i k h1 h2 hk
    have m := orderStat_mem (l := recent (vals data) w i) (k := k) (by rw [recent_length h1 (by simpa using h2)]; exact hk)
    generalize orderStat (recent (vals data) w i) k = a at m
    rw [← recent_vals] at m
    obtain ⟨x, hx, rfl⟩ := List.mem_map.1 m
    obtain ⟨a, ha, sx, g⟩ := hd x (List.mem_of_mem_drop (List.mem_of_mem_take hx))
    obtain ⟨s1, s2⟩ := sx a ha
    rw [ha.2]
    exact ⟨s1, s2, rnd64_halve s1 g⟩
  rcases Nat.even_or_odd' (w - 1) with ⟨k, hk | hk⟩
  · have hp' : posOf w (50 : F64) ⇓ (k : ℝ) := hp.congr (by rw [hk]; push_cast; ring)
    refine (quantile_whole data w k 50 hw hw' hn fd (by omega) hp').congr fun i h1 h2 => ?_
    rw [show (w - 1) / 2 = k by omega, show w / 2 = k by omega, ← two_mul, mul_div_cancel_left₀ _ (by norm_num)]
    exact (os i k (by omega) h2 (by omega)).1.symm
  · unfold median
    run_model [quantile, quantileT]
    refine reportsP_mapP_windows (P := fun i y => y ⇓ rnd64 ((orderStat (recent (vals data) w i) ((w - 1) / 2) +
      orderStat (recent (vals data) w i) (w / 2)) / 2)) hw hn fun i h1 h2 => ?_
    have fr := fd.recent w i
    have lr := recent_length (l := data) h1 h2
    set p : ℝ := ((w - 1 : ℕ) : ℝ) / 2 with hpd
    have pe : p = k + 1 / 2 := by rw [hpd, hk]; push_cast; ring
    have p0 : 0 ≤ p := by positivity
    have p1 : p ≤ (w - 1 : ℕ) := by rw [hpd]; linarith [show (0 : ℝ) ≤ ((w - 1 : ℕ) : ℝ) from Nat.cast_nonneg _]
    have fl : ⌊p⌋ = (k : ℤ) := by rw [Int.floor_eq_iff, pe]; push_cast; constructor <;> linarith
    have cl : ⌈p⌉ = (k : ℤ) + 1 := by rw [Int.ceil_eq_iff, pe]; push_cast; constructor <;> linarith
    have ff : Int.fract p = 1 / 2 := by rw [Int.fract, fl, pe]; push_cast; ring
    have big : ((2 : ℝ) ^ 53 : ℝ) < 2 ^ 64 := by norm_num
    have hwR : ((w - 1 : ℕ) : ℝ) < 2 ^ 64 := lt_of_le_of_lt (by exact_mod_cast (show w - 1 ≤ 2 ^ 53 by omega)) big
    rw [posOf] at hp
    have ef := is_feq (fract64 hp p0) (isZero (ρ := Rounding.binary64))
    rw [ff, rnd64_half] at ef
    have g1 := isFloor (n := w - 1) (by omega) hp p0 p1
    have g2 := isCeil (n := w - 1) (by omega) hp p0 p1
    rw [fl] at g1
    rw [cl] at g2
    have t1 : toUsize (floor (flt (w - 1) * (clampLit 50 0 100 / 100) : F64)) = k := by
      rw [isUsize g1 (by push_cast; linarith), Int.cast_natCast, Nat.floor_natCast]
    have t2 : toUsize (ceil (flt (w - 1) * (clampLit 50 0 100 / 100) : F64)) = k + 1 := by
      have e : (((k : ℤ) + 1 : ℤ) : ℝ) = ((k + 1 : ℕ) : ℝ) := by push_cast; ring
      rw [isUsize g2 (by rw [e]; exact lt_of_le_of_lt (by exact_mod_cast (show k + 1 ≤ w - 1 by omega)) hwR), e, Nat.floor_natCast]
    obtain ⟨d, y, e, ld, hy, fq, hm⟩ := quickselect_orderStat fr (k := k) (by omega)
    rw [if_neg (by rw [ef]; norm_num)]
    simp only [t1, t2, e, Option.bind_some]
    rw [sliceFrom, if_pos (by omega), Option.bind_some]
    have hu := foldMin_is fq (by intro h; have := congrArg List.length h; simp at this; omega)
    rw [hm (by omega)] at hu
    rw [recent_vals] at hy hu
    obtain ⟨-, a2, a3⟩ := os i k h1 h2 (by omega)
    obtain ⟨-, b2, b3⟩ := os i (k + 1) h1 h2 (by omega)
    refine ⟨_, rfl, ?_⟩
    rw [show (w - 1) / 2 = k by omega, show w / 2 = k + 1 by omega]
    generalize orderStat (recent (vals data) w i) k = a at *
    generalize orderStat (recent (vals data) w i) (k + 1) = b at *
    have half : |(1 / 2 : ℝ)| ≤ max64 := by norm_num; exact le_trans (by norm_num) one_le_max64
    have c1 := rounds64 (rounds_sub g2 hp) (by rw [pe]; push_cast; rw [show (k : ℝ) + 1 - (k + 1 / 2) = 1 / 2 by ring]; exact half)
    have c2 := rounds64 (rounds_sub hp g1) (by rw [pe]; push_cast; rw [show (k : ℝ) + 1 / 2 - k = 1 / 2 by ring]; exact half)
    rw [pe] at c1 c2
    push_cast at c1 c2
    rw [show (k : ℝ) + 1 - (k + 1 / 2) = 1 / 2 by ring, rnd64_half] at c1
    rw [show (k : ℝ) + 1 / 2 - k = 1 / 2 by ring, rnd64_half] at c2
    have hb : ∀ z : ℝ, |z| ≤ max64 → |z * (1 / 2)| ≤ max64 / 2 := fun z hz => by rw [abs_mul, abs_of_pos (by norm_num : (0 : ℝ) < 1 / 2)]; linarith
    have q1 := rounds64 (rounds_mul hy c1) ((hb a a2).trans (by linarith [one_le_max64]))
    have q2 := rounds64 (rounds_mul hu c2) ((hb b b2).trans (by linarith [one_le_max64]))
    rw [a3] at q1
    rw [b3] at q2
    have := rounds64 (rounds_add q1 q2) ((abs_add_le _ _).trans (by linarith [hb a a2, hb b b2]))
    rwa [show a * (1 / 2) + b * (1 / 2) = (a + b) / 2 by ring] at this

end Traquer.Distribution

namespace Traquer.Trend
open FP FloatLit Volume

/-- C123: both lines of `aroon` are within 4 units of rounding of their exact values, relative to those values: the bars are counted exactly. -/
theorem aroon_accurate (high low : List F64) (w : ℕ) (hw : 1 ≤ w) (h32 : w < 2 ^ 32) (hn : w ≤ high.length) (hl : low.length = high.length)
    (fh : Fins high) (fl : Fins low) :
    Items high.length w (fun i p => ∃ a b : ℕ, BarsSinceHigh (vals high) w i a ∧ BarsSinceLow (vals low) w i b ∧
      WithinUnits 4 (100 * (w - a) / w) p.1 ∧ WithinUnits 4 (100 * (w - b) / w) p.2) (aroon high low w) := by
  refine (aroon_items high low w hn hl fh fl).mono fun i p _ _ h => ?_
  obtain ⟨a, b, ha, hb, rfl⟩ := h
  have hp := Smooth.natCast_pos hw
  have key : ∀ a : ℕ, a ≤ w → WithinUnits 4 (100 * (w - a) / w) (flt (w - a) / flt w * 100 : F64) := fun a ha => by
    have w32 : (w : ℝ) ≤ 2 ^ (32 : ℤ) := by exact_mod_cast h32.le
    have le1 : ((w - a : ℕ) : ℝ) / w ≤ 1 := by
      rw [div_le_one hp]; exact_mod_cast Nat.sub_le w a
    have n0 : 0 ≤ ((w - a : ℕ) : ℝ) / w := by positivity
    have cl : ((w - a : ℕ) : ℝ) / w = 0 ∨ (2 : ℝ) ^ (-32 : ℤ) ≤ ((w - a : ℕ) : ℝ) / w := by
      rcases Nat.eq_zero_or_pos (w - a) with h | h
      · left; rw [h]; simp
      · right
        rw [le_div_iff₀ hp]
        have : (1 : ℝ) ≤ ((w - a : ℕ) : ℝ) := by exact_mod_cast h
        refine le_trans ?_ this
        refine (mul_le_mul_of_nonneg_left w32 (by positivity)).trans ?_
        rw [← zpow_add₀ (by norm_num)]; norm_num
    have r1 := Rel.quot (Smooth.relNat (m := w - a) (by omega)) (Smooth.relNat (m := w) (by omega)) hp.ne' (units_ok (by omega))
      (cl.elim .inl (clear_of_le (by norm_num))) (fits_of_le (e := 0) (by norm_num) (by rw [abs_of_nonneg n0]; simpa using le1))
    have r2 := Rel.mul r1 (relLit 100 (by norm_num)) (units_ok (by omega)) (cl.elim (fun h => .inl (by rw [h, zero_mul]))
      fun h => clear_of_le (e := -32) (by norm_num) (h.trans (le_mul_of_one_le_right n0 (by norm_num))))
      (fits_of_le (e := 7) (by norm_num) (by rw [abs_of_nonneg (mul_nonneg n0 (by norm_num))]; norm_num; linarith))
    have := Rel.withinUnits r2 (by norm_num)
    have e : ((w - a : ℕ) : ℝ) / w * (OfNat.ofNat 100 : ℝ) = 100 * (w - a) / w := by
      rw [Nat.cast_sub ha]; ring
    rw [e] at this
    norm_num at this ⊢
    exact this
  exact ⟨a, b, ha, hb, key a ha.1, key b hb.1⟩

end Traquer.Trend

namespace Traquer
open FP FloatLit Volume Distribution

theorem fallen_stored : ∀ x ∈ ([flt 5000, flt 4000, flt 5, flt 4] : List F64), ∃ a, x ⇓ a ∧ Stored x ∧ (a = 0 ∨ (2 : ℝ) ^ (-1021 : ℤ) ≤ |a|) := by
  intro x hx
  obtain ⟨s, a, ha, h1, -⟩ := fallen_prices x hx
  exact ⟨a, ha, s, .inr ((zpow_le_zpow_right₀ (by norm_num) (by norm_num)).trans (h1.trans (le_abs_self a)))⟩

example : Reports 4 1 (fun i => rnd64 ((orderStat (recent (vals ([flt 5000, flt 4000, flt 5, flt 4] : List F64)) 2 i) 0 +
    orderStat (recent (vals ([flt 5000, flt 4000, flt 5, flt 4] : List F64)) 2 i) 1) / 2)) (median ([flt 5000, flt 4000, flt 5, flt 4] : List F64) 2) :=
  median_rounded _ 2 (by norm_num) (by norm_num) (by simp) fallen_stored

example : ReportsP 4 2 (fun i y => Approx y (quantileOf (recent (vals ([flt 5000, flt 4000, flt 5, flt 4] : List F64)) 3 i) ((2 : ℕ) * (max 0 (min 30 100) / 100)))
    ((8 * (3 : ℕ) + 18) * unit64 * 5000)) (quantile ([flt 5000, flt 4000, flt 5, flt 4] : List F64) 3 30) :=
  quantile_error _ 3 30 30 5000 (isLit 30 (by norm_num)) (by norm_num) (by norm_num) (by simp) (by
    unfold tiny64
    exact le_trans (pow_le_one₀ (by norm_num) (by norm_num)) (by norm_num)) (le_trans (by norm_num) (pow_le_pow_right₀ (show (1 : ℝ) ≤ 2 by norm_num) (show 20 ≤ 800 by norm_num)))
    (by
      intro x hx
      simp only [List.mem_cons, List.not_mem_nil, or_false] at hx
      rcases hx with rfl | rfl | rfl | rfl <;> exact ⟨_, isFlt (by norm_num), by norm_num⟩)

end Traquer
