import Verif.Props.Order
import Verif.Props.ErrorDispersion
import Verif.Props.FlatWindow
/-!
# C87 in `f64`: the order of the bars inside the window

`quantile` and `median` do not depend on it at all. Averages and dispersions change by rounding errors only, and `sma` really does change.
-/

namespace Traquer
open FP

variable {ρ : Rounding}

theorem FP.Rounds.same {x x' : FP ρ} {a : ℝ} (h1 : Rounds x a) (h2 : Rounds x' a) : SameValue x x' := by
  rcases h1.cases with ⟨hf, h⟩ | ⟨hf, h⟩ <;> rcases h2.cases with ⟨hf', h'⟩ | ⟨hf', h'⟩
  · exact .inr ⟨_, h, h'⟩
  · exact absurd hf hf'
  · exact absurd hf' hf
  · exact .inl (h.trans h'.symm)

theorem SameValue.add {x x' y y' : FP ρ} (h : SameValue x x') (g : SameValue y y') : SameValue (x + y) (x' + y') := by
  rcases h with rfl | ⟨a, ha, ha'⟩ <;> rcases g with rfl | ⟨b, hb, hb'⟩
  · exact .inl rfl
  · cases x with
    | nan => left; rfl
    | inf s => left; rcases is_iff.1 hb with rfl | ⟨rfl, rfl⟩ <;> rcases is_iff.1 hb' with rfl | ⟨rfl, h0⟩ <;> rfl
    | negz => exact (rounds_add is_negz hb).same (rounds_add is_negz hb')
    | fin r => exact (rounds_add (is_iff.2 (.inl rfl)) hb).same (rounds_add (is_iff.2 (.inl rfl)) hb')
  · cases y with
    | nan => left; rcases is_iff.1 ha with rfl | ⟨rfl, rfl⟩ <;> rcases is_iff.1 ha' with rfl | ⟨rfl, h0⟩ <;> rfl
    | inf s => left; rcases is_iff.1 ha with rfl | ⟨rfl, rfl⟩ <;> rcases is_iff.1 ha' with rfl | ⟨rfl, h0⟩ <;> rfl
    | negz => exact (rounds_add ha is_negz).same (rounds_add ha' is_negz)
    | fin r => exact (rounds_add ha (is_iff.2 (.inl rfl))).same (rounds_add ha' (is_iff.2 (.inl rfl)))
  · exact (rounds_add ha hb).same (rounds_add ha' hb')

theorem same_mul_right {x x' : FP ρ} {a : ℝ} (h : x ⇓ a) (h' : x' ⇓ a) (c : FP ρ) : SameValue (x * c) (x' * c) := by
  cases c with
  | nan => left; rcases is_iff.1 h with rfl | ⟨rfl, rfl⟩ <;> rcases is_iff.1 h' with rfl | ⟨rfl, h0⟩ <;> rfl
  | inf s =>
    left
    rcases is_iff.1 h with rfl | ⟨rfl, rfl⟩ <;> rcases is_iff.1 h' with rfl | ⟨rfl, h0⟩
    · rfl
    · subst h0; simp [mul_def, FP.mul]
    · simp [mul_def, FP.mul]
    · rfl
  | negz => exact (rounds_mul h is_negz).same (rounds_mul h' is_negz)
  | fin r => exact (rounds_mul h (is_iff.2 (.inl rfl))).same (rounds_mul h' (is_iff.2 (.inl rfl)))

end Traquer

namespace Traquer.Distribution
open FP FloatLit

variable {ρ : Rounding}

/-- One window of `quantile`. -/
private noncomputable def quantileWin (w : ℕ) (q : FP ρ) (x : List (FP ρ)) : Option (FP ρ) :=
  if fract (posOf w q) ==. 0 then do
    let (_, x) ← quickselect (fun x y => x <. y) x (toUsize (posOf w q))
    some (id x)
  else do
    let (w', x) ← quickselect (fun x y => x <. y) x (toUsize (floor (posOf w q)))
    let lower := id x
    let rest ← sliceFrom w' (toUsize (ceil (posOf w q)))
    let upper := rest.foldl (fun s x => fmin s (id x)) nan
    some (lower * (ceil (posOf w q) - posOf w q) + upper * (posOf w q - floor (posOf w q)))

theorem quantileWin_order {w : ℕ} (hw : 1 ≤ w) (hw' : w ≤ 2 ^ 53) (q : FP ρ) {x x' : List (FP ρ)} (h : Fins x) (h' : Fins x') (l : x.length = w)
    (l' : x'.length = w) (hp : (vals x).Perm (vals x')) :
    ∃ y y', quantileWin w q x = some y ∧ quantileWin w q x' = some y' ∧ SameValue y y' := by
  have big : ((2 : ℝ) ^ 53 : ℝ) < 2 ^ 64 := by norm_num
  have hwR : ((w - 1 : ℕ) : ℝ) < 2 ^ 64 := lt_of_le_of_lt (by exact_mod_cast (show w - 1 ≤ 2 ^ 53 by omega)) big
  unfold quantileWin
  rcases posOf_range hw hw' q with hn | ⟨r, hr, h0, h1⟩
  · obtain ⟨d, y, e, ld, -⟩ := quickselect_orderStat h (k := 0) (by omega)
    obtain ⟨d', y', e', ld', -⟩ := quickselect_orderStat h' (k := 0) (by omega)
    rw [if_neg (by rw [hn]; simp [Traquer.fract, FloatOps.fract, FP.fract, FloatOps.feq, FP.feq, FP.isNaN]), if_neg (by rw [hn]; simp [Traquer.fract, FloatOps.fract, FP.fract, FloatOps.feq, FP.feq, FP.isNaN])]
    have hz : toUsize (floor (FP.nan : FP ρ)) = 0 := rfl
    have hz2 : toUsize (ceil (FP.nan : FP ρ)) = 0 := rfl
    rw [hn]
    simp only [hz, hz2, e, e', Option.bind_eq_bind, Option.bind_some, sliceFrom, Nat.zero_le, if_true]
    refine ⟨_, _, rfl, rfl, .inl ?_⟩
    have c1 : ∀ a b : FP ρ, a * (FP.nan - b) = FP.nan := fun a b => by
      show FP.mul a FP.nan = _
      cases a <;> rfl
    show (_ * (FP.nan - _)) + _ = (_ * (FP.nan - _)) + _
    simp only [c1]
  · have pf : ⌊r⌋₊ ≤ w - 1 := Nat.floor_le_of_le h1
    have fz : (⌊r⌋ : ℝ) = (⌊r⌋₊ : ℝ) := natCast_floor_eq_intCast_floor h0 |>.symm
    obtain ⟨d, y, e, ld, iy, fd, md⟩ := quickselect_orderStat h (k := ⌊r⌋₊) (by omega)
    obtain ⟨d', y', e', ld', iy', fd', md'⟩ := quickselect_orderStat h' (k := ⌊r⌋₊) (by omega)
    rw [← hp.orderStat] at iy'
    split
    · rw [isUsize hr (lt_of_le_of_lt h1 hwR)]
      simp only [e, e', Option.bind_eq_bind, Option.bind_some]
      exact ⟨_, _, rfl, rfl, .inr ⟨_, iy, iy'⟩⟩
    · rename_i hf
      have hne : (⌊r⌋ : ℝ) ≠ r := fun he => hf (by
        have hz : Traquer.fract (posOf w q) ⇓ 0 := by
          rcases is_iff.1 hr with hpos | ⟨hpos, rfl⟩
          · rw [hpos]
            show mk false (r - if 0 ≤ r then ⌊r⌋ else ⌈r⌉) ⇓ 0
            rw [if_pos h0, he, sub_self]
            exact mk_zero _
          · rw [hpos]; exact is_iff.2 (.inl rfl)
        rw [is_feq hz isZero]; simp)
      have hlt : r < (w - 1 : ℕ) := by
        rcases h1.lt_or_eq with h | h
        · exact h
        · exact absurd (by rw [h]; simp) hne
      have hlt2 : ⌊r⌋₊ < w - 1 := (Nat.floor_lt h0).2 hlt
      have hc : ⌈r⌉ = ⌊r⌋ + 1 := by
        rw [Int.ceil_eq_iff]
        have h1 := lt_of_le_of_ne (Int.floor_le r) hne
        have h2 := Int.lt_floor_add_one r
        push_cast
        constructor <;> linarith
      have t1 : toUsize (floor (posOf w q)) = ⌊r⌋₊ := by
        rw [isUsize (isFloor (by omega) hr h0 h1) (lt_of_le_of_lt ((Int.floor_le r).trans h1) hwR), fz, Nat.floor_natCast]
      have t2 : toUsize (ceil (posOf w q)) = ⌊r⌋₊ + 1 := by
        have e : (⌈r⌉ : ℝ) = ((⌊r⌋₊ + 1 : ℕ) : ℝ) := by rw [hc]; push_cast; rw [fz]
        rw [isUsize (isCeil (by omega) hr h0 h1) (by rw [e]; exact lt_of_le_of_lt (by exact_mod_cast (show ⌊r⌋₊ + 1 ≤ w - 1 by omega)) hwR), e,
          Nat.floor_natCast]
      simp only [t1, t2, e, e', Option.bind_eq_bind, Option.bind_some]
      rw [sliceFrom, sliceFrom, if_pos (by omega), if_pos (by omega)]
      simp only [Option.bind_some]
      have hu := foldMin_is fd (by intro h; have := congrArg List.length h; simp at this; omega)
      have hu' := foldMin_is fd' (by intro h; have := congrArg List.length h; simp at this; omega)
      rw [md (by omega)] at hu
      rw [md' (by omega), ← hp.orderStat] at hu'
      exact ⟨_, _, rfl, rfl, (same_mul_right iy iy' _).add (same_mul_right hu hu' _)⟩

/-- C87: `quantile` in every rounding, so also in `f64`: the very same number, whatever the level. -/
theorem quantile_order64 {w i : ℕ} {data data' : List (FP ρ)} (h : Shuffled w i data data') (q : FP ρ) (hw : 1 ≤ w) (hw' : w ≤ 2 ^ 53)
    (hi : w ≤ i + 1) : SameAt i (quantile data w q) (quantile data' w q) := by
  have key : ∀ {s s' : List (FP ρ)}, Shuffled w i s s' → ReportsP s.length (w - 1) (fun j y => quantileWin w q (recent s w j) = some y) (quantile s w q) := by
    intro s s' h
    have hb := h.bar
    run_model [quantile, quantileT]
    refine reportsP_mapP_windows hw (by omega) fun j h1 h2 => ?_
    have l := recent_length (l := s) h1 h2
    obtain ⟨y, -, e, -⟩ := quantileWin_order hw hw' q (h.fins.recent w j) (h.fins.recent w j) l l (.refl _)
    exact ⟨y, e, e⟩
  refine sameAt_reportsP (key h) (key h.symm) (by omega) h.bar h.bar' fun y y' hy hy' => ?_
  obtain ⟨z, z', e, e', hs⟩ := quantileWin_order hw hw' q (h.fins.recent w i) (h.fins'.recent w i) (recent_length hi h.bar) (recent_length hi h.bar')
    (by rw [recent_vals, recent_vals]; exact h.perm)
  rw [e] at hy; rw [e'] at hy'
  cases hy; cases hy'
  exact hs

/-- C87: `median` in every rounding. -/
theorem median_order64 {w i : ℕ} {data data' : List (FP ρ)} (h : Shuffled w i data data') (hw : 1 ≤ w) (hw' : w ≤ 2 ^ 53)
    (hi : w ≤ i + 1) : SameAt i (median data w) (median data' w) := quantile_order64 h 50 hw hw' hi

end Traquer.Distribution

/-! ## Averages and dispersions change by rounding errors only -/

namespace Traquer
open FP

/-- Neither call panics, and the values both report at bar `i` are numbers at most `e` apart. -/
def CloseAt {ρ : Rounding} (i : ℕ) (e : ℝ) (r r' : Option (List (FP ρ))) : Prop :=
  ∃ out out' y y' a b, r = some out ∧ r' = some out' ∧ out[i]? = some y ∧ out'[i]? = some y' ∧ y ⇓ a ∧ y' ⇓ b ∧ |a - b| ≤ e

theorem closeAt_of {ρ : Rounding} {n n' k i : ℕ} {v v' : ℕ → ℝ} {e : ℝ} {r r' : Option (List (FP ρ))}
    (h : ReportsP n k (fun i y => Approx y (v i) e) r) (h' : ReportsP n' k (fun i y => Approx y (v' i) e) r') (hk : k ≤ i) (hi : i < n)
    (hi' : i < n') (ev : v i = v' i) : CloseAt i (2 * e) r r' := by
  obtain ⟨o, eo, -, -, f⟩ := h
  obtain ⟨o', eo', -, -, f'⟩ := h'
  obtain ⟨y, hy, a, ia, ha⟩ := f i hk hi
  obtain ⟨y', hy', b, ib, hb⟩ := f' i hk hi'
  refine ⟨o, o', y, y', a, b, eo, eo', hy, hy', ia, ib, ?_⟩
  rw [← ev] at hb
  rw [abs_le] at *
  constructor <;> linarith

section
variable {w i : ℕ} {data data' : List F64} {M : ℝ} (h : Shuffled w i data data') (hw : 1 ≤ w) (hi : w ≤ i + 1) (h48 : w < 2 ^ 48)
  (hM : tiny64 ≤ M) (hB : 12 * w * M ≤ max64) (hd : Bounded M data) (hd' : Bounded M data')
include h hw hi h48 hM hB hd hd'

/-- C87: in `f64` shuffling the window moves `sma` by at most `2 (w + 5) * 2^-53 * M`, `M` bounding the values. -/
theorem sma_order64 : CloseAt i (2 * ((w + 5) * unit64 * M)) (Smooth.sma data w) (Smooth.sma data' w) := by
  have hb := h.bar; have hb' := h.bar'
  have M0 := tiny64_pos.le.trans hM
  have hB' : 4 * w * M ≤ max64 := le_trans (by have : 0 ≤ w * M := by positivity
                                               linarith) hB
  exact closeAt_of (sma_error data w hw (by omega) (by omega) hM hB' hd) (sma_error data' w hw (by omega) (by omega) hM hB' hd')
    (by omega) hb hb' h.perm.mean

/-- C87: in `f64` shuffling the window moves `mad` by at most `8 (w + 6) * 2^-53 * M`. -/
theorem mad_order64 : CloseAt i (2 * (4 * (w + 6) * unit64 * M)) (Distribution.mad data w) (Distribution.mad data' w) := by
  have hb := h.bar; have hb' := h.bar'
  exact closeAt_of (mad_error data w hw (by omega) h48 hM hB hd) (mad_error data' w hw (by omega) h48 hM hB hd') (by omega) hb hb' h.perm.meanAbsDev

variable (hM2 : tiny64 ≤ M ^ 2) (hB2 : 40 * w * M ^ 2 ≤ max64)
include hM2 hB2

/-- C87: in `f64` shuffling the window moves `variance` by at most `30 (w + 7) * 2^-53 * M^2`. -/
theorem variance_order64 : CloseAt i (2 * (15 * (w + 7) * unit64 * M ^ 2)) (Distribution.variance data w) (Distribution.variance data' w) := by
  have hb := h.bar; have hb' := h.bar'
  exact closeAt_of (variance_error data w hw (by omega) h48 hM hB hd hM2 hB2) (variance_error data' w hw (by omega) h48 hM hB hd' hM2 hB2)
    (by omega) hb hb' (h.perm.moment 2)

/-- C87: in `f64` shuffling the window moves `std_dev` by at most `2 (√(15 (w + 7) * 2^-53) + 2^-51) * M`. -/
theorem std_dev_order64 : CloseAt i (2 * ((Real.sqrt (15 * (w + 7) * unit64) + 4 * unit64) * M)) (Distribution.std_dev data w)
    (Distribution.std_dev data' w) := by
  have hb := h.bar; have hb' := h.bar'
  exact closeAt_of (std_dev_error data w hw (by omega) h48 hM hB hd hM2 hB2) (std_dev_error data' w hw (by omega) h48 hM hB hd' hM2 hB2)
    (by omega) hb hb' h.perm.stdDev

end

/-! ## And `sma` does change -/

theorem rnd64_far {k : ℤ} (h0 : 0 ≤ k) (h1 : k ≤ 3) (z : ℤ) (hz : roundEven ((2 ^ 54 + k : ℝ) / 4) = z) : rnd64 (2 ^ 54 + k) = 4 * z := by
  have hk0 : (0 : ℝ) ≤ k := by exact_mod_cast h0
  have hk1 : (k : ℝ) ≤ 3 := by exact_mod_cast h1
  have hp : (0 : ℝ) < |2 ^ 54 + (k : ℝ)| := by rw [abs_of_pos (by positivity)]; positivity
  have hl : Int.log 2 |2 ^ 54 + (k : ℝ)| = 54 := by
    refine le_antisymm (Int.lt_add_one_iff.1 ?_) ?_
    · rw [← Int.lt_zpow_iff_log_lt (by norm_num) hp, abs_of_pos (by positivity)]
      norm_num; linarith
    · rw [← Int.zpow_le_iff_le_log (by norm_num) hp, abs_of_pos (by positivity)]
      norm_num; linarith
  have hb : lastBit (2 ^ 54 + (k : ℝ)) = 2 := by rw [lastBit, hl]; norm_num
  rw [rnd64, hb]
  have : ((2 : ℝ) ^ (2 : ℤ)) = 4 := by norm_num
  rw [this, hz]; ring

theorem rnd64_far0 : rnd64 (2 ^ 54 + 1) = 2 ^ 54 := by
  have hf : ⌊((2 : ℝ) ^ 54 + 1) / 4⌋ = 2 ^ 52 := by rw [Int.floor_eq_iff]; norm_num
  have := rnd64_far (k := 1) (by norm_num) (by norm_num) (2 ^ 52) (by
    push_cast
    rw [roundEven, Int.fract, hf, if_pos (by norm_num)]; norm_num)
  push_cast at this
  rw [this]; norm_num

theorem rnd64_far3 : rnd64 (3 + 2 ^ 54) = 2 ^ 54 + 4 := by
  have hf : ⌊((2 : ℝ) ^ 54 + 3) / 4⌋ = 2 ^ 52 := by rw [Int.floor_eq_iff]; norm_num
  have := rnd64_far (k := 3) (by norm_num) (by norm_num) (2 ^ 52 + 1) (by
    push_cast
    rw [roundEven, Int.fract, hf, if_neg (by norm_num), if_pos (by norm_num)]; norm_num)
  push_cast at this
  rw [add_comm, this]; norm_num

/-- C87: in `f64` the simple average does depend on the order: `2^54, 1, 1, 1` averages to `2^52`, `1, 1, 1, 2^54` to `2^52 + 1`. -/
theorem sma_order_matters64 : ∃ y y' : F64, Smooth.sma [fin (2 ^ 54), fin 1, fin 1, fin 1] 4 = some [FP.nan, FP.nan, FP.nan, y] ∧ y ⇓ 2 ^ 52 ∧
    Smooth.sma [fin 1, fin 1, fin 1, fin (2 ^ 54)] 4 = some [FP.nan, FP.nan, FP.nan, y'] ∧ y' ⇓ 2 ^ 52 + 1 := by
  have big : (2 : ℝ) ^ 54 + 4 ≤ max64 := by
    unfold max64
    have : (2 : ℝ) ≤ 2 ^ 970 := by simpa using pow_le_pow_right₀ (show (1 : ℝ) ≤ 2 by norm_num) (show 1 ≤ 970 by norm_num)
    have e : ((2 : ℝ) ^ 53 - 1) * 2 ^ 971 = (2 ^ 53 - 1) * 2 * 2 ^ 970 := by rw [pow_succ (2 : ℝ) 970]; ring
    rw [e]; clear e
    generalize (2 : ℝ) ^ 970 = g at *
    norm_num
    linarith
  have fits : ∀ r : ℝ, 0 ≤ r → r ≤ 2 ^ 54 + 4 → Rounding.binary64.fits r := fun r h0 h1 => by
    show |r| ≤ max64
    rw [abs_of_nonneg h0]; exact h1.trans big
  have step : ∀ {x y : F64} {a b c : ℝ}, x ⇓ a → y ⇓ b → rnd64 (a + b) = c → 0 ≤ c → c ≤ 2 ^ 54 + 4 → x + y ⇓ c := by
    intro x y a b c hx hy e h0 h1
    rcases (rounds_add hx hy).cases with ⟨-, h⟩ | ⟨h, -⟩
    · exact h.congr e
    · exact absurd (by show Rounding.binary64.fits (rnd64 (a + b)); rw [e]; exact fits c h0 h1) h
  have ex : ∀ n : ℕ, n ≤ 2 ^ 53 → rnd64 n = n := fun n hn => Rounding.binary64.nat n hn
  have e54 : rnd64 (2 ^ 54) = 2 ^ 54 := by
    have := rnd64_exact (m := 1) (e := 54) (by norm_num) (by norm_num)
    norm_num at this ⊢
    exact this
  have i1 : (fin 1 : F64) ⇓ 1 := is_iff.2 (.inl rfl)
  have ib : (fin (2 ^ 54) : F64) ⇓ 2 ^ 54 := is_iff.2 (.inl rfl)
  have i4 : (flt 4 : F64) ⇓ 4 := by exact_mod_cast isFlt (ρ := Rounding.binary64) (n := 4) (by norm_num)
  have dv : ∀ {x : F64} {a : ℝ} (n : ℕ), x ⇓ a → a / 4 = n → n ≤ 2 ^ 53 → x / flt 4 ⇓ n := by
    intro x a n hx e hn
    rcases (rounds_div hx i4 (by norm_num)).cases with ⟨-, h⟩ | ⟨h, -⟩
    · exact h.congr (by rw [e]; exact ex n hn)
    · exact absurd (by rw [e]; show Rounding.binary64.fits (rnd64 n); rw [ex n hn]; exact Rounding.binary64.fits_nat n hn) h
  have a1 := step (isZero (ρ := Rounding.binary64)) ib (c := 2 ^ 54) (by rw [zero_add, e54]) (by norm_num) (by norm_num)
  have a2 := step a1 i1 rnd64_far0 (by norm_num) (by norm_num)
  have a3 := step a2 i1 rnd64_far0 (by norm_num) (by norm_num)
  have a4 := step a3 i1 rnd64_far0 (by norm_num) (by norm_num)
  have b1 := step (isZero (ρ := Rounding.binary64)) i1 (c := 1) (by simpa using ex 1 (by norm_num)) (by norm_num) (by norm_num)
  have b2 := step b1 i1 (c := 2) (by norm_num; simpa using ex 2 (by norm_num)) (by norm_num) (by norm_num)
  have b3 := step b2 i1 (c := 3) (by norm_num; simpa using ex 3 (by norm_num)) (by norm_num) (by norm_num)
  have b4 := step b3 ib rnd64_far3 (by norm_num) (by norm_num)
  have r1 := dv (2 ^ 52) a4 (by norm_num) (by norm_num)
  have r2 := dv (2 ^ 52 + 1) b4 (by norm_num) (by norm_num)
  refine ⟨_, _, rfl, ?_, rfl, ?_⟩
  · exact_mod_cast r1
  · exact_mod_cast r2

private theorem exO : Shuffled 3 3 ([9, 1, 2, 4].map (fin (ρ := Rounding.binary64))) ([4, 2, 4, 1, 7].map fin) ∧
    Bounded 9 ([9, 1, 2, 4].map (fin (ρ := Rounding.binary64))) ∧ Bounded 9 ([4, 2, 4, 1, 7].map (fin (ρ := Rounding.binary64))) ∧
    tiny64 ≤ 9 ∧ tiny64 ≤ (9 : ℝ) ^ 2 ∧ 12 * ((3 : ℕ) : ℝ) * 9 ≤ max64 ∧ 40 * ((3 : ℕ) : ℝ) * 9 ^ 2 ≤ max64 := by
  have bd : ∀ l : List ℝ, (∀ r ∈ l, |r| ≤ 9) → Bounded 9 (l.map (fin (ρ := Rounding.binary64))) := fun l h x hx => by
    obtain ⟨r, hr, rfl⟩ := List.mem_map.1 hx
    exact ⟨r, is_iff.2 (.inl rfl), h r hr⟩
  have ht : tiny64 ≤ 1 := pow_le_one₀ (by norm_num) (by norm_num)
  refine ⟨⟨fins_map_fin _, fins_map_fin _, by simp, by simp, ?_⟩, bd _ (by simp; norm_num), bd _ (by simp; norm_num), by linarith, by linarith,
    le_trans (by norm_num) large_le_max64, le_trans (by norm_num) large_le_max64⟩
  rw [vals_map_fin, vals_map_fin]
  show ([1, 2, 4] : List ℝ).Perm [2, 4, 1]
  exact (List.perm_append_comm (l₁ := [1]) (l₂ := [2, 4]))

local notation "exP" => (List.map (fin (ρ := Rounding.binary64)) [9, 1, 2, 4])
local notation "exQ" => (List.map (fin (ρ := Rounding.binary64)) [4, 2, 4, 1, 7])

example : SameAt 3 (Distribution.median exP 3) (Distribution.median exQ 3) :=
  Distribution.median_order64 exO.1 (by norm_num) (by norm_num) (by norm_num)
example : CloseAt 3 (2 * ((((3 : ℕ) : ℝ) + 5) * unit64 * 9)) (Smooth.sma exP 3) (Smooth.sma exQ 3) :=
  sma_order64 exO.1 (by norm_num) (by norm_num) (by norm_num) exO.2.2.2.1 exO.2.2.2.2.2.1 exO.2.1 exO.2.2.1
example : CloseAt 3 (2 * (15 * (((3 : ℕ) : ℝ) + 7) * unit64 * 9 ^ 2)) (Distribution.variance exP 3) (Distribution.variance exQ 3) :=
  variance_order64 exO.1 (by norm_num) (by norm_num) (by norm_num) exO.2.2.2.1 exO.2.2.2.2.2.1 exO.2.1 exO.2.2.1 exO.2.2.2.2.1 exO.2.2.2.2.2.2

end Traquer
