import Verif.Props.Averages64
import Verif.Props.Signed64
import Verif.Props.Adaptive2
import Verif.Props.Mama
import Verif.Lemmas.FoldMax
/-!
# C121: the adaptive averages stay inside the prices' range in binary64

vma, kama, frama and mama move towards the newest price by a gain that depends on the data. In exact arithmetic they never leave
the range of the prices and 0. Here: in binary64 they never leave it by more than a few units in the last place, however long the
series is, because an error made by one step is not passed on with a factor above 1.
-/

namespace Traquer.Smooth
open FP FloatLit
variable {ρ : Rounding}

/-- `x` is a finite number of the format between 0 and `M`. -/
def Quoted (M : ℝ) (x : F64) : Prop := ∃ a, x ⇓ a ∧ 0 ≤ a ∧ a ≤ M ∧ Stored x

/-- `x` is NaN, or a finite number of the format between 0 and `M`. -/
def Kept (M : ℝ) (x : F64) : Prop := x = FP.nan ∨ Quoted M x

theorem Kept.inRange {M : ℝ} {x : F64} (h : Kept M x) : InRange 0 M x := by
  rcases h with h | ⟨a, h, h0, h1, -⟩
  · exact .inl h
  · exact inRange_of h h0 h1

theorem kept_zero {M : ℝ} (h : 0 ≤ M) : Kept M (0 : F64) := .inr ⟨0, isZero, le_rfl, h, stored_zero⟩

theorem kept_of_isNaN {M : ℝ} {x : F64} (h : isNaN x = true) : Kept M x := .inl (isNaN_iff.1 h)

theorem rnd64_nonneg {z : ℝ} (h : 0 ≤ z) : 0 ≤ rnd64 z := by
  have := rnd64_mono _ _ h
  rwa [rnd64_zero] at this

/-- One step of gain between 0 and 1 towards a price. -/
theorem step64 {g x s : F64} {M : ℝ} (hM : 0 ≤ M) (hB : 2 * M ≤ max64) (hg : InRange 0 1 g) (hx : Quoted M x)
    (hs : Kept ((1 + unit64) ^ 2 * M) s) : Kept ((1 + unit64) ^ 2 * M) (g * (x - s) + s) := by
  rcases hg with rfl | ⟨γ, hγ, g0, g1⟩
  · exact kept_of_isNaN (by have : isNaN (nan : F64) = true := rfl; nanp)
  rcases hs with rfl | ⟨b, hs, b0, b1, ss⟩
  · exact kept_of_isNaN (by have : isNaN (nan : F64) = true := rfl; nanp)
  obtain ⟨a, hx, a0, a1, sx⟩ := hx
  have u0 := unit64_pos
  have u1 : (1 + unit64) ^ 2 ≤ 2 := by
    have : unit64 ≤ 1 / 8 := by unfold unit64; norm_num
    nlinarith
  have b2 : b ≤ 2 * M := b1.trans (by nlinarith)
  have hb : rnd64 b = b := (ss b hs).1
  have hd := rounds64 (rounds_sub hx hs) (abs_le.2 ⟨by linarith, by linarith⟩)
  obtain ⟨m, hm⟩ := sx.multiple hx
  obtain ⟨n, hn⟩ := ss.multiple hs
  have rel := rnd64_relative (x := a - b) (.inl ⟨m - n, by rw [hm, hn]; push_cast; ring⟩)
  have sd : Stored (x - s) := (rounds_sub hx hs).stored
  generalize rnd64 (a - b) = δ at hd rel
  have hδ : rnd64 δ = δ := (sd δ hd).1
  have hδM := (sd δ hd).2
  change |δ| ≤ max64 at hδM
  have hgd := rounds_mul hγ hd
  have hγδ : |γ * δ| ≤ max64 := by
    rw [abs_mul, abs_of_nonneg g0]
    nlinarith [abs_nonneg δ]
  have he := rounds64 hgd hγδ
  have se := hgd.stored
  -- the step is between 0 and the distance
  have hle : (0 ≤ δ → 0 ≤ rnd64 (γ * δ) ∧ rnd64 (γ * δ) ≤ δ) ∧ (δ ≤ 0 → δ ≤ rnd64 (γ * δ) ∧ rnd64 (γ * δ) ≤ 0) := by
    constructor <;> intro h
    · refine ⟨rnd64_nonneg (mul_nonneg g0 h), ?_⟩
      have := rnd64_mono (γ * δ) δ (by nlinarith)
      rwa [hδ] at this
    · constructor
      · have := rnd64_mono δ (γ * δ) (by nlinarith)
        rwa [hδ] at this
      · have := rnd64_mono (γ * δ) 0 (by nlinarith)
        rwa [rnd64_zero] at this
  generalize rnd64 (γ * δ) = ε at he hle
  obtain ⟨k, hk⟩ := se.multiple he
  have rel2 := rnd64_relative (x := ε + b) (.inl ⟨k + n, by rw [hk, hn]; push_cast; ring⟩)
  have hy := rounds_add he hs
  have key : 0 ≤ ε + b ∧ ε + b ≤ max64 ∧ rnd64 (ε + b) ≤ (1 + unit64) ^ 2 * M := by
    rcases le_or_gt b a with h | h
    · rw [abs_of_nonneg (by linarith : (0 : ℝ) ≤ a - b)] at rel
      have r := abs_le.1 rel
      have δ0 : 0 ≤ δ := by
        have : unit64 ≤ 1 := by unfold unit64; norm_num
        nlinarith
      obtain ⟨e0, e1⟩ := hle.1 δ0
      have top : ε + b ≤ (1 + unit64) * M := by nlinarith
      have z0 : 0 ≤ ε + b := by linarith
      rw [abs_of_nonneg z0] at rel2
      have r2 := (abs_le.1 rel2).2
      refine ⟨z0, by nlinarith, ?_⟩
      have : (1 + unit64) * (ε + b) ≤ (1 + unit64) * ((1 + unit64) * M) := mul_le_mul_of_nonneg_left top (by linarith)
      nlinarith
    · rw [abs_of_neg (by linarith : a - b < 0)] at rel
      have r := abs_le.1 rel
      have δ0 : δ ≤ 0 := by
        have : unit64 ≤ 1 := by unfold unit64; norm_num
        nlinarith
      obtain ⟨e0, e1⟩ := hle.2 δ0
      have hlow : -b ≤ δ := by
        -- `x - s` is the rounding of `a - b ≥ -b`
        have h1 := rounds64 (rounds_sub hx hs) (abs_le.2 ⟨by linarith, by linarith⟩)
        have h2 := hd.unique h1
        have h3 := rnd64_mono (-b) (a - b) (by linarith)
        rw [rnd64_neg, hb] at h3
        rw [h2]; exact h3
      have z0 : 0 ≤ ε + b := by linarith
      have := rnd64_mono (ε + b) b (by linarith)
      rw [hb] at this
      exact ⟨z0, by linarith, this.trans b1⟩
  obtain ⟨z0, z1, z2⟩ := key
  exact .inr ⟨_, rounds64 hy (by rw [abs_of_nonneg z0]; exact z1), rnd64_nonneg z0, z2, hy.stored⟩

/-! ## vma -/

theorem inRange_abs_any {y : FP ρ} (h : InRange (-1) 1 y) : InRange 0 1 (fabs y) := by
  rcases h with rfl | ⟨r, hr, h0, h1⟩
  · exact inRange_nan _ _
  · exact inRange_of (is_abs hr) (abs_nonneg _) (abs_le.2 ⟨h0, h1⟩)

theorem rounds_unitRange {x : FP ρ} {a : ℝ} (h : Rounds x a) (h0 : 0 ≤ a) (h1 : a ≤ 1) : InRange 0 1 x := by
  obtain ⟨r, hr, r0, r1⟩ := Rounds.between (n := 1) h (by norm_num) h0 (by simpa using h1)
  exact inRange_of hr r0 (by simpa using r1)

theorem inRange_mul01_any {x y : FP ρ} (hx : InRange 0 1 x) (hy : InRange 0 1 y) : InRange 0 1 (x * y) := by
  rcases hx with rfl | ⟨r, hr, r0, r1⟩
  · exact inRange_of_isNaN (by have : isNaN (nan : FP ρ) = true := rfl; nanp)
  rcases hy with rfl | ⟨u, hu, u0, u1⟩
  · exact inRange_of_isNaN (by have : isNaN (nan : FP ρ) = true := rfl; nanp)
  exact rounds_unitRange (rounds_mul hr hu) (by positivity) (mul_le_one₀ r1 u0 u1)

theorem alpha_inRange_any {w : ℕ} (hw : 1 ≤ w) (h53 : w < 2 ^ 53) : InRange 0 1 (2 / flt (w + 1) : FP ρ) := by
  have h := rounds_div (isLit (ρ := ρ) 2 (by norm_num)) (isFlt (ρ := ρ) (n := w + 1) (by omega)) (by positivity)
  refine rounds_unitRange h (by positivity) ?_
  have : (1 : ℝ) ≤ w := by exact_mod_cast hw
  rw [div_le_one (by positivity)]
  push_cast
  linarith

/-- C121: on prices from 0 to `M`, every value of `vma` is NaN or between 0 and `M` plus two roundings of `M`. -/
theorem vma_inRange64 (data : List F64) (w : ℕ) (M : ℝ) (hw : 1 ≤ w) (h53 : w < 2 ^ 53) (hn : max w 9 ≤ data.length)
    (hM : 0 ≤ M) (hB : 2 * M ≤ max64) (hd : ∀ x ∈ data, Quoted M x) :
    ∃ out, vma data w = some out ∧ out.length = data.length ∧ ∀ y ∈ out, InRange 0 ((1 + unit64) ^ 2 * M) y := by
  obtain ⟨out, e, l, -⟩ := vma_aligned data w hn
  refine ⟨out, e, l, ?_⟩
  simp only [vma, Option.bind_eq_bind] at e
  obtain ⟨vi, hvi, e⟩ := Option.bind_eq_some_iff.1 e
  cases e
  refine inRange_nans fun y hy => ?_
  refine Kept.inRange (scanS_invariant (I := Kept ((1 + unit64) ^ 2 * M)) ?_ (kept_zero (by positivity)) y (List.mem_of_mem_drop hy))
  rintro s ⟨v, d⟩ hx hI
  have hm := List.of_mem_zip hx
  exact step64 hM hB (inRange_mul01_any (alpha_inRange_any hw h53) (inRange_abs_any (cmoRaw_bounded data 9 vi hvi v hm.1)))
    (hd _ (List.mem_of_mem_drop hm.2)) hI

/-! ## kama -/

theorem rnd64_small {z : ℝ} (h : |z| ≤ 4) : |rnd64 z - z| ≤ 1 / 2 ^ 40 := by
  have h1 := rnd64_error z
  have e : (2⁻¹ : ℝ) ^ 1075 ≤ 2⁻¹ ^ 50 := pow_le_pow_of_le_one (by norm_num) (by norm_num) (by norm_num)
  have : (2⁻¹ : ℝ) ^ 53 * |z| ≤ 2⁻¹ ^ 53 * 4 := mul_le_mul_of_nonneg_left h (by positivity)
  refine h1.trans ((add_le_add this e).trans ?_)
  norm_num

theorem small_fits {z : ℝ} (h : |z| ≤ 4) : |z| ≤ max64 := by
  refine h.trans (le_trans ?_ max64_ge)
  calc (4 : ℝ) = 2 ^ 2 := by norm_num
    _ ≤ 2 ^ 1000 := pow_le_pow_right₀ (by norm_num) (by norm_num)

/-- The efficiency ratio is NaN or, with the rounding errors, at most 9/8. -/
theorem effRatio_64 {l : List F64} {M : ℝ} (hl : l ≠ []) (h32 : l.length < 2 ^ 32) (hB : M ≤ 2 ^ 900) (h : ∀ x ∈ l, Quoted M x) :
    ∃ er, effRatio l = some er ∧ InRange (-(1 / 8)) (9 / 8) er := by
  have hp := List.length_pos_iff.2 hl
  have e0 := getElem?_of_lt hp
  have e1 := getElem?_of_lt (show l.length - 1 < l.length by omega)
  refine ⟨_, by simp only [effRatio, e0, e1, Option.bind_eq_bind, Option.bind_some]; rfl, ?_⟩
  have hf : ∀ x ∈ l, x ⇓ x.val ∧ 0 ≤ x.val ∧ x.val ≤ M ∧ Stored x := fun x hx => by
    obtain ⟨a, ha, a0, a1, st⟩ := h x hx
    rw [ha.2]
    exact ⟨ha, a0, a1, st⟩
  have M0 : 0 ≤ M := by
    obtain ⟨-, a, b, -⟩ := hf _ (List.getElem_mem hp)
    linarith
  have hBM : ∀ n : ℕ, n < 2 ^ 32 → 2 * (n * M) ≤ max64 := fun n hn => by
    refine le_trans ?_ max64_ge
    have h1 : (n : ℝ) ≤ 2 ^ 32 := by exact_mod_cast hn.le
    have h2 : (n : ℝ) * M ≤ 2 ^ 32 * 2 ^ 900 := mul_le_mul h1 hB M0 (by positivity)
    calc 2 * (n * M) ≤ 2 * (2 ^ 32 * 2 ^ 900) := by linarith
      _ = (2 : ℝ) ^ 933 := by rw [← pow_add, ← pow_succ']
      _ ≤ 2 ^ 1000 := pow_le_pow_right₀ (by norm_num) (by norm_num)
  have hM1 : M ≤ max64 := by
    have := hBM 1 (by norm_num)
    push_cast at this
    linarith
  have diff : ∀ x ∈ l, ∀ y ∈ l, Rel (fabs (x - y)) |x.val - y.val| 1 := fun x hx y hy => by
    obtain ⟨ix, x0, x1, sx⟩ := hf x hx
    obtain ⟨iy, y0, y1, sy⟩ := hf y hy
    exact (rel_sub_is ix iy sx sy (abs_le.2 ⟨by linarith, by linarith⟩)).abs
  have hlen : (pairs l).length ≤ l.length := by
    rw [pairs_length]; omega
  have hs : Rel ((pairs l).foldl (fun acc p => acc + fabs (p.1 - p.2)) (0 : F64)) ((pairs l).map fun p => |p.1.val - p.2.val|).sum (1 + (pairs l).length) := by
    have := rel_fsum (k := 1) (v := (pairs l).map fun p => fabs (p.1 - p.2)) (r := (pairs l).map fun p => |p.1.val - p.2.val|)
      (by
        rw [List.forall₂_map_left_iff, List.forall₂_map_right_iff]
        exact List.forall₂_same.2 fun p hp => ⟨diff _ (mem_pairs hp).1 _ (mem_pairs hp).2, abs_nonneg _⟩)
      (by
        rw [List.length_map]
        have : ((1 + (pairs l).length : ℕ) : ℝ) ≤ 2 ^ 33 := by
          have : 1 + (pairs l).length ≤ 2 ^ 33 := by omega
          exact_mod_cast this
        have u : unit64 = 2⁻¹ ^ 53 := rfl
        rw [u]
        have h3 : 2 * ((1 + (pairs l).length : ℕ) : ℝ) * 2⁻¹ ^ 53 ≤ 2 * 2 ^ 33 * 2⁻¹ ^ 53 :=
          mul_le_mul_of_nonneg_right (by linarith) (by positivity)
        exact h3.trans (by norm_num))
      (by
        refine le_trans ?_ (hBM l.length h32)
        refine mul_le_mul_of_nonneg_left ?_ (by norm_num)
        have : ((pairs l).map fun p : F64 × F64 => |p.1.val - p.2.val|).sum ≤ (pairs l).length * M := by
          have := List.sum_le_card_nsmul ((pairs l).map fun p : F64 × F64 => |p.1.val - p.2.val|) M (by
            intro z hz
            obtain ⟨p, hp, rfl⟩ := List.mem_map.1 hz
            obtain ⟨-, x0, x1, -⟩ := hf _ (mem_pairs hp).1
            obtain ⟨-, y0, y1, -⟩ := hf _ (mem_pairs hp).2
            exact abs_le.2 ⟨by linarith, by linarith⟩)
          simpa using this
        refine this.trans (mul_le_mul_of_nonneg_right (by exact_mod_cast hlen) M0))
    rw [fsum, List.foldl_map, List.length_map] at this
    exact this
  have hn := diff _ (List.getElem_mem (show l.length - 1 < l.length by omega)) _ (List.getElem_mem hp)
  have ord : |l[l.length - 1].val - l[0].val| ≤ ((pairs l).map fun p => |p.1.val - p.2.val|).sum := by
    have hv : vals l ≠ [] := by simpa [vals] using hl
    have := pairs_sum_ge (vals l) ((vals l).head hv) hv
    rw [sub_self, abs_zero, pairs_vals, List.map_map] at this
    have g1 : (vals l).getLast hv = l[l.length - 1].val := by simp [vals, List.getLast_eq_getElem]
    have g0 : (vals l).head hv = l[0].val := by simp [vals, List.head_eq_getElem]
    rw [g1, g0, zero_add] at this
    exact this
  have A0' := abs_nonneg (l[l.length - 1].val - l[0].val)
  generalize ((pairs l).map fun p => |p.1.val - p.2.val|).sum = B at hs ord
  generalize |l[l.length - 1].val - l[0].val| = A at hn ord A0'
  have A0 : 0 ≤ A := A0'
  rcases eq_or_ne B 0 with rfl | hB0
  · obtain rfl : A = 0 := le_antisymm ord A0
    obtain ⟨t, hx, -⟩ := hn
    obtain ⟨s, hy, -⟩ := hs
    rw [zero_mul] at hx hy
    left
    rcases is_iff.1 hx with hx | ⟨hx, -⟩ <;> rcases is_iff.1 hy with hy | ⟨hy, -⟩ <;> rw [hx, hy] <;> simp [div_def, FP.div, val] <;> rfl
  · have Bp : 0 < B := lt_of_le_of_ne (A0.trans ord) hB0.symm
    have q1 : A / B ≤ 1 := (div_le_one Bp).2 ord
    have q0 : 0 ≤ A / B := div_nonneg A0 Bp.le
    have ku : 2 * ((1 + (1 + (pairs l).length) + 1 : ℕ) : ℝ) * unit64 ≤ 1 / 16 := by
      have : ((1 + (1 + (pairs l).length) + 1 : ℕ) : ℝ) ≤ 2 ^ 33 := by
        have : 1 + (1 + (pairs l).length) + 1 ≤ 2 ^ 33 := by omega
        exact_mod_cast this
      have u : unit64 = 2⁻¹ ^ 53 := rfl
      rw [u]
      have h3 : 2 * ((1 + (1 + (pairs l).length) + 1 : ℕ) : ℝ) * 2⁻¹ ^ 53 ≤ 2 * 2 ^ 33 * 2⁻¹ ^ 53 :=
        mul_le_mul_of_nonneg_right (by linarith) (by positivity)
      exact h3.trans (by norm_num)
    obtain ⟨e, he, hd⟩ := hn.div hs hB0 (by linarith) (by
      rw [abs_of_nonneg q0]
      refine le_trans ?_ (small_fits (z := 2) (by norm_num))
      rw [abs_of_pos (by norm_num)]
      linarith)
    rw [abs_of_nonneg q0] at hd
    have tiny : (2⁻¹ : ℝ) ^ 1075 ≤ 1 / 16 :=
      (pow_le_pow_of_le_one (by norm_num) (by norm_num) (by norm_num : 4 ≤ 1075)).trans (by norm_num)
    generalize (2⁻¹ : ℝ) ^ 1075 = η at hd tiny
    have h4 := mul_le_mul ku q1 q0 (by norm_num)
    have := abs_le.1 hd
    exact inRange_of he (by linarith) (by linarith)

theorem alpha_three_quarters {w : ℕ} (hw : 2 ≤ w) (h53 : w < 2 ^ 53) : ∃ r, (2 / flt (w + 1) : F64) ⇓ r ∧ 0 ≤ r ∧ r ≤ 3 / 4 := by
  have h := rounds_div (isLit (ρ := Rounding.binary64) 2 (by norm_num)) (isFlt (ρ := Rounding.binary64) (n := w + 1) (by omega)) (by positivity)
  have hw' : (2 : ℝ) ≤ w := by exact_mod_cast hw
  have b : (2 : ℝ) / ((w + 1 : ℕ) : ℝ) ≤ 3 / 4 := by
    rw [div_le_iff₀ (by positivity)]; push_cast; linarith
  have n : 0 ≤ (2 : ℝ) / ((w + 1 : ℕ) : ℝ) := by positivity
  refine ⟨_, rounds64 h (small_fits ((abs_of_nonneg n).le.trans (b.trans (by norm_num)))), rnd64_nonneg n, ?_⟩
  have := rnd64_mono _ _ b
  have e := rnd64_exact (m := 3) (e := -2) (by norm_num) (by norm_num)
  rw [show ((3 : ℤ) : ℝ) * 2 ^ (-2 : ℤ) = 3 / 4 by norm_num] at e
  rwa [e] at this

theorem kama_gain64 {er : F64} {short long : ℕ} (hs : 2 ≤ short) (hl : 2 ≤ long) (hs' : short < 2 ^ 53) (hl' : long < 2 ^ 53)
    (h : InRange (-(1 / 8)) (9 / 8) er) :
    InRange 0 1 (powi (er * (2 / flt (short + 1) - 2 / flt (long + 1)) + 2 / flt (long + 1)) 2) := by
  rcases h with rfl | ⟨e, he, e0, e1⟩
  · refine inRange_of_isNaN ?_
    have : isNaN (nan : F64) = true := rfl
    have h2 : isNaN ((nan : F64) * (2 / flt (short + 1) - 2 / flt (long + 1)) + 2 / flt (long + 1)) = true := by nanp
    rw [isNaN_iff] at h2
    rw [h2, powi_two]
    nanp
  · obtain ⟨S, iS, S0, S1⟩ := alpha_three_quarters hs hs'
    obtain ⟨L, iL, L0, L1⟩ := alpha_three_quarters hl hl'
    have z1 : |S - L| ≤ 4 := abs_le.2 ⟨by linarith, by linarith⟩
    have iD := rounds64 (rounds_sub iS iL) (small_fits z1)
    have nD := abs_le.1 (rnd64_small z1)
    generalize rnd64 (S - L) = D at iD nD
    have z2 : |e * D| ≤ 4 := by
      rw [abs_mul]
      have h1 : |e| ≤ 2 := abs_le.2 ⟨by linarith, by linarith⟩
      have h2 : |D| ≤ 2 := abs_le.2 ⟨by norm_num at nD ⊢; linarith, by norm_num at nD ⊢; linarith⟩
      nlinarith [abs_nonneg e, abs_nonneg D]
    have iP := rounds64 (rounds_mul he iD) (small_fits z2)
    have nP := abs_le.1 (rnd64_small z2)
    generalize rnd64 (e * D) = P at iP nP
    have eD : |e * D - e * (S - L)| ≤ 1 / 2 ^ 30 := by
      rw [← mul_sub, abs_mul]
      have h1 : |e| ≤ 2 := abs_le.2 ⟨by linarith, by linarith⟩
      have h2 : |D - (S - L)| ≤ 1 / 2 ^ 40 := abs_le.2 nD
      have := mul_le_mul h1 h2 (abs_nonneg _) (by norm_num)
      exact this.trans (by norm_num)
    have eD' := abs_le.1 eD
    have hi : e * (S - L) + L ≤ 27 / 32 := by nlinarith
    have lo : -(27 / 32) ≤ e * (S - L) + L := by nlinarith
    have z3 : |P + L| ≤ 7 / 8 := by
      norm_num at nP eD' ⊢
      exact abs_le.2 ⟨by linarith, by linarith⟩
    have iT := rounds64 (rounds_add iP iL) (small_fits (z3.trans (by norm_num)))
    have nT := abs_le.1 (rnd64_small (z := P + L) (z3.trans (by norm_num)))
    generalize rnd64 (P + L) = T at iT nT
    have z4 : |T| ≤ 1 := by
      have := abs_le.1 z3
      norm_num at nT
      exact abs_le.2 ⟨by linarith, by linarith⟩
    rw [powi_two]
    refine inRange_mul01_any (inRange_of isOne (by norm_num) le_rfl) (rounds_unitRange (rounds_mul iT iT) (mul_self_nonneg T) ?_)
    have := abs_le.1 z4
    nlinarith

theorem twice_fits {M : ℝ} (hB : M ≤ 2 ^ 900) : 2 * M ≤ max64 := by
  refine le_trans ?_ max64_ge
  have h1 : 2 * M ≤ 2 * (2 : ℝ) ^ 900 := mul_le_mul_of_nonneg_left hB (by norm_num)
  have h2 : 2 * (2 : ℝ) ^ 900 = 2 ^ 901 := (pow_succ' _ _).symm
  exact h1.trans (h2.le.trans (pow_le_pow_right₀ (by norm_num) (by norm_num)))

/-- C121: on prices from 0 to `M`, every value of `kama` is NaN or between 0 and `M` plus two roundings of `M`. -/
theorem kama_inRange64 (data : List F64) (w : ℕ) (short long : Option ℕ) (M : ℝ) (hw : 1 ≤ w) (h32 : w < 2 ^ 32)
    (hn : w ≤ data.length + 1) (hs : 2 ≤ short.getD 2) (hl : 2 ≤ long.getD 30) (hs' : short.getD 2 < 2 ^ 53)
    (hl' : long.getD 30 < 2 ^ 53) (hM : 0 ≤ M) (hB : M ≤ 2 ^ 900) (hd : ∀ x ∈ data, Quoted M x) :
    ∃ out, kama data w short long = some out ∧ out.length = data.length ∧ ∀ y ∈ out, InRange 0 ((1 + unit64) ^ 2 * M) y := by
  obtain ⟨out, e, l, -⟩ := kama_aligned data w short long hw hn
  refine ⟨out, e, l, ?_⟩
  run_at e [kama]
  obtain ⟨r, hr, e⟩ := Option.bind_eq_some_iff.1 e
  cases e
  have hB' := twice_fits hB
  refine inRange_nans fun y hy => Kept.inRange (scanM_invariant (I := Kept ((1 + unit64) ^ 2 * M)) (P := Kept ((1 + unit64) ^ 2 * M)) ?_
    (kept_zero (mul_nonneg (sq_nonneg _) hM)) hr y hy)
  intro s x s' y hx hI hf
  have hfx : ∀ z ∈ x, Quoted M z := fun z hz => hd z (mem_of_mem_windowsOf hx hz)
  have hlx := windowsOf_mem_length hx
  obtain ⟨er, he, hR⟩ := effRatio_64 (by rw [← List.length_pos_iff, hlx]; omega) (by rw [hlx]; exact h32) hB hfx
  have e1 := getElem?_of_lt (show x.length - 1 < x.length by omega)
  simp only [he, e1, Option.bind_some, Option.some.injEq, Prod.mk.injEq] at hf
  obtain ⟨rfl, rfl⟩ := hf
  have hm := List.getElem_mem (show x.length - 1 < x.length by omega)
  have := step64 hM hB' (kama_gain64 hs hl hs' hl' hR) (hfx _ hm) hI
  exact ⟨this, this⟩

/-! ## frama -/

/-- The factor by which frama and mama may exceed the highest price: 1 + 2^-38, less than 4e-12 above 1. -/
noncomputable def slack : ℝ := 1 + 1 / 2 ^ 38

theorem slack_gt : 1 < slack := by unfold slack; norm_num
theorem slack_le : slack ≤ 2 := by unfold slack; norm_num

/-- A mix of a new value with a state that already exceeds the bound by the slack. The gain is at least 1/1024. -/
theorem mix64 {g x s : F64} {N γ : ℝ} (hN : (2 ^ 900)⁻¹ ≤ N) (hB : 16 * N ≤ max64) (hg : g ⇓ γ) (g0 : 1 / 1024 ≤ γ) (g1 : γ ≤ 1)
    (hx : Quoted N x) (hs : Quoted (slack * N) s) : Quoted (slack * N) (g * x + (1 - g) * s) := by
  obtain ⟨b, hs, b0, b1, ss⟩ := hs
  obtain ⟨a, hx, a0, a1, sx⟩ := hx
  have Np : 0 < N := lt_of_lt_of_le (inv_pos.2 (pow_pos (by norm_num) _)) hN
  have u0 := unit64_pos
  have ul : unit64 ≤ 1 / 2 ^ 53 := by unfold unit64; norm_num
  have k1 := slack_gt
  have k2 := slack_le
  -- the smallest number is far below one rounding of `N`
  have tiny : (2⁻¹ : ℝ) ^ 1075 ≤ unit64 * N := by
    have h1 : unit64 * (2 ^ 900)⁻¹ ≤ unit64 * N := mul_le_mul_of_nonneg_left hN u0.le
    refine le_trans ?_ h1
    have e : unit64 * ((2 : ℝ) ^ 900)⁻¹ = 2⁻¹ ^ 953 := by
      unfold unit64
      rw [← inv_pow, ← pow_add]
    rw [e]
    exact pow_le_pow_of_le_one (by norm_num) (by norm_num) (by norm_num)
  have tiny1 : (2⁻¹ : ℝ) ^ 1075 ≤ unit64 := by
    unfold unit64
    exact pow_le_pow_of_le_one (by norm_num) (by norm_num) (by norm_num)
  have near : ∀ z, 0 ≤ z → rnd64 z ≤ z + unit64 * z + unit64 * N := fun z hz => by
    have := (abs_le.1 (rnd64_error z)).2
    rw [abs_of_nonneg hz] at this
    change _ ≤ unit64 * z + _ at this
    linarith
  have near1 : ∀ z, 0 ≤ z → z ≤ 1 → rnd64 z ≤ z + 2 * unit64 := fun z hz h1 => by
    have := (abs_le.1 (rnd64_error z)).2
    rw [abs_of_nonneg hz] at this
    change _ ≤ unit64 * z + _ at this
    nlinarith
  generalize (2⁻¹ : ℝ) ^ 1075 = η at tiny tiny1
  have γp : 0 < γ := by linarith
  -- the new value's part
  have ga0 : 0 ≤ γ * a := mul_nonneg γp.le a0
  have ga1 : γ * a ≤ N := by nlinarith
  have hp := rounds_mul hg hx
  have ip := rounds64 hp (by rw [abs_of_nonneg ga0]; linarith)
  have p0 := rnd64_nonneg ga0
  have p1 : rnd64 (γ * a) ≤ γ * N + 2 * unit64 * N := by
    have := near _ ga0
    nlinarith
  generalize rnd64 (γ * a) = p at ip p0 p1
  -- the state's weight
  have iw := rounds64 (rounds_sub isOne hg) (small_fits (by rw [abs_of_nonneg (by linarith)]; linarith))
  have w0 := rnd64_nonneg (z := 1 - γ) (by linarith)
  have w1 := near1 (1 - γ) (by linarith) (by linarith)
  have w2 : rnd64 (1 - γ) ≤ 1 := by
    have := rnd64_mono (1 - γ) 1 (by linarith)
    have e := rnd64_exact (m := 1) (e := 0) (by norm_num) (by norm_num)
    rw [show ((1 : ℤ) : ℝ) * 2 ^ (0 : ℤ) = 1 by norm_num] at e
    rwa [e] at this
  generalize rnd64 (1 - γ) = β at iw w0 w1 w2
  -- the state's part
  have T0 : 0 < slack * N := by positivity
  have T2 : slack * N ≤ 2 * N := by nlinarith
  have TN : N ≤ slack * N := by nlinarith
  have hT : γ * (slack * N) = γ * N + γ * N * (1 / 2 ^ 38) := by unfold slack; ring
  generalize slack * N = T at b1 T0 T2 TN hT ⊢
  have wb0 : 0 ≤ β * b := mul_nonneg w0 b0
  have wb1 : β * b ≤ T := by nlinarith
  have wb2 : β * b ≤ (1 - γ) * T + 2 * unit64 * T := by nlinarith
  have hq := rounds_mul iw hs
  have iq := rounds64 hq (by rw [abs_of_nonneg wb0]; linarith)
  have q0 := rnd64_nonneg wb0
  have q1 : rnd64 (β * b) ≤ (1 - γ) * T + 4 * unit64 * T := by
    have := near _ wb0
    nlinarith
  generalize rnd64 (β * b) = q at iq q0 q1
  have hy := rounds_add ip iq
  have gN : 1 / 1024 * N ≤ γ * N := mul_le_mul_of_nonneg_right g0 Np.le
  have uN : unit64 * N ≤ 1 / 2 ^ 53 * N := mul_le_mul_of_nonneg_right ul Np.le
  have uT : unit64 * T ≤ unit64 * (2 * N) := mul_le_mul_of_nonneg_left T2 u0.le
  have s0 : 0 ≤ p + q := by linarith
  have s1 : p + q ≤ T := by
    norm_num at gN uN hT
    nlinarith
  have s2 : p + q ≤ T - 1 / 2 ^ 48 * N + 10 * (unit64 * N) := by
    norm_num at gN uN hT ⊢
    nlinarith
  refine ⟨_, rounds64 hy (by rw [abs_of_nonneg s0]; linarith), rnd64_nonneg s0, ?_, hy.stored⟩
  have := near _ s0
  have us : unit64 * (p + q) ≤ unit64 * (2 * N) := mul_le_mul_of_nonneg_left (s1.trans T2) u0.le
  norm_num at uN s2
  linarith

theorem clampLit_range_any {x lo hi : FP ρ} {l u : ℝ} (hx : x ≠ nan) (hl : lo ⇓ l) (hu : hi ⇓ u) (hlu : l ≤ u) :
    ∃ r, clampLit x lo hi ⇓ r ∧ l ≤ r ∧ r ≤ u := by
  cases x with
  | nan => exact absurd rfl hx
  | inf b =>
    cases b
    · refine ⟨u, ?_, hlu, le_refl _⟩
      have h1 : ((inf false : FP ρ) <. lo) = false := by
        rw [lt_def, lt, hl.toE]; simp [FP.toE]
      have h2 : (hi <. (inf false : FP ρ)) = true := by
        have := hu.not_nan
        rw [isNaN_def] at this
        rw [lt_def, lt, hu.toE, this]; simp [FP.toE, FP.isNaN]
      simp only [clampLit, h1, h2]
      exact hu
    · refine ⟨l, ?_, le_refl _, hlu⟩
      have h1 : ((inf true : FP ρ) <. lo) = true := by
        have := hl.not_nan
        rw [isNaN_def] at this
        rw [lt_def, lt, hl.toE, this]; simp [FP.toE, FP.isNaN]
      simp only [clampLit, h1]
      exact hl
  | negz => exact ⟨_, is_clampLit is_negz hl hu hlu, le_max_left _ _, max_le hlu (min_le_right _ _)⟩
  | fin r => exact ⟨_, is_clampLit (is_fin r) hl hu hlu, le_max_left _ _, max_le hlu (min_le_right _ _)⟩

theorem is_percent64 : ∃ r, (0.01 : F64) ⇓ r ∧ 1 / 1024 ≤ r ∧ r ≤ 1 := by
  have h : Rounds (0.01 : F64) (OfScientific.ofScientific 1 true 2 : ℝ) := ⟨false, rfl⟩
  rw [show (OfScientific.ofScientific 1 true 2 : ℝ) = 1 / 100 by norm_num] at h
  have z : |(1 / 100 : ℝ)| ≤ 4 := by norm_num
  have := abs_le.1 (rnd64_small z)
  norm_num at this
  exact ⟨_, rounds64 h (small_fits z), by norm_num; linarith, by linarith⟩

/-- C121: on prices from 0 to `M`, every value of `frama` is NaN or between 0 and `(1 + 2^-38) M`, however long the series. -/
theorem frama_inRange64 (data : List F64) (w : ℕ) (M : ℝ) (hw : 2 ≤ w) (he : w % 2 = 0) (hn : w ≤ data.length + 1)
    (hM : (2 ^ 900)⁻¹ ≤ M) (hB : 16 * M ≤ max64) (hd : ∀ x ∈ data, Quoted M x) :
    ∃ out, frama data w = some (.ok out) ∧ out.length = data.length ∧ ∀ y ∈ out, InRange 0 ((1 + 1 / 2 ^ 38) * M) y := by
  obtain ⟨out, e, _, e2, l, -⟩ := frama_aligned data w hw he hn
  cases e2
  refine ⟨out, e, l, ?_⟩
  rw [frama, if_neg (by simp [he])] at e
  run_at e [frama]
  obtain ⟨r, hr, e⟩ := Option.bind_eq_some_iff.1 e
  cases e
  have M0 : 0 ≤ M := (inv_nonneg.2 (pow_nonneg (by norm_num) _)).trans hM
  refine inRange_nans fun y hy => Kept.inRange (scanM_invariant (I := Kept (slack * M)) (P := Kept (slack * M)) ?_
    (kept_zero (mul_nonneg (by linarith [slack_gt]) M0)) hr y hy)
  intro s x s' y hx hI hf
  obtain ⟨z, hz, hf⟩ := Option.bind_eq_some_iff.1 hf
  simp only [Option.some.injEq, Prod.mk.injEq] at hf
  obtain ⟨rfl, rfl⟩ := hf
  obtain ⟨c, hc, c0, c1⟩ := is_percent64
  have ha : framaAlpha w (w / 2) x = FP.nan ∨ ∃ r, framaAlpha w (w / 2) x ⇓ r ∧ c ≤ r ∧ r ≤ 1 := by
    unfold framaAlpha
    dsimp only
    generalize (FloatOps.exp _ : F64) = t
    by_cases ht : t = FP.nan
    · subst ht; rw [clampLit_nan]; exact .inl rfl
    · exact .inr (clampLit_range_any ht hc isOne c1)
  have hq := hd z (mem_of_mem_windowsOf hx (List.mem_of_getLast? hz))
  rcases ha with ha | ⟨r, ha, r0, r1⟩
  · rw [ha]
    have : Kept (slack * M) ((FP.nan : F64) * z + (1 - FP.nan) * s) := kept_of_isNaN (by have : isNaN (nan : F64) = true := rfl; nanp)
    exact ⟨this, this⟩
  · have : Kept (slack * M) (framaAlpha w (w / 2) x * z + (1 - framaAlpha w (w / 2) x) * s) := by
      rcases hI with rfl | hI
      · exact kept_of_isNaN (by have : isNaN (nan : F64) = true := rfl; nanp)
      · exact .inr (mix64 hM hB ha (c0.trans r0) r1 hq hI)
    exact ⟨this, this⟩

/-! ## mama -/

theorem gain_fmax {q slow : F64} {c : ℝ} (hq : InRange 0 1 q) (hc : slow ⇓ c) (c1 : c ≤ 1) : ∃ r, fmax q slow ⇓ r ∧ c ≤ r ∧ r ≤ 1 := by
  rcases hq with rfl | ⟨a, ha, a0, a1⟩
  · exact ⟨c, by rw [fmax_nan_left]; exact hc, le_rfl, c1⟩
  · exact ⟨_, is_fmax ha hc, le_max_right _ _, max_le a1 c1⟩

theorem inRange_phase {fast d : F64} {f : ℝ} (hf : fast ⇓ f) (f0 : 0 ≤ f) (f1 : f ≤ 1) : InRange 0 1 (fast / fmax d 1) := by
  have key : fmax d 1 = inf false ∨ ∃ r, fmax d (1 : F64) ⇓ r ∧ 1 ≤ r := by
    cases d with
    | nan => exact .inr ⟨1, isOne, le_rfl⟩
    | inf b =>
      cases b
      · left
        have : ((inf false : F64) <. 1) = false := by rw [lt_def, lt, (isOne (ρ := Rounding.binary64)).toE]; simp [FP.toE]
        unfold fmax
        rw [if_neg (by simp [isNaN_def, FP.isNaN]), if_neg (by simp [(isOne (ρ := Rounding.binary64)).not_nan]), this]
        rfl
      · right
        refine ⟨1, ?_, le_rfl⟩
        have : ((inf true : F64) <. 1) = true := by
          have h := (isOne (ρ := Rounding.binary64)).not_nan
          rw [isNaN_def] at h
          rw [lt_def, lt, (isOne (ρ := Rounding.binary64)).toE, h]
          have : (⊥ : EReal) < 1 := by decide
          simp [FP.toE, FP.isNaN, this]
        unfold fmax
        rw [if_neg (by simp [isNaN_def, FP.isNaN]), if_neg (by simp [(isOne (ρ := Rounding.binary64)).not_nan]), this]
        exact isOne
    | negz => exact .inr ⟨_, is_fmax is_negz isOne, le_max_right _ _⟩
    | fin r => exact .inr ⟨_, is_fmax (is_fin r) isOne, le_max_right _ _⟩
  rcases key with h | ⟨r, h, r1⟩
  · rw [h]
    exact inRange_of (div_inf hf false) le_rfl zero_le_one
  · exact rounds_unitRange (rounds_div hf h (by linarith)) (div_nonneg f0 (by linarith)) ((div_le_one (by linarith)).2 (f1.trans r1))

theorem is_halfway64 : (0.5 : F64) ⇓ 1 / 2 := by
  have h : Rounds (0.5 : F64) (OfScientific.ofScientific 5 true 1 : ℝ) := ⟨false, rfl⟩
  rw [show (OfScientific.ofScientific 5 true 1 : ℝ) = 1 / 2 by norm_num] at h
  have e := rnd64_exact (m := 1) (e := -1) (by norm_num) (by norm_num)
  rw [show ((1 : ℤ) : ℝ) * 2 ^ (-1 : ℤ) = 1 / 2 by norm_num] at e
  have := rounds64 h (small_fits (by rw [abs_of_pos (by norm_num)]; norm_num))
  rwa [e] at this

/-- C121: on prices from 0 to `M`, whenever `mama` returns, both lines are numbers from the seventh bar on, the first between 0 and
`(1 + 2^-38) M` and the second between 0 and `(1 + 2^-38)² M`, however long the series. -/
theorem mama_inRange64 (data : List F64) (fast slow : Option F64) (f c M : ℝ) (hf : fast.getD 0.5 ⇓ f) (hs : slow.getD 0.05 ⇓ c)
    (f0 : 0 ≤ f) (f1 : f ≤ 1) (c0 : 1 / 256 ≤ c) (c1 : c ≤ 1) (hM : (2 ^ 900)⁻¹ ≤ M) (hB : 32 * M ≤ max64)
    (hd : ∀ x ∈ data, Quoted M x) (out : List (F64 × F64)) (e : mama data fast slow = some out) :
    ∀ y ∈ out.drop 6, (∃ a, y.1 ⇓ a ∧ 0 ≤ a ∧ a ≤ (1 + 1 / 2 ^ 38) * M) ∧ ∃ b, y.2 ⇓ b ∧ 0 ≤ b ∧ b ≤ (1 + 1 / 2 ^ 38) ^ 2 * M := by
  run_at e [mama]
  obtain ⟨r, hr, e⟩ := Option.bind_eq_some_iff.1 e
  cases e
  rw [List.drop_left' (by simp)]
  have M0 : 0 < M := lt_of_lt_of_le (inv_pos.2 (pow_pos (by norm_num) _)) hM
  have k1 := slack_gt
  have k2 := slack_le
  have KM : M ≤ slack * M := by nlinarith
  have key : ∀ y ∈ r, Quoted (slack * M) y.1 ∧ Quoted (slack * (slack * M)) y.2 := by
    refine scanM_invariant (I := fun st : MamaState F64 => Quoted (slack * M) st.mama ∧ Quoted (slack * (slack * M)) st.fama)
      (P := fun y : F64 × F64 => Quoted (slack * M) y.1 ∧ Quoted (slack * (slack * M)) y.2) ?_
      ⟨⟨0, isZero, le_rfl, by linarith, stored_zero⟩, ⟨0, isZero, le_rfl, by nlinarith, stored_zero⟩⟩ hr
    intro s i s' y _ hI hstep
    unfold mamaStep at hstep
    dsimp only at hstep
    iterate 11 obtain ⟨_, -, hstep⟩ := Option.bind_eq_some_iff.1 hstep
    obtain ⟨x, hx, hstep⟩ := Option.bind_eq_some_iff.1 hstep
    simp only [Option.some.injEq, Prod.mk.injEq] at hstep
    obtain ⟨rfl, rfl⟩ := hstep
    dsimp only
    obtain ⟨γ, hγ, γ0, γ1⟩ := gain_fmax (q := fast.getD 0.5 / fmax _ 1) (inRange_phase hf f0 f1) hs c1
    have m1 := mix64 hM (by linarith) hγ (by linarith) γ1 (hd x (List.mem_of_getElem? hx)) hI.1
    have h0 : 0 ≤ 1 / 2 * γ := by linarith
    have hh := rounds64 (rounds_mul is_halfway64 hγ) (small_fits (by rw [abs_of_nonneg h0]; linarith))
    have h1 := rnd64_mono (1 / 512) (1 / 2 * γ) (by linarith)
    have h2 := rnd64_mono (1 / 2 * γ) 1 (by linarith)
    have e1 := rnd64_exact (m := 1) (e := -9) (by norm_num) (by norm_num)
    rw [show ((1 : ℤ) : ℝ) * 2 ^ (-9 : ℤ) = 1 / 512 by norm_num] at e1
    have e2 := rnd64_exact (m := 1) (e := 0) (by norm_num) (by norm_num)
    rw [show ((1 : ℤ) : ℝ) * 2 ^ (0 : ℤ) = 1 by norm_num] at e2
    rw [e1] at h1
    rw [e2] at h2
    have m2 := mix64 (hM.trans KM) (by nlinarith) hh (by linarith) h2 m1 hI.2
    exact ⟨⟨m1, m2⟩, m1, m2⟩
  intro y hy
  obtain ⟨⟨a, ha, a0, a1, -⟩, b, hb, b0, b1, -⟩ := key y hy
  refine ⟨⟨a, ha, a0, a1⟩, b, hb, b0, b1.trans (le_of_eq ?_)⟩
  unfold slack
  ring

end Traquer.Smooth
