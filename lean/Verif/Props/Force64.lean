import Verif.Props.T3Error
import Verif.Props.ErrorComposed
import Verif.Props.VolumeFormulas
import Verif.Props.MomentumFormulas
/-!
# C74: rounding errors of `elder_force` and `deli`

`M` bounds the prices and `V` the volumes; one unit is `2^-53` of the scale of the result.
-/

namespace Traquer
open FP FloatLit

variable {M V : ℝ}

/-- C74: the force index computed in binary64 stays within `40 (w + 1)` units of the exact one, where a unit is `2^-53` of the
largest price times the largest volume. -/
theorem Volume.elder_force_error (close volume : List F64) (w : ℕ) (hv : volume.length = close.length) (hw : 1 ≤ w) (h32 : w < 2 ^ 32)
    (hn : w < close.length) (hM : tiny64 ≤ M) (hB : M ≤ 2 ^ 400) (hV : tiny64 ≤ V) (hC : V ≤ 2 ^ 400) (hMV : tiny64 ≤ M * V)
    (fc : Bounded M close) (fv : Bounded V volume) :
    ReportsP close.length w (fun i y => Approx y
      (ewmaFrom 1 w (fun j => (bar (vals close) j - bar (vals close) (j - 1)) * bar (vals volume) j) i)
      (40 * (w + 1) * unit64 * (M * V))) (elder_force close volume w) := by
  have big : (2 : ℝ) ^ 400 ≤ 2 ^ 800 := pow_le_pow_right₀ (by norm_num) (by norm_num)
  have sM := Smooth.sized_of hM (hB.trans big)
  have sV := Smooth.sized_of hV (hC.trans big)
  have sMV : Sized (M * V) := Smooth.sized_of hMV ((mul_le_mul hB hC sV.nonneg (by positivity)).trans (by rw [← pow_add]))
  clear big
  have w32 : (w : ℝ) < 2 ^ 32 := by exact_mod_cast h32
  have w1 : (1 : ℝ) ≤ w := by exact_mod_cast hw
  have r : NearS (M * V) close.length 1 (fun j => (bar (vals close) j - bar (vals close) (j - 1)) * bar (vals volume) j) 2 8
      (nans 1 ++ (zip3 (close.take (close.length - 1)) (close.drop 1) (volume.drop 1)).map
        fun (prev, curr, vol) => (curr - prev) * vol) := by
    refine reportsP_after_nans (by simp; omega) fun i hi => ?_
    obtain ⟨⟨p, c, v⟩, e⟩ : ∃ t, (zip3 (close.take (close.length - 1)) (close.drop 1) (volume.drop 1))[i]? = some t :=
      ⟨_, List.getElem?_eq_getElem (by simpa using hi)⟩
    refine ⟨_, by rw [List.getElem?_map, e]; rfl, ?_⟩
    obtain ⟨h1, h2, h3⟩ := zip3_getElem?.1 e
    have hi : i < close.length - 1 := by have := (List.getElem?_eq_some_iff.1 h1).1; simp at this; omega
    rw [List.getElem?_take_of_lt hi] at h1
    rw [List.getElem?_drop] at h2 h3
    simp only [Nat.add_sub_cancel_left]
    have := Nearly.mul sM sV sMV ((near_bar fc h2).sub sM (near_bar fc h1) (by norm_num) (by norm_num)) (near_bar fv h3)
      (by norm_num) (by norm_num) (by norm_num)
    exact this.mono sMV (by norm_num) (by norm_num)
  obtain ⟨m, -, em, rm, -⟩ := r.ewma sMV (by norm_num) (by norm_num) hw (by omega) (by omega) (by linarith)
  rw [show 1 + (w - 1) = w by omega] at rm
  have e : (nans 1 ++ (zip3 (close.take (close.length - 1)) (close.drop 1) (volume.drop 1)).map
      fun ((prev, curr, vol) : F64 × F64 × F64) => (curr - prev) * vol).drop 1 = (zip3 (close.take (close.length - 1)) (close.drop 1)
        (volume.drop 1)).map fun ((prev, curr, vol) : F64 × F64 × F64) => (curr - prev) * vol := rfl
  rw [e] at em
  run_model [elder_force, em]
  exact Smooth.near_reports rm sMV (by linarith)

/-- C74: the derivative oscillator of prices `deli` computed in binary64 stays within `150 (w + 1)` units of the exact one. -/
theorem Momentum.deli_error (high low : List F64) (w : ℕ) (hl : low.length = high.length) (hw : 1 ≤ w) (h32 : w < 2 ^ 32)
    (hn : 3 * w ≤ high.length) (hM : tiny64 ≤ M) (hB : M ≤ 2 ^ 800) (fh : Bounded M high) (fl : Bounded M low) :
    let dsp := fun i => ewmaFrom 1 w (quoteAt (vals high) (vals low)) i - ewmaFrom 1 (2 * w) (quoteAt (vals high) (vals low)) i
    ReportsP high.length (2 * w + (w - 1)) (fun i y => Approx y (dsp i - ewmaFrom (2 * w) w dsp i) (150 * (w + 1) * unit64 * M))
      (deli high low w) := by
  intro dsp
  have hS := Smooth.sized_of hM hB
  have w32 : (w : ℝ) < 2 ^ 32 := by exact_mod_cast h32
  have w1 : (1 : ℝ) ≤ w := by exact_mod_cast hw
  set quotes : List F64 := ((pairs high).zip (pairs low)).map fun (h, l) => (fmax h.1 h.2 + fmin l.1 l.2) / 2 with hq
  have lq : quotes.length = high.length - 1 := by simp [hq, hl]
  have rq : NearS M high.length 1 (quoteAt (vals high) (vals low)) 1 5 (nans 1 ++ quotes) := by
    refine reportsP_after_nans (by omega) fun i hi => ⟨_, List.getElem?_eq_getElem hi, ?_⟩
    obtain ⟨y, e⟩ : ∃ y, y = quotes[i] := ⟨_, rfl⟩
    rw [← e]
    have e : quotes[i]? = some y := by rw [e]; exact List.getElem?_eq_getElem hi
    rw [hq, List.getElem?_map] at e
    obtain ⟨⟨p, q⟩, e1, e2⟩ := Option.map_eq_some_iff.1 e
    obtain ⟨h1, h2⟩ := List.getElem?_zip_eq_some.1 e1
    obtain ⟨a1, a2⟩ := pairs_getElem?_some h1
    obtain ⟨b1, b2⟩ := pairs_getElem?_some h2
    rw [← e2, quoteAt, show 1 + i - 1 = i by omega, show 1 + i = i + 1 by omega]
    have := (((near_bar fh a1).fmax hS (near_bar fh a2)).add hS ((near_bar fl b1).fmin hS (near_bar fl b2)) (by norm_num)
      (by norm_num)).div hS (isLit 2 (by norm_num)) (by norm_num) (by norm_num) (by norm_num)
    exact this.mono hS (by norm_num) (by norm_num)
  obtain ⟨m1, -, e1, r1, l1⟩ := rq.ewma hS zero_le_one (by norm_num) hw (by omega) (by omega) (by linarith)
  obtain ⟨m2, -, e2, r2, l2⟩ := rq.ewma hS (w := 2 * w) zero_le_one (by norm_num) (by omega) (by omega) (by omega)
    (by push_cast; linarith)
  rw [List.drop_left' (by simp)] at e1 e2
  have zp : NearS M high.length (2 * w) dsp 2 (60 * w + 54) (nans 1 ++ (m1.zip m2).map fun p : F64 × F64 => p.1 - p.2) := by
    have h0 : nans 1 ++ (m1.zip m2).map (fun p : F64 × F64 => p.1 - p.2) = ((nans 1 ++ m1).zip (nans 1 ++ m2)).map fun p : F64 × F64 => p.1 - p.2 := rfl
    rw [h0]
    refine reportsP_map (by simp; omega) ?_ ?_
    · rintro i ⟨x, y⟩ hi hk
      have : Traquer.isNaN y = true := by rw [r2.at_nan (y := y) (List.getElem?_zip_eq_some.1 hi).2 (by omega)]; rfl
      nanp
    · rintro i ⟨x, y⟩ hi hk
      have hx := r1.at' (List.getElem?_zip_eq_some.1 hi).1 (by omega)
      have hy := r2.at' (List.getElem?_zip_eq_some.1 hi).2 (by omega)
      push_cast at hy
      exact (hx.sub hS hy (by linarith) (by norm_num)).mono hS (by norm_num) (by linarith)
  obtain ⟨m3, s3, e3, r3, l3⟩ := zp.ewma hS (by norm_num) (by linarith) hw (by omega) (by omega) (by linarith)
  have hd : (nans 1 ++ (m1.zip m2).map fun p : F64 × F64 => p.1 - p.2).drop (2 * w) =
      ((m1.zip m2).map fun p : F64 × F64 => p.1 - p.2).drop (2 * w - 1) := by
    rw [List.drop_append, List.drop_eq_nil_of_le (by simp; omega), List.nil_append]; simp
  rw [hd] at e3
  have s3' : sliceFrom ((m1.zip m2).map fun p : F64 × F64 => p.1 - p.2) (2 * w - 1) =
      some (((m1.zip m2).map fun p : F64 × F64 => p.1 - p.2).drop (2 * w - 1)) := sliceFrom_of_le (by simp; omega)
  simp only [deli, ← hq, e1, e2, usub_of_le (show 1 ≤ 2 * w by omega), Option.bind_eq_bind, Option.bind_some]
  erw [s3']
  simp only [Option.bind_some]
  erw [e3]
  simp only [Option.bind_some]
  have lz := zp.length
  have l1' : m1.length = high.length - 1 := l1
  set t : List F64 := ((m1.zip m2).map fun p : F64 × F64 => p.1 - p.2).drop (2 * w - 1) with ht
  have lt : t.length = high.length - 2 * w := by simp [ht]; omega
  have key : ReportsP (high.length - 2 * w) (w - 1) (fun i y => Approx y (dsp (2 * w + i) - ewmaFrom (2 * w) w dsp (2 * w + i))
      (150 * (w + 1) * unit64 * M)) (some ((t.zip m3).map fun p : F64 × F64 => p.1 - p.2)) := by
    have at3 : ∀ {i : ℕ} {y : F64}, m3[i]? = some y → (nans (2 * w) ++ m3)[2 * w + i]? = some y := fun h => by
      rw [List.getElem?_append_right (by simp), nans_length, Nat.add_sub_cancel_left]; exact h
    refine reportsP_map (by simp; omega) ?_ ?_
    · rintro i ⟨x, y⟩ hi hk
      have : Traquer.isNaN y = true := by rw [r3.at_nan (y := y) (at3 (List.getElem?_zip_eq_some.1 hi).2) (by omega)]; rfl
      nanp
    · rintro i ⟨x, y⟩ hi hk
      have g1 := (List.getElem?_zip_eq_some.1 hi).1
      have hx := zp.at' (i := 2 * w + i) (y := x) (by rw [← List.getElem?_drop, hd]; exact g1) (by omega)
      have hy := r3.at' (y := y) (at3 (List.getElem?_zip_eq_some.1 hi).2) (by omega)
      exact ((hx.sub hS hy (by linarith) (by norm_num)).mono hS le_rfl (by linarith)).approx
  have := key.pad (2 * w)
  rw [show 2 * w + (high.length - 2 * w) = high.length by omega] at this
  refine this.mono fun i y h1 _ h => ?_
  rw [show 2 * w + (i - 2 * w) = i by omega] at h
  exact h

/-- `elder_force_error` on three bars whose prices are at most 1000 and whose volumes are at most a million. -/
example (a b c u v w : F64) (hp : ∀ x ∈ [a, b, c], x.Finite ∧ |x.val| ≤ 1000) (hv : ∀ x ∈ [u, v, w], x.Finite ∧ |x.val| ≤ 1000000) :
    ∃ out y, Volume.elder_force [a, b, c] [u, v, w] 1 = some out ∧ out[2]? = some y ∧
      Approx y ((c.val - b.val) * w.val) (80 * unit64 * 1000000000) := by
  have t : tiny64 ≤ (1 : ℝ) := pow_le_one₀ (by norm_num) (by norm_num)
  have big : (2 : ℝ) ^ 20 ≤ 2 ^ 400 := pow_le_pow_right₀ (by norm_num) (by norm_num)
  obtain ⟨out, e, -, -, h⟩ := Volume.elder_force_error (M := 1000) (V := 1000000) [a, b, c] [u, v, w] 1 rfl le_rfl (by norm_num) (by simp)
    (t.trans (by norm_num)) (le_trans (by norm_num) big) (t.trans (by norm_num)) (le_trans (by norm_num) big) (t.trans (by norm_num))
    (fun x hx => ⟨x.val, ⟨(hp x hx).1, rfl⟩, (hp x hx).2⟩) (fun x hx => ⟨x.val, ⟨(hv x hx).1, rfl⟩, (hv x hx).2⟩)
  obtain ⟨y, ey, hy⟩ := h 2 (by decide) (by simp)
  refine ⟨out, y, e, ey, ?_⟩
  convert hy using 1
  · norm_num [ewmaFrom, bar, vals]
  · norm_num

/-- `deli_error` on three bars: with window 1 the exact value is zero. -/
example (a b c u v w : F64) (hp : ∀ x ∈ [a, b, c], x.Finite ∧ |x.val| ≤ 1000) (hv : ∀ x ∈ [u, v, w], x.Finite ∧ |x.val| ≤ 1000) :
    ∃ out y, Momentum.deli [a, b, c] [u, v, w] 1 = some out ∧ out[2]? = some y ∧ Approx y 0 (300 * unit64 * 1000) := by
  have t : tiny64 ≤ (1 : ℝ) := pow_le_one₀ (by norm_num) (by norm_num)
  have big : (2 : ℝ) ^ 20 ≤ 2 ^ 800 := pow_le_pow_right₀ (by norm_num) (by norm_num)
  obtain ⟨out, e, -, -, h⟩ := Momentum.deli_error (M := 1000) [a, b, c] [u, v, w] 1 rfl le_rfl (by norm_num) (by simp)
    (t.trans (by norm_num)) (le_trans (by norm_num) big)
    (fun x hx => ⟨x.val, ⟨(hp x hx).1, rfl⟩, (hp x hx).2⟩) (fun x hx => ⟨x.val, ⟨(hv x hx).1, rfl⟩, (hv x hx).2⟩)
  obtain ⟨y, ey, hy⟩ := h 2 (by decide) (by simp)
  refine ⟨out, y, e, ey, ?_⟩
  convert hy using 1
  · norm_num [ewmaFrom, lastOf, mean, List.range_succ]
  · norm_num

end Traquer
