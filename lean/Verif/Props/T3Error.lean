import Verif.Props.ErrorAverages
/-!
# C74: rounding errors of Tillson's `t3`

Six exponential averages in a row, combined with coefficients computed from the volume factor. `M` bounds the data, and one unit
is `2^-53 * M`.
-/

namespace Traquer
open FP FloatLit

theorem Nearly.neg {M a c k : ℝ} {x : F64} (h : Nearly M x a c k) : Nearly M (-x) (-a) c k where
  approx := by
    obtain ⟨r, hr, e⟩ := h.approx
    refine ⟨-r, is_neg hr, ?_⟩
    rw [← neg_sub', abs_neg]
    exact e
  bound := by rw [abs_neg]; exact h.bound

theorem powi_three_eq {F : Type} [FloatOps F] (x : F) : powi x 3 = 1 * x * (x * x) := by
  simp [powi, powiLoop]

/-- A product with a number of size 1. -/
theorem Nearly.mul_one_scale {M a b c d k j : ℝ} {x y : F64} (hM : Sized M) (h1 : Nearly 1 x a c k) (h2 : Nearly M y b d j)
    (hk : k ≤ 2 ^ 53) (hkj : k * d + j + c * j ≤ 2 ^ 53) (hc : c * d ≤ 2 ^ 60) :
    Nearly M (x * y) (a * b) (c * d) (k * d + j + c * j + c * d + 2) := by
  have := Nearly.mul sized_one hM (by rwa [one_mul]) h1 h2 hk hkj hc
  rwa [one_mul] at this

/-- The rest of a series whose first `j` values are NaN. -/
theorem NearS.cut {M c e : ℝ} {n K j d : ℕ} {v : ℕ → ℝ} {m : List F64} (h : NearS M n K v c e (nans (d + j) ++ m)) :
    NearS M (n - d) (K - d) (fun i => v (d + i)) c e (nans j ++ m) := by
  have hd : (nans (d + j) ++ m).drop d = nans j ++ m := by
    rw [List.drop_append_of_le_length (by simp)]
    simp [nans, List.drop_replicate]
  have hl := h.length
  simp only [List.length_append, nans, List.length_replicate] at hl
  refine ⟨_, rfl, by rw [List.length_append]; simp [nans]; omega, fun i hi hin => ?_, fun i hi hin => ?_⟩
  · rw [← hd, List.getElem?_drop]
    obtain ⟨o, h1, h2, h3, -⟩ := h
    cases h1
    exact h3 _ (by omega) (by omega)
  · rw [← hd, List.getElem?_drop]
    obtain ⟨o, h1, h2, -, h4⟩ := h
    cases h1
    exact h4 _ (by omega) (by omega)

namespace Smooth
variable {M : ℝ}

/-- C74: Tillson's `t3` computed in binary64 stays within `2400 (w + 1)` units of the exact one, for every volume factor and
however long the series. -/
theorem t3_error (data : List F64) (w : ℕ) (factor : Option F64) (f : ℝ) (hw : 1 ≤ w) (h32 : w < 2 ^ 32)
    (hn : 6 * w ≤ data.length + 5) (hf : factor.getD 0.7 ⇓ f) (hM : tiny64 ≤ M) (hB : M ≤ 2 ^ 800) (hd : Bounded M data) :
    let g := max 0 (min f 1)
    ReportsP data.length (6 * (w - 1)) (fun i y => Approx y (-g ^ 3 * ema6 w (bar (vals data)) i +
      (3 * g ^ 2 + 3 * g ^ 3) * ema5 w (bar (vals data)) i + (-3 * g - 6 * g ^ 2 - 3 * g ^ 3) * ema4 w (bar (vals data)) i +
      (1 + 3 * g + 3 * g ^ 2 + g ^ 3) * ema3 w (bar (vals data)) i) (2400 * (w + 1) * unit64 * M)) (t3 data w factor) := by
  intro g
  have hS := sized_of hM hB
  have w32 : (w : ℝ) < 2 ^ 32 := by exact_mod_cast h32
  have w1 : (1 : ℝ) ≤ w := by exact_mod_cast hw
  obtain ⟨m1, e1, r1⟩ := ewma_near data w hw h32 (by omega) hM hB hd
  have next : ∀ {K : ℕ} {v : ℕ → ℝ} {e : ℝ} {m : List F64}, NearS M data.length (K + (w - 1)) v 1 e (nans K ++ m) →
      m.length = data.length - K → e ≤ 110 * (w + 1) → K + (w - 1) + w ≤ data.length →
      ∃ m', sliceFrom m (w - 1) = some (m.drop (w - 1)) ∧ ewma (m.drop (w - 1)) w = some m' ∧
        NearS M data.length (K + (w - 1) + (w - 1)) (ewmaFrom (K + (w - 1)) w v) 1 (e + 20 * (w + 1)) (nans (K + (w - 1)) ++ m') ∧
        m'.length = data.length - (K + (w - 1)) := by
    intro K v e m h hl he hn
    obtain ⟨m', -, e2, r2, l2⟩ := h.ewma hS zero_le_one (by linarith) hw (by omega) hn (by linarith)
    have hdrop : (nans K ++ m).drop (K + (w - 1)) = m.drop (w - 1) := by
      rw [List.drop_append, List.drop_eq_nil_of_le (by simp), List.nil_append]; simp
    rw [hdrop] at e2
    exact ⟨m', sliceFrom_of_le (by omega), e2, r2.mono hS le_rfl (by linarith), l2⟩
  have r1' : NearS M data.length (0 + (w - 1)) (ema1 w (bar (vals data))) 1 (10 * (w + 1)) (nans 0 ++ m1) := by
    rw [Nat.zero_add]; exact r1
  obtain ⟨m2, s1, e2, r2, l2⟩ := next r1' (by rw [r1.length]; rfl) (by linarith) (by omega)
  rw [Nat.zero_add] at r2 l2
  obtain ⟨m3, s2, e3, r3, l3⟩ := next r2 l2 (by linarith) (by omega)
  obtain ⟨m4, s3, e4, r4, l4⟩ := next r3 l3 (by linarith) (by omega)
  obtain ⟨m5, s4, e5, r5, l5⟩ := next r4 l4 (by linarith) (by omega)
  obtain ⟨m6, s5, e6, r6, l6⟩ := next r5 l5 (by linarith) (by omega)
  clear next
  have hF : clampLit (factor.getD 0.7) 0 1 ⇓ g := is_clampLit hf isZero isOne zero_le_one
  have g0 : 0 ≤ g := le_max_left _ _
  have g1 : g ≤ 1 := max_le zero_le_one (min_le_right _ _)
  simp only [t3, e1, s1, e2, s2, e3, s3, e4, s4, e5, s5, e6, usub_of_le hw, Option.bind_eq_bind, Option.bind_some]
  generalize clampLit (factor.getD 0.7) 0 1 = x at hF
  generalize g = g at hF g0 g1 ⊢
  have H1 : Nearly 1 x g 1 0 := .exact hF (by rw [abs_of_nonneg g0]; linarith)
  have HS : Nearly 1 (x * x) (g * g) 1 3 := (H1.mul_one_scale sized_one H1 (by norm_num) (by norm_num) (by norm_num)).mono sized_one
    (by norm_num) (by norm_num)
  have H2 : Nearly 1 (powi x 2) (g ^ 2) 1 6 := by
    rw [powi_two, show g ^ 2 = 1 * (g * g) by ring]
    exact (Nearly.smul sized_one isOne HS (by norm_num) (by norm_num)).mono sized_one (by norm_num) (by norm_num)
  have H3 : Nearly 1 (powi x 3) (g ^ 3) 1 12 := by
    rw [powi_three_eq, show g ^ 3 = 1 * g * (g * g) by ring]
    exact ((Nearly.smul sized_one isOne H1 (by norm_num) (by norm_num)).mul_one_scale sized_one HS (by norm_num) (by norm_num)
      (by norm_num)).mono sized_one (by norm_num) (by norm_num)
  have T1 : Nearly 1 (3 * x) (3 * g) 3 5 := (Nearly.smul sized_one (isLit 3 (by norm_num)) H1 (by norm_num) (by norm_num)).mono
    sized_one (by norm_num) (by norm_num)
  have T1' : Nearly 1 ((-3 : F64) * x) (-3 * g) 3 5 := (Nearly.smul sized_one (is_neg (isLit 3 (by norm_num))) H1 (by norm_num)
    (by norm_num)).mono sized_one (by norm_num) (by norm_num)
  have T2 : Nearly 1 (3 * powi x 2) (3 * g ^ 2) 3 23 := (Nearly.smul sized_one (isLit 3 (by norm_num)) H2 (by norm_num)
    (by norm_num)).mono sized_one (by norm_num) (by norm_num)
  have T2' : Nearly 1 (6 * powi x 2) (6 * g ^ 2) 6 44 := (Nearly.smul sized_one (isLit 6 (by norm_num)) H2 (by norm_num)
    (by norm_num)).mono sized_one (by norm_num) (by norm_num)
  have T3 : Nearly 1 (3 * powi x 3) (3 * g ^ 3) 3 41 := (Nearly.smul sized_one (isLit 3 (by norm_num)) H3 (by norm_num)
    (by norm_num)).mono sized_one (by norm_num) (by norm_num)
  have one : Nearly 1 (1 : F64) 1 1 0 := .exact isOne (by norm_num)
  have C1 := H3.neg
  have C2 : Nearly 1 (3 * powi x 2 + 3 * powi x 3) (3 * g ^ 2 + 3 * g ^ 3) 6 72 :=
    (T2.add sized_one T3 (by norm_num) (by norm_num)).mono sized_one (by norm_num) (by norm_num)
  have C3 : Nearly 1 ((-3 : F64) * x - 6 * powi x 2 - 3 * powi x 3) (-3 * g - 6 * g ^ 2 - 3 * g ^ 3) 12 115 :=
    ((T1'.sub sized_one T2' (by norm_num) (by norm_num)).sub sized_one T3 (by norm_num) (by norm_num)).mono sized_one (by norm_num)
      (by norm_num)
  have C4 : Nearly 1 (1 + 3 * x + 3 * powi x 2 + powi x 3) (1 + 3 * g + 3 * g ^ 2 + g ^ 3) 8 65 :=
    (((one.add sized_one T1 (by norm_num) (by norm_num)).add sized_one T2 (by norm_num) (by norm_num)).add sized_one H3 (by norm_num)
      (by norm_num)).mono sized_one (by norm_num) (by norm_num)
  clear T1 T1' T2 T2' T3 one H1 HS H2 H3
  generalize -powi x 3 = c1 at C1 ⊢
  generalize 3 * powi x 2 + 3 * powi x 3 = c2 at C2 ⊢
  generalize (-3 : F64) * x - 6 * powi x 2 - 3 * powi x 3 = c3 at C3 ⊢
  generalize 1 + 3 * x + 3 * powi x 2 + powi x 3 = c4 at C4 ⊢
  generalize hk : w - 1 = k at *
  have r3' := r3.cut (j := 0)
  have r4' := r4.cut (d := k + k) (j := k)
  have r5' := (show NearS _ _ _ _ _ _ (nans (k + k + k * 2) ++ m5) by
    rw [show k + k + k * 2 = k + k + k + k by omega]; exact r5).cut
  have r6' := (show NearS _ _ _ _ _ _ (nans (k + k + k * 3) ++ m6) by
    rw [show k + k + k * 3 = k + k + k + k + k by omega]; exact r6).cut
  have key : ReportsP (data.length - (k + k)) (4 * k) (fun i y => Approx y (-g ^ 3 * ema6 w (bar (vals data)) (k + k + i) +
      (3 * g ^ 2 + 3 * g ^ 3) * ema5 w (bar (vals data)) (k + k + i) + (-3 * g - 6 * g ^ 2 - 3 * g ^ 3) * ema4 w (bar (vals data)) (k + k + i) +
      (1 + 3 * g + 3 * g ^ 2 + g ^ 3) * ema3 w (bar (vals data)) (k + k + i)) (2400 * (w + 1) * unit64 * M)) (some
      ((zip4 m3 (nans k ++ m4) (nans (k * 2) ++ m5) (nans (k * 3) ++ m6)).map
        fun (e3, e4, e5, e6) => c1 * e6 + c2 * e5 + c3 * e4 + c4 * e3)) := by
    refine reportsP_map (by simp; omega) ?_ ?_
    · rintro i ⟨x, y, z, u⟩ hi hk
      rw [zip4_getElem?] at hi
      have : Traquer.isNaN u = true := by rw [r6'.at_nan hi.2.2.2 (by omega)]; rfl
      nanp
    · rintro i ⟨x, y, z, u⟩ hi hi'
      rw [zip4_getElem?] at hi
      have hx := r3'.at' hi.1 (by omega)
      have hy := r4'.at' hi.2.1 (by omega)
      have hz := r5'.at' hi.2.2.1 (by omega)
      have hu := r6'.at' hi.2.2.2 (by omega)
      simp only [ema6, ema5, ema4, ema3, ema2, ema1, hk, show 2 * k = k + k by omega, show 3 * k = k + k + k by omega,
        show 4 * k = k + k + k + k by omega, show 5 * k = k + k + k + k + k by omega] at hx hy hz hu ⊢
      have p1 := C1.mul_one_scale hS hu (by norm_num) (by linarith) (by norm_num)
      have p2 := C2.mul_one_scale hS hz (by norm_num) (by linarith) (by norm_num)
      have p3 := C3.mul_one_scale hS hy (by norm_num) (by linarith) (by norm_num)
      have p4 := C4.mul_one_scale hS hx (by norm_num) (by linarith) (by norm_num)
      have := ((p1.add hS p2 (by linarith) (by norm_num)).add hS p3 (by linarith) (by norm_num)).add hS p4 (by linarith) (by norm_num)
      exact (this.mono hS le_rfl (by linarith)).approx
  have := key.pad (k * 2)
  rw [show k * 2 + (data.length - (k + k)) = data.length by omega, show k * 2 + 4 * k = 6 * k by omega] at this
  refine this.mono fun i y h1 _ h => ?_
  rw [show k + k + (i - k * 2) = i by omega] at h
  exact h

/-- `t3_error` with window 2 and volume factor 1 applies to every seven finite numbers up to 1000. -/
example (a b c d e f g : F64) (ha : a.Finite) (hb : b.Finite) (hc : c.Finite) (hd : d.Finite) (he : e.Finite) (hf : f.Finite)
    (hg : g.Finite) (hM : ∀ x ∈ [a, b, c, d, e, f, g], |x.val| ≤ 1000) :
    ∃ out y, t3 [a, b, c, d, e, f, g] 2 (some 1) = some out ∧ out[6]? = some y ∧
      Approx y (-1 * ema6 2 (bar (vals [a, b, c, d, e, f, g])) 6 + 6 * ema5 2 (bar (vals [a, b, c, d, e, f, g])) 6 +
        -12 * ema4 2 (bar (vals [a, b, c, d, e, f, g])) 6 + 8 * ema3 2 (bar (vals [a, b, c, d, e, f, g])) 6)
        (7200 * unit64 * 1000) := by
  have hfin : ∀ x ∈ [a, b, c, d, e, f, g], x.Finite := by simp [ha, hb, hc, hd, he, hf, hg]
  obtain ⟨out, e1, -, -, h⟩ := t3_error (M := 1000) [a, b, c, d, e, f, g] 2 (some 1) 1 (by decide) (by norm_num) (by simp) isOne
    (by refine (pow_le_one₀ (by norm_num) (by norm_num)).trans (by norm_num))
    ((by norm_num : (1000 : ℝ) ≤ 2 ^ 10).trans (pow_le_pow_right₀ (by norm_num) (by norm_num)))
    (fun x hx => ⟨x.val, ⟨hfin x hx, rfl⟩, hM x hx⟩)
  obtain ⟨y, ey, hy⟩ := h 6 (by decide) (by simp)
  refine ⟨out, y, e1, ey, ?_⟩
  convert hy using 2 <;> norm_num

end Traquer.Smooth
