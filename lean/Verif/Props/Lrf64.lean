import Verif.Props.ErrorComposed
import Verif.Props.ErrorBands
import Verif.Props.SmoothWeights
/-!
# C74: the rounding error of the linear regression forecast
-/

namespace Traquer.Smooth
open FP FloatLit

theorem rounds_whole {x : F64} {n : ℕ} (h : Rounds x n) (hn : n ≤ 2 ^ 53) : x ⇓ n := by
  obtain ⟨s, rfl⟩ := h
  have e := Rounding.binary64.nat n hn
  have := mk_is (s := s) (a := (n : ℝ)) (ρ := Rounding.binary64) (by rw [e]; exact Rounding.binary64.fits_nat n hn)
  rwa [e] at this

/-- A quotient that is a whole number is exact. -/
theorem whole_quot {x y : F64} {a b : ℝ} {n : ℕ} (hx : x ⇓ a) (hy : y ⇓ b) (hb : b ≠ 0) (e : a = b * n) (hn : n ≤ 2 ^ 53) : x / y ⇓ n := by
  have h := rounds_div hx hy hb
  rw [e, mul_div_cancel_left₀ _ hb] at h
  exact rounds_whole h hn

theorem whole_prod {x y : F64} {m n : ℕ} (hx : x ⇓ m) (hy : y ⇓ n) (h : m * n ≤ 2 ^ 53) : x * y ⇓ ((m * n : ℕ) : ℝ) := by
  have := rounds_mul hx hy
  rw [← Nat.cast_mul] at this
  exact rounds_whole this h

variable {M : ℝ}

theorem pair_foldl_near (hS : Sized M) {w : ℕ} (hw : w ≤ 1000) {l : List (F64 × F64)} {s : F64 × F64} {u : ℝ × ℝ} {j : ℕ}
    (hj : j + l.length ≤ w)
    (h1 : Nearly M s.1 u.1 j (j * (w + 2))) (h2 : Nearly M s.2 u.2 (j * w) (j * (w ^ 2 + 2 * w + 4)))
    (hl : ∀ p ∈ l, (∃ n : ℕ, p.1 ⇓ n ∧ n ≤ w) ∧ ∃ a, p.2 ⇓ a ∧ |a| ≤ M) :
    Nearly M (l.foldl (fun (st : F64 × F64) (cv : F64 × F64) => (st.1 + cv.2, st.2 + cv.1 * cv.2)) s).1 (u.1 + (l.map fun p => p.2.val).sum)
        (j + l.length) ((j + l.length) * (w + 2)) ∧
      Nearly M (l.foldl (fun (st : F64 × F64) (cv : F64 × F64) => (st.1 + cv.2, st.2 + cv.1 * cv.2)) s).2
        (u.2 + (l.map fun p => p.1.val * p.2.val).sum) ((j + l.length) * w) ((j + l.length) * (w ^ 2 + 2 * w + 4)) := by
  induction l generalizing s u j with
  | nil => simpa using ⟨h1, h2⟩
  | cons p l ih =>
    obtain ⟨⟨n, hn, nw⟩, a, ha, aM⟩ := hl p (by simp)
    rw [List.length_cons] at hj
    have w1 : (w : ℝ) ≤ 1000 := by exact_mod_cast hw
    have w0 : (0 : ℝ) ≤ w := Nat.cast_nonneg _
    have jw : (j : ℝ) + 1 ≤ w := by
      have : j + 1 ≤ w := by omega
      exact_mod_cast this
    have j0 : (0 : ℝ) ≤ j := Nat.cast_nonneg _
    have nw' : (n : ℝ) ≤ w := by exact_mod_cast nw
    have n0 : (0 : ℝ) ≤ n := Nat.cast_nonneg _
    have ea : Nearly M p.2 a 1 0 := Nearly.exact ha (by rwa [one_mul])
    have jw2 : (j : ℝ) * (w + 2) ≤ 1000 * 1002 := mul_le_mul (by linarith) (by linarith) (by linarith) (by norm_num)
    have s1 := (Nearly.add hS h1 ea (by linarith) (by linarith)).mono hS (c' := (j + 1 : ℕ)) (k' := (j + 1 : ℕ) * (w + 2)) (by push_cast; linarith) (by push_cast; linarith)
    have q1 := (Nearly.smul hS hn ea (by simp) (by rw [Nat.abs_cast]; linarith)).mono hS (c' := w) (k' := w + 2) (by rw [Nat.abs_cast]; linarith)
      (by rw [Nat.abs_cast]; linarith)
    have w2 : (w : ℝ) ^ 2 ≤ 1000 ^ 2 := pow_le_pow_left₀ w0 w1 2
    have b1 : (j : ℝ) * (w ^ 2 + 2 * w + 4) ≤ 1000 * (1000 ^ 2 + 2 * 1000 + 4) := mul_le_mul (by linarith) (by linarith) (by positivity) (by norm_num)
    have b2 : (j : ℝ) * w ≤ 1000 * 1000 := mul_le_mul (by linarith) w1 w0 (by norm_num)
    have s2 := (Nearly.add hS h2 q1 (by norm_num at b1 ⊢; linarith) (by norm_num at b2 ⊢; linarith)).mono hS (c' := (j + 1 : ℕ) * w)
      (k' := (j + 1 : ℕ) * (w ^ 2 + 2 * w + 4)) (by push_cast; linarith) (by push_cast; nlinarith)
    have := ih (s := (s.1 + p.2, s.2 + p.1 * p.2)) (u := (u.1 + a, u.2 + n * a)) (j := j + 1) (by omega) s1 s2 fun q hq => hl q (by simp [hq])
    simp only [List.foldl_cons, List.map_cons, List.sum_cons, List.length_cons, ha.2, hn.2]
    push_cast at this ⊢
    rw [show (j : ℝ) + (l.length + 1) = j + 1 + l.length by ring, ← add_assoc, ← add_assoc]
    exact this

set_option maxHeartbeats 1600000 in
/-- One window of the regression forecast. -/
theorem lrfWin_near (hS : Sized M) {l : List F64} (hb : Bounded M l) (h2 : 2 ≤ l.length) (h3 : l.length ≤ 1000) :
    Approx (lrfWin l.length l) (slope (vals l) * l.length + intercept (vals l)) (380 * l.length * unit64 * M) := by
  set w := l.length with hw
  have hwp : (2 : ℝ) ≤ w := by exact_mod_cast h2
  have hwl : (w : ℝ) ≤ 1000 := by exact_mod_cast h3
  -- the sums of the indices are whole numbers
  obtain ⟨X, hX⟩ : ∃ X, w * (w + 1) = 2 * X := (Nat.even_mul_succ_self w).two_dvd
  obtain ⟨Y, hY⟩ : ∃ Y, X * (2 * w + 1) = 3 * Y := by
    have h6 : w * (w + 1) * (2 * w + 1) = 2 * (X * (2 * w + 1)) := by rw [hX]; ring
    have : 3 ∣ w * (w + 1) * (2 * w + 1) := by
      have h : w % 3 = 0 ∨ w % 3 = 1 ∨ w % 3 = 2 := by omega
      rcases h with h | h | h
      · exact Dvd.dvd.mul_right (Dvd.dvd.mul_right (Nat.dvd_of_mod_eq_zero h) _) _
      · exact Dvd.dvd.mul_left (by omega) _
      · exact Dvd.dvd.mul_right (Dvd.dvd.mul_left (by omega) _) _
    rw [h6] at this
    exact (Nat.Coprime.dvd_of_dvd_mul_left (by decide) this)
  have hXr : (X : ℝ) = w * (w + 1) / 2 := by
    have : (w : ℝ) * (w + 1) = 2 * X := by exact_mod_cast hX
    linarith
  have hYr : (Y : ℝ) = w * (w + 1) / 2 * (2 * w + 1) / 3 := by
    have : (X : ℝ) * (2 * w + 1) = 3 * Y := by exact_mod_cast hY
    rw [← hXr, this]; ring
  have X1 : (X : ℝ) ≤ w ^ 2 := by rw [hXr]; nlinarith
  have Y1 : (Y : ℝ) ≤ w ^ 3 := by rw [hYr]; nlinarith [mul_nonneg (by linarith : (0 : ℝ) ≤ w) (sq_nonneg (w : ℝ))]
  have Xn : X ≤ w ^ 2 := by exact_mod_cast X1
  have Yn : Y ≤ w ^ 3 := by exact_mod_cast Y1
  have p2 : w ^ 2 ≤ 1000 ^ 2 := Nat.pow_le_pow_left h3 2
  have p3 : w ^ 3 ≤ 1000 ^ 3 := Nat.pow_le_pow_left h3 3
  have p4 : w ^ 4 ≤ 1000 ^ 4 := Nat.pow_le_pow_left h3 4
  have iX : (flt (w * (w + 1)) / 2 : F64) ⇓ X :=
    whole_quot (isFlt (by rw [hX]; norm_num at p2 ⊢; omega)) (isLit 2 (by norm_num)) (by norm_num) (by rw [hX]; push_cast; rfl) (by norm_num at p2 ⊢; omega)
  have iY : (flt (w * (w + 1)) / 2 * flt (2 * w + 1) / 3 : F64) ⇓ Y :=
    whole_quot (whole_prod iX (isFlt (by omega)) (by rw [hY]; norm_num at p3 ⊢; omega)) (isLit 3 (by norm_num)) (by norm_num) (by rw [hY]; push_cast; rfl)
      (by norm_num at p3 ⊢; omega)
  have wY : w * Y ≤ w ^ 4 := by rw [pow_succ' w 3]; exact Nat.mul_le_mul_left w Yn
  have XX : X * X ≤ w ^ 4 := by rw [show w ^ 4 = w ^ 2 * w ^ 2 by ring]; exact Nat.mul_le_mul Xn Xn
  have Dr : (w : ℝ) * Y - X * X = w ^ 2 * (w + 1) * (w - 1) / 12 := by rw [hXr, hYr]; ring
  have Dlow : (w : ℝ) ^ 4 / 16 ≤ w * Y - X * X := by
    rw [Dr]
    have e : (w : ℝ) ^ 2 * (w + 1) * (w - 1) / 12 - w ^ 4 / 16 = w ^ 2 * (w ^ 2 - 4) / 48 := by ring
    have : 0 ≤ (w : ℝ) ^ 2 - 4 := by nlinarith
    have : 0 ≤ (w : ℝ) ^ 2 * (w ^ 2 - 4) / 48 := by positivity
    linarith
  have w4 : (0 : ℝ) < w ^ 4 := by positivity
  have ge : X * X ≤ w * Y := by
    have : (X : ℝ) * X ≤ w * Y := by linarith
    exact_mod_cast this
  have iD : (flt w * (flt (w * (w + 1)) / 2 * flt (2 * w + 1) / 3) - flt (w * (w + 1)) / 2 * (flt (w * (w + 1)) / 2) : F64) ⇓ (w * Y - X * X : ℝ) := by
    have h := rounds_sub (whole_prod (isFlt (ρ := Rounding.binary64) (n := w) (by omega)) iY (by omega)) (whole_prod iX iX (by omega))
    rw [← Nat.cast_sub ge] at h
    have := rounds_whole h (by omega)
    rw [Nat.cast_sub ge] at this
    push_cast at this
    exact this
  -- the sums over the window
  have hz : ∀ p ∈ ((List.range' 1 w).map fun x => (flt x : F64)).zip l, (∃ n : ℕ, p.1 ⇓ n ∧ n ≤ w) ∧ ∃ a, p.2 ⇓ a ∧ |a| ≤ M := by
    intro p hp
    have := List.of_mem_zip hp
    obtain ⟨k, hk, e⟩ := List.mem_map.1 this.1
    have hk := List.mem_range'_1.1 hk
    exact ⟨⟨k, by rw [← e]; exact isFlt (by omega), by omega⟩, hb _ this.2⟩
  have z0 : Nearly M (0 : F64) 0 ((0 : ℕ) : ℝ) ((0 : ℕ) * ((w : ℝ) + 2)) := by simpa using Nearly.exact (M := M) (c := 0) isZero (by simp)
  have z1 : Nearly M (0 : F64) 0 ((0 : ℕ) * (w : ℝ)) ((0 : ℕ) * ((w : ℝ) ^ 2 + 2 * w + 4)) := by simpa using Nearly.exact (M := M) (c := 0) isZero (by simp)
  have zl : (((List.range' 1 w).map fun x => (flt x : F64)).zip l).length = w := by simp [hw]
  have hf := pair_foldl_near hS h3 (s := ((0 : F64), (0 : F64))) (u := (0, 0)) (j := 0) (by rw [zl]; omega) z0 z1 hz
  have e1 : ((((List.range' 1 w).map fun x => (flt x : F64)).zip l).map fun p => p.2.val).sum = ySum (vals l) := by
    have : (((List.range' 1 w).map fun x => (flt x : F64)).zip l).map (fun p => p.2.val) =
        ((((List.range' 1 w).map fun x => (flt x : F64)).zip l).map Prod.snd).map val := by
      rw [List.map_map]; rfl
    rw [this, List.map_snd_zip (by simp [hw])]
    rfl
  have e2 : ((((List.range' 1 w).map fun x => (flt x : F64)).zip l).map fun p => p.1.val * p.2.val).sum = xySum (vals l) := by
    rw [xySum, vals_length, ← hw, vals, List.zip_map_left, List.zip_map_right, List.map_map, List.map_map]
    congr 1
    apply List.map_congr_left
    intro p hp
    have hk := List.mem_range'_1.1 (List.of_mem_zip hp).1
    simp [(isFlt (ρ := Rounding.binary64) (n := p.1) (by omega)).val_eq]
  rw [e1, e2, zl] at hf
  simp only [zero_add, Nat.cast_zero] at hf
  obtain ⟨hy, hxy⟩ := hf
  have W0 : (0 : ℝ) ≤ w := by linarith
  have W2 : (w : ℝ) ^ 2 ≤ 1000 ^ 2 := pow_le_pow_left₀ W0 hwl 2
  have W3 : (w : ℝ) ^ 3 ≤ 1000 ^ 3 := pow_le_pow_left₀ W0 hwl 3
  have W4 : (w : ℝ) ^ 4 ≤ 1000 ^ 4 := pow_le_pow_left₀ W0 hwl 4
  have W5 : (w : ℝ) ^ 5 ≤ 1000 ^ 5 := pow_le_pow_left₀ W0 hwl 5
  have g2 : (4 : ℝ) ≤ w ^ 2 := by nlinarith
  have g3 : 2 * (w : ℝ) ^ 2 ≤ w ^ 3 := by rw [pow_succ (w : ℝ) 2]; nlinarith
  have g4 : 2 * (w : ℝ) ^ 3 ≤ w ^ 4 := by rw [pow_succ (w : ℝ) 3]; nlinarith
  have g5 : 2 * (w : ℝ) ^ 4 ≤ w ^ 5 := by rw [pow_succ (w : ℝ) 4]; nlinarith
  norm_num at W2 W3 W4 W5
  have hy := hy.mono hS (c' := w) (k' := 2 * w ^ 2) le_rfl (by nlinarith)
  have hxy := hxy.mono hS (c' := w ^ 2) (k' := 3 * w ^ 3) (by nlinarith) (by nlinarith)
  have aX : |(X : ℝ)| = X := Nat.abs_cast X
  have aY : |(Y : ℝ)| = Y := Nat.abs_cast Y
  have aW : |(w : ℝ)| = w := Nat.abs_cast w
  have X0 : (0 : ℝ) ≤ X := Nat.cast_nonneg _
  have Y0 : (0 : ℝ) ≤ Y := Nat.cast_nonneg _
  -- products
  have m1 := Nearly.smul hS (isFlt (ρ := Rounding.binary64) (n := w) (by omega)) hxy (by rw [aW]; norm_num; nlinarith) (by rw [aW]; norm_num; nlinarith)
  rw [aW] at m1
  have m1 := m1.mono hS (c' := w ^ 3) (k' := 4 * w ^ 4) (by nlinarith) (by nlinarith)
  have Xw : (X : ℝ) * w ≤ w ^ 3 := by rw [pow_succ]; exact mul_le_mul_of_nonneg_right X1 W0
  have Xw2 : (X : ℝ) * (2 * w ^ 2) ≤ 2 * w ^ 4 := by nlinarith [mul_le_mul_of_nonneg_right X1 (sq_nonneg (w : ℝ))]
  have m2 := Nearly.smul hS iX hy (by rw [aX]; norm_num; linarith) (by rw [aX]; norm_num; linarith)
  rw [aX] at m2
  have m2 := m2.mono hS (c' := w ^ 3) (k' := 3 * w ^ 4) Xw (by linarith)
  have Yw : (Y : ℝ) * w ≤ w ^ 4 := by rw [pow_succ]; exact mul_le_mul_of_nonneg_right Y1 W0
  have Yw2 : (Y : ℝ) * (2 * w ^ 2) ≤ 2 * w ^ 5 := by nlinarith [mul_le_mul_of_nonneg_right Y1 (sq_nonneg (w : ℝ))]
  have b1 := Nearly.mulr hS hy iY (by rw [aY]; norm_num; linarith) (by rw [aY]; norm_num; linarith)
  rw [aY] at b1
  have b1 := b1.mono hS (c' := w ^ 4) (k' := 3 * w ^ 5) Yw (by linarith)
  have Xs2 : (X : ℝ) * w ^ 2 ≤ w ^ 4 := by nlinarith [mul_le_mul_of_nonneg_right X1 (sq_nonneg (w : ℝ))]
  have Xs3 : (X : ℝ) * (3 * w ^ 3) ≤ 3 * w ^ 5 := by nlinarith [mul_le_mul_of_nonneg_right X1 (pow_nonneg W0 3)]
  have b2 := Nearly.smul hS iX hxy (by rw [aX]; norm_num; linarith) (by rw [aX]; norm_num; linarith)
  rw [aX] at b2
  have b2 := b2.mono hS (c' := w ^ 4) (k' := 4 * w ^ 5) Xs2 (by linarith)
  -- numerators
  have m3 := (Nearly.sub hS m1 m2 (by norm_num; linarith) (by norm_num; linarith)).mono hS (c' := 2 * w ^ 3) (k' := 9 * w ^ 4) (by linarith) (by linarith)
  have b3 := (Nearly.sub hS b1 b2 (by norm_num; linarith) (by norm_num; linarith)).mono hS (c' := 2 * w ^ 4) (k' := 9 * w ^ 5) (by linarith) (by linarith)
  have D0 : (0 : ℝ) < w * Y - X * X := by linarith
  generalize eD : (w : ℝ) * Y - X * X = D at iD Dlow D0
  have d1 : 2 * (w : ℝ) ^ 3 / D ≤ 32 / w := by
    rw [div_le_div_iff₀ D0 (by linarith)]; nlinarith
  have d2 : 9 * (w : ℝ) ^ 4 / D ≤ 144 := by rw [div_le_iff₀ D0]; linarith
  have d3 : 2 * (w : ℝ) ^ 4 / D ≤ 32 := by rw [div_le_iff₀ D0]; linarith
  have d4 : 9 * (w : ℝ) ^ 5 / D ≤ 144 * w := by rw [div_le_iff₀ D0]; nlinarith
  have d5 : 32 / (w : ℝ) ≤ 16 := by rw [div_le_iff₀ (by linarith)]; linarith
  have m4 := (Nearly.div hS m3 iD D0 (by norm_num; linarith) (by norm_num; linarith)).mono hS (c' := 32 / w) (k' := 162) d1 (by linarith)
  have b4 := (Nearly.div hS b3 iD D0 (by norm_num; linarith) (by norm_num; linarith)).mono hS (c' := 32) (k' := 165 * w) d3 (by linarith)
  have c5 : (w : ℝ) * (32 / w) = 32 := by field_simp
  have m5 := Nearly.mulr hS m4 (isFlt (ρ := Rounding.binary64) (n := w) (by omega)) (by rw [aW]; norm_num; linarith) (by rw [aW, c5]; norm_num)
  rw [aW, c5] at m5
  have m5 := m5.mono hS (c' := 32) (k' := 180 * w) le_rfl (by linarith)
  have fin := (Nearly.add hS m5 b4 (by norm_num; linarith) (by norm_num)).mono hS (c' := 64) (k' := 380 * w) (by norm_num) (by linarith)
  have := fin.approx
  have es : slope (vals l) = (w * xySum (vals l) - X * ySum (vals l)) / D := by
    unfold slope
    rw [vals_length, ← hw]
    dsimp only
    rw [← hYr, ← hXr, eD]
  have ei : intercept (vals l) = (ySum (vals l) * Y - X * xySum (vals l)) / D := by
    unfold intercept
    rw [vals_length, ← hw]
    dsimp only
    rw [← hYr, ← hXr, eD]
  rw [es, ei]
  unfold lrfWin
  exact this

/-- C74: for windows from 2 to 1000 `lrf` computed in binary64 is within `380 w` units of the end point of a line that minimises the sum of
squared errors over the window. -/
theorem lrf_error (data : List F64) (w : ℕ) (hw : 2 ≤ w) (h1000 : w ≤ 1000) (hn : w ≤ data.length + 1) (hM : tiny64 ≤ M) (hB : M ≤ 2 ^ 800)
    (hd : Bounded M data) :
    ∃ a b : ℕ → ℝ, ReportsP data.length (w - 1) (fun i y => Approx y (a i + b i * w) (380 * w * unit64 * M)) (lrf data w) ∧
      ∀ i, w ≤ i + 1 → i < data.length → ∀ a' b', lineError (a i) (b i) (recent (vals data) w i) ≤ lineError a' b' (recent (vals data) w i) := by
  refine ⟨fun i => intercept (recent (vals data) w i), fun i => slope (recent (vals data) w i), ?_, ?_⟩
  · run_model [lrf]
    refine reportsP_windows (by omega) hn fun i h1 h2 => ?_
    have hl := recent_length h1 h2
    have := lrfWin_near (sized_of hM hB) (hd.recent w i) (by omega) (by omega)
    rw [hl, recent_vals] at this
    rw [add_comm]
    exact this
  · intro i h1 h2 a' b'
    exact lineError_slope_min _ (by rw [recent_length h1 (by simpa using h2)]; exact hw) _ _

example := lrf_error (M := 9) ([flt 4, flt 6, flt 5, flt 9] : List F64) 3 (by norm_num) (by norm_num) (by simp)
  Volatility.bands_example.2.2.2.1 Volatility.bands_example.2.2.2.2 (by
    intro x hx
    simp only [List.mem_cons, List.not_mem_nil, or_false] at hx
    rcases hx with rfl | rfl | rfl | rfl <;> exact ⟨_, isFlt (by norm_num), by norm_num⟩)

end Traquer.Smooth
