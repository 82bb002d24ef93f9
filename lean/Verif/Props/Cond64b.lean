import Verif.Props.Cond64
import Verif.Props.ErrorDispersion
import Verif.Props.Dispersion
/-! C91, conditioned accuracy in binary64 of the statistics of a window: `zscore` and `cv`. -/

namespace Traquer
open FP FloatLit

variable {M : ℝ}

theorem sqrt_near_pos {a b e : ℝ} (ha : 0 ≤ a) (hb : 0 < b) (h : |a - b| ≤ e) : |Real.sqrt a - Real.sqrt b| ≤ e / Real.sqrt b := by
  have s0 : 0 < Real.sqrt b := Real.sqrt_pos.2 hb
  rw [le_div_iff₀ s0]
  have t0 := Real.sqrt_nonneg a
  have e1 : a - b = (Real.sqrt a - Real.sqrt b) * (Real.sqrt a + Real.sqrt b) := by
    have h1 := Real.mul_self_sqrt ha
    have h2 := Real.mul_self_sqrt hb.le
    nlinarith
  rw [e1, abs_mul, abs_of_nonneg (show 0 ≤ Real.sqrt a + Real.sqrt b by linarith)] at h
  have := mul_le_mul_of_nonneg_left (show Real.sqrt b ≤ Real.sqrt a + Real.sqrt b by linarith) (abs_nonneg (Real.sqrt a - Real.sqrt b))
  linarith

/-- The computed variance of a window is a number that is not negative. -/
theorem var_win64 {l : List F64} {w : ℕ} (hl : l.length = w) (hw : 1 ≤ w) (h32 : w < 2 ^ 32) (hM : tiny64 ≤ M) (hM2 : tiny64 ≤ M ^ 2)
    (hB : M ≤ 2 ^ 400) (hb : Bounded M l) : ∃ v, Distribution.powDev l (Distribution.winMean l w) 2 / flt w ⇓ v ∧ 0 ≤ v ∧
      |v - moment 2 (vals l)| ≤ 15 * (w + 7) * unit64 * M ^ 2 := by
  subst hl
  have M0 := tiny64_pos.le.trans hM
  have n1 : (1 : ℝ) ≤ l.length := by exact_mod_cast hw
  have n32 : (l.length : ℝ) < 2 ^ 32 := by exact_mod_cast h32
  have hM2' : M ^ 2 ≤ 2 ^ 800 := by
    calc M ^ 2 ≤ (2 ^ 400) ^ 2 := pow_le_pow_left₀ M0 hB 2
      _ = 2 ^ 800 := by rw [← pow_mul]
  have hB' : M ≤ 2 ^ 800 := hB.trans (pow_le_pow_right₀ (by norm_num) (by norm_num))
  have r1 := NearS.room (w := l.length) (c := 0) (Smooth.sized_of hM hB') le_rfl (by linarith)
  have r2 := NearS.room (w := l.length) (c := 9) (Smooth.sized_of hM2 hM2') (by norm_num) (by linarith)
  have A := accurate64
  have hn' : ((l.length : ℝ) + 9) * unit64 ≤ 1 := by
    have := mul_le_mul_of_nonneg_right (show (l.length : ℝ) + 9 ≤ 2 ^ 53 by linarith) accurate64.u0
    rwa [mul_comm (2 ^ 53) unit64, unit64_eq] at this
  have h0 : NonNegInf (Distribution.powDev l (Distribution.winMean l l.length) 2 / flt l.length) := by
    refine NonNegInf.div ?_ (isFlt (by omega)) (by linarith)
    rw [Distribution.powDev, foldl_add_map]
    refine NonNegInf.fsum fun y hy => ?_
    obtain ⟨x, hx, rfl⟩ := List.mem_map.1 hy
    obtain ⟨⟨r, hr, -⟩, -⟩ := A.dev M0 (underflow64 hM) hb hw (by omega) hn' (by linarith) hx
    simp only [powi_sq]
    exact ((rounds_mul hr hr).nonNegInf (mul_self_nonneg r)).one_mul
  obtain ⟨v, hv, ev⟩ := A.var_win M0 (underflow64 hM) (underflow64 hM2) hb hw (by omega) hn' (by linarith) (by linarith)
  refine ⟨v, hv, ?_, ev⟩
  rcases h0 with h | ⟨a, ha, a0⟩
  · rw [h] at hv
    exact hv.1.elim
  · rwa [hv.unique ha]

/-- No value is further from the mean than `√w` standard deviations. -/
theorem dev_le_stdDev {l : List ℝ} {x : ℝ} (hx : x ∈ l) : |x - mean l| ≤ Real.sqrt l.length * stdDev l := by
  have h1 : (x - mean l) ^ 2 ≤ l.length * moment 2 l := by
    have hl : (l.length : ℝ) ≠ 0 := by
      have := List.length_pos_of_mem hx
      positivity
    have e : l.length * moment 2 l = (l.map fun y => (y - mean l) ^ 2).sum := by
      rw [moment]
      generalize mean l = μ
      rw [mean, List.length_map]
      field_simp
    rw [e]
    exact List.single_le_sum (fun y hy => by
      obtain ⟨z, -, rfl⟩ := List.mem_map.1 hy
      positivity) _ (List.mem_map.2 ⟨x, hx, rfl⟩)
  rw [stdDev, ← Real.sqrt_mul (Nat.cast_nonneg _)]
  exact Real.abs_le_sqrt h1

namespace Distribution

section
variable (data : List F64) (w : ℕ) (hw : 1 ≤ w) (h32 : w < 2 ^ 32) (hn : w ≤ data.length + 1) (hM : tiny64 ≤ M) (hM2 : tiny64 ≤ M ^ 2)
  (hB : M ≤ 2 ^ 400) (hd : Bounded M data)
include hw h32 hn hM hM2 hB hd

/-- C91: the z-score is within `√w (34 w + 278)` units of rounding times the square of the largest value over the standard deviation. -/
theorem zscore_conditioned :
    ReportsP data.length (w - 1) (fun i => QuotWithin M (Real.sqrt w * (34 * w + 278)) 2
      (bar (vals data) i - mean (recent (vals data) w i)) (stdDev (recent (vals data) w i))) (zscore data w) := by
  have hB' : M ≤ 2 ^ 800 := hB.trans (pow_le_pow_right₀ (by norm_num) (by norm_num))
  have hS := Smooth.sized_of hM hB'
  have w1 : (1 : ℝ) ≤ w := by exact_mod_cast hw
  have w32 : (w : ℝ) < 2 ^ 32 := by exact_mod_cast h32
  run_model [zscore]
  refine reportsP_mapP_windows hw hn fun i h1 h2 => ?_
  have e := getElem?_of_lt h2
  have hl := recent_last (l := data) hw h1
  rw [e] at hl
  have hlen := recent_length h1 h2
  refine ⟨_, by rw [hl]; rfl, fun b0 hco => ?_⟩
  set l := recent data w i with el
  have ev : recent (vals data) w i = vals l := by rw [el, recent_vals]
  rw [ev] at b0 hco ⊢
  have hbl : Bounded M l := hd.recent w i
  have hx : data[i] ∈ l := List.mem_iff_getElem?.2 ⟨w - 1, hl⟩
  have hbar : bar (vals data) i = data[i].val := by simp [bar, vals, h2]
  rw [hbar]
  have r1 := NearS.room (w := w) (c := 0) hS le_rfl (by linarith)
  obtain ⟨d1, d2⟩ := accurate64.dev hS.nonneg (underflow64 hM) hbl (by omega) (by omega) (by
    rw [hlen]
    have := mul_le_mul_of_nonneg_right (show (w : ℝ) + 9 ≤ 2 ^ 53 by linarith) accurate64.u0
    rwa [mul_comm (2 ^ 53) unit64, unit64_eq] at this) (by rw [hlen]; linarith) hx
  rw [hlen] at d1
  have n1 : Nearly M (data[i] - winMean l w) (data[i].val - mean (vals l)) 2 (w + 9) := ⟨d1.mono (by rw [mul_assoc]), d2⟩
  obtain ⟨v, hv, v0, dv⟩ := var_win64 hlen hw h32 hM hM2 hB hbl
  have σ0 : 0 ≤ stdDev (vals l) := Real.sqrt_nonneg _
  have σp : 0 < stdDev (vals l) := lt_of_le_of_ne σ0 (Ne.symm b0)
  have σ2 : 0 < moment 2 (vals l) := Real.sqrt_pos.1 σp
  have σM : stdDev (vals l) ≤ 2 * M := by
    rw [stdDev]
    refine Real.sqrt_le_iff.2 ⟨by linarith [hS.nonneg], ?_⟩
    rw [moment]
    refine (within_mean (lo := 0) (hi := (2 * M) ^ 2) (fun y hy => ?_) (by rw [← List.length_pos_iff]; simp; omega)).2
    obtain ⟨r, hr, rfl⟩ := List.mem_map.1 hy
    obtain ⟨x, hx, rfl⟩ := List.mem_map.1 hr
    have := (accurate64.dev hS.nonneg (underflow64 hM) hbl (by omega) (by omega) (by
      rw [hlen]
      have := mul_le_mul_of_nonneg_right (show (w : ℝ) + 9 ≤ 2 ^ 53 by linarith) accurate64.u0
      rwa [mul_comm (2 ^ 53) unit64, unit64_eq] at this) (by rw [hlen]; linarith) hx).2
    exact ⟨by positivity, sq_le_sq' (abs_le.1 this).1 (abs_le.1 this).2⟩
  have hmem : data[i].val ∈ vals l := List.mem_map.2 ⟨_, hx, rfl⟩
  have hq := dev_le_stdDev hmem
  rw [vals_length, hlen] at hq
  have hsq := sqrt_near_pos v0 σ2 dv
  change |Real.sqrt v - stdDev (vals l)| ≤ 15 * (w + 7) * unit64 * M ^ 2 / stdDev (vals l) at hsq
  rw [abs_of_pos σp] at hco ⊢
  generalize stdDev (vals l) = σ at *
  have hMσ : M = M / σ * σ := by field_simp
  have e3 : 15 * (w + 7) * unit64 * M ^ 2 / σ = 15 * (w + 7) * (M / σ) * unit64 * M := by field_simp
  rw [e3] at hsq
  have hκ2 : 1 ≤ 2 * (M / σ) := by rw [← mul_div_assoc, le_div_iff₀ σp]; linarith
  generalize hk : M / σ = κ at *
  have q1 : 1 ≤ Real.sqrt w := Real.one_le_sqrt.2 w1
  have q32 : Real.sqrt w ≤ 2 ^ 32 := by
    refine Real.sqrt_le_iff.2 ⟨by norm_num, ?_⟩
    nlinarith
  generalize Real.sqrt w = Q at *
  have hco' : Q * (34 * w + 278) * κ ^ 2 ≤ 2 ^ 53 := by
    have h2 : unit64 * (Q * (34 * w + 278) * κ ^ 2) ≤ unit64 * 2 ^ 53 := by rw [unit64_eq]; linarith
    exact le_of_mul_le_mul_left h2 unit64_pos
  have κ1 : κ ≤ 2 * κ ^ 2 := by nlinarith
  have κ4 : 1 ≤ 4 * κ ^ 2 := by nlinarith
  have κ0 : 0 ≤ κ ^ 2 := sq_nonneg _
  have a1 : (w : ℝ) * κ ≤ w * (2 * κ ^ 2) := mul_le_mul_of_nonneg_left κ1 (by linarith)
  have a2 : κ ^ 2 ≤ Q * κ ^ 2 := le_mul_of_one_le_left κ0 q1
  have a3 : w * κ ^ 2 ≤ Q * (w * κ ^ 2) := le_mul_of_one_le_left (by positivity) q1
  have a4 : Q * κ ≤ Q * (2 * κ ^ 2) := mul_le_mul_of_nonneg_left κ1 (by linarith)
  have a5 : Q * 1 ≤ Q * (4 * κ ^ 2) := mul_le_mul_of_nonneg_left κ4 (by linarith)
  have n2 : Nearly M (sqrt (powDev l (winMean l w) 2 / flt w)) σ 2 (15 * (w + 7) * κ + 2 + 2) :=
    Nearly.of_rounds hS (rounds_sqrt hv v0) hsq (by rw [abs_of_pos σp]; exact σM) (by nlinarith) (by norm_num)
  have j0 : 0 ≤ 15 * ((w : ℝ) + 7) * κ + 2 + 2 := n2.k_nonneg hS
  have total : 2 * ((w : ℝ) + 9 + Q * (15 * (w + 7) * κ + 2 + 2)) * κ + Q + 3 ≤ Q * (34 * w + 278) * κ ^ 2 := by nlinarith
  have κp : 0 ≤ κ := by linarith
  have e5 : 2 * ((w : ℝ) + 9 + Q * (15 * (w + 7) * κ + 2 + 2)) * κ * unit64 ≤ 1 := by
    have := mul_le_mul_of_nonneg_right (show 2 * ((w : ℝ) + 9 + Q * (15 * (w + 7) * κ + 2 + 2)) * κ ≤ Q * (34 * w + 278) * κ ^ 2 by linarith)
      accurate64.u0
    linarith
  have e6 : 2 * (((w : ℝ) + 9 + Q * (15 * (w + 7) * κ + 2 + 2)) * unit64 * M) ≤ σ := by
    have := mul_le_mul_of_nonneg_right e5 σ0
    have e : 2 * (((w : ℝ) + 9 + Q * (15 * (w + 7) * κ + 2 + 2)) * unit64 * M) =
      2 * (((w : ℝ) + 9 + Q * (15 * (w + 7) * κ + 2 + 2)) * unit64 * (κ * σ)) := by rw [← hMσ]
    rw [e]; linarith
  have e7 : (15 * ((w : ℝ) + 7) * κ + 2 + 2) * unit64 * M ≤ ((w : ℝ) + 9 + Q * (15 * (w + 7) * κ + 2 + 2)) * unit64 * M := by
    refine mul_le_mul_of_nonneg_right (mul_le_mul_of_nonneg_right ?_ accurate64.u0) hS.nonneg
    have := le_mul_of_one_le_left j0 q1
    linarith
  have e8 : 0 ≤ (15 * ((w : ℝ) + 7) * κ + 2 + 2) * unit64 * M := mul_nonneg (mul_nonneg j0 accurate64.u0) hS.nonneg
  have key := Nearly.quot hS n1 n2 (m := σ) (Q := Q) σp (by rw [abs_of_pos σp]) (by linarith)
    (by rw [abs_div, abs_of_pos σp, div_le_iff₀ σp]; exact hq) (by linarith) (by linarith)
  rw [hk] at key
  refine key.approx.mono ?_
  have := mul_le_mul_of_nonneg_right total accurate64.u0
  linarith

/-- C91: the coefficient of variation. The standard deviation of a nearly constant window keeps half of the digits, and the division by
the mean multiplies that by the square of the largest value over the mean. -/
theorem cv_conditioned :
    ReportsP data.length (w - 1) (fun i => QuotWithin M (2 * Real.sqrt (15 * (w + 7) * 2 ^ 53) + 4 * w + 33) 2
      (stdDev (recent (vals data) w i)) (mean (recent (vals data) w i))) (cv data w) := by
  have hB' : M ≤ 2 ^ 800 := hB.trans (pow_le_pow_right₀ (by norm_num) (by norm_num))
  have hS := Smooth.sized_of hM hB'
  have w1 : (1 : ℝ) ≤ w := by exact_mod_cast hw
  have w32 : (w : ℝ) < 2 ^ 32 := by exact_mod_cast h32
  have hM2' : M ^ 2 ≤ 2 ^ 800 := by
    calc M ^ 2 ≤ (2 ^ 400) ^ 2 := pow_le_pow_left₀ hS.nonneg hB 2
      _ = 2 ^ 800 := by rw [← pow_mul]
  run_model [cv]
  refine reportsP_windows hw hn fun i h1 h2 => ?_
  have hlen := recent_length h1 h2
  have hbl : Bounded M (recent data w i) := hd.recent w i
  rw [← recent_vals]
  generalize recent data w i = l at *
  have r1 := NearS.room (w := w) (c := 0) hS le_rfl (by linarith)
  have r2 := NearS.room (w := w) (c := 9) (Smooth.sized_of hM2 hM2') (by norm_num) (by linarith)
  have hw15 : 15 * ((w : ℝ) + 7) * unit64 ≤ 1 := by
    have := mul_le_mul_of_nonneg_right (show 15 * ((w : ℝ) + 7) ≤ 2 ^ 53 by linarith) accurate64.u0
    rwa [mul_comm (2 ^ 53) unit64, unit64_eq] at this
  have sd := accurate64.sd_win hS.nonneg (underflow64 hM) (underflow64 hM2) hbl (by omega) (by omega) (by rw [hlen]; exact hw15)
    (by rw [hlen]; linarith) (by rw [hlen]; linarith)
  rw [hlen] at sd
  have mn := accurate64.near_mean hS.nonneg (underflow64 hM) (by unfold unit64; norm_num) hbl (by omega) (by omega)
    (by rw [hlen]; nlinarith [accurate64.u0]) (by rw [hlen]; linarith)
  rw [hlen] at mn
  have n2 : Nearly M (winMean l w) (mean (vals l)) 1 (w + 5) := ⟨mn.mono (by linarith), by
    rw [one_mul]
    exact abs_le.2 (within_mean (fun y hy => abs_le.1 (hbl.vals y hy)) (by rw [← List.length_pos_iff]; simp; omega))⟩
  have σM : |stdDev (vals l)| ≤ 2 * M := by
    rw [stdDev, abs_of_nonneg (Real.sqrt_nonneg _)]
    refine Real.sqrt_le_iff.2 ⟨by linarith [hS.nonneg], ?_⟩
    rw [moment]
    refine (within_mean (lo := 0) (hi := (2 * M) ^ 2) (fun y hy => ?_) (by rw [← List.length_pos_iff]; simp; omega)).2
    obtain ⟨r, hr, rfl⟩ := List.mem_map.1 hy
    obtain ⟨x, hx, rfl⟩ := List.mem_map.1 hr
    have := (accurate64.dev hS.nonneg (underflow64 hM) hbl (by omega) (by omega) (by
      rw [hlen]; nlinarith [accurate64.u0]) (by rw [hlen]; linarith) hx).2
    exact ⟨by positivity, sq_le_sq' (abs_le.1 this).1 (abs_le.1 this).2⟩
  have es : Real.sqrt (15 * (w + 7) * unit64) = Real.sqrt (15 * (w + 7) * 2 ^ 53) * unit64 := by
    have : 15 * ((w : ℝ) + 7) * unit64 = 15 * (w + 7) * 2 ^ 53 * unit64 ^ 2 := by
      have := unit64_eq
      linear_combination (-(15 * ((w : ℝ) + 7) * unit64)) * this
    rw [this, Real.sqrt_mul (by positivity), Real.sqrt_sq accurate64.u0]
  have n1 : Nearly M (sqrt (powDev l (winMean l w) 2 / flt w)) (stdDev (vals l)) 2 (Real.sqrt (15 * (w + 7) * 2 ^ 53) + 4) :=
    ⟨sd.mono (by rw [es]; linarith), σM⟩
  exact Nearly.quot2 hS n1 n2 (by norm_num) (by norm_num) (by have := Real.sqrt_nonneg (15 * ((w : ℝ) + 7) * 2 ^ 53); linarith) (by linarith)

end

/-! With `M = 9` and a window of 2 every hypothesis of the two theorems is met. -/
private theorem ex2 : tiny64 ≤ (9 : ℝ) ^ 2 ∧ (9 : ℝ) ≤ 2 ^ 400 := by
  refine ⟨Volatility.bands_example.2.2.2.1.trans (by norm_num), ?_⟩
  calc (9 : ℝ) ≤ 2 ^ 4 := by norm_num
    _ ≤ 2 ^ 400 := pow_le_pow_right₀ (by norm_num) (by norm_num)
example := zscore_conditioned ([1, 5, 3, 7] : List F64) 2 (by norm_num) (by norm_num) (by simp) Volatility.bands_example.2.2.2.1 ex2.1 ex2.2
  Volatility.bands_example.2.2.1
example := cv_conditioned ([1, 5, 3, 7] : List F64) 2 (by norm_num) (by norm_num) (by simp) Volatility.bands_example.2.2.2.1 ex2.1 ex2.2
  Volatility.bands_example.2.2.1

end Distribution
end Traquer
