import Verif.Lemmas.NearWindows
import Verif.Props.Composed
import Verif.Props.Quantile
import Mathlib.Tactic.NormNum.NatFib
/-!
# C74: rounding errors of the weighted and the composed averages

Every theorem is about binary64 numbers (`F64`). `M` bounds the data, and one unit is `2^-53 * M`.
-/

namespace Traquer.Smooth
open FP FloatLit
open Traquer.Distribution (rounds_nat)

theorem sized_of {M : ℝ} (hM : tiny64 ≤ M) (hB : M ≤ 2 ^ 800) : Sized M :=
  ⟨hM, hB.trans (pow_le_pow_right₀ (by norm_num) (by norm_num))⟩

theorem sized_mul {M c : ℝ} (hM : tiny64 ≤ M) (hB : M ≤ 2 ^ 800) (h1 : 1 ≤ c) (h2 : c ≤ 2 ^ 100) : Sized (c * M) where
  low := hM.trans (le_mul_of_one_le_left (tiny64_pos.le.trans hM) h1)
  high := (mul_le_mul h2 hB (tiny64_pos.le.trans hM) (by positivity)).trans (by rw [← pow_add])

/-- The bound on the error, with the magnitude forgotten. -/
theorem near_reports {M c e : ℝ} {n k : ℕ} {v : ℕ → ℝ} {m : List F64} {K : ℝ} (h : NearS M n k v c e m) (hM : Sized M) (hK : e ≤ K) :
    ReportsP n k (fun i y => Approx y (v i) (K * unit64 * M)) (some m) := by
  obtain ⟨o, h1, h2, h3, h4⟩ := h
  refine ⟨o, h1, h2, h3, fun i hi hin => ?_⟩
  obtain ⟨y, hy, p⟩ := h4 i hi hin
  exact ⟨y, hy, (p.mono hM le_rfl hK).approx⟩

variable (data : List F64) (w : ℕ) {M : ℝ}

/-! ## Weights -/

theorem wmaWeights_rounds (hw : 1 ≤ w) (h : w < 2 ^ 26) (i : ℕ) (hi : i < ((List.range' 1 w).map fun i : ℕ => (i : ℝ)).length) :
    Rounds ((wmaWeights w : List F64)[i]'(by simpa [wmaWeights] using hi))
      (((List.range' 1 w).map fun i : ℕ => (i : ℝ))[i] / ((List.range' 1 w).map fun i : ℕ => (i : ℝ)).sum) := by
  simp only [List.length_map, List.length_range'] at hi
  have b1 : w ^ 2 + w ≤ 2 ^ 53 := by nlinarith
  obtain ⟨d, hd⟩ : ∃ d, w ^ 2 + w = 2 * d := by
    obtain ⟨d, hd⟩ := Nat.even_mul_succ_self w
    exact ⟨d, by nlinarith⟩
  have hden : (flt (w ^ 2 + w) / 2 : F64) ⇓ (d : ℝ) := by
    refine rounds_nat (rounds_div (isFlt b1) (isLit 2 (by norm_num)) (by norm_num)) ?_ (by omega)
    rw [hd]; push_cast; ring
  have hsum : ((List.range' 1 w).map fun i : ℕ => (i : ℝ)).sum = d := by
    rw [sum_range'_cast]
    have : ((w ^ 2 + w : ℕ) : ℝ) = 2 * d := by rw [hd]; push_cast; rfl
    push_cast at this
    rw [this]; ring
  rw [hsum]
  simp only [wmaWeights, List.getElem_map, List.getElem_range', one_mul]
  refine rounds_div (isFlt (by omega)) hden ?_
  have : 0 < d := by
    have : 0 < w ^ 2 := by positivity
    omega
  exact_mod_cast this.ne'

theorem range'_sum_pos (hw : 1 ≤ w) : 0 < ((List.range' 1 w).map fun i : ℕ => (i : ℝ)).sum := by
  rw [sum_range'_cast]
  have : (1 : ℝ) ≤ w := by exact_mod_cast hw
  positivity

/-- A weighted average of an approximate series. -/
theorem wma_near {n k : ℕ} {v : ℕ → ℝ} {c e : ℝ} {m : List F64} (hM : tiny64 ≤ M) (hB : M ≤ 2 ^ 800) (h : NearS M n k v c e m)
    (c0 : 0 ≤ c) (hc : c ≤ 2 ^ 20) (he : e ≤ 2 ^ 53) (hw : 1 ≤ w) (h26 : w < 2 ^ 26) (hn : w ≤ n + 1) :
    ∃ m', wma m w = some m' ∧ NearS M n (k + (w - 1)) (fun i => wmaOf w (lastOf v w i)) c (e + (5 * w + 2) * (c + 1)) m' := by
  have h26' : (w : ℝ) < 2 ^ 26 := by exact_mod_cast h26
  refine ⟨_, by run_model [wma], h.dot (sized_of hM hB) c0 he hw hn hc (us := (List.range' 1 w).map fun i : ℕ => (i : ℝ)) ?_
    (range'_sum_pos w hw) (by simp [wmaWeights]) (by simp) (wmaWeights_rounds w hw h26) (by linarith)
    (sized_mul hM hB (by linarith) (by linarith))⟩
  intro u hu
  obtain ⟨i, -, rfl⟩ := List.mem_map.1 hu
  positivity

/-- C74: the linearly weighted average computed in binary64 is within `5 w + 2` units of the exact one. -/
theorem wma_error (hw : 1 ≤ w) (h26 : w < 2 ^ 26) (hn : w ≤ data.length + 1) (hM : tiny64 ≤ M) (hB : M ≤ 2 ^ 800) (hd : Bounded M data) :
    ReportsP data.length (w - 1)
      (fun i y => Approx y (weightedMean ((List.range' 1 w).map fun i : ℕ => (i : ℝ)) (recent (vals data) w i))
        ((5 * w + 2) * unit64 * M)) (wma data w) := by
  run_model [wma]
  refine reportsP_windows hw hn fun i h1 h2 => ?_
  have l := recent_length h1 h2
  have h26' : (w : ℝ) < 2 ^ 26 := by exact_mod_cast h26
  have := near_dot (sized_of hM hB) (us := (List.range' 1 w).map fun i : ℕ => (i : ℝ)) (fun u hu => by
    obtain ⟨i, -, rfl⟩ := List.mem_map.1 hu
    positivity) (range'_sum_pos w hw) (by simp [wmaWeights]) (wmaWeights_rounds w hw h26) (l := recent data w i) (by simpa using l)
    (hd.recent w i) (by simp; linarith)
  rw [recent_vals] at this
  simpa using this.approx

/-- C74: the Pascal weighted average, for windows up to 53 (the weights are then exact before the division). -/
theorem pwma_error (hw : 1 ≤ w) (h53 : w ≤ 53) (hn : w ≤ data.length + 1) (hM : tiny64 ≤ M) (hB : M ≤ 2 ^ 800) (hd : Bounded M data) :
    ReportsP data.length (w - 1)
      (fun i y => Approx y (weightedMean (((List.range w).map fun k => (w - 1).choose k).map fun u : ℕ => (u : ℝ))
        (recent (vals data) w i)) ((5 * w + 2) * unit64 * M)) (pwma data w) := by
  have hr := pascalRow_eq hw (show w ≤ 63 by omega)
  run_model [pwma, hr]
  refine reportsP_windows hw hn fun i h1 h2 => ?_
  have l := recent_length h1 h2
  have h53' : (w : ℝ) ≤ 53 := by exact_mod_cast h53
  have p52 : 2 ^ (w - 1) ≤ 2 ^ 53 := Nat.pow_le_pow_right (by norm_num) (by omega)
  have ps := pascal_sum w hw
  have := near_dot (sized_of hM hB) (us := ((List.range w).map fun k => (w - 1).choose k).map fun u : ℕ => (u : ℝ)) (fun u hu => by
    obtain ⟨i, -, rfl⟩ := List.mem_map.1 hu
    positivity) (by rw [ps]; positivity)
    (ws := ((List.range w).map fun k => (w - 1).choose k).map fun i => (flt i / flt (2 ^ (w - 1)) : F64)) (by simp)
    (fun j hj => by
      simp only [List.length_map, List.length_range] at hj
      rw [ps]
      simp only [List.getElem_map, List.getElem_range]
      have hb : (w - 1).choose j ≤ 2 ^ 53 := by
        refine le_trans ?_ p52
        rw [← Nat.sum_range_choose (w - 1)]
        exact Finset.single_le_sum (f := fun m => (w - 1).choose m) (fun _ _ => Nat.zero_le _) (Finset.mem_range.2 (by omega))
      have := rounds_div (ρ := Rounding.binary64) (isFlt hb) (isFlt p52) (by positivity)
      push_cast at this
      exact this)
    (l := recent data w i) (by simpa using l) (hd.recent w i) (by simp; linarith)
  rw [recent_vals] at this
  simpa using this.approx

theorem fibScan_nat (n k D : ℕ) {a b d : F64} (ha : a ⇓ (Nat.fib k : ℝ)) (hb : b ⇓ (Nat.fib (k + 1) : ℝ)) (hd : d ⇓ (D : ℝ))
    (hs : D + ((List.range' (k + 2) n).map Nat.fib).sum ≤ 2 ^ 53) :
    (∀ i (h : i < (fibScan n a b d).1.length), (fibScan n a b d).1[i] ⇓ (Nat.fib (k + 2 + i) : ℝ)) ∧ (fibScan n a b d).1.length = n ∧
      (fibScan n a b d).2 ⇓ ((D + ((List.range' (k + 2) n).map Nat.fib).sum : ℕ) : ℝ) := by
  induction n generalizing k a b d D with
  | zero => exact ⟨fun i h => by simp [fibScan] at h, by simp [fibScan], by simpa [fibScan] using hd⟩
  | succ n ih =>
    simp only [List.range'_succ, List.map_cons, List.sum_cons] at hs
    have hb' : a + b ⇓ (Nat.fib (k + 2) : ℝ) :=
      rounds_nat (rounds_add ha hb) (by rw [Nat.fib_add_two]; push_cast; rfl) (by omega)
    have hd' : d + (a + b) ⇓ ((D + Nat.fib (k + 2) : ℕ) : ℝ) :=
      rounds_nat (rounds_add hd hb') (by push_cast; rfl) (by omega)
    obtain ⟨h1, h2, h3⟩ := ih (k + 1) (D + Nat.fib (k + 2)) hb hb' hd' (by
      rw [show k + 1 + 2 = k + 2 + 1 by omega]; omega)
    simp only [fibScan, List.range'_succ, List.map_cons, List.sum_cons]
    refine ⟨fun i hi => ?_, by simp [h2], ?_⟩
    · cases i with
      | zero => simpa using hb'
      | succ i =>
        have := h1 i (by simpa [fibScan] using hi)
        rw [show k + 1 + 2 + i = k + 2 + (i + 1) by omega] at this
        simpa using this
    · rw [show k + 1 + 2 = k + 2 + 1 by omega] at h3
      refine h3.congr ?_
      push_cast
      ring

theorem fib_sum (w : ℕ) : ((List.range' 1 w).map Nat.fib).sum + 1 = Nat.fib (w + 2) := by
  induction w with
  | zero => simp
  | succ w ih =>
    rw [List.range'_1_concat, List.map_append, List.sum_append]
    simp only [List.map_cons, List.map_nil, List.sum_cons, List.sum_nil]
    rw [show w + 1 + 2 = (w + 1) + 2 by omega, Nat.fib_add_two (n := w + 1), show w + 1 + 1 = w + 2 by omega, ← ih, add_comm 1 w]
    omega

/-- C74: the Fibonacci weighted average, for windows up to 76 (the weights are then exact before the division). -/
theorem fwma_error (hw : 2 ≤ w) (h76 : w ≤ 76) (hn : w ≤ data.length + 1) (hM : tiny64 ≤ M) (hB : M ≤ 2 ^ 800) (hd : Bounded M data) :
    ReportsP data.length (w - 1)
      (fun i y => Approx y (weightedMean (((List.range' 1 w).map Nat.fib).map fun u : ℕ => (u : ℝ)) (recent (vals data) w i))
        ((5 * w + 2) * unit64 * M)) (fwma data w) := by
  run_model [fwma]
  refine reportsP_windows (by omega) hn fun i h1 h2 => ?_
  have l := recent_length h1 h2
  have h76' : (w : ℝ) ≤ 76 := by exact_mod_cast h76
  have he : (List.range' 1 w).map Nat.fib = 1 :: 1 :: (List.range' 3 (w - 2)).map Nat.fib := by
    obtain ⟨k, rfl⟩ : ∃ k, w = k + 2 := ⟨w - 2, by omega⟩
    simp [List.range'_succ]
  have hs : ((List.range' 1 w).map Nat.fib).sum ≤ 2 ^ 53 := by
    have h1 := fib_sum w
    have h2 : Nat.fib (w + 2) ≤ Nat.fib 78 := Nat.fib_mono (by omega)
    have h3 : Nat.fib 78 ≤ 2 ^ 53 := by norm_num
    omega
  have hs' := hs
  rw [he] at hs'
  simp only [List.sum_cons] at hs'
  have h3 : (List.range' (1 + 2) (w - 2)).map Nat.fib = (List.range' 3 (w - 2)).map Nat.fib := by rw [show 1 + 2 = 3 by rfl]
  obtain ⟨f1, f2, f3⟩ := fibScan_nat (w - 2) 1 2 (a := 1) (b := 1) (d := 2) (isOne.congr (by simp)) (isOne.congr (by simp))
    ((isLit 2 (by norm_num)).congr (by simp)) (by rw [h3]; omega)
  have hden : (fibScan (w - 2) (1 : F64) 1 2).2 ⇓ (((List.range' 1 w).map Nat.fib).map fun u : ℕ => (u : ℝ)).sum := by
    refine f3.congr ?_
    rw [he, ← Nat.cast_list_sum, h3]
    simp only [List.sum_cons]
    congr 1
    omega
  have hpos : 0 < (((List.range' 1 w).map Nat.fib).map fun u : ℕ => (u : ℝ)).sum := by
    rw [← Nat.cast_list_sum, he]
    simp only [List.sum_cons]
    positivity
  have hlen : (fwmaWeights (w - 2) : List F64).length = w := by
    simp [fwmaWeights, f2]; omega
  have := near_dot (sized_of hM hB) (us := ((List.range' 1 w).map Nat.fib).map fun u : ℕ => (u : ℝ)) (fun u hu => by
    obtain ⟨i, -, rfl⟩ := List.mem_map.1 hu
    positivity) hpos
    (ws := fwmaWeights (w - 2)) (by simp [hlen])
    (fun j hj => by
      simp only [List.length_map, List.length_range'] at hj
      have : (((List.range' 1 w).map Nat.fib).map fun u : ℕ => (u : ℝ))[j]'(by simpa using hj) = (Nat.fib (1 + j) : ℝ) := by simp
      rw [this]
      simp only [fwmaWeights, List.getElem_map]
      refine rounds_div ?_ hden hpos.ne'
      rw [List.getElem_cons]
      split
      · next h => subst h; simpa using isOne (ρ := Rounding.binary64)
      · rw [List.getElem_cons]
        split
        · next h => rw [show j = 1 by omega]; simpa using isOne (ρ := Rounding.binary64)
        · have := f1 (j - 1 - 1) (by omega)
          rwa [show 1 + 2 + (j - 1 - 1) = 1 + j by omega] at this)
    (l := recent data w i) (by simpa using l) (hd.recent w i) (by simp; linarith)
  rw [recent_vals] at this
  simpa using this.approx

/-! ## Averages of averages -/

/-- The exponential average of the data. -/
theorem ewma_near (hw : 1 ≤ w) (h32 : w < 2 ^ 32) (hn : w ≤ data.length) (hM : tiny64 ≤ M) (hB : M ≤ 2 ^ 800) (hd : Bounded M data) :
    ∃ m, ewma data w = some m ∧ NearS M data.length (w - 1) (ema1 w (bar (vals data))) 1 (10 * (w + 1)) m := by
  have hS := sized_of hM hB
  have w32 : (w : ℝ) < 2 ^ 32 := by exact_mod_cast h32
  have key := ewma_error data w hw hn (by omega) hM (by
    have := NearS.room (w := w) (c := 0) hS le_rfl (by linarith)
    linarith) hd
  obtain ⟨m, e, -⟩ := id key
  refine ⟨m, e, ?_⟩
  rw [e] at key
  obtain ⟨o, h1, h2, h3, h4⟩ := key
  refine ⟨o, h1, h2, h3, fun i hi hin => ?_⟩
  obtain ⟨y, hy, p⟩ := h4 i hi hin
  have e2 := ewmaOf_eq (k := 0) (n := data.length) (v := bar (vals data)) (l := vals data) hw (fun i hi => by
    rw [Nat.zero_add, some_bar (by simpa [vals] using hi)]) hn i hi hin
  rw [Nat.zero_add] at e2
  rw [e2] at p
  refine ⟨y, hy, p, ewmaFrom_bounded hw (n := data.length) (fun j _ hj => ?_) i (by omega) hin⟩
  exact (NearS.ofBounded hd).bound j (by omega) hj

/-- C74: the double exponential average computed in binary64 stays within `55 (w + 1)` units of the exact one, however long the
series. -/
theorem dema_error (hw : 1 ≤ w) (h32 : w < 2 ^ 32) (hn : 2 * w ≤ data.length + 1) (hM : tiny64 ≤ M) (hB : M ≤ 2 ^ 800)
    (hd : Bounded M data) :
    ReportsP data.length (2 * (w - 1)) (fun i y => Approx y (2 * ema1 w (bar (vals data)) i - ema2 w (bar (vals data)) i)
      (55 * (w + 1) * unit64 * M)) (dema data w) := by
  have hS := sized_of hM hB
  have w32 : (w : ℝ) < 2 ^ 32 := by exact_mod_cast h32
  have w1 : (1 : ℝ) ≤ w := by exact_mod_cast hw
  obtain ⟨m1, e1, r1⟩ := ewma_near data w hw h32 (by omega) hM hB hd
  obtain ⟨m2, s1, e2, r2, -⟩ := r1.ewma hS zero_le_one (by linarith) hw (by omega) (by omega) (by linarith)
  simp only [dema, e1, s1, e2, usub_of_le hw, Option.bind_eq_bind, Option.bind_some]
  rw [show 2 * (w - 1) = max (w - 1) (w - 1 + (w - 1)) by omega]
  refine ReportsP.zipP r1 r2 (fun y => isNaN_iff.1 (by have : Traquer.isNaN (nan : F64) = true := rfl; nanp))
    (fun x => isNaN_iff.1 (by have : Traquer.isNaN (nan : F64) = true := rfl; nanp)) fun i x y h1 h2 hin hx hy => ?_
  have := (Nearly.smul hS (isLit 2 (by norm_num)) hx (by norm_num; linarith) (by norm_num)).sub hS hy (by norm_num; linarith) (by norm_num)
  exact (this.mono hS le_rfl (by norm_num; linarith)).approx

/-- C74: the triple exponential average, within `185 (w + 1)` units. -/
theorem tema_error (hw : 1 ≤ w) (h32 : w < 2 ^ 32) (hn : 3 * w ≤ data.length + 2) (hM : tiny64 ≤ M) (hB : M ≤ 2 ^ 800)
    (hd : Bounded M data) :
    ReportsP data.length (3 * (w - 1)) (fun i y => Approx y (3 * ema1 w (bar (vals data)) i - 3 * ema2 w (bar (vals data)) i +
      ema3 w (bar (vals data)) i) (185 * (w + 1) * unit64 * M)) (tema data w) := by
  have hS := sized_of hM hB
  have w32 : (w : ℝ) < 2 ^ 32 := by exact_mod_cast h32
  have w1 : (1 : ℝ) ≤ w := by exact_mod_cast hw
  obtain ⟨m1, e1, r1⟩ := ewma_near data w hw h32 (by omega) hM hB hd
  obtain ⟨m2, s1, e2, r2, l2⟩ := r1.ewma hS zero_le_one (by linarith) hw (by omega) (by omega) (by linarith)
  obtain ⟨m3, s2, e3, r3, l3⟩ := r2.ewma hS zero_le_one (by linarith) hw (by omega) (by omega) (by linarith)
  have l1 := r1.length
  have hdrop : (nans (w - 1) ++ m2).drop (w - 1 + (w - 1)) = m2.drop (w - 1) := by
    rw [List.drop_append, List.drop_eq_nil_of_le (by simp), List.nil_append]; simp
  rw [hdrop] at e3
  have s2' : sliceFrom m2 (w - 1) = some (m2.drop (w - 1)) := sliceFrom_of_le (by omega)
  simp only [tema, e1, s1, e2, s2', e3, usub_of_le hw, Option.bind_eq_bind, Option.bind_some]
  rw [show w - 1 + (w - 1) = (w - 1) * 2 by omega] at r3
  refine reportsP_map (by simp; omega) ?_ ?_
  · rintro i ⟨x, y, z⟩ hi hk
    rw [zip3_getElem?] at hi
    have : Traquer.isNaN z = true := by rw [r3.at_nan hi.2.2 (by omega)]; rfl
    nanp
  · rintro i ⟨x, y, z⟩ hi hk
    rw [zip3_getElem?] at hi
    have hx := r1.at' hi.1 (by omega)
    have hy := r2.at' hi.2.1 (by omega)
    have hz := r3.at' hi.2.2 (by omega)
    rw [ema3, show 2 * (w - 1) = (w - 1) * 2 by omega]
    have := ((Nearly.smul hS (isLit 3 (by norm_num)) hx (by norm_num; linarith) (by norm_num)).sub hS
      (Nearly.smul hS (isLit 3 (by norm_num)) hy (by norm_num; linarith) (by norm_num)) (by norm_num; linarith) (by norm_num)).add hS hz
      (by norm_num; linarith) (by norm_num)
    exact (this.mono hS le_rfl (by norm_num; linarith)).approx

end Traquer.Smooth
