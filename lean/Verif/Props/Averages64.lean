import Verif.Props.Rsi64
import Verif.Props.Ratio64c
import Verif.Props.SmoothWeights
import Verif.Props.ErrorAverages
/-!
# C118: averages of prices are accurate relative to their own value

Prices are doubles between `2^-400` and `2^400`. All terms of an average are positive, so nothing cancels: the error is a small multiple of the unit of
rounding *of the average*, also after the price has fallen by orders of magnitude, where a bound in terms of the largest price (C74) says nothing.
-/

namespace Traquer.Smooth
open FP FloatLit Volume

/-- A whole number below `2^53` is stored exactly. -/
theorem relNat {m : ℕ} (hm : m ≤ 2 ^ 53) : Rel (flt m : F64) m 0 :=
  Rel.of_is (isFlt hm) fun a ha => by
    rw [ha.unique (isFlt hm)]
    exact ⟨Rounding.binary64.nat m hm, Rounding.binary64.fits_nat m hm⟩

/-- Numbers in the range of prices, each off by `k` roundings. -/
def PriceRel (k : ℕ) (x : F64) (a : ℝ) : Prop := Rel x a k ∧ (2 : ℝ) ^ (-400 : ℤ) ≤ a ∧ a ≤ 2 ^ 400

theorem PriceRel.nonneg {k : ℕ} {x : F64} {a : ℝ} (h : PriceRel k x a) : 0 ≤ a := le_trans (by positivity) h.2.1

theorem priceRel_of {x : F64} (h : Price x) : PriceRel 0 x x.val := ⟨h.plain.rel, h.ge, h.plain.le⟩

theorem priceRel_vals {l : List F64} (h : ∀ x ∈ l, Price x) : List.Forall₂ (PriceRel 0) l (vals l) := by
  rw [vals, List.forall₂_map_right_iff]
  exact List.forall₂_same.2 fun x hx => priceRel_of (h x hx)

theorem priceRel_within {k : ℕ} {l : List F64} {r : List ℝ} (h : List.Forall₂ (PriceRel k) l r) : Within (2 ^ (-400 : ℤ)) (2 ^ 400) r := by
  induction h with
  | nil => intro x hx; cases hx
  | cons h _ ih =>
      intro x hx
      rcases List.mem_cons.1 hx with rfl | hx
      · exact h.2
      · exact ih x hx

/-- The mean of `w` prices: one rounding for each addition and one for the division. -/
theorem mean_rel {k w : ℕ} {l : List F64} {r : List ℝ} (h : List.Forall₂ (PriceRel k) l r) (hl : l.length = w) (hw : 1 ≤ w) (h32 : w < 2 ^ 32)
    (hk : k ≤ 2 ^ 32) : PriceRel (k + w + 1) (fsum l / flt w) (mean r) := by
  have hlr : r.length = w := by rw [← h.length_eq, hl]
  have wp := natCast_pos hw
  obtain ⟨s, s0⟩ := rel_sum (w := w) (h.imp fun x a p => ⟨p.1, p.nonneg, p.2.2.trans (pow_le_pow_right₀ (by norm_num) (by norm_num))⟩) hl (by omega)
  have hm := within_mean (priceRel_within h) (by rw [← List.length_pos_iff]; omega)
  refine ⟨?_, hm⟩
  have e : mean r = r.sum / w := by rw [mean, hlr]
  rw [e] at hm ⊢
  exact (Rel.quot s (relNat (by omega)) wp.ne' (units_ok (by omega)) (clear_of_le (e := -400) (by norm_num) hm.1)
    (fits_of_le (e := 400) (by norm_num) ((abs_of_nonneg (le_trans (by positivity) hm.1)).le.trans hm.2))).mono (by omega)

/-- C118: `sma` is within `2 w + 2` units of rounding of the mean of its window, relative to that mean. -/
theorem sma_accurate (data : List F64) (w : ℕ) (hw : 1 ≤ w) (h32 : w < 2 ^ 32) (hn : w ≤ data.length + 1) (hd : ∀ x ∈ data, Price x) :
    ReportsP data.length (w - 1) (fun i y => WithinUnits (2 * w + 2) (mean (recent (vals data) w i)) y) (sma data w) := by
  run_model [sma]
  refine reportsP_windows hw hn fun i h1 h2 => ?_
  rw [← recent_vals]
  have := Rel.withinUnits (mean_rel (priceRel_vals (l := recent data w i) fun x hx => hd x (List.mem_of_mem_drop (List.mem_of_mem_take hx)))
    (recent_length h1 h2) hw h32 (by omega)).1 (by omega)
  push_cast at this
  rwa [show (2 * (0 + (w : ℝ) + 1)) = 2 * w + 2 by ring] at this

/-! ## ewma -/

/-- `alpha = 2 / (w + 1)` is rounded once. -/
theorem alpha_rel {w : ℕ} (hw : 1 ≤ w) (h32 : w < 2 ^ 32) : Rel (2 / flt (w + 1) : F64) (2 / (w + 1)) 1 := by
  have wp := natCast_pos hw
  have w32 : (w : ℝ) + 1 ≤ 2 ^ (32 : ℤ) := by
    have : w + 1 ≤ 2 ^ 32 := by omega
    exact_mod_cast this
  have := Rel.quot (relLit 2 (by norm_num)) (relNat (m := w + 1) (by omega)) (by positivity) (units_ok (by omega)) (clear_of_le (e := -31) (by norm_num) (by
    push_cast
    rw [le_div_iff₀ (by positivity)]
    refine (mul_le_mul_of_nonneg_left w32 (by positivity)).trans ?_
    rw [← zpow_add₀ (by norm_num)]; norm_num)) (fits_of_le (e := 1) (by norm_num) (by
    push_cast
    rw [abs_of_nonneg (by positivity), div_le_iff₀ (by positivity)]
    have : (1 : ℝ) ≤ w := by exact_mod_cast hw
    linarith))
  simpa using this

/-- `1 - alpha` for windows from 2: at most four roundings. -/
theorem rest_rel {w : ℕ} (hw : 2 ≤ w) (h32 : w < 2 ^ 32) : Rel (1 - 2 / flt (w + 1) : F64) (1 - 2 / (w + 1)) 4 := by
  obtain ⟨t, ht, t1, t2, st⟩ := alpha_rel (by omega) h32
  have w2 : (2 : ℝ) ≤ w := by exact_mod_cast hw
  have hp : (0 : ℝ) < w + 1 := by linarith
  set a : ℝ := 2 / (w + 1) with ha
  have a0 : 0 < a := by positivity
  have a1 : a ≤ 2 / 3 := by
    rw [ha, div_le_div_iff₀ hp (by norm_num)]; linarith
  have u0 := unit64_pos
  have usm : unit64 ≤ 1 / 8 := by unfold unit64; norm_num
  have b0 : 0 < 1 - a := by linarith
  have o1 : off 1 = (1 - unit64)⁻¹ := by simp [off]
  have kp := keep_pos
  rw [o1, inv_inv] at t1
  rw [o1] at t2
  have t2' : t * (1 - unit64) ≤ 1 := by
    have := mul_le_mul_of_nonneg_right t2 kp.le
    rwa [inv_mul_cancel₀ kp.ne'] at this
  have e : 1 - a * t = (1 - a) * ((1 - a * t) / (1 - a)) := by field_simp
  have q1 : (off 3)⁻¹ ≤ (1 - a * t) / (1 - a) := by
    rw [le_div_iff₀ b0, off, inv_inv]
    have : t ≤ 1 + 8 / 7 * unit64 := by nlinarith
    have h1 : a * t ≤ a + 8 / 7 * (a * unit64) := by nlinarith
    have h2 : a * unit64 ≤ 2 / 3 * unit64 := mul_le_mul_of_nonneg_right a1 u0.le
    have h3 : 5 / 2 * unit64 ≤ 1 - (1 - unit64) ^ 3 := by nlinarith [mul_pos u0 u0, mul_pos (mul_pos u0 u0) u0]
    have h4 : 1 / 3 * (5 / 2 * unit64) ≤ (1 - a) * (1 - (1 - unit64) ^ 3) := mul_le_mul (by linarith) h3 (by positivity) b0.le
    linarith
  have q2 : (1 - a * t) / (1 - a) ≤ off 3 := by
    rw [div_le_iff₀ b0]
    have o3 : 1 + 3 * unit64 ≤ off 3 := by
      rw [off, le_inv_comm₀ (by linarith) (pow_pos kp 3)]
      rw [le_inv_comm₀ (pow_pos kp 3) (by linarith)]
      rw [le_inv_comm₀ (by linarith) (pow_pos kp 3), ← one_div, le_div_iff₀ (by linarith)]
      nlinarith [mul_pos u0 u0, mul_pos (mul_pos u0 u0) u0, mul_pos (mul_pos (mul_pos u0 u0) u0) u0]
    nlinarith
  have one : (1 : F64) ⇓ (1 : ℝ) := isOne
  have ub : |1 - a * t| ≤ max64 := by
    have tp : 0 ≤ t := le_trans kp.le t1
    have : t ≤ 2 := by nlinarith
    refine le_trans ?_ two_le_max64
    rw [abs_le]; constructor <;> nlinarith
  obtain ⟨n, hn⟩ := st.multiple ht
  obtain ⟨m, hm⟩ := (show Stored (1 : F64) from fun r hr => by
    rw [hr.unique isOne]
    exact ⟨by simpa using Rounding.binary64.nat 1 (by norm_num), by simpa using Rounding.binary64.fits_nat 1 (by norm_num)⟩).multiple one
  refine Rel.round (k := 3) (t := (1 - a * t) / (1 - a)) (by rw [← e]; exact rounds_sub one ht) q1 q2 ?_ (by rwa [← e])
  rw [← e]
  refine rnd64_relative (.inl ⟨m - n, ?_⟩)
  push_cast
  rw [sub_mul, ← hm, ← hn]

/-- The bar an exponential average starts from. -/
theorem ewmaOf_first {w : ℕ} (hw : 1 ≤ w) (l : List ℝ) : ewmaOf w l (w - 1) = mean (l.take w) := by
  obtain ⟨k, rfl⟩ : ∃ k, w = k + 1 := ⟨w - 1, by omega⟩
  cases k with
  | zero => rfl
  | succ k => simp [ewmaOf]

/-- C118: at bar `i` `ewma` is within `12 i + 4` units of rounding of the exact recurrence, relative to that value. -/
theorem ewma_accurate (data : List F64) (w : ℕ) (hw : 2 ≤ w) (h32 : w < 2 ^ 32) (hn : w ≤ data.length) (hn32 : data.length ≤ 2 ^ 32)
    (hd : ∀ x ∈ data, Price x) :
    ReportsP data.length (w - 1) (fun i y => WithinUnits (12 * i + 4) (ewmaOf w (vals data) i) y) (ewma data w) := by
  have lv : (vals data).length = data.length := by simp [vals]
  have W : ∀ i, w ≤ i + 1 → i < data.length → (2 : ℝ) ^ (-400 : ℤ) ≤ ewmaOf w (vals data) i ∧ ewmaOf w (vals data) i ≤ 2 ^ 400 := fun i h1 h2 =>
    ewmaOf_within (by omega) h1 (by omega) fun a ha => priceRel_within (priceRel_vals hd) a (List.mem_of_mem_take ha)
  have w2 : (2 : ℝ) ≤ w := by exact_mod_cast hw
  have w32 : (w : ℝ) + 1 ≤ 2 ^ (32 : ℤ) := by
    have : w + 1 ≤ 2 ^ 32 := by omega
    exact_mod_cast this
  have hp : (0 : ℝ) < w + 1 := by linarith
  have a1 : (2 : ℝ) / (w + 1) ≤ 2 / 3 := by
    rw [div_le_div_iff₀ hp (by norm_num)]; linarith
  have a2 : (2 : ℝ) ^ (-32 : ℤ) ≤ 2 / (w + 1) := by
    rw [le_div_iff₀ hp]
    refine (mul_le_mul_of_nonneg_left w32 (by positivity)).trans ?_
    rw [← zpow_add₀ (by norm_num)]; norm_num
  have alp := alpha_rel (show 1 ≤ w by omega) h32
  have rst := rest_rel hw h32
  generalize hα : (2 : ℝ) / (w + 1) = α at *
  have step : ∀ {s x : F64} {u a : ℝ} {k : ℕ}, Rel s u k → Rel x a 0 → (2 : ℝ) ^ (-400 : ℤ) ≤ u → u ≤ 2 ^ 400 → (2 : ℝ) ^ (-400 : ℤ) ≤ a → a ≤ 2 ^ 400 →
      k ≤ 2 ^ 36 → Rel (x * (2 / flt (w + 1)) + s * (1 - 2 / flt (w + 1))) (a * α + u * (1 - α)) (k + 6) := by
    intro s x u a k hs hx u0 u1 b0 b1 hk
    have z : (0 : ℝ) < 2 ^ (-400 : ℤ) := by positivity
    have ap : 0 < α := lt_of_lt_of_le (by positivity) a2
    have l1 : (2 : ℝ) ^ (-432 : ℤ) ≤ a * α := by
      have := mul_le_mul b0 a2 (by positivity) (by linarith)
      rwa [← zpow_add₀ (by norm_num), show (-400 : ℤ) + -32 = -432 by norm_num] at this
    have l2 : (2 : ℝ) ^ (-402 : ℤ) ≤ u * (1 - α) := by
      have h4 : (2 : ℝ) ^ (-2 : ℤ) ≤ 1 - α := by
        have : (2 : ℝ) ^ (-2 : ℤ) = 1 / 4 := by norm_num
        rw [this]; linarith
      have := mul_le_mul u0 h4 (by positivity) (by linarith)
      rwa [← zpow_add₀ (by norm_num), show (-400 : ℤ) + -2 = -402 by norm_num] at this
    have n1 : 0 ≤ a * α := le_trans (by positivity) l1
    have n2 : 0 ≤ u * (1 - α) := le_trans (by positivity) l2
    have g1 : a * α ≤ 2 ^ 400 := (mul_le_of_le_one_right (by linarith) (by linarith)).trans b1
    have g2 : u * (1 - α) ≤ 2 ^ 400 := (mul_le_of_le_one_right (by linarith) (by linarith)).trans u1
    have p1 := Rel.mul hx alp (units_ok (by omega)) (clear_of_le (e := -432) (by norm_num) l1) (fits_of_le (e := 400) (by norm_num) ((abs_of_nonneg n1).le.trans g1))
    have p2 := Rel.mul hs rst (units_ok (by omega)) (clear_of_le (e := -402) (by norm_num) l2) (fits_of_le (e := 400) (by norm_num) ((abs_of_nonneg n2).le.trans g2))
    refine (Rel.add (p1.mono (show _ ≤ k + 4 + 1 by omega)) p2 n1 n2 (units_ok (by omega)) ?_).mono (by omega)
    have := fits_of_le (a := a * α + u * (1 - α)) (e := 401) (by norm_num) (by
      rw [abs_of_nonneg (add_nonneg n1 n2), show (2 : ℝ) ^ 401 = 2 ^ 400 + 2 ^ 400 by rw [pow_succ]; ring]
      exact add_le_add g1 g2)
    rwa [abs_of_nonneg (add_nonneg n1 n2)] at this
  have seed : Rel (fsum (data.take w) / flt w) (mean ((vals data).take w)) (w + 1) := by
    have e : (vals data).take w = vals (data.take w) := by simp [vals, List.map_take]
    rw [e]
    exact (mean_rel (priceRel_vals fun x hx => hd x (List.mem_of_mem_take hx)) (by simp; omega) (by omega) h32 (by omega)).1.mono (by omega)
  run_model [ewma, usub_of_le]
  have key : ∀ i y, (fsum (data.take w) / flt w :: scanS (fun state x => x * (2 / flt (w + 1)) + state * (1 - 2 / flt (w + 1)))
      (fsum (data.take w) / flt w) (data.drop w))[i]? = some y → Rel y (ewmaOf w (vals data) (w - 1 + i)) (w + 1 + 6 * i) := by
    intro i y hy
    cases i with
    | zero =>
        simp only [List.getElem?_cons_zero, Option.some.injEq] at hy
        rw [← hy, Nat.add_zero, ewmaOf_first (by omega)]
        exact seed
    | succ i =>
        rw [List.getElem?_cons_succ] at hy
        refine scan_idx (I := fun i s => Rel s (ewmaOf w (vals data) (w - 1 + i)) (w + 1 + 6 * i))
          (P := fun i y => Rel y (ewmaOf w (vals data) (w - 1 + (i + 1))) (w + 1 + 6 * (i + 1))) ?_
          (by rw [Nat.add_zero, ewmaOf_first (by omega)]; exact seed) i y hy
        intro i s x hx hs
        rw [List.getElem?_drop] at hx
        have hi := (List.getElem?_eq_some_iff.1 hx).1
        have hpx := hd x (List.mem_of_getElem? hx)
        have ev : (vals data)[w - 1 + i + 1]? = some x.val := by
          rw [show w - 1 + i + 1 = w + i by omega, vals, List.getElem?_map, hx]; rfl
        obtain ⟨z0, z1⟩ := W (w - 1 + i) (by omega) (by omega)
        have f : ewmaOf w (vals data) (w - 1 + (i + 1)) = x.val * α + ewmaOf w (vals data) (w - 1 + i) * (1 - α) := by
          rw [← Nat.add_assoc, ewmaOf, if_neg (by omega), ev, hα]; rfl
        have := (step hs hpx.plain.rel z0 z1 hpx.ge hpx.plain.le (by omega)).mono (show _ ≤ w + 1 + 6 * (i + 1) by omega)
        rw [← f] at this
        exact ⟨this, this⟩
  refine reportsP_front (by simp; omega) fun i y hy => ?_
  have hi := (List.getElem?_eq_some_iff.1 hy).1
  simp only [List.length_cons, scanS_length, List.length_drop] at hi
  have h := Rel.withinUnits ((key i y hy).mono (show _ ≤ 6 * (w - 1 + i) + 2 by omega)) (by omega)
  have e : (2 : ℝ) * ((6 * (w - 1 + i) + 2 : ℕ) : ℝ) = 12 * ((w - 1 + i : ℕ) : ℝ) + 4 := by push_cast; ring
  rwa [e] at h

/-- C118: at bar `i` `wilder` is within `6 i + 6` units of rounding of the exact recurrence, relative to that value. -/
theorem wilder_accurate (data : List F64) (w : ℕ) (hw : 1 ≤ w) (h32 : w < 2 ^ 32) (hn : w ≤ data.length) (hn32 : data.length ≤ 2 ^ 32)
    (hd : ∀ x ∈ data, Price x) :
    ReportsP data.length (w - 1) (fun i y => WithinUnits (6 * i + 6) (wilderOf w (vals data) i) y) (wilder data w) := by
  have lv : (vals data).length = data.length := by simp [vals]
  have P := priceRel_within (priceRel_vals hd)
  have z : (0 : ℝ) < 2 ^ (-400 : ℤ) := by positivity
  obtain ⟨o, e, l, h3, h4⟩ := wilder_rel (r := vals data) lv hw h32 hn hn32 (fun i x a hx ha => by
      rw [vals, List.getElem?_map, hx] at ha
      cases ha
      exact (hd x (List.mem_of_getElem? hx)).plain.rel.mono (by omega))
    (fun a ha => ⟨z.le.trans (P a ha).1, (P a ha).2.trans (pow_le_pow_right₀ (by norm_num) (by norm_num)),
      .inr (le_trans (zpow_le_zpow_right₀ (by norm_num) (by norm_num)) (P a ha).1)⟩)
    (fun i h1 h2 => .inr (le_trans (zpow_le_zpow_right₀ (by norm_num) (by norm_num))
      (wilderOf_within hw h1 (by omega) fun a ha => P a (List.mem_of_mem_take ha)).1))
  refine ⟨o, e, l, h3, fun i h1 h2 => ?_⟩
  obtain ⟨y, ey, hy⟩ := h4 i h1 h2
  refine ⟨y, ey, ?_⟩
  have h := Rel.withinUnits hy (by omega)
  have e : (2 : ℝ) * ((3 * i + 3 : ℕ) : ℝ) = 6 * (i : ℝ) + 6 := by push_cast; ring
  rwa [e] at h

/-! ## Weighted averages -/

/-- A dot product with weights `u / Σ u`, each rounded twice. -/
theorem dot_rel {w : ℕ} {l ws : List F64} {us : List ℝ} (hl : ∀ x ∈ l, Price x) (hlen : l.length = w) (h32 : w < 2 ^ 32)
    (hw : List.Forall₂ (fun x u => Rel x (u / us.sum) 2 ∧ (2 : ℝ) ^ (-64 : ℤ) ≤ u / us.sum ∧ u / us.sum ≤ 1) ws us) (hus : us.length = w) :
    Rel (dot ws l) (weightedMean us (vals l)) (w + 3) := by
  have hws : ws.length = w := by rw [hw.length_eq, hus]
  have f : List.Forall₂ (fun x a => Rel x a 3 ∧ 0 ≤ a ∧ a ≤ 2 ^ 968) ((l.zip ws).map fun (x : F64 × F64) => x.1 * x.2)
      (((vals l).zip us).map fun p => p.1 * (p.2 / us.sum)) := by
    rw [List.forall₂_iff_get]
    refine ⟨by simp [vals, hlen, hws, hus], fun i g1 g2 => ?_⟩
    simp only [List.length_map, List.length_zip, vals] at g1 g2
    have i1 : i < l.length := by omega
    have i2 : i < ws.length := by omega
    have i3 : i < us.length := by omega
    have hwi := (List.forall₂_iff_get.1 hw).2 i i2 i3
    simp only [List.get_eq_getElem] at hwi
    have hx := hl _ (List.getElem_mem i1)
    simp only [List.get_eq_getElem, List.getElem_map, List.getElem_zip, vals]
    obtain ⟨r, b1, b2⟩ := hwi
    generalize us[i] / us.sum = u at *
    have n0 : 0 ≤ u := le_trans (by positivity) b1
    have le : l[i].val * u ≤ 2 ^ 400 := (mul_le_of_le_one_right hx.plain.nonneg b2).trans hx.plain.le
    have ge : (2 : ℝ) ^ (-464 : ℤ) ≤ l[i].val * u := by
      have := mul_le_mul hx.ge b1 (by positivity) hx.plain.nonneg
      rwa [← zpow_add₀ (by norm_num), show (-400 : ℤ) + -64 = -464 by norm_num] at this
    have nn := mul_nonneg hx.plain.nonneg n0
    exact ⟨(Rel.mul hx.plain.rel r (units_ok (by omega)) (clear_of_le (e := -464) (by norm_num) ge)
      (fits_of_le (e := 400) (by norm_num) ((abs_of_nonneg nn).le.trans le))).mono (by omega), nn, le.trans (pow_le_pow_right₀ (by norm_num) (by norm_num))⟩
  have := (rel_sum (w := w) f (by simp [hlen, hws]) (by omega)).1
  refine (this.mono (show _ ≤ w + 3 by omega)).congr ?_
  rw [weightedMean]
  have key : ∀ (a b : List ℝ) (S : ℝ), ((a.zip b).map fun p => p.1 * (p.2 / S)).sum = ((b.zip a).map fun p => p.1 * p.2).sum / S := by
    intro a
    induction a with
    | nil => intro b S; simp
    | cons x a ih =>
        intro b S
        cases b with
        | nil => simp
        | cons y b => simp only [List.zip_cons_cons, List.map_cons, List.sum_cons, ih]; ring
  exact key _ _ _

/-- C118: `wma` is within `2 w + 6` units of rounding of the weighted mean of its window, relative to that mean. -/
theorem wma_accurate (data : List F64) (w : ℕ) (hw : 1 ≤ w) (h26 : w < 2 ^ 26) (hn : w ≤ data.length + 1) (hd : ∀ x ∈ data, Price x) :
    ReportsP data.length (w - 1)
      (fun i y => WithinUnits (2 * w + 6) (weightedMean ((List.range' 1 w).map fun i : ℕ => (i : ℝ)) (recent (vals data) w i)) y) (wma data w) := by
  run_model [wma]
  refine reportsP_windows hw hn fun i h1 h2 => ?_
  rw [← recent_vals]
  have wp := natCast_pos hw
  have w1 : (1 : ℝ) ≤ w := by exact_mod_cast hw
  have w26 : (w : ℝ) ≤ 2 ^ 26 := by exact_mod_cast h26.le
  have hm : w ^ 2 + w ≤ 2 ^ 53 := by
    have : w * (w + 1) ≤ 2 ^ 26 * (2 ^ 26 + 1) := Nat.mul_le_mul h26.le (by omega)
    calc w ^ 2 + w = w * (w + 1) := by ring
      _ ≤ 2 ^ 26 * (2 ^ 26 + 1) := this
      _ ≤ 2 ^ 53 := by norm_num
  have den : Rel (flt (w ^ 2 + w) / 2 : F64) (((w : ℝ) ^ 2 + w) / 2) 1 := by
    have := Rel.quot (relNat hm) (relLit 2 (by norm_num)) (by norm_num) (units_ok (by omega)) (clear_of_le (e := 0) (by norm_num) (by
      push_cast; norm_num; nlinarith)) (fits_of_le (e := 53) (by norm_num) (by
      rw [abs_of_nonneg (by positivity)]
      have : ((w ^ 2 + w : ℕ) : ℝ) ≤ 2 ^ 53 := by exact_mod_cast hm
      linarith [pow_pos (show (0 : ℝ) < 2 by norm_num) 53]))
    simpa using this
  have S := sum_range'_cast w
  have h := dot_rel (w := w) (l := recent data w i) (ws := wmaWeights w) (us := (List.range' 1 w).map fun i : ℕ => (i : ℝ))
    (fun x hx => hd x (List.mem_of_mem_drop (List.mem_of_mem_take hx))) (recent_length h1 h2) (by omega) (by
      rw [S, wmaWeights, List.forall₂_map_left_iff, List.forall₂_map_right_iff]
      refine List.forall₂_same.2 fun j hj => ?_
      rw [List.mem_range'_1] at hj
      have j1 : (1 : ℝ) ≤ j := by exact_mod_cast hj.1
      have j2 : (j : ℝ) ≤ w := by exact_mod_cast (by omega : j ≤ w)
      have dp : (0 : ℝ) < ((w : ℝ) ^ 2 + w) / 2 := by positivity
      have lo : (2 : ℝ) ^ (-64 : ℤ) ≤ j / (((w : ℝ) ^ 2 + w) / 2) := by
        rw [le_div_iff₀ dp]
        have : ((w : ℝ) ^ 2 + w) / 2 ≤ 2 ^ (64 : ℤ) := by
          have : ((w ^ 2 + w : ℕ) : ℝ) ≤ 2 ^ 53 := by exact_mod_cast hm
          push_cast at this
          norm_num at this ⊢
          linarith
        refine (mul_le_mul_of_nonneg_left this (by positivity)).trans ?_
        rw [← zpow_add₀ (by norm_num)]; norm_num; exact hj.1
      have hi : j / (((w : ℝ) ^ 2 + w) / 2) ≤ 1 := by
        rw [div_le_one dp]; nlinarith
      exact ⟨(Rel.quot (relNat (by omega)) den dp.ne' (units_ok (by omega)) (clear_of_le (e := -64) (by norm_num) lo)
        (fits_of_le (e := 0) (by norm_num) (by rw [abs_of_nonneg (le_trans (by positivity) lo)]; simpa using hi))).mono (by omega), lo, hi⟩) (by simp)
  have h := Rel.withinUnits h (by omega)
  have e : (2 : ℝ) * ((w + 3 : ℕ) : ℝ) = 2 * (w : ℝ) + 6 := by push_cast; ring
  rwa [e] at h

/-- C118: `pwma` with a window of at most 54 is within `2 w + 6` units of rounding of its weighted mean, relative to that mean. -/
theorem pwma_accurate (data : List F64) (w : ℕ) (hw : 1 ≤ w) (h54 : w ≤ 54) (hn : w ≤ data.length + 1) (hd : ∀ x ∈ data, Price x) :
    ReportsP data.length (w - 1) (fun i y => WithinUnits (2 * w + 6)
      (weightedMean (((List.range w).map fun k => (w - 1).choose k).map fun u : ℕ => (u : ℝ)) (recent (vals data) w i)) y) (pwma data w) := by
  have hr := pascalRow_eq hw (show w ≤ 63 by omega)
  run_model [pwma, hr]
  refine reportsP_windows hw hn fun i h1 h2 => ?_
  rw [← recent_vals]
  have p53 : 2 ^ (w - 1) ≤ 2 ^ 53 := Nat.pow_le_pow_right (by norm_num) (by omega)
  have dp : (0 : ℝ) < ((2 ^ (w - 1) : ℕ) : ℝ) := by positivity
  have S := pascal_sum w hw
  have h := dot_rel (w := w) (l := recent data w i) (ws := ((List.range w).map fun k => (w - 1).choose k).map fun i => flt i / flt (2 ^ (w - 1)))
    (us := ((List.range w).map fun k => (w - 1).choose k).map fun u : ℕ => (u : ℝ))
    (fun x hx => hd x (List.mem_of_mem_drop (List.mem_of_mem_take hx))) (recent_length h1 h2) (by omega) (by
      rw [S, List.forall₂_map_left_iff, List.forall₂_map_right_iff]
      refine List.forall₂_same.2 fun j hj => ?_
      obtain ⟨k, hk, rfl⟩ := List.mem_map.1 hj
      have c1 : 1 ≤ (w - 1).choose k := Nat.choose_pos (by rw [List.mem_range] at hk; omega)
      have c2 : (w - 1).choose k ≤ 2 ^ (w - 1) := Nat.choose_le_two_pow _ _
      generalize (w - 1).choose k = c at *
      have j1 : (1 : ℝ) ≤ c := by exact_mod_cast c1
      have j2 : (c : ℝ) ≤ ((2 ^ (w - 1) : ℕ) : ℝ) := by exact_mod_cast c2
      have e2 : (2 : ℝ) ^ (w - 1) = ((2 ^ (w - 1) : ℕ) : ℝ) := by push_cast; rfl
      rw [e2]
      have lo : (2 : ℝ) ^ (-64 : ℤ) ≤ c / ((2 ^ (w - 1) : ℕ) : ℝ) := by
        rw [le_div_iff₀ dp]
        have : ((2 ^ (w - 1) : ℕ) : ℝ) ≤ 2 ^ (64 : ℤ) := by
          have : 2 ^ (w - 1) ≤ 2 ^ 64 := Nat.pow_le_pow_right (by norm_num) (by omega)
          exact_mod_cast this
        refine (mul_le_mul_of_nonneg_left this (by positivity)).trans ?_
        rw [← zpow_add₀ (by norm_num)]; norm_num; exact c1
      have hi : c / ((2 ^ (w - 1) : ℕ) : ℝ) ≤ 1 := by
        rw [div_le_one dp]; exact j2
      exact ⟨(Rel.quot (relNat (by omega)) (relNat p53) dp.ne' (units_ok (by omega)) (clear_of_le (e := -64) (by norm_num) lo)
        (fits_of_le (e := 0) (by norm_num) (by rw [abs_of_nonneg (le_trans (by positivity) lo)]; simpa using hi))).mono (by omega), lo, hi⟩) (by simp)
  have h := Rel.withinUnits h (by omega)
  have e : (2 : ℝ) * ((w + 3 : ℕ) : ℝ) = 2 * (w : ℝ) + 6 := by push_cast; ring
  rwa [e] at h

end Traquer.Smooth

namespace Traquer.Volatility
open FP FloatLit Volume Smooth

/-- The mean of the high, the low and the close of a bar: three roundings. -/
theorem third_rel {h l c : F64} (h1 : Price h) (h2 : Price l) (h3 : Price c) : PriceRel 3 ((h + l + c) / 3) ((h.val + l.val + c.val) / 3) := by
  have z : (0 : ℝ) < 2 ^ (-400 : ℤ) := by positivity
  have a1 := h1.ge
  have a2 := h2.ge
  have a3 := h3.ge
  have b1 := h1.plain.le
  have b2 := h2.plain.le
  have b3 := h3.plain.le
  have s1 := h1.plain.rel
  have s2 := h2.plain.rel
  have s3 := h3.plain.rel
  have lo : (2 : ℝ) ^ (-400 : ℤ) ≤ (h.val + l.val + c.val) / 3 := by rw [le_div_iff₀ (by norm_num)]; linarith
  have hi : (h.val + l.val + c.val) / 3 ≤ 2 ^ 400 := by rw [div_le_iff₀ (by norm_num)]; linarith
  have z' : (0 : ℝ) < 2 ^ 400 := by positivity
  have q : (2 : ℝ) ^ 402 = 4 * 2 ^ 400 := by rw [show 402 = 2 + 400 by norm_num, pow_add]; norm_num
  have big : ∀ {x : ℝ}, 0 ≤ x → x ≤ 2 ^ 402 → 2 * x ≤ max64 := fun {x} x0 hx => by
    have := fits_of_le (a := x) (e := 402) (by norm_num) (by rwa [abs_of_nonneg x0])
    rwa [abs_of_nonneg x0] at this
  have u1 : h.val + l.val ≤ 2 ^ 402 ∧ h.val + l.val + c.val ≤ 2 ^ 402 := by
    rw [q]
    generalize (2 : ℝ) ^ 400 = M at *
    constructor <;> linarith only [b1, b2, b3, z']
  have p1 := Rel.add s1 s2 (by linarith) (by linarith) (units_ok (by omega)) (big (by linarith) u1.1)
  have p2 := Rel.add p1 (s3.mono (show 0 ≤ 0 + 1 by omega)) (by linarith) (by linarith) (units_ok (by omega)) (big (by linarith) u1.2)
  refine ⟨?_, lo, hi⟩
  exact (Rel.quot p2 (relLit 3 (by norm_num)) (by norm_num) (units_ok (by omega)) (clear_of_le (e := -400) (by norm_num) lo)
    (fits_of_le (e := 400) (by norm_num) ((abs_of_nonneg (z.le.trans lo)).le.trans hi))).mono (by omega)

/-- C118: `typical` is within `2 w + 8` units of rounding of the mean of the typical prices of its window, relative to that mean. -/
theorem typical_accurate (high low close : List F64) (w : ℕ) (hw : 1 ≤ w) (h32 : w < 2 ^ 32) (hn : w ≤ high.length + 1) (hl : low.length = high.length)
    (hc : close.length = high.length) (fh : ∀ x ∈ high, Price x) (fl : ∀ x ∈ low, Price x) (fc : ∀ x ∈ close, Price x) :
    ReportsP high.length (w - 1)
      (fun i y => WithinUnits (2 * w + 8) (mean (lastOf (fun j => (bar (vals high) j + bar (vals low) j + bar (vals close) j) / 3) w i)) y)
      (typical high low close w) := by
  have lm : ((zip3 high low close).map fun (x : F64 × F64 × F64) => (x.1 + x.2.1 + x.2.2) / 3).length = high.length := by simp [hl, hc]
  have bv : ∀ {l : List F64} {i : ℕ} {x : F64}, l[i]? = some x → bar (vals l) i = x.val := fun e => by simp [bar, vals, e]
  have h : ReportsP high.length 0 (fun i y => PriceRel 3 y ((bar (vals high) i + bar (vals low) i + bar (vals close) i) / 3))
      (some ((zip3 high low close).map fun (x : F64 × F64 × F64) => (x.1 + x.2.1 + x.2.2) / 3)) := by
    refine reportsP_map (by simp [hl, hc]) (fun i b _ hi => by omega) ?_
    rintro i ⟨h, l, c⟩ hi -
    rw [zip3_getElem?] at hi
    obtain ⟨e1, e2, e3⟩ := hi
    rw [bv e1, bv e2, bv e3]
    exact third_rel (fh _ (List.mem_of_getElem? e1)) (fl _ (List.mem_of_getElem? e2)) (fc _ (List.mem_of_getElem? e3))
  rw [← lm] at hn ⊢
  unfold typical
  run_model [sma]
  refine reportsP_windows hw hn fun i h1 h2 => ?_
  obtain ⟨f, fl⟩ := forall_recent (R := PriceRel 3) h (w := w) (i := i) (by omega) (by omega)
  have h := Rel.withinUnits (mean_rel f fl hw h32 (by omega)).1 (by omega)
  have e : (2 : ℝ) * ((3 + w + 1 : ℕ) : ℝ) = 2 * (w : ℝ) + 8 := by push_cast; ring
  rwa [e] at h

end Traquer.Volatility

namespace Traquer
open FP FloatLit Volume Smooth

/-- A whole number is a price. -/
theorem price_flt {n : ℕ} (h1 : 1 ≤ n) (h2 : n ≤ 2 ^ 53) : Price (flt n : F64) :=
  ⟨fun a ha => by
    rw [ha.unique (isFlt h2)]
    exact ⟨Rounding.binary64.nat n h2, Rounding.binary64.fits_nat n h2⟩, n, isFlt h2,
    le_trans (zpow_le_one_of_nonpos₀ (by norm_num) (by norm_num)) (by exact_mod_cast h1),
    le_trans (by exact_mod_cast h2) (pow_le_pow_right₀ (show (1 : ℝ) ≤ 2 by norm_num) (show 53 ≤ 400 by norm_num))⟩

/-- A price series that falls by a factor of a thousand meets the conditions. -/
theorem fallen_prices : ∀ x ∈ ([flt 5000, flt 4000, flt 5, flt 4] : List F64), Price x := by
  intro x hx
  simp only [List.mem_cons, List.not_mem_nil, or_false] at hx
  rcases hx with rfl | rfl | rfl | rfl <;> exact price_flt (by norm_num) (by norm_num)

example : ReportsP 4 1 (fun i y => WithinUnits (12 * i + 4) (ewmaOf 2 (vals ([flt 5000, flt 4000, flt 5, flt 4] : List F64)) i) y)
    (ewma ([flt 5000, flt 4000, flt 5, flt 4] : List F64) 2) :=
  ewma_accurate _ 2 le_rfl (by norm_num) (by simp) (by simp) fallen_prices
example : ReportsP 4 1 (fun i y => WithinUnits (2 * (2 : ℕ) + 2) (mean (recent (vals ([flt 5000, flt 4000, flt 5, flt 4] : List F64)) 2 i)) y)
    (sma ([flt 5000, flt 4000, flt 5, flt 4] : List F64) 2) :=
  sma_accurate _ 2 (by norm_num) (by norm_num) (by simp) fallen_prices

end Traquer
