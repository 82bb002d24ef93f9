import Verif.Props.Drift64
/-!
# C128: the Chaikin money flow in binary64

`cmf` is a mean of the positions of the closes in their bars, weighted by the volumes. Its error is bounded by a number of units of
`2^-53` that depends only on the window: not on the prices, not on the volumes, and not on how unequal the volumes are.
-/

namespace Traquer
open FP FloatLit
open scoped BigOperators

/-- A quotient whose divisor is known up to `k2` units of its own size. -/
theorem Nearly.quot_near {N R A k1 k2 : ℝ} {x y : F64} (hN : Sized N) (R0 : 0 < R) (h1 : Approx x A (k1 * unit64 * (N * R)))
    (hA : |A| ≤ N * R) (h2 : Approx y R (k2 * unit64 * R)) (k10 : 0 ≤ k1) (k20 : 0 ≤ k2) (hk1 : k1 ≤ 2 ^ 25) (hk2 : k2 ≤ 2 ^ 25) :
    Nearly N (x / y) (A / R) 1 (k1 + k2 + 4) := by
  obtain ⟨x', hx, ex⟩ := h1
  obtain ⟨y', hy, ey⟩ := h2
  have u0 := accurate64.u0
  have N0 := hN.pos
  have ku : k2 * unit64 * (k1 + k2 + 1) ≤ 1 := by
    have e : (2 : ℝ) ^ 25 * unit64 * (2 ^ 26 + 1) ≤ 1 := by unfold unit64; norm_num
    refine le_trans (mul_le_mul (mul_le_mul_of_nonneg_right hk2 u0) (by linarith) (by positivity) (by positivity)) e
  have ku2 : k2 * unit64 ≤ 1 / 2 := by
    have e : (2 : ℝ) ^ 25 * unit64 ≤ 1 / 2 := by unfold unit64; norm_num
    exact (mul_le_mul_of_nonneg_right hk2 u0).trans e
  have y1 : R * (1 - k2 * unit64) ≤ y' := by have := (abs_le.1 ey).1; linarith
  have yp : 0 < y' := lt_of_lt_of_le (mul_pos R0 (by linarith)) y1
  refine (Nearly.of_rounds (k := k1 + k2 + 1) hN (rounds_div hx hy yp.ne') ?_ ?_ (by norm_num at hk1 hk2 ⊢; linarith) (by norm_num)).mono hN le_rfl
    (by linarith)
  · have e : x' / y' - A / R = (x' - A) / y' + A * (R - y') / (y' * R) := by
      field_simp
      ring
    rw [e]
    have t1 : |(x' - A) / y'| ≤ k1 * unit64 * (N * R) / y' := by
      rw [abs_div, abs_of_pos yp]
      exact div_le_div_of_nonneg_right ex yp.le
    have t2 : |A * (R - y') / (y' * R)| ≤ k2 * unit64 * (N * R) / y' := by
      rw [abs_div, abs_of_pos (mul_pos yp R0), abs_mul, div_le_div_iff₀ (mul_pos yp R0) yp, abs_sub_comm]
      have := mul_le_mul_of_nonneg_right (mul_le_mul hA ey (abs_nonneg _) (mul_nonneg N0.le R0.le)) yp.le
      linarith
    refine (abs_add_le _ _).trans ((add_le_add t1 t2).trans ?_)
    rw [← add_div, div_le_iff₀ yp]
    have h3 := mul_le_mul_of_nonneg_left y1 (mul_nonneg (mul_nonneg (show 0 ≤ k1 + k2 + 1 by linarith only [k10, k20]) u0) N0.le)
    have h4 := mul_le_mul_of_nonneg_left ku (mul_nonneg (mul_nonneg u0 N0.le) R0.le)
    linarith
  · rw [abs_div, abs_of_pos R0, div_le_iff₀ R0]
    linarith

/-- The sum of a list whose items are known up to `e` units of weights that add up to at most `S`. -/
theorem fsum_weights {S e : ℝ} (hS : Sized S) (e0 : 0 ≤ e) (he : e ≤ 2 ^ 20) (a v : ℕ → ℝ) (l : List F64) (hl : l.length ≤ 2 ^ 32)
    (h : ∀ j x, l[j]? = some x → Approx x (a j) (e * unit64 * v j) ∧ |a j| ≤ v j) (hs : ((List.range l.length).map v).sum ≤ S) :
    Approx (fsum l) ((List.range l.length).map a).sum ((e + 3 * l.length) * unit64 * S) ∧
      |((List.range l.length).map a).sum| ≤ ((List.range l.length).map v).sum := by
  have key : Approx (fsum l) ((List.range l.length).map a).sum
      ((e * ((List.range l.length).map v).sum + 3 * l.length * S) * unit64) ∧
      |((List.range l.length).map a).sum| ≤ ((List.range l.length).map v).sum := by
    induction l using List.reverseRecOn with
    | nil => exact ⟨(Approx.is isZero).mono (by simp), by simp⟩
    | append_singleton l x ih =>
      simp only [List.length_append, List.length_singleton] at hl hs ⊢
      rw [List.range_succ, List.map_append, List.sum_append] at hs ⊢
      rw [List.map_append, List.sum_append]
      simp only [List.map_cons, List.map_nil, List.sum_cons, List.sum_nil, add_zero] at hs ⊢
      obtain ⟨⟨r, hr, er⟩, bx⟩ := h l.length x (by simp)
      have v0 := (abs_nonneg _).trans bx
      obtain ⟨⟨t, ht, et⟩, bt⟩ := ih (by omega) (fun j y hj => h j y (by
        rw [List.getElem?_append_left (List.getElem?_eq_some_iff.1 hj).1]; exact hj)) (by linarith)
      have hf : fsum (l ++ [x]) = fsum l + x := by simp [fsum]
      have A0 := (abs_nonneg _).trans bt
      generalize ((List.range l.length).map a).sum = A at *
      generalize ((List.range l.length).map v).sum = W at *
      have l32 : (l.length : ℝ) ≤ 2 ^ 32 := by exact_mod_cast (show l.length ≤ 2 ^ 32 by omega)
      push_cast
      generalize (l.length : ℝ) = n at *
      have S0 := hS.pos
      have u0 := accurate64.u0
      have b : |A + a l.length| ≤ W + v l.length := (abs_add_le _ _).trans (by linarith)
      refine ⟨?_, b⟩
      rw [hf]
      have c1 := Nearly.of_rounds (k := (e * (W + v l.length) + 3 * n * S) / S) (c := 1) (a := A + a l.length) hS (rounds_add ht hr) (by
        rw [show t + r - (A + a l.length) = (t - A) + (r - a l.length) by ring]
        refine (abs_add_le _ _).trans ((add_le_add et er).trans (le_of_eq ?_))
        field_simp
        ring) (by linarith) (by
        rw [div_le_iff₀ S0]
        have h1 : e * (W + v l.length) ≤ 2 ^ 20 * S := mul_le_mul he hs (by linarith) (by norm_num)
        have h2 : 3 * n * S ≤ 3 * 2 ^ 32 * S := mul_le_mul_of_nonneg_right (by linarith) S0.le
        linarith) (by norm_num)
      refine c1.approx.mono (le_of_eq ?_)
      field_simp
      ring
  refine ⟨key.1.mono ?_, key.2⟩
  have u0 := accurate64.u0
  have := mul_le_mul_of_nonneg_right (mul_le_mul_of_nonneg_left hs e0) u0
  linarith

namespace Volume

/-- What a bar adds to the money flow, computed in binary64, is within 20 units of its volume. -/
theorem flow_near {h l c v : F64} (hh : h.Finite) (hl : l.Finite) (hc : c.Finite) (hv : Plain v) (h1 : l.val ≤ c.val) (h2 : c.val ≤ h.val)
    (r1 : (2 : ℝ) ^ (-400 : ℤ) ≤ h.val - l.val) (r2 : h.val - l.val ≤ 2 ^ 400) :
    Approx (v * ((c - l) - (h - c)) / (h - l)) ((c.val - l.val - (h.val - c.val)) / (h.val - l.val) * v.val) (20 * unit64 * v.val) ∧
      |(c.val - l.val - (h.val - c.val)) / (h.val - l.val) * v.val| ≤ v.val := by
  have big : (2 : ℝ) ^ 400 ≤ 2 ^ 800 := pow_le_pow_right₀ (by norm_num) (by norm_num)
  have small : tiny64 ≤ (2 : ℝ) ^ (-400 : ℤ) := tiny64_le_zpow (e := 400) (by norm_num)
  have H : h ⇓ h.val := ⟨hh, rfl⟩
  have L : l ⇓ l.val := ⟨hl, rfl⟩
  have C : c ⇓ c.val := ⟨hc, rfl⟩
  have W : v ⇓ v.val := by obtain ⟨-, r, h, -⟩ := hv; exact ⟨h.1, rfl⟩
  have v0 := hv.nonneg
  have v1 := hv.clear
  have v2 := hv.le
  have hR := Smooth.sized_of (small.trans r1) (r2.trans big)
  generalize h.val = a at *
  generalize l.val = b at *
  generalize c.val = d at *
  generalize v.val = q at *
  have R0 := hR.pos
  have n1 : Nearly (a - b) (c - l) (d - b) 1 3 := (Nearly.of_rounds (k := 0) hR (rounds_sub C L) (by simp)
    (by rw [abs_le]; constructor <;> linarith only [h1, h2]) (by norm_num) (by norm_num)).mono hR le_rfl (by norm_num)
  have n2 : Nearly (a - b) (h - c) (a - d) 1 3 := (Nearly.of_rounds (k := 0) hR (rounds_sub H C) (by simp)
    (by rw [abs_le]; constructor <;> linarith only [h1, h2]) (by norm_num) (by norm_num)).mono hR le_rfl (by norm_num)
  have n3 : Nearly (a - b) (h - l) (a - b) 1 3 := (Nearly.of_rounds (k := 0) hR (rounds_sub H L) (by simp)
    (by rw [abs_le]; constructor <;> linarith only [h1, h2]) (by norm_num) (by norm_num)).mono hR le_rfl (by norm_num)
  have n4 := n1.sub hR n2 (by norm_num) (by norm_num)
  obtain ⟨x, hx, ex⟩ := n4.approx
  have bnd : |d - b - (a - d)| ≤ a - b := by rw [abs_le]; constructor <;> linarith only [h1, h2]
  have bq : |(d - b - (a - d)) / (a - b) * q| ≤ q := by
    rw [abs_mul, abs_div, abs_of_pos R0, abs_of_nonneg v0]
    exact mul_le_of_le_one_left v0 ((div_le_one R0).2 bnd)
  refine ⟨?_, bq⟩
  rcases v1 with e | v1
  · subst e
    obtain ⟨y, hy, ey⟩ := n3.approx
    have yp : 0 < y := by
      have := (abs_le.1 ey).1
      have u1 : unit64 ≤ 1 / 1000 := by unfold unit64; norm_num
      have := mul_le_mul_of_nonneg_right u1 R0.le
      linarith only [this, R0, (abs_le.1 ey).1]
    have zero : ∀ {z : F64}, Rounds z 0 → z ⇓ 0 := fun h => by
      obtain ⟨r, hr, g1, g2⟩ := h.between (n := 0) (by norm_num) le_rfl (by simp)
      obtain rfl : r = 0 := le_antisymm (by simpa using g2) g1
      exact hr
    have z1 := rounds_mul W hx
    rw [zero_mul] at z1
    have z2 := rounds_div (zero z1) hy yp.ne'
    rw [zero_div] at z2
    rw [mul_zero, mul_zero]
    exact Approx.is (zero z2)
  · have sq : Sized q := Smooth.sized_of (small.trans v1) (v2.trans big)
    have sqR : Sized (q * (a - b)) := by
      refine Smooth.sized_of ?_ ((mul_le_mul v2 r2 R0.le (by positivity)).trans (by rw [← pow_add]))
      have := mul_le_mul v1 r1 (by positivity) v0
      rw [← zpow_add₀ (by norm_num), show (-400 : ℤ) + -400 = -(800 : ℕ) by norm_num] at this
      exact (tiny64_le_zpow (by norm_num)).trans this
    have bm : |q * (d - b - (a - d))| ≤ q * (a - b) := by
      rw [abs_mul, abs_of_nonneg v0]
      exact mul_le_mul_of_nonneg_left bnd v0
    have n5 := Nearly.of_rounds (k := 10) (c := 1) (a := q * (d - b - (a - d))) sqR (rounds_mul W hx) (by
      rw [← mul_sub, abs_mul, abs_of_nonneg v0]
      exact (mul_le_mul_of_nonneg_left ex v0).trans (le_of_eq (by ring))) (by linarith only [bm]) (by norm_num) (by norm_num)
    have := Nearly.quot_near sq R0 n5.approx bm n3.approx (by norm_num) (by norm_num) (by norm_num) (by norm_num)
    rw [mul_div_assoc, mul_comm q] at this
    refine this.approx.mono (le_of_eq (by norm_num))

/-- C128: `cmf` in binary64 is within `6 w + 24` units of `2^-53` of the exact money flow, whatever the prices and the volumes (finite bars
with the close between the low and the high; ranges and volumes that are neither astronomically large nor small). -/
theorem cmf_error (high low close volume : List F64) (w : ℕ) (hl : low.length = high.length) (hc : close.length = high.length)
    (hv : volume.length = high.length) (hw : 1 ≤ w) (h20 : w ≤ 2 ^ 20) (hn : w ≤ high.length + 1) (fh : Fins high) (fl : Fins low)
    (fc : Fins close) (fv : ∀ x ∈ volume, Plain x)
    (hb : ∀ i < high.length, bar (vals low) i ≤ bar (vals close) i ∧ bar (vals close) i ≤ bar (vals high) i ∧
      (2 : ℝ) ^ (-400 : ℤ) ≤ bar (vals high) i - bar (vals low) i ∧ bar (vals high) i - bar (vals low) i ≤ 2 ^ 400) :
    ReportsP high.length (w - 1) (fun i y => 0 < (lastOf (bar (vals volume)) w i).sum →
      Approx y ((lastOf (adTerm (vals high) (vals low) (vals close) (vals volume)) w i).sum / (lastOf (bar (vals volume)) w i).sum)
        ((6 * w + 24) * unit64)) (cmf high low close volume w) := by
  obtain ⟨mf, hm⟩ : ∃ mf : List F64, (zip4 high low close volume).map (fun (h, l, c, vol) => vol * ((c - l) - (h - c)) / (h - l)) = mf :=
    ⟨_, rfl⟩
  have lm : mf.length = high.length := by rw [← hm]; simp; omega
  have e : cmf high low close volume w = some (nans (w - 1) ++ ((windowsOf w mf).zip (windowsOf w volume)).map
      fun (m, v) => fsum m / fsum v) := by
    subst hm
    run_model [cmf]
  have term : ∀ j z, mf[j]? = some z → Approx z (adTerm (vals high) (vals low) (vals close) (vals volume) j)
      (20 * unit64 * bar (vals volume) j) ∧ |adTerm (vals high) (vals low) (vals close) (vals volume) j| ≤ bar (vals volume) j := by
    intro j z hz
    rw [← hm, List.getElem?_map] at hz
    obtain ⟨⟨h, l, c, v⟩, ez, rfl⟩ := Option.map_eq_some_iff.1 hz
    obtain ⟨e1, e2, e3, e4⟩ := zip4_getElem?.1 ez
    obtain ⟨b1, b2, b3, b4⟩ := hb j (List.getElem?_eq_some_iff.1 e1).1
    rw [bar_vals e1, bar_vals e2] at b3 b4
    rw [bar_vals e2, bar_vals e3] at b1
    rw [bar_vals e1, bar_vals e3] at b2
    rw [adTerm, bar_vals e1, bar_vals e2, bar_vals e3, bar_vals e4]
    exact flow_near (fh _ (List.mem_of_getElem? e1)) (fl _ (List.mem_of_getElem? e2)) (fc _ (List.mem_of_getElem? e3))
      (fv _ (List.mem_of_getElem? e4)) b1 b2 b3 b4
  rw [e, ← lm]
  refine reportsP_windows2 hw (by omega) (by omega) fun i h1 h2 hpos => ?_
  have l1 : (recent mf w i).length = w := recent_length h1 h2
  have l2 : (recent volume w i).length = w := recent_length h1 (by omega)
  have at1 : ∀ {l : List F64} {j : ℕ} {x : F64}, (recent l w i)[j]? = some x → j < w ∧ l[i + 1 - w + j]? = some x := by
    intro l j x hj
    have hj' : j < w := by
      have := (List.getElem?_eq_some_iff.1 hj).1
      simp [recent] at this
      omega
    rw [recent, List.getElem?_take_of_lt hj', List.getElem?_drop] at hj
    exact ⟨hj', hj⟩
  have w20 : (w : ℝ) ≤ 1048576 := by exact_mod_cast h20
  have w1 : (1 : ℝ) ≤ w := by exact_mod_cast hw
  have vle : ∀ j < w, 0 ≤ bar (vals volume) (i + 1 - w + j) ∧ (bar (vals volume) (i + 1 - w + j) = 0 ∨
      (2 : ℝ) ^ (-400 : ℤ) ≤ bar (vals volume) (i + 1 - w + j)) ∧ bar (vals volume) (i + 1 - w + j) ≤ 2 ^ 400 := by
    intro j hj
    have hx : volume[i + 1 - w + j]? = some volume[i + 1 - w + j] := List.getElem?_eq_getElem (by omega)
    have := fv _ (List.mem_of_getElem? hx)
    rw [bar_vals hx]
    exact ⟨this.nonneg, this.clear, this.le⟩
  have hS : Sized (lastOf (bar (vals volume)) w i).sum := by
    have low : (2 : ℝ) ^ (-400 : ℤ) ≤ (lastOf (bar (vals volume)) w i).sum := by
      by_contra hlt
      push Not at hlt
      refine hpos.ne' (List.sum_eq_zero fun x hx => ?_)
      obtain ⟨j, hj, rfl⟩ := List.mem_map.1 hx
      rcases (vle j (List.mem_range.1 hj)).2.1 with h0 | h0
      · exact h0
      · refine absurd (List.single_le_sum (fun y hy => ?_) _ hx) (not_le.2 (hlt.trans_le h0))
        obtain ⟨k, hk, rfl⟩ := List.mem_map.1 hy
        exact (vle k (List.mem_range.1 hk)).1
    have up : (lastOf (bar (vals volume)) w i).sum ≤ w * 2 ^ 400 := by
      have := sum_le_of (l := List.range w) (f := fun j => bar (vals volume) (i + 1 - w + j)) (B := 2 ^ 400)
        fun j hj => (vle j (List.mem_range.1 hj)).2.2
      rwa [List.length_range] at this
    refine Smooth.sized_of ((tiny64_le_zpow (e := 400) (by norm_num)).trans low) (up.trans ?_)
    have h1 : (w : ℝ) * 2 ^ 400 ≤ 2 ^ 20 * 2 ^ 400 := mul_le_mul_of_nonneg_right (by norm_num; exact_mod_cast h20) (by positivity)
    refine h1.trans ?_
    rw [← pow_add]
    exact pow_le_pow_right₀ (by norm_num) (by norm_num)
  obtain ⟨num, bnum⟩ := fsum_weights hS (e := 20) (by norm_num) (by norm_num) (fun j => adTerm (vals high) (vals low) (vals close) (vals volume) (i + 1 - w + j))
    (fun j => bar (vals volume) (i + 1 - w + j)) (recent mf w i) (by omega) (fun j x hj => term _ _ (at1 hj).2) (by rw [l1]; exact le_rfl)
  obtain ⟨den, -⟩ := fsum_weights hS (e := 0) le_rfl (by norm_num) (fun j => bar (vals volume) (i + 1 - w + j))
    (fun j => bar (vals volume) (i + 1 - w + j)) (recent volume w i) (by omega) (fun j x hj => by
      obtain ⟨g1, g2⟩ := at1 hj
      have := fv _ (List.mem_of_getElem? g2)
      rw [bar_vals g2]
      obtain ⟨-, r, hr, -⟩ := id this
      exact ⟨(Approx.is ⟨hr.1, rfl⟩).mono (by simp), (abs_of_nonneg this.nonneg).le⟩) (by rw [l2]; exact le_rfl)
  rw [l1] at num bnum
  rw [l2] at den
  have := Nearly.quot_near sized_one hpos (A := (lastOf (adTerm (vals high) (vals low) (vals close) (vals volume)) w i).sum)
    (k1 := 20 + 3 * w) (k2 := 0 + 3 * w) (by rw [one_mul]; exact num) (by
      rw [one_mul]
      exact bnum) den (by positivity) (by positivity) (le_trans (b := 33554432) (by linarith only [w20]) (by norm_num)) (le_trans (b := 33554432) (by linarith only [w20]) (by norm_num))
  refine this.approx.mono (le_of_eq (by ring))

/-- `cmf_error` on two bars, the first closing at its high and the second at its low: the exact flow is the difference of the volumes
over their sum. -/
example (h l v u : F64) (hh : h.Finite) (hl : l.Finite) (hr : l.val + 1 ≤ h.val) (hr' : h.val ≤ l.val + 1000000) (pv : Price v) (pu : Price u) :
    ∃ out y, cmf [h, h] [l, l] [h, l] [v, u] 2 = some out ∧ out[1]? = some y ∧
      Approx y ((v.val - u.val) / (v.val + u.val)) (36 * unit64) := by
  have big : (1000000 : ℝ) ≤ 2 ^ 400 := le_trans (b := 2 ^ 20) (by norm_num) (pow_le_pow_right₀ (by norm_num) (by norm_num))
  have small : (2 : ℝ) ^ (-400 : ℤ) ≤ 1 := zpow_le_one_of_nonpos₀ (by norm_num) (by norm_num)
  have bars : ∀ i < 2, bar (vals [l, l]) i = l.val ∧ bar (vals [h, h]) i = h.val ∧
      (bar (vals [h, l]) i = h.val ∨ bar (vals [h, l]) i = l.val) := by
    intro i hi
    match i, hi with
    | 0, _ => exact ⟨rfl, rfl, .inl rfl⟩
    | 1, _ => exact ⟨rfl, rfl, .inr rfl⟩
  obtain ⟨out, e, -, -, g⟩ := cmf_error [h, h] [l, l] [h, l] [v, u] 2 rfl rfl rfl (by decide) (by norm_num) (by simp)
    (by simp [Fins, hh]) (by simp [Fins, hl]) (by simp [Fins, hh, hl]) (by simp [pv.plain, pu.plain])
    (fun i hi => by
      obtain ⟨b1, b2, b3⟩ := bars i hi
      rw [b1, b2]
      refine ⟨?_, ?_, small.trans (by linarith only [hr]), le_trans (by linarith only [hr']) big⟩ <;>
        rcases b3 with b | b <;> rw [b] <;> linarith only [hr])
  obtain ⟨y, ey, hy⟩ := g 1 (by decide) (by simp)
  have v0 : 0 < v.val := lt_of_lt_of_le (by positivity) pv.ge
  have u0 : 0 < u.val := lt_of_lt_of_le (by positivity) pu.ge
  have es : (lastOf (bar (vals [v, u])) 2 1).sum = v.val + u.val := by simp [lastOf, bar, vals, List.range_succ]
  have hd : h.val - l.val ≠ 0 := by intro e0; linarith only [hr, e0]
  have hd' : l.val - h.val ≠ 0 := by intro e0; linarith only [hr, e0]
  refine ⟨out, y, e, ey, ?_⟩
  have := hy (by rw [es]; exact add_pos v0 u0)
  rw [es] at this
  convert this using 1
  · congr 1
    simp [lastOf, adTerm, bar, vals, List.range_succ, hd]
    field_simp
    ring
  · norm_num

end Volume
end Traquer
