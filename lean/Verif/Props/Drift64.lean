import Verif.Props.Force64
import Verif.Props.Accumulate
import Verif.Lemmas.Whole
import Verif.Props.Money64
/-!
# C127: how far a running total drifts in binary64

`obv`, `vpt` and both `ad` lines add one term per bar for ever. Here the accumulated rounding error after `m` bars is bounded by a
quadratic polynomial in `m`, in units of `2^-53` of the largest term. `V` bounds the volumes and `M` the prices.
-/

namespace Traquer
open FP FloatLit
open scoped BigOperators

variable {M V : ℝ}

/-- A scan that adds an approximately computed term per item. -/
theorem scan_drifts {σ α : Type} {f : σ → α → Option (σ × F64)} {acc : σ → F64} {l : List α} {k : ℕ} {t : ℕ → ℝ} {J : ℕ → σ → Prop}
    {c κ : ℝ} (hS : Sized V) (c0 : 0 ≤ c) (hc : c ≤ 2) (k0 : 0 ≤ κ) (hκ : κ ≤ 100)
    (h : ∀ i s x s' y, l[i]? = some x → J i s → f s x = some (s', y) → J (i + 1) s' ∧ y = acc s' ∧
      ∃ z, acc s' = acc s + z ∧ Nearly V z (t (i + k)) c κ) {s : σ} (h0 : J 0 s) (hs : acc s ⇓ 0) {o : List F64} (hl : l.length ≤ 2 ^ 24)
    (ho : scanM f s l = some o) (i : ℕ) (y : F64) (hy : o[i]? = some y) :
    Nearly V y (∑ j ∈ Finset.Ico k (i + k + 1), t j) (c * (i + 1)) ((κ + 2) * (i + 1) + c * ((i + 1) * (i + 2)) / 2) := by
  refine scanM_idx (I := fun i s => J i s ∧ Nearly V (acc s) (∑ j ∈ Finset.Ico k (i + k), t j) (c * i) ((κ + 2) * i + c * (i * (i + 1)) / 2))
    (P := fun i y => Nearly V y (∑ j ∈ Finset.Ico k (i + k + 1), t j) (c * (i + 1)) ((κ + 2) * (i + 1) + c * ((i + 1) * (i + 2)) / 2))
    ?_ ⟨h0, ?_⟩ ho i y hy
  · rintro i s x s' y hx ⟨hj, ha⟩ e
    obtain ⟨g1, rfl, z, g2, hz⟩ := h i s x s' y hx hj e
    have hi := (List.getElem?_eq_some_iff.1 hx).1
    have i24 : (i : ℝ) + 1 ≤ 2 ^ 24 := by exact_mod_cast (show i + 1 ≤ 2 ^ 24 by omega)
    have i0 : (0 : ℝ) ≤ i := Nat.cast_nonneg i
    have b1 : (i : ℝ) * (i + 1) ≤ 2 ^ 24 * 2 ^ 24 := mul_le_mul (by linarith) i24 (by linarith) (by norm_num)
    have b2 : c * ((i : ℝ) * (i + 1)) ≤ 2 * (2 ^ 24 * 2 ^ 24) := mul_le_mul hc b1 (by positivity) (by norm_num)
    have b3 : (κ + 2) * i ≤ 102 * 2 ^ 24 := mul_le_mul (by linarith) (by linarith) i0 (by norm_num)
    have b4 : c * i ≤ 2 * 2 ^ 24 := mul_le_mul hc (by linarith) i0 (by norm_num)
    have key := ha.add hS hz (by linarith) (by linarith)
    rw [← g2, ← Finset.sum_Ico_succ_top (by omega)] at key
    have key' := key.mono hS (c' := c * (i + 1)) (k' := (κ + 2) * (i + 1) + c * ((i + 1) * (i + 2)) / 2) (by linarith) (by nlinarith)
    refine ⟨⟨g1, ?_⟩, key'⟩
    rw [show i + 1 + k = i + k + 1 by omega]
    push_cast
    refine key'.mono hS le_rfl (le_of_eq (by ring))
  · simp only [Nat.zero_add, Finset.Ico_self, Finset.sum_empty, Nat.cast_zero, mul_zero, zero_mul]
    exact (Nearly.exact (c := 0) hs (by simp)).mono hS le_rfl (by norm_num)

end Traquer

namespace Traquer.Volume
open FP FloatLit
open scoped BigOperators

variable {M V : ℝ}

theorem bounded_is {l : List F64} {i : ℕ} {x : F64} (hd : Bounded M l) (h : l[i]? = some x) : x ⇓ x.val ∧ |x.val| ≤ M := by
  obtain ⟨r, hr, br⟩ := hd x (List.mem_of_getElem? h)
  exact ⟨⟨hr.1, rfl⟩, by rw [hr.2]; exact br⟩

/-- C127: after `i` terms `obv` is within `i (i + 11) / 2` units of the exact total, a unit being `2^-53` of the largest volume. -/
theorem obv_drift (close volume : List F64) (hv : volume.length = close.length) (hn : 1 ≤ close.length) (h24 : close.length ≤ 2 ^ 24)
    (hV : tiny64 ≤ V) (hC : V ≤ 2 ^ 800) (hc : Fins close) (hf : Bounded V volume) (hz : ∀ x ∈ close, x ≠ negz) :
    ReportsP close.length 1 (fun i y => Approx y (∑ j ∈ Finset.Ico 1 (i + 1), obvTerm (vals close) (vals volume) j)
      (i * (i + 11) / 2 * unit64 * V)) (obv close volume) := by
  have hS := Smooth.sized_of hV hC
  refine (obv_aligned close volume hv hn).reportsP fun out ho i y hi hy => ?_
  obtain ⟨r, er, ho⟩ := Option.bind_eq_some_iff.1 ho
  cases ho
  obtain ⟨i, rfl⟩ : ∃ j, i = j + 1 := ⟨i - 1, by omega⟩
  rw [List.getElem?_cons_succ] at hy
  have key := scan_drifts (V := V) (c := 1) (κ := 3) (k := 1) (t := obvTerm (vals close) (vals volume)) (acc := fun s => s)
    (J := fun _ _ => True) hS (by norm_num) (by norm_num) (by norm_num) (by norm_num) ?_ trivial isZero (by simp; omega) er i y hy
  · refine (key.mono hS le_rfl ?_).approx
    push_cast
    linarith
  rintro i s ⟨j, p⟩ s' y hx - e
  rw [List.getElem?_zip_eq_some] at hx
  obtain ⟨hj, hp⟩ := hx
  obtain rfl := range_getElem hj
  obtain ⟨v, ev, e⟩ := Option.bind_eq_some_iff.1 e
  simp only [Option.some.injEq, Prod.mk.injEq] at e
  obtain ⟨rfl, rfl⟩ := e
  refine ⟨trivial, rfl, _, rfl, ?_⟩
  obtain ⟨h1, h2⟩ := pairs_getElem?_some hp
  have s1 := signum_diff (hc _ (List.mem_of_getElem? h2)).is (hc _ (List.mem_of_getElem? h1)).is (.inr (hz _ (List.mem_of_getElem? h2)))
  have nv := near_bar hf ev
  rw [obvTerm, Nat.add_sub_cancel, bar_vals h1, bar_vals h2]
  split at s1
  · rename_i g
    rw [if_pos g, ← neg_one_mul]
    exact (Nearly.smul hS s1 nv (by norm_num) (by norm_num)).mono hS (by norm_num) (by norm_num)
  · rename_i g
    rw [if_neg g, ← one_mul (bar (vals volume) _)]
    exact (Nearly.smul hS s1 nv (by norm_num) (by norm_num)).mono hS (by norm_num) (by norm_num)

theorem Price.is {x : F64} (h : Price x) : x ⇓ x.val := by
  obtain ⟨-, r, h1, -⟩ := h
  exact ⟨h1.1, rfl⟩

theorem tiny64_le_zpow {e : ℕ} (he : e ≤ 1022) : tiny64 ≤ (2 : ℝ) ^ (-(e : ℤ)) := by
  rw [zpow_neg, zpow_natCast, ← inv_pow]
  exact pow_le_pow_of_le_one (by norm_num) (by norm_num) he

/-- C127: after `i` terms `vpt` is within `i (i + 29) / 2` units of the exact total, if no price is more than twice the one before. -/
theorem vpt_drift (data volume : List F64) (hv : volume.length = data.length) (hn : 1 ≤ data.length) (h24 : data.length ≤ 2 ^ 24)
    (hV : (2 : ℝ) ^ (-400 : ℤ) ≤ V) (hC : V ≤ 2 ^ 400) (hc : ∀ x ∈ data, Price x) (hf : Bounded V volume)
    (h2 : ∀ i, bar (vals data) (i + 1) ≤ 2 * bar (vals data) i) :
    ReportsP data.length 1 (fun i y => Approx y (∑ j ∈ Finset.Ico 1 (i + 1), vptTerm (vals data) (vals volume) j)
      (i * (i + 29) / 2 * unit64 * V)) (vpt data volume) := by
  have big : (2 : ℝ) ^ 400 ≤ 2 ^ 800 := pow_le_pow_right₀ (by norm_num) (by norm_num)
  have small : tiny64 ≤ (2 : ℝ) ^ (-400 : ℤ) := tiny64_le_zpow (e := 400) (by norm_num)
  have hS := Smooth.sized_of (small.trans hV) (hC.trans big)
  refine (vpt_aligned data volume hv hn).reportsP fun out ho i y hi hy => ?_
  obtain ⟨vols, er, ho⟩ := Option.bind_eq_some_iff.1 ho
  obtain ⟨-, rfl⟩ := sliceFrom_some er
  cases ho
  obtain ⟨i, rfl⟩ : ∃ j, i = j + 1 := ⟨i - 1, by omega⟩
  rw [List.getElem?_cons_succ] at hy
  have key := scan_drifts (V := V) (c := 1) (κ := 12) (k := 1) (t := vptTerm (vals data) (vals volume)) (acc := fun s => s)
    (J := fun _ _ => True) (f := fun s x => some (_, _)) hS (by norm_num) (by norm_num) (by norm_num) (by norm_num) ?_ trivial isZero
    (by simp; omega) (scanM_some _ _ _) i y hy
  · refine (key.mono hS le_rfl ?_).approx
    push_cast
    linarith
  rintro i s ⟨p, v⟩ s' y hx - e
  rw [List.getElem?_zip_eq_some] at hx
  obtain ⟨hp, hv⟩ := hx
  rw [List.getElem?_drop, add_comm] at hv
  simp only [Option.some.injEq, Prod.mk.injEq] at e
  obtain ⟨rfl, rfl⟩ := e
  refine ⟨trivial, rfl, _, rfl, ?_⟩
  obtain ⟨h1, g2⟩ := pairs_getElem?_some hp
  have p1 := hc _ (List.mem_of_getElem? h1)
  have p2 := hc _ (List.mem_of_getElem? g2)
  have d2 := h2 i
  rw [bar_vals h1, bar_vals g2] at d2
  have sP : Sized p.1.val := Smooth.sized_of (small.trans p1.ge) (p1.plain.le.trans big)
  have sVP : Sized (V * p.1.val) := by
    refine Smooth.sized_of ?_ ((mul_le_mul hC p1.plain.le p1.plain.nonneg (by positivity)).trans (by rw [← pow_add]))
    have := mul_le_mul hV p1.ge (by positivity) hS.nonneg
    rw [← zpow_add₀ (by norm_num), show (-400 : ℤ) + -400 = -(800 : ℕ) by norm_num] at this
    exact (tiny64_le_zpow (by norm_num)).trans this
  have nd : Nearly p.1.val (p.2 - p.1) (p.2.val - p.1.val) 1 3 := by
    refine (Nearly.of_rounds (k := 0) sP (rounds_sub (Price.is p2) (Price.is p1)) (by simp) ?_ (by norm_num) (by norm_num)).mono sP le_rfl (by norm_num)
    have := p2.plain.nonneg
    rw [abs_le]; constructor <;> linarith
  have nv := near_bar hf hv
  have nm := nv.mul hS sP sVP nd (by norm_num) (by norm_num) (by norm_num)
  obtain ⟨r, hr, er⟩ := nm.approx
  have P0 := sP.pos
  rw [vptTerm, Nat.add_sub_cancel, bar_vals h1, bar_vals g2]
  refine (Nearly.of_rounds (k := 9) hS (rounds_div hr (Price.is p1) P0.ne') ?_ ?_ (by norm_num) (by norm_num)).mono hS le_rfl (by norm_num)
  · rw [← sub_div, abs_div, abs_of_pos P0, div_le_iff₀ P0]
    refine er.trans (le_of_eq (by ring))
  · have := nm.bound
    rw [abs_div, abs_of_pos P0, div_le_iff₀ P0]
    linarith

/-- The position of the close in the bar, computed in binary64, is within 17 units in the last place of 1. -/
theorem position_near {h l c : F64} (hh : h.Finite) (hl : l.Finite) (hc : c.Finite) (h1 : l.val ≤ c.val) (h2 : c.val ≤ h.val)
    (hR : Sized (h.val - l.val)) :
    Nearly 1 (((c - l) - (h - c)) / (h - l)) ((c.val - l.val - (h.val - c.val)) / (h.val - l.val)) 1 17 := by
  have H : h ⇓ h.val := ⟨hh, rfl⟩
  have L : l ⇓ l.val := ⟨hl, rfl⟩
  have C : c ⇓ c.val := ⟨hc, rfl⟩
  generalize h.val = a at *
  generalize l.val = b at *
  generalize c.val = d at *
  have R0 := hR.pos
  have n1 : Nearly (a - b) (c - l) (d - b) 1 3 := (Nearly.of_rounds (k := 0) hR (rounds_sub C L) (by simp)
    (by rw [abs_le]; constructor <;> linarith) (by norm_num) (by norm_num)).mono hR le_rfl (by norm_num)
  have n2 : Nearly (a - b) (h - c) (a - d) 1 3 := (Nearly.of_rounds (k := 0) hR (rounds_sub H C) (by simp)
    (by rw [abs_le]; constructor <;> linarith) (by norm_num) (by norm_num)).mono hR le_rfl (by norm_num)
  have n3 : Nearly (a - b) (h - l) (a - b) 1 3 := (Nearly.of_rounds (k := 0) hR (rounds_sub H L) (by simp)
    (by rw [abs_le]; constructor <;> linarith) (by norm_num) (by norm_num)).mono hR le_rfl (by norm_num)
  have n4 := n1.sub hR n2 (by norm_num) (by norm_num)
  obtain ⟨x, hx, ex⟩ := n4.approx
  obtain ⟨y, hy, ey⟩ := n3.approx
  have bnd : |d - b - (a - d)| ≤ a - b := by rw [abs_le]; constructor <;> linarith
  generalize a - b = R at *
  generalize d - b - (a - d) = A at *
  have u0 := accurate64.u0
  have u1 : unit64 ≤ 1 / 1000 := by unfold unit64; norm_num
  have y1 : R * (1 - 3 * unit64) ≤ y := by have := (abs_le.1 ey).1; linarith
  have yp : 0 < y := lt_of_lt_of_le (mul_pos R0 (by linarith)) y1
  refine (Nearly.of_rounds (k := 14) sized_one (rounds_div hx hy yp.ne') ?_ ?_ (by norm_num) (by norm_num)).mono sized_one le_rfl (by norm_num)
  · have e : x / y - A / R = (x - A) / y + A * (R - y) / (y * R) := by
      field_simp
      ring
    rw [e]
    have t1 : |(x - A) / y| ≤ 10 * unit64 * R / y := by
      rw [abs_div, abs_of_pos yp]
      exact div_le_div_of_nonneg_right (ex.trans (le_of_eq (by ring))) yp.le
    have t2 : |A * (R - y) / (y * R)| ≤ 3 * unit64 * R / y := by
      rw [abs_div, abs_of_pos (mul_pos yp R0), abs_mul, div_le_div_iff₀ (mul_pos yp R0) yp, abs_sub_comm]
      have := mul_le_mul bnd ey (abs_nonneg _) R0.le
      nlinarith
    refine (abs_add_le _ _).trans ((add_le_add t1 t2).trans ?_)
    rw [← add_div, div_le_iff₀ yp]
    have q : 0 ≤ unit64 * R * (1 - 42 * unit64) := mul_nonneg (mul_nonneg u0 R0.le) (by linarith)
    have := mul_le_mul_of_nonneg_left y1 u0
    linarith
  · rw [abs_div, abs_of_pos R0, div_le_iff₀ R0]
    linarith

/-- C127: after `m` bars `ad` is within `m (m + 45) / 2` units of the exact total (bars whose close lies between the low and the
high, with a range that is not subnormal). -/
theorem ad_drift (high low close volume : List F64) (hl : low.length = high.length) (hc : close.length = high.length)
    (hv : volume.length = high.length) (hn : 1 ≤ high.length) (h24 : high.length ≤ 2 ^ 24) (hV : tiny64 ≤ V) (hC : V ≤ 2 ^ 800)
    (fh : Fins high) (fl : Fins low) (fc : Fins close) (fv : Bounded V volume)
    (hb : ∀ i < high.length, bar (vals low) i ≤ bar (vals close) i ∧ bar (vals close) i ≤ bar (vals high) i ∧
      tiny64 ≤ bar (vals high) i - bar (vals low) i ∧ bar (vals high) i - bar (vals low) i ≤ 2 ^ 800) :
    ReportsP high.length 0 (fun i y => Approx y
      (∑ j ∈ Finset.Ico 0 (i + 1), adTerm (vals high) (vals low) (vals close) (vals volume) j)
      ((i + 1) * (i + 46) / 2 * unit64 * V)) (ad high low close volume none) := by
  have hS := Smooth.sized_of hV hC
  refine (ad_aligned high low close volume none hl hc hv hn).reportsP fun out ho i y hi hy => ?_
  simp only [ad, Option.getD_none, Bool.not_false, if_true, Option.some.injEq] at ho
  subst ho
  have key := scan_drifts (V := V) (c := 1) (κ := 20) (k := 0) (t := adTerm (vals high) (vals low) (vals close) (vals volume))
    (acc := fun s => s) (J := fun _ _ => True) (f := fun s x => some (_, _)) hS (by norm_num) (by norm_num) (by norm_num) (by norm_num)
    ?_ trivial isZero (by simp; omega) (scanM_some _ _ _) i y hy
  · refine (key.mono hS le_rfl ?_).approx
    linarith
  rintro i s ⟨h, l, c, v⟩ s' y hx - e
  obtain ⟨e1, e2, e3, e4⟩ := zip4_getElem?.1 hx
  simp only [Option.some.injEq, Prod.mk.injEq] at e
  obtain ⟨rfl, rfl⟩ := e
  refine ⟨trivial, rfl, _, rfl, ?_⟩
  obtain ⟨b1, b2, b3, b4⟩ := hb i (List.getElem?_eq_some_iff.1 e1).1
  rw [adTerm, add_zero]
  have nv := near_bar fv e4
  rw [bar_vals e1, bar_vals e2] at b3 b4
  rw [bar_vals e2, bar_vals e3] at b1
  rw [bar_vals e1, bar_vals e3] at b2
  rw [bar_vals e1, bar_vals e2, bar_vals e3]
  have np := position_near (fh _ (List.mem_of_getElem? e1)) (fl _ (List.mem_of_getElem? e2)) (fc _ (List.mem_of_getElem? e3)) b1 b2
    (Smooth.sized_of b3 b4)
  exact (np.mul_one_scale hS nv (by norm_num) (by norm_num) (by norm_num)).mono hS (by norm_num) (by norm_num)

/-- C127: after `i` terms Williams' `ad` is within `i (i + 11)` units of the exact total, a unit being `2^-53` of the largest price
times the largest volume. -/
theorem ad_williams_drift (high low close volume : List F64) (hl : low.length = high.length) (hc : close.length = high.length)
    (hv : volume.length = high.length) (hn : 1 ≤ high.length) (h24 : high.length ≤ 2 ^ 24) (hM : tiny64 ≤ M) (hB : M ≤ 2 ^ 400)
    (hV : tiny64 ≤ V) (hC : V ≤ 2 ^ 400) (hMV : tiny64 ≤ M * V) (fh : Bounded M high) (fl : Bounded M low) (fc : Bounded M close)
    (fv : Bounded V volume) :
    ReportsP high.length 1 (fun i y => Approx y
      (∑ j ∈ Finset.Ico 1 (i + 1), adWilliamsTerm (vals high) (vals low) (vals close) (vals volume) j)
      (i * (i + 11) * unit64 * (M * V))) (ad high low close volume (some true)) := by
  have big : (2 : ℝ) ^ 400 ≤ 2 ^ 800 := pow_le_pow_right₀ (by norm_num) (by norm_num)
  have sM := Smooth.sized_of hM (hB.trans big)
  have sV := Smooth.sized_of hV (hC.trans big)
  have hS : Sized (M * V) := Smooth.sized_of hMV ((mul_le_mul hB hC sV.nonneg (by positivity)).trans (by rw [← pow_add]))
  clear big
  refine (ad_aligned high low close volume (some true) hl hc hv hn).reportsP fun out ho i y hi hy => ?_
  simp only [ad, Option.getD_some, Bool.not_true, Bool.false_eq_true, if_false] at ho
  obtain ⟨bars, eb, ho⟩ := Option.bind_eq_some_iff.1 ho
  obtain rfl := tailBars_some eb
  obtain ⟨c0, ec, ho⟩ := Option.bind_eq_some_iff.1 ho
  cases ho
  obtain ⟨i, rfl⟩ : ∃ j, i = j + 1 := ⟨i - 1, by simp at hi; omega⟩
  rw [List.getElem?_cons_succ] at hy
  have key := scan_drifts (V := M * V) (c := 2) (κ := 8) (k := 1)
    (t := adWilliamsTerm (vals high) (vals low) (vals close) (vals volume))
    (acc := fun s => s.2) (J := fun i s => close[i]? = some s.1) (f := fun s x => some (_, _)) hS (by norm_num) (by norm_num) (by norm_num)
    (by norm_num) ?_ ec isZero (by simp; omega) (scanM_some _ _ _) i y hy
  · refine (key.mono hS le_rfl ?_).approx
    push_cast
    linarith
  rintro i s ⟨h, l, c, v⟩ s' y hx hj e
  rw [tail_getElem?'] at hx
  obtain ⟨e1, e2, e3, e4⟩ := zip4_getElem?.1 hx
  simp only [Option.some.injEq, Prod.mk.injEq] at e
  obtain ⟨rfl, rfl⟩ := e
  refine ⟨e3, rfl, _, rfl, ?_⟩
  have cc := (bounded_is fc e3).1
  have cp := (bounded_is fc hj).1
  have nh := near_bar fh e1
  have nl := near_bar fl e2
  have nc := near_bar fc e3
  have np := near_bar fc hj
  have nv := near_bar fv e4
  rw [adWilliamsTerm, Nat.add_sub_cancel]
  rw [is_lt cp cc]
  rw [bar_vals hj, bar_vals e3] at *
  by_cases g : s.1.val < c.val
  · simp only [g, decide_true, if_true]
    exact (Nearly.mul sM sV hS (nc.sub sM (nl.fmin sM np) (by norm_num) (by norm_num)) nv (by norm_num) (by norm_num) (by norm_num)).mono hS
      (by norm_num) (by norm_num)
  · simp only [g, decide_false, if_false]
    exact (Nearly.mul sM sV hS (nc.sub sM (nh.fmax sM np) (by norm_num) (by norm_num)) nv (by norm_num) (by norm_num) (by norm_num)).mono hS
      (by norm_num) (by norm_num)

/-- `obv_drift` on three bars with volumes up to a million: after two terms the error is at most 13 units. -/
example (a b c u v w : F64) (hp : ∀ x ∈ [a, b, c], x.Finite ∧ x ≠ negz) (hv : ∀ x ∈ [u, v, w], x.Finite ∧ |x.val| ≤ 1000000)
    (h1 : a.val < b.val) (h2 : c.val < b.val) :
    ∃ out y, obv [a, b, c] [u, v, w] = some out ∧ out[2]? = some y ∧ Approx y (v.val - w.val) (13 * unit64 * 1000000) := by
  have t : tiny64 ≤ (1 : ℝ) := pow_le_one₀ (by norm_num) (by norm_num)
  have big : (2 : ℝ) ^ 20 ≤ 2 ^ 800 := pow_le_pow_right₀ (by norm_num) (by norm_num)
  obtain ⟨out, e, -, -, h⟩ := obv_drift (V := 1000000) [a, b, c] [u, v, w] rfl (by simp) (by simp) (t.trans (by norm_num))
    (le_trans (by norm_num) big) (fun x hx => (hp x hx).1) (fun x hx => ⟨x.val, ⟨(hv x hx).1, rfl⟩, (hv x hx).2⟩) (fun x hx => (hp x hx).2)
  obtain ⟨y, ey, hy⟩ := h 2 (by decide) (by simp)
  refine ⟨out, y, e, ey, ?_⟩
  convert hy using 1
  · simp [Finset.sum_Ico_succ_top, obvTerm, bar, vals, not_lt.2 h1.le, h2]
    ring
  · norm_num

/-- `ad_drift` on a bar that closes at its high: it adds the volume, within 23 units. -/
example (h l v : F64) (hh : h.Finite) (hl : l.Finite) (hv : v.Finite) (bv : |v.val| ≤ 1000000) (hr : l.val + 1 ≤ h.val)
    (hr' : h.val ≤ l.val + 1000000) :
    ∃ out y, ad [h] [l] [h] [v] none = some out ∧ out[0]? = some y ∧ Approx y v.val (23 * unit64 * 1000000) := by
  have t : tiny64 ≤ (1 : ℝ) := pow_le_one₀ (by norm_num) (by norm_num)
  have big : (2 : ℝ) ^ 20 ≤ 2 ^ 800 := pow_le_pow_right₀ (by norm_num) (by norm_num)
  have big' : (1000000 : ℝ) ≤ 2 ^ 800 := le_trans (by norm_num) big
  obtain ⟨out, e, -, -, g⟩ := ad_drift (V := 1000000) [h] [l] [h] [v] rfl rfl rfl (by simp) (by simp) (t.trans (by norm_num))
    big' (by simpa [Fins] using hh) (by simpa [Fins] using hl) (by simpa [Fins] using hh)
    (fun x hx => by simp at hx; subst hx; exact ⟨x.val, ⟨hv, rfl⟩, bv⟩)
    (fun i hi => by
      obtain rfl : i = 0 := by simpa using hi
      simp only [bar, vals, List.map_cons, List.map_nil, List.getD_cons_zero]
      exact ⟨by linarith only [hr], le_rfl, t.trans (by linarith only [hr]), le_trans (by linarith only [hr']) big'⟩)
  obtain ⟨y, ey, hy⟩ := g 0 (by decide) (by simp)
  refine ⟨out, y, e, ey, ?_⟩
  convert hy using 1
  · have : h.val - l.val ≠ 0 := by intro e0; linarith only [hr, e0]
    simp [adTerm, bar, vals, this]
  · norm_num

end Traquer.Volume
