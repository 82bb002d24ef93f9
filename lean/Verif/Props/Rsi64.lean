import Verif.Props.Money64
import Verif.Props.Ratio64c
import Verif.Props.Rsi
/-!
# C94: `rsi` is accurate relative to its own size

Gains and losses are never negative, so the two averages keep relative accuracy however much the prices exceed their changes: the
error depends on the number of bars only.
-/

namespace Traquer
open FP FloatLit

/-- A number of the format that is at least `2^-400` is a multiple of `2^-452`. -/
theorem Stored.coarse {x : F64} (hs : Stored x) {a : ℝ} (h : x ⇓ a) (ha : (2 : ℝ) ^ (-400 : ℤ) ≤ a) : ∃ m : ℤ, a = m * 2 ^ (-452 : ℤ) := by
  obtain ⟨h1, -⟩ := hs a h
  have h1' : rnd64 a = a := h1
  have pos : 0 < a := lt_of_lt_of_le (by positivity) ha
  have hl : -400 ≤ Int.log 2 |a| := by
    rw [abs_of_pos pos, ← Int.zpow_le_iff_le_log (by norm_num) pos]
    exact_mod_cast ha
  obtain ⟨n, hn⟩ : ∃ n : ℕ, lastBit a = -452 + n := ⟨(lastBit a + 452).toNat, by unfold lastBit; omega⟩
  refine ⟨roundEven (a / 2 ^ lastBit a) * 2 ^ n, ?_⟩
  conv_lhs => rw [← h1', rnd64]
  generalize roundEven (a / 2 ^ lastBit a) = z
  rw [hn, zpow_add₀ (by norm_num), zpow_natCast]
  push_cast
  ring

/-- The distance of two prices is 0 or at least `2^-452`. -/
theorem Price.apart {x y : F64} (hx : Price x) (hy : Price y) : x.val - y.val ≤ 0 ∨ (2 : ℝ) ^ (-452 : ℤ) ≤ x.val - y.val := by
  obtain ⟨sx, a, h1, h2, -⟩ := hx
  obtain ⟨sy, b, g1, g2, -⟩ := hy
  rw [h1.2, g1.2]
  obtain ⟨m, em⟩ := sx.coarse h1 h2
  obtain ⟨n, en⟩ := sy.coarse g1 g2
  have e : a - b = ((m - n : ℤ) : ℝ) * 2 ^ (-452 : ℤ) := by rw [em, en]; push_cast; ring
  have p : (0 : ℝ) < 2 ^ (-452 : ℤ) := by positivity
  rw [e]
  rcases le_or_gt (m - n) 0 with h | h
  · left
    have : ((m - n : ℤ) : ℝ) ≤ 0 := by exact_mod_cast h
    exact mul_nonpos_of_nonpos_of_nonneg this p.le
  · right
    have : (1 : ℝ) ≤ ((m - n : ℤ) : ℝ) := by exact_mod_cast h
    exact le_mul_of_one_le_left p.le this

/-- 0, or at least `2^-900`. -/
def Visible (a : ℝ) : Prop := a = 0 ∨ (2 : ℝ) ^ (-900 : ℤ) ≤ a

theorem Visible.clear {a : ℝ} (h : Visible a) : Clear64 a := h.elim .inl (clear_of_le (by norm_num))

end Traquer

namespace Traquer.Smooth
open FP FloatLit

/-- Averages of distances that are off by one rounding, in the manner of Wilder. -/
theorem wilder_rel {data : List F64} {r : List ℝ} {w : ℕ} (hr : r.length = data.length) (hw : 1 ≤ w) (h32 : w < 2 ^ 32) (hn : w ≤ data.length)
    (hn32 : data.length ≤ 2 ^ 32) (hd : ∀ (i : ℕ) (x : F64) (a : ℝ), data[i]? = some x → r[i]? = some a → Rel x a 1)
    (hb : ∀ a ∈ r, 0 ≤ a ∧ a ≤ 2 ^ 402 ∧ (a = 0 ∨ (2 : ℝ) ^ (-452 : ℤ) ≤ a)) (hv : ∀ i, w ≤ i + 1 → i < data.length → Visible (wilderOf w r i)) :
    ReportsP data.length (w - 1) (fun i y => Rel y (wilderOf w r i) (3 * i + 3)) (wilder data w) := by
  have W1 : ∀ i, w ≤ i + 1 → i < data.length → 0 ≤ wilderOf w r i ∧ wilderOf w r i ≤ 2 ^ 402 := fun i h1 h2 =>
    wilderOf_within hw h1 (by omega) fun a ha => ⟨(hb a (List.mem_of_mem_take ha)).1, (hb a (List.mem_of_mem_take ha)).2.1⟩
  by_cases h1 : w = 1
  · subst h1
    refine ⟨data, by simp [wilder], rfl, fun i hi => by simp at hi, fun i _ hi => ?_⟩
    have e := getElem?_of_lt hi
    have e2 := getElem?_of_lt (show i < r.length by omega)
    refine ⟨_, e, ?_⟩
    have hW : wilderOf 1 r i = r[i]'(by omega) := by
      cases i with
      | zero =>
        cases r with
        | nil => simp at hr; omega
        | cons x l => simp [wilderOf, mean]
      | succ i => rw [wilderOf, if_neg (by omega), e2]; simp
    show Rel _ (wilderOf 1 r i) _
    rw [hW]
    exact (hd i _ _ e e2).mono (by omega)
  have w2 : 2 ≤ w := by omega
  have wp : (0 : ℝ) < w := natCast_pos hw
  have w32 : (w : ℝ) ≤ 2 ^ 32 := by exact_mod_cast h32.le
  have hk : (0 : ℝ) < ((w - 1 : ℕ) : ℝ) := natCast_pos (by omega)
  have hk1 : ((w - 1 : ℕ) : ℝ) = (w : ℝ) - 1 := by push_cast [Nat.cast_sub hw]; ring
  have fw : ∀ m : ℕ, m < 2 ^ 32 → Rel (flt m : F64) m 0 := fun m hm => by
    have hm53 : m ≤ 2 ^ 53 := by omega
    refine Rel.of_is (isFlt hm53) fun a ha => ?_
    rw [ha.unique (isFlt hm53)]
    exact ⟨Rounding.binary64.nat m hm53, Rounding.binary64.fits_nat m hm53⟩
  -- the seed
  have lr : (r.take (w - 1)).length = w - 1 := by simp; omega
  have m0 : 0 ≤ (r.take (w - 1)).sum := List.sum_nonneg fun a ha => (hb a (List.mem_of_mem_take ha)).1
  have seed : Rel (fsum (data.take (w - 1)) / flt (w - 1)) (mean (r.take (w - 1))) (w + 1) := by
    have s := (rel_sum (v := data.take (w - 1)) (r := r.take (w - 1)) (k := 1) (w := w - 1) (by
      rw [List.forall₂_iff_get]
      refine ⟨by simp [hr], fun i g1 g2 => ?_⟩
      have e1 := getElem?_of_lt (show i < data.length by simp at g1; omega)
      have e2 := getElem?_of_lt (show i < r.length by simp at g2; omega)
      simp only [List.get_eq_getElem, List.getElem_take]
      have := hb _ (List.mem_of_getElem? e2)
      exact ⟨hd i _ _ e1 e2, this.1, this.2.1.trans (pow_le_pow_right₀ (by norm_num) (by norm_num))⟩) (by simp; omega) (by omega)).1
    have le : (r.take (w - 1)).sum ≤ ((w - 1 : ℕ) : ℝ) * 2 ^ 402 := by
      have := Volume.sum_le_of (l := r.take (w - 1)) (f := id) (B := 2 ^ 402) fun a ha => (hb a (List.mem_of_mem_take ha)).2.1
      rwa [List.map_id, lr] at this
    have := Rel.quot s (fw (w - 1) (by omega)) hk.ne' (units_ok (by omega)) ?_ (fits_of_le (e := 402) (by norm_num) ?_)
    · rw [mean, lr]
      exact this.mono (by omega)
    · by_cases hz : ∀ a ∈ r.take (w - 1), a = 0
      · left
        rw [List.sum_eq_zero hz, zero_div]
      · push Not at hz
        obtain ⟨a, ha, hne⟩ := hz
        have g := (hb a (List.mem_of_mem_take ha)).2.2.resolve_left hne
        have l1 := List.single_le_sum (fun x hx => (hb x (List.mem_of_mem_take hx)).1) a ha
        refine clear_of_le (e := -900) (by norm_num) ?_
        rw [le_div_iff₀ hk]
        refine le_trans ?_ (g.trans l1)
        have : ((w - 1 : ℕ) : ℝ) ≤ 2 ^ (32 : ℤ) := by
          have : w - 1 ≤ 2 ^ 32 := by omega
          exact_mod_cast this
        refine (mul_le_mul_of_nonneg_left this (by positivity)).trans ?_
        rw [← zpow_add₀ (by norm_num)]
        exact zpow_le_zpow_right₀ (by norm_num) (by norm_num)
    · rw [abs_of_nonneg (div_nonneg m0 hk.le), div_le_iff₀ hk, mul_comm]
      exact le
  have mle : mean (r.take (w - 1)) ≤ 2 ^ 402 := (within_mean (lo := 0) (fun a ha => ⟨(hb a (List.mem_of_mem_take ha)).1, (hb a (List.mem_of_mem_take ha)).2.1⟩)
    (by rw [← List.length_pos_iff, lr]; omega)).2
  -- one step
  have step : ∀ {s x : F64} {u a : ℝ} {k : ℕ}, Rel s u k → Rel x a 1 → 0 ≤ u → u ≤ 2 ^ 402 → 0 ≤ a → a ≤ 2 ^ 402 → 1 ≤ k → k ≤ 2 ^ 36 →
      Visible ((u * (w - 1) + a) / w) → Rel ((s * flt (w - 1) + x) / flt w) ((u * (w - 1) + a) / w) (k + 3) := by
    intro s x u a k hs hx u0 u1 a0 a1 k1 k2 hvis
    have big : u * ((w - 1 : ℕ) : ℝ) + a ≤ 2 ^ 434 + 2 ^ 402 := by
      refine add_le_add ?_ a1
      rw [show (2 : ℝ) ^ 434 = 2 ^ 402 * 2 ^ 32 by rw [← pow_add]]
      exact mul_le_mul u1 (by linarith) hk.le (by positivity)
    have big' : (2 : ℝ) ^ 434 + 2 ^ 402 ≤ 2 ^ 435 := by
      rw [show (2 : ℝ) ^ 435 = 2 ^ 434 + 2 ^ 434 by rw [pow_succ]; ring]
      exact add_le_add_right (pow_le_pow_right₀ (by norm_num) (by norm_num)) _
    have b435 := big.trans big'
    clear big big'
    have n1 : 0 ≤ u * ((w - 1 : ℕ) : ℝ) := mul_nonneg u0 hk.le
    have f2 : 2 * (u * ((w - 1 : ℕ) : ℝ) + a) ≤ max64 := by
      have := fits_of_le (a := u * ((w - 1 : ℕ) : ℝ) + a) (e := 435) (by norm_num) ((abs_of_nonneg (add_nonneg n1 a0)).le.trans b435)
      rwa [abs_of_nonneg (add_nonneg n1 a0)] at this
    have p1 : Rel (s * flt (w - 1)) (u * ((w - 1 : ℕ) : ℝ)) (k + 1) := Rel.mul_nat hs (isFlt (by omega)) (units_ok (by omega)) (by
      rw [abs_of_nonneg u0, mul_comm ((w - 1 : ℕ) : ℝ)]
      refine le_trans ?_ f2
      generalize u * ((w - 1 : ℕ) : ℝ) = z
      linarith)
    have p2 := Rel.add p1 (hx.mono (by omega)) n1 a0 (units_ok (by omega)) f2
    rw [hk1] at p2 n1 b435
    have := Rel.quot p2 (fw w h32) wp.ne' (units_ok (by omega)) hvis.clear (fits_of_le (e := 435) (by norm_num) (by
      rw [abs_of_nonneg (div_nonneg (add_nonneg n1 a0) wp.le), div_le_iff₀ wp]
      refine b435.trans (le_mul_of_one_le_right (by positivity) ?_)
      exact_mod_cast hw))
    exact this.mono (by omega)
  rw [wilder, if_neg h1]
  run_model [usub_of_le]
  refine reportsP_front (by simp; omega) fun i y hy => ?_
  have first : ∀ a, r[w - 1]? = some a → wilderOf w r (w - 1) = (mean (r.take (w - 1)) * (w - 1) + a) / w := by
    intro a ha
    obtain ⟨k, rfl⟩ : ∃ k, w = k + 2 := ⟨w - 2, by omega⟩
    simp only [show k + 2 - 1 = k + 1 by omega] at *
    rw [wilderOf, if_pos (by omega), mean, mean, List.take_add_one (i := k + 1), ha, lr]
    have hl : ((k : ℝ) + 1) ≠ 0 := by positivity
    simp only [Option.toList_some, List.sum_append, List.sum_singleton, List.length_append, List.length_singleton, lr]
    push_cast
    rw [show ((k : ℝ) + 1 + 1) = k + 2 by ring, show ((k : ℝ) + 2 - 1) = k + 1 by ring]
    field_simp
  refine scan_idx (I := fun i s => (i = 0 ∧ Rel s (mean (r.take (w - 1))) (w + 1)) ∨ (∃ j, i = j + 1 ∧ Rel s (wilderOf w r (w - 1 + j)) (w + 4 + 3 * j)))
    (P := fun i y => Rel y (wilderOf w r (w - 1 + i)) (3 * (w - 1 + i) + 3)) ?_ (.inl ⟨rfl, seed⟩) i y hy
  intro i s x hx hs
  rw [List.getElem?_drop] at hx
  have hi := (List.getElem?_eq_some_iff.1 hx).1
  have e2 := getElem?_of_lt (show w - 1 + i < r.length by omega)
  have bx := hb _ (List.mem_of_getElem? e2)
  have dx := hd _ _ _ hx e2
  have vis := hv (w - 1 + i) (by omega) hi
  generalize r[w - 1 + i]'(by omega) = a at *
  suffices h : Rel ((s * flt (w - 1) + x) / flt w) (wilderOf w r (w - 1 + i)) (w + 4 + 3 * i) from
    ⟨.inr ⟨i, rfl, h⟩, h.mono (by omega)⟩
  rcases hs with ⟨rfl, hs⟩ | ⟨j, rfl, hs⟩
  · have f := first a (by simpa using e2)
    rw [Nat.add_zero] at vis ⊢
    rw [f] at vis ⊢
    exact (step hs dx (by rw [mean]; exact div_nonneg m0 (Nat.cast_nonneg _)) mle bx.1 bx.2.1 (by omega) (by omega) vis).mono (by omega)
  · have f : wilderOf w r (w - 1 + (j + 1)) = (wilderOf w r (w - 1 + j) * (w - 1) + a) / w := by
      rw [← Nat.add_assoc, wilderOf, if_neg (by omega), Nat.add_assoc, e2]
      rfl
    rw [f] at vis ⊢
    obtain ⟨z0, z1⟩ := W1 (w - 1 + j) (by omega) (by omega)
    exact (step hs dx z0 z1 bx.1 bx.2.1 (by omega) (by omega) vis).mono (by omega)

end Traquer.Smooth

namespace Traquer.Momentum
open FP FloatLit

/-- Rise from one price to another. -/
theorem rise_rel {x y : F64} (hx : Price x) (hy : Price y) :
    Rel (fmax 0 (y - x)) (max 0 (y.val - x.val)) 1 ∧ Rel (fabs (fmin 0 (x - y))) (max 0 (y.val - x.val)) 1 ∧
      max 0 (y.val - x.val) ≤ 2 ^ 402 ∧ (max 0 (y.val - x.val) = 0 ∨ (2 : ℝ) ^ (-452 : ℤ) ≤ max 0 (y.val - x.val)) := by
  have x0 := hx.plain.nonneg
  have y0 := hy.plain.nonneg
  have x1 := hx.plain.le
  have y1 := hy.plain.le
  have ap := hy.apart hx
  have p1 : y.val - x.val ≤ 2 ^ 402 := (sub_le_self _ x0).trans (y1.trans (pow_le_pow_right₀ (by norm_num) (by norm_num)))
  have p2 : x.val - y.val ≤ 2 ^ 402 := (sub_le_self _ y0).trans (x1.trans (pow_le_pow_right₀ (by norm_num) (by norm_num)))
  have fit : |y.val - x.val| ≤ max64 := by
    have := fits_of_le (a := y.val - x.val) (e := 402) (by norm_num) (abs_le.2 ⟨by linarith only [p2], p1⟩)
    linarith only [this, abs_nonneg (y.val - x.val)]
  obtain ⟨sx, a, ha, -⟩ := hx
  obtain ⟨sy, b, hb, -⟩ := hy
  rw [ha.2, hb.2] at *
  have d1 : Rel (y - x) (b - a) 1 := rel_sub_is hb ha sy sx fit
  have d2 : Rel (x - y) (a - b) 1 := rel_sub_is ha hb sx sy (by rwa [abs_sub_comm])
  have z : Rel (0 : F64) 0 1 := relZero.mono (by norm_num)
  obtain ⟨t, h1, t1, t2, s1⟩ := d1
  obtain ⟨t', h2, t1', t2', s2⟩ := d2
  have tp : 0 < t := lt_of_lt_of_le (inv_pos.2 (off_pos 1)) t1
  have tp' : 0 < t' := lt_of_lt_of_le (inv_pos.2 (off_pos 1)) t1'
  refine ⟨?_, ?_, max_le (by positivity) p1, ?_⟩
  · refine ⟨t, (is_fmax isZero h1).congr ?_, t1, t2, stored_fmax stored_zero s1⟩
    rw [max_mul_of_nonneg _ _ tp.le, zero_mul]
  · refine ⟨t', (is_abs (is_fmin isZero h2)).congr ?_, t1', t2', ?_⟩
    · rw [max_mul_of_nonneg _ _ tp'.le, zero_mul, abs_of_nonpos (min_le_left _ _), show (b - a) * t' = -((a - b) * t') by ring]
      rw [← neg_zero, max_neg_neg, neg_zero]
    · refine stored_abs fun r hr => ?_
      rcases min_choice 0 ((a - b) * t') with e | e
      · rw [hr.unique ((is_fmin isZero h2).congr e)]
        exact stored_zero (ρ := Rounding.binary64) 0 isZero
      · rw [hr.unique ((is_fmin isZero h2).congr e)]
        exact s2 _ h2
  · rcases ap with h | h
    · exact .inl (max_eq_left h)
    · exact .inr (h.trans (le_max_right _ _))

/-- C94: `rsi` at bar `i` is within `12 i + 6` units of its exact value `R`, relative to `R` itself, plus half the smallest positive number. The
prices lie between `2^-400` and `2^400`; the averages of gains and losses must not decay below `2^-900`. -/
theorem rsi_accurate (data : List F64) (w : ℕ) (hw : 1 ≤ w) (h32 : w < 2 ^ 32) (hn : w + 1 ≤ data.length) (hn32 : data.length ≤ 2 ^ 32)
    (hd : ∀ x ∈ data, Price x) (hu : ∀ i, w ≤ i + 1 → i + 1 < data.length → Visible (wilderOf w (rises (vals data)) i))
    (hl : ∀ i, w ≤ i + 1 → i + 1 < data.length → Visible (wilderOf w (falls (vals data)) i)) :
    ReportsP data.length w (fun i y =>
      let up := wilderOf w (rises (vals data)) (i - 1)
      let down := wilderOf w (falls (vals data)) (i - 1)
      up + down ≠ 0 → Approx y (100 * up / (up + down)) ((12 * i + 6) * unit64 * (100 * up / (up + down)) + 2⁻¹ ^ 1075)) (rsi data w) := by
  have lg : (gains data).length = data.length - 1 := by simp [gains]
  have ll : (losses data).length = data.length - 1 := by simp [losses]
  have ev : pairs (vals data) = (pairs data).map fun p => (p.1.val, p.2.val) := Smooth.pairs_vals data
  have pm : ∀ p ∈ pairs data, Price p.1 ∧ Price p.2 := fun p hp => by
    obtain ⟨j, hj⟩ := List.mem_iff_getElem?.1 hp
    obtain ⟨c1, c2⟩ := pairs_getElem?_some hj
    exact ⟨hd _ (List.mem_of_getElem? c1), hd _ (List.mem_of_getElem? c2)⟩
  have G := Smooth.wilder_rel (data := gains data) (r := rises (vals data)) (w := w) (by simp [rises, lg]) hw h32 (by omega) (by omega) (by
      intro i x a hx ha
      rw [gains, List.getElem?_map, Option.map_eq_some_iff] at hx
      rw [rises, ev, List.map_map, List.getElem?_map, Option.map_eq_some_iff] at ha
      obtain ⟨p, hp, rfl⟩ := hx
      obtain ⟨q, hq, rfl⟩ := ha
      cases hp.symm.trans hq
      exact (rise_rel (pm p (List.mem_of_getElem? hp)).1 (pm p (List.mem_of_getElem? hp)).2).1) (by
      intro a ha
      rw [rises, ev, List.map_map] at ha
      obtain ⟨p, hp, rfl⟩ := List.mem_map.1 ha
      have := (rise_rel (pm p hp).1 (pm p hp).2).2.2
      exact ⟨le_max_left _ _, this⟩) (fun i h1 h2 => hu i h1 (by omega))
  have L := Smooth.wilder_rel (data := losses data) (r := falls (vals data)) (w := w) (by simp [falls, ll]) hw h32 (by omega) (by omega) (by
      intro i x a hx ha
      rw [losses, List.getElem?_map, Option.map_eq_some_iff] at hx
      rw [falls, ev, List.map_map, List.getElem?_map, Option.map_eq_some_iff] at ha
      obtain ⟨p, hp, rfl⟩ := hx
      obtain ⟨q, hq, rfl⟩ := ha
      cases hp.symm.trans hq
      exact (rise_rel (pm p (List.mem_of_getElem? hp)).2 (pm p (List.mem_of_getElem? hp)).1).2.1) (by
      intro a ha
      rw [falls, ev, List.map_map] at ha
      obtain ⟨p, hp, rfl⟩ := List.mem_map.1 ha
      have := (rise_rel (pm p hp).2 (pm p hp).1).2.2
      exact ⟨le_max_left _ _, this⟩) (fun i h1 h2 => hl i h1 (by omega))
  refine (rsi_aligned data w hw (by omega)).reportsP fun out ho i y hi hy => ?_
  obtain ⟨g, eg, g1, -, g3⟩ := G
  obtain ⟨l, el, l1, -, l3⟩ := L
  rw [rsi, eg, el] at ho
  simp only [Option.bind_eq_bind, Option.bind_some] at ho
  cases ho
  obtain ⟨i, rfl⟩ : ∃ j, i = j + 1 := ⟨i - 1, by omega⟩
  rw [List.getElem?_cons_succ, List.getElem?_map, Option.map_eq_some_iff] at hy
  obtain ⟨⟨a, b⟩, hab, rfl⟩ := hy
  rw [List.getElem?_zip_eq_some] at hab
  have hi2 := (List.getElem?_eq_some_iff.1 hab.1).1
  obtain ⟨a', ea, ra⟩ := g3 i (by omega) (by omega)
  obtain ⟨b', eb, rb⟩ := l3 i (by omega) (by omega)
  cases ea.symm.trans hab.1
  cases eb.symm.trans hab.2
  simp only [Nat.add_sub_cancel]
  intro hne
  have W1 : ∀ r : List ℝ, r.length = data.length - 1 → (∀ x ∈ r, 0 ≤ x ∧ x ≤ 2 ^ 402) → 0 ≤ wilderOf w r i ∧ wilderOf w r i ≤ 2 ^ 402 := fun r e h =>
    wilderOf_within hw (by omega) (by omega) fun x hx => h x (List.mem_of_mem_take hx)
  obtain ⟨u0, u1⟩ := W1 (rises (vals data)) (by simp [rises]) (by
    intro a ha
    rw [rises, ev, List.map_map] at ha
    obtain ⟨p, hp, rfl⟩ := List.mem_map.1 ha
    exact ⟨le_max_left _ _, (rise_rel (pm p hp).1 (pm p hp).2).2.2.1⟩)
  obtain ⟨d0, d1⟩ := W1 (falls (vals data)) (by simp [falls]) (by
    intro a ha
    rw [falls, ev, List.map_map] at ha
    obtain ⟨p, hp, rfl⟩ := List.mem_map.1 ha
    exact ⟨le_max_left _ _, (rise_rel (pm p hp).2 (pm p hp).1).2.2.1⟩)
  generalize wilderOf w (rises (vals data)) i = U at *
  generalize wilderOf w (falls (vals data)) i = D at *
  have pos : 0 < U + D := lt_of_le_of_ne (by linarith only [u0, d0]) (Ne.symm hne)
  have s403 : U + D ≤ 2 ^ 403 := by
    rw [show (2 : ℝ) ^ 403 = 2 ^ 402 + 2 ^ 402 by rw [pow_succ]; ring]
    exact add_le_add u1 d1
  have den : Rel (a + b) (U + D) (3 * i + 3 + 1) := Rel.add ra rb u0 d0 (units_ok (by omega)) (by
    have := fits_of_le (a := U + D) (e := 403) (by norm_num) (by rw [abs_of_pos pos]; exact s403)
    rwa [abs_of_pos pos] at this)
  have num : Rel (100 * a) (100 * U) (3 * i + 3 + 1) := Rel.nat_mul (n := 100) ra (isLit 100 (by norm_num)) (units_ok (by omega)) (by
    refine room_hundred ?_
    rw [abs_of_nonneg u0]
    exact u1.trans (pow_le_pow_right₀ (by norm_num) (by norm_num)))
  have q0 : 0 ≤ 100 * U / (U + D) := div_nonneg (by linarith only [u0]) pos.le
  have := Rel.ratio num den hne (by
    rw [abs_of_nonneg q0, div_le_iff₀ pos]
    have : 100 * U ≤ 100 * (U + D) := by linarith only [d0]
    refine this.trans (mul_le_mul_of_nonneg_right ?_ pos.le)
    calc (100 : ℝ) ≤ 2 ^ 7 := by norm_num
      _ ≤ _ := pow_le_pow_right₀ (by norm_num) (by norm_num)) (by omega)
  rw [abs_of_nonneg q0] at this
  refine this.mono (le_of_eq ?_)
  push_cast
  ring

end Traquer.Momentum
