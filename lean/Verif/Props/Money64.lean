import Verif.Lemmas.RelativeMul
import Verif.Props.Vwap
import Verif.Props.Accumulate
/-!
# C94: volume weighted prices and volume indices are accurate relative to their own size

Prices are doubles between `2^-400` and `2^400`, volumes are 0 or in the same range. All terms have one sign, so nothing cancels and the
relative error is a small multiple of the number of bars that enter the value, whatever the prices and volumes are.
-/

namespace Traquer.Volume
open FP FloatLit

/-- `y` is `a` to a relative error of `k` units of rounding. -/
def WithinUnits (k a : ℝ) (y : F64) : Prop := Approx y a (k * unit64 * |a|)

theorem Rel.withinUnits {y : F64} {a : ℝ} {k : ℕ} (h : Rel y a k) (hk : k ≤ 2 ^ 40) : WithinUnits (2 * k) a y := h.approx (units_ok hk)

theorem money_clear {x v : F64} (hx : Price x) (hv : Plain v) : Clear64 (x.val * v.val) ∧ x.val * v.val ≤ 2 ^ 800 := by
  constructor
  · rcases hv.clear with e | h
    · exact .inl (by rw [e, mul_zero])
    · refine clear_of_le (e := -800) (by norm_num) ?_
      have := mul_le_mul hx.ge h (by positivity) (hx.plain.nonneg)
      rwa [← zpow_add₀ (by norm_num), show (-400 : ℤ) + -400 = -800 by norm_num] at this
  · have := mul_le_mul hx.plain.le hv.le hv.nonneg (by positivity)
    rwa [← pow_add] at this

theorem money_rel {x v : F64} (hx : Price x) (hv : Plain v) : Rel (x * v) (x.val * v.val) 1 := by
  obtain ⟨h1, h2⟩ := money_clear hx hv
  exact Rel.mul hx.plain.rel hv.rel (by simp) h1
    (fits_of_le (e := 800) (by norm_num) (by rwa [abs_of_nonneg (mul_nonneg hx.plain.nonneg hv.nonneg)]))

theorem sum_le_of {α : Type} {l : List α} {f : α → ℝ} {B : ℝ} (h : ∀ a ∈ l, f a ≤ B) : (l.map f).sum ≤ l.length * B := by
  have := List.sum_le_card_nsmul (l.map f) B (by simpa using h)
  simpa using this

theorem scaled_sum_le {α : Type} {l : List α} {f g : α → ℝ} {c : ℝ} (h : ∀ a ∈ l, c * f a ≤ g a) : c * (l.map f).sum ≤ (l.map g).sum := by
  rw [← List.sum_map_mul_left]
  exact List.sum_le_sum h

/-- The mean of numbers between `lo` and `hi` with weights that are not negative lies between them. -/
theorem weighted_between {α : Type} {l : List α} {x v : α → ℝ} {lo hi : ℝ} (hv : ∀ a ∈ l, 0 ≤ v a) (hx : ∀ a ∈ l, lo ≤ x a ∧ x a ≤ hi)
    (hs : 0 < (l.map v).sum) : lo ≤ (l.map fun a => x a * v a).sum / (l.map v).sum ∧ (l.map fun a => x a * v a).sum / (l.map v).sum ≤ hi := by
  rw [le_div_iff₀ hs, div_le_iff₀ hs]
  refine ⟨scaled_sum_le fun a ha => mul_le_mul_of_nonneg_right (hx a ha).1 (hv a ha), ?_⟩
  rw [← List.sum_map_mul_left]
  exact List.sum_le_sum fun a ha => mul_le_mul_of_nonneg_right (hx a ha).2 (hv a ha)

/-- C94: `vwma` is within `4 w + 4` units of the volume weighted mean of the last `w` prices. -/
theorem vwma_accurate (data volume : List F64) (w : ℕ) (hv : volume.length = data.length) (hw : 1 ≤ w) (h32 : w < 2 ^ 32)
    (hn : w ≤ data.length + 1) (hd : ∀ x ∈ data, Price x) (hf : ∀ x ∈ volume, Plain x) :
    ReportsP data.length (w - 1) (fun i y =>
      let money := (((recent (vals data) w i).zip (recent (vals volume) w i)).map fun p => p.1 * p.2).sum
      let shares := (recent (vals volume) w i).sum
      0 < shares → WithinUnits (4 * w + 4) (money / shares) y) (vwma data volume w) := by
  run_model [vwma]
  refine reportsP_windows2 hw hv hn fun i g1 g2 => ?_
  have l1 : (recent data w i).length = w := recent_length g1 g2
  have l2 : (recent volume w i).length = w := recent_length g1 (by omega)
  intro hpos
  rw [← recent_vals] at hpos ⊢
  rw [← recent_vals]
  have m1 : ∀ x ∈ recent data w i, Price x := fun x hx => hd x (List.mem_of_mem_drop (List.mem_of_mem_take hx))
  have m2 : ∀ x ∈ recent volume w i, Plain x := fun x hx => hf x (List.mem_of_mem_drop (List.mem_of_mem_take hx))
  generalize recent data w i = d at *
  generalize recent volume w i = v at *
  have w32 : (w : ℝ) ≤ 2 ^ 32 := by exact_mod_cast h32.le
  have ez : (vals d).zip (vals v) = (d.zip v).map fun p => (p.1.val, p.2.val) := by
    rw [vals, vals, List.zip_map]; rfl
  have es : (vals v).sum = ((d.zip v).map fun p => p.2.val).sum := by
    have : v = (d.zip v).map Prod.snd := (List.map_snd_zip (by omega)).symm
    rw [vals]
    conv_lhs => rw [this]
    rw [List.map_map]
    rfl
  have lz : (d.zip v).length = w := by simp [l1, l2]
  rw [ez, List.map_map]
  rw [es] at hpos ⊢
  have num : Rel ((d.zip v).foldl (fun acc (p : F64 × F64) => acc + p.1 * p.2) 0) ((d.zip v).map ((fun p => p.1 * p.2) ∘ fun p : F64 × F64 => (p.1.val, p.2.val))).sum (1 + w) := by
    have := rel_fsum (k := 1) (v := (d.zip v).map fun p => p.1 * p.2) (r := (d.zip v).map fun p => p.1.val * p.2.val) (by
      rw [List.forall₂_map_left_iff, List.forall₂_map_right_iff]
      exact List.forall₂_same.2 fun p hp => ⟨money_rel (m1 _ (List.of_mem_zip hp).1) (m2 _ (List.of_mem_zip hp).2),
        mul_nonneg (m1 _ (List.of_mem_zip hp).1).plain.nonneg (m2 _ (List.of_mem_zip hp).2).nonneg⟩) (units_ok (by simp [lz]; omega)) (by
      have b := sum_le_of (l := d.zip v) (f := fun p => p.1.val * p.2.val) (B := 2 ^ 800) fun p hp =>
        (money_clear (m1 _ (List.of_mem_zip hp).1) (m2 _ (List.of_mem_zip hp).2)).2
      rw [lz] at b
      have b' : (w : ℝ) * 2 ^ 800 ≤ 2 ^ 832 := by
        rw [show (2 : ℝ) ^ 832 = 2 ^ 32 * 2 ^ 800 by rw [← pow_add]]
        exact mul_le_mul_of_nonneg_right w32 (by positivity)
      refine le_trans (mul_le_mul_of_nonneg_left (le_abs_self _) (by norm_num)) (fits_of_le (e := 832) (by norm_num) ?_)
      rw [abs_of_nonneg]
      · exact b.trans b'
      · exact List.sum_nonneg fun x hx => by
          obtain ⟨p, hp, rfl⟩ := List.mem_map.1 hx
          exact mul_nonneg (m1 _ (List.of_mem_zip hp).1).plain.nonneg (m2 _ (List.of_mem_zip hp).2).nonneg)
    rw [Traquer.fsum, List.foldl_map, List.length_map, lz] at this
    exact this
  have den : Rel (fsum v) ((d.zip v).map fun p => p.2.val).sum w := by
    rw [← es]
    have := rel_fsum (k := 0) (v := v) (r := vals v) (by
      rw [vals, List.forall₂_map_right_iff]
      exact List.forall₂_same.2 fun x hx => ⟨(m2 x hx).rel, (m2 x hx).nonneg⟩) (units_ok (by omega)) (by
      have b := sum_le_of (l := v) (f := val) (B := 2 ^ 400) fun x hx => (m2 x hx).le
      rw [l2] at b
      have b' : (w : ℝ) * 2 ^ 400 ≤ 2 ^ 432 := by
        rw [show (2 : ℝ) ^ 432 = 2 ^ 32 * 2 ^ 400 by rw [← pow_add]]
        exact mul_le_mul_of_nonneg_right w32 (by positivity)
      refine le_trans (mul_le_mul_of_nonneg_left (le_abs_self _) (by norm_num)) (fits_of_le (e := 432) (by norm_num) ?_)
      rw [abs_of_nonneg]
      · exact b.trans b'
      · exact List.sum_nonneg fun x hx => by obtain ⟨p, hp, rfl⟩ := List.mem_map.1 hx; exact (m2 p hp).nonneg)
    rwa [l2, Nat.zero_add] at this
  obtain ⟨q1, q2⟩ := weighted_between (l := d.zip v) (x := fun p => p.1.val) (v := fun p => p.2.val) (lo := 2 ^ (-400 : ℤ)) (hi := 2 ^ 400)
    (fun p hp => (m2 _ (List.of_mem_zip hp).2).nonneg) (fun p hp => ⟨(m1 _ (List.of_mem_zip hp).1).ge, (m1 _ (List.of_mem_zip hp).1).plain.le⟩) hpos
  have := Rel.quot num den hpos.ne' (units_ok (by omega)) (clear_of_le (e := -400) (by norm_num) q1)
    (fits_of_le (e := 400) (by norm_num) ((abs_of_nonneg (le_trans (by positivity) q1)).le.trans q2))
  have := Rel.withinUnits this (by omega)
  push_cast at this
  rwa [show (2 * (1 + (w : ℝ) + w + 1)) = 4 * w + 4 by ring] at this

/-- The values of `pvi` and `nvi` in binary64: each bar that counts adds two roundings. -/
theorem index_accurate {data volume : List F64} {up : F64 → F64 → Bool} {fac : ℕ → ℝ} (hd : ∀ x ∈ data, Price x) (hn : data.length ≤ 2 ^ 32)
    (hup : ∀ i v v', volume[i]? = some v → volume[i + 1]? = some v' →
      fac (i + 1) = if up v v' then bar (vals data) (i + 1) / bar (vals data) i else 1)
    (hr : ∀ i < data.length, (2 : ℝ) ^ (-900 : ℤ) ≤ 100 * ∏ j ∈ Finset.Ico 1 (i + 1), fac j ∧ 100 * ∏ j ∈ Finset.Ico 1 (i + 1), fac j ≤ 2 ^ 900)
    {i : ℕ} {y : F64}
    (hy : (scanS (fun (s : F64) ((c, vol) : (F64 × F64) × (F64 × F64)) => if up vol.1 vol.2 then s * (c.2 / c.1) else s) 100
      ((pairs data).zip (pairs volume)))[i]? = some y) : Rel y (100 * ∏ j ∈ Finset.Ico 1 (i + 2), fac j) (2 * (i + 1)) := by
  have h100 : Rel (100 : F64) 100 0 := relLit 100 (by norm_num)
  refine scan_idx (I := fun i s => Rel s (100 * ∏ j ∈ Finset.Ico 1 (i + 1), fac j) (2 * i))
    (P := fun i y => Rel y (100 * ∏ j ∈ Finset.Ico 1 (i + 2), fac j) (2 * (i + 1))) ?_ (by simpa using h100) i y hy
  rintro i s ⟨c, v⟩ hx hs
  rw [List.getElem?_zip_eq_some] at hx
  obtain ⟨c1, c2⟩ := pairs_getElem?_some hx.1
  obtain ⟨v1, v2⟩ := pairs_getElem?_some hx.2
  have hi := (List.getElem?_eq_some_iff.1 c2).1
  have hf := hup i v.1 v.2 v1 v2
  obtain ⟨r1, r2⟩ := hr (i + 1) hi
  rw [Finset.prod_Ico_succ_top (by omega), ← mul_assoc] at r1 r2 ⊢
  suffices h : Rel (if up v.1 v.2 then s * (c.2 / c.1) else s) (100 * (∏ j ∈ Finset.Ico 1 (i + 1), fac j) * fac (i + 1)) (2 * (i + 1)) from ⟨h, h⟩
  by_cases hu : up v.1 v.2 = true
  · rw [if_pos hu] at hf ⊢
    have p1 := hd _ (List.mem_of_getElem? c1)
    have p2 := hd _ (List.mem_of_getElem? c2)
    rw [hf, bar_vals c1, bar_vals c2] at r1 r2 ⊢
    have pos : 0 < c.1.val := lt_of_lt_of_le (by positivity) p1.ge
    have pos2 : 0 < c.2.val := lt_of_lt_of_le (by positivity) p2.ge
    have q : Rel (c.2 / c.1) (c.2.val / c.1.val) 1 := by
      refine Rel.quot p2.plain.rel p1.plain.rel pos.ne' (by simp) (clear_of_le (e := -800) (by norm_num) ?_)
        (fits_of_le (e := 800) (by norm_num) ?_)
      · rw [le_div_iff₀ pos]
        refine le_trans ?_ p2.ge
        have := mul_le_mul_of_nonneg_left p1.plain.le (show (0 : ℝ) ≤ 2 ^ (-800 : ℤ) by positivity)
        refine this.trans (le_of_eq ?_)
        rw [← zpow_natCast, ← zpow_add₀ (by norm_num)]
        norm_num
      · rw [abs_of_pos (div_pos pos2 pos), div_le_iff₀ pos]
        refine p2.plain.le.trans ?_
        have := mul_le_mul_of_nonneg_left p1.ge (show (0 : ℝ) ≤ 2 ^ 800 by positivity)
        refine le_trans (le_of_eq ?_) this
        rw [← zpow_natCast, ← zpow_natCast, ← zpow_add₀ (by norm_num)]
        norm_num
    refine (Rel.mul hs q (units_ok (by omega)) (clear_of_le (e := -900) (by norm_num) r1)
      (fits_of_le (e := 900) (by norm_num) ?_)).mono (by omega)
    rw [abs_of_nonneg (le_trans (by positivity) r1)]
    exact r2
  · rw [if_neg hu] at hf ⊢
    rw [hf, mul_one]
    exact hs.mono (by omega)

/-- C94: `pvi` after `i` bars is within `4 i` units of 100 times the price changes of the bars whose volume rose, as long as the index stays
between `2^-900` and `2^900`. -/
theorem pvi_accurate (data volume : List F64) (hv : volume.length = data.length) (hn : 1 ≤ data.length) (h32 : data.length ≤ 2 ^ 32)
    (hd : ∀ x ∈ data, Price x) (hf : Fins volume)
    (hr : ∀ i < data.length, (2 : ℝ) ^ (-900 : ℤ) ≤ 100 * ∏ j ∈ Finset.Ico 1 (i + 1), pviFactor (vals data) (vals volume) j ∧
      100 * ∏ j ∈ Finset.Ico 1 (i + 1), pviFactor (vals data) (vals volume) j ≤ 2 ^ 900) :
    ReportsP data.length 1 (fun i => WithinUnits (4 * i) (100 * ∏ j ∈ Finset.Ico 1 (i + 1), pviFactor (vals data) (vals volume) j))
      (some (pvi data volume)) := by
  refine (pvi_aligned data volume hv hn).reportsP fun out ho i y hi hy => ?_
  cases ho
  obtain ⟨i, rfl⟩ : ∃ j, i = j + 1 := ⟨i - 1, by omega⟩
  have li : i + 1 < data.length := by
    have := (List.getElem?_eq_some_iff.1 hy).1
    simp [pvi] at this
    omega
  rw [pvi, List.getElem?_cons_succ] at hy
  have := index_accurate (up := fun a b => a <. b) hd h32 (fun i v v' v1 v2 => by
    rw [is_lt (hf _ (List.mem_of_getElem? v1)).is (hf _ (List.mem_of_getElem? v2)).is, pviFactor, Nat.add_sub_cancel, bar_vals v1, bar_vals v2]
    simp only [decide_eq_true_eq]) hr hy
  have := Rel.withinUnits this (by omega)
  push_cast at this ⊢
  rwa [show (2 * (2 * ((i : ℝ) + 1))) = 4 * (i + 1) by ring] at this

/-- C94: `nvi` likewise, with the bars whose volume fell. -/
theorem nvi_accurate (data volume : List F64) (hv : volume.length = data.length) (hn : 1 ≤ data.length) (h32 : data.length ≤ 2 ^ 32)
    (hd : ∀ x ∈ data, Price x) (hf : Fins volume)
    (hr : ∀ i < data.length, (2 : ℝ) ^ (-900 : ℤ) ≤ 100 * ∏ j ∈ Finset.Ico 1 (i + 1), nviFactor (vals data) (vals volume) j ∧
      100 * ∏ j ∈ Finset.Ico 1 (i + 1), nviFactor (vals data) (vals volume) j ≤ 2 ^ 900) :
    ReportsP data.length 1 (fun i => WithinUnits (4 * i) (100 * ∏ j ∈ Finset.Ico 1 (i + 1), nviFactor (vals data) (vals volume) j))
      (some (nvi data volume)) := by
  refine (nvi_aligned data volume hv hn).reportsP fun out ho i y hi hy => ?_
  cases ho
  obtain ⟨i, rfl⟩ : ∃ j, i = j + 1 := ⟨i - 1, by omega⟩
  have li : i + 1 < data.length := by
    have := (List.getElem?_eq_some_iff.1 hy).1
    simp [nvi] at this
    omega
  rw [nvi, List.getElem?_cons_succ] at hy
  have := index_accurate (up := fun a b => b <. a) hd h32 (fun i v v' v1 v2 => by
    rw [is_lt (hf _ (List.mem_of_getElem? v2)).is (hf _ (List.mem_of_getElem? v1)).is, nviFactor, Nat.add_sub_cancel, bar_vals v1, bar_vals v2]
    simp only [decide_eq_true_eq]) hr hy
  have := Rel.withinUnits this (by omega)
  push_cast at this ⊢
  rwa [show (2 * (2 * ((i : ℝ) + 1))) = 4 * (i + 1) by ring] at this

theorem typical_rel {h l c : F64} (hh : Price h) (hl : Price l) (hc : Price c) :
    Rel ((h + l + c) / 3) ((h.val + l.val + c.val) / 3) 3 ∧ (2 : ℝ) ^ (-400 : ℤ) ≤ (h.val + l.val + c.val) / 3 ∧ (h.val + l.val + c.val) / 3 ≤ 2 ^ 400 := by
  have h1 := hh.ge
  have h2 := hl.ge
  have h3 := hc.ge
  have h4 := hh.plain.le
  have h5 := hl.plain.le
  have h6 := hc.plain.le
  have p1 := hh.plain.nonneg
  have p2 := hl.plain.nonneg
  have p3 := hc.plain.nonneg
  have b1 : (2 : ℝ) ^ (-400 : ℤ) ≤ (h.val + l.val + c.val) / 3 := by
    generalize (2 : ℝ) ^ (-400 : ℤ) = z at *
    linarith
  have b2 : (h.val + l.val + c.val) / 3 ≤ 2 ^ 400 := by
    clear h1 h2 h3 b1
    generalize (2 : ℝ) ^ 400 = z at *
    linarith
  have b3 : h.val + l.val + c.val ≤ 2 ^ 402 := by
    clear h1 h2 h3 b1
    rw [show (2 : ℝ) ^ 402 = 4 * 2 ^ 400 by rw [show (402 : ℕ) = 2 + 400 by norm_num, pow_add]; norm_num]
    have : (0 : ℝ) ≤ 2 ^ 400 := by positivity
    generalize (2 : ℝ) ^ 400 = z at *
    linarith
  refine ⟨?_, b1, b2⟩
  clear h1 h2 h3 h4 h5 h6
  have s1 : Rel (h + l) (h.val + l.val) 1 := Rel.add hh.plain.rel hl.plain.rel p1 p2 (units_ok (by norm_num))
    (by have := fits_of_le (a := h.val + l.val) (e := 402) (by norm_num) (by rw [abs_of_nonneg (by linarith)]; exact le_trans (le_add_of_nonneg_right p3) b3)
        rwa [abs_of_nonneg (by linarith)] at this)
  have s2 : Rel (h + l + c) (h.val + l.val + c.val) 2 := Rel.add s1 (hc.plain.rel.mono (by norm_num)) (by linarith) p3 (units_ok (by norm_num))
    (by have := fits_of_le (a := h.val + l.val + c.val) (e := 402) (by norm_num) (by rw [abs_of_nonneg (by linarith)]; exact b3)
        rwa [abs_of_nonneg (by linarith)] at this)
  exact Rel.quot s2 (relLit 3 (by norm_num)) (by norm_num) (units_ok (by norm_num)) (clear_of_le (e := -400) (by norm_num) b1)
    (fits_of_le (e := 400) (by norm_num) (by rw [abs_of_nonneg (by linarith)]; exact b2))

/-- C94: `vwap` is within `4 m + 10` units of the volume weighted typical price of its session, where `m` is the number of bars since the
last reset: the error starts again with every session. -/
theorem vwap_accurate (high low close volume : List F64) (resetIdx : Option (List ℕ)) (hl : low.length = high.length)
    (hc : close.length = high.length) (hv : volume.length = high.length) (h32 : high.length ≤ 2 ^ 32) (fh : ∀ x ∈ high, Price x)
    (fl : ∀ x ∈ low, Price x) (fc : ∀ x ∈ close, Price x) (fv : ∀ x ∈ volume, Plain x)
    (hr : resetIdx ≠ some []) (hp : (resetIdx.getD [close.length]).Pairwise (· < ·)) :
    ReportsP high.length 0 (fun i y =>
      let bars := session (zip4 (vals high) (vals low) (vals close) (vals volume)) (resetIdx.getD [close.length]) i
      let money := (bars.map fun b => typical b * b.2.2.2).sum
      let shares := (bars.map fun b => b.2.2.2).sum
      0 < shares → WithinUnits (4 * bars.length + 10) (money / shares) y) (vwap high low close volume resetIdx) := by
  refine (vwap_aligned high low close volume resetIdx hl hc hv hr).reportsP fun out ho i y hi hy => ?_
  unfold vwap at ho
  have hne : resetIdx.getD [close.length] ≠ [] := by
    cases resetIdx with
    | none => simp
    | some l => simpa using hr
  generalize hR : resetIdx.getD [close.length] = R at ho hp hne ⊢
  simp only at ho
  rw [zip4_vals]
  set B := zip4 high low close volume with hB
  have hlen : B.length = high.length := by simp [hB, zip4, hl, hc, hv]
  have good : ∀ b ∈ B.map barVal, (2 : ℝ) ^ (-400 : ℤ) ≤ typical b ∧ typical b ≤ 2 ^ 400 ∧ 0 ≤ b.2.2.2 ∧ b.2.2.2 ≤ 2 ^ 400 := by
    intro b hb
    obtain ⟨⟨h, l, c, v⟩, hb2, rfl⟩ := List.mem_map.1 hb
    obtain ⟨j, hj⟩ := List.mem_iff_getElem?.1 hb2
    obtain ⟨e1, e2, e3, e4⟩ := zip4_getElem?.1 (hB ▸ hj)
    have cv := fv _ (List.mem_of_getElem? e4)
    obtain ⟨-, t1, t2⟩ := typical_rel (fh _ (List.mem_of_getElem? e1)) (fl _ (List.mem_of_getElem? e2)) (fc _ (List.mem_of_getElem? e3))
    exact ⟨t1, t2, cv.nonneg, cv.le⟩
  have part : ∀ {s m : ℕ} {b : ℝ × ℝ × ℝ × ℝ}, b ∈ ((B.map barVal).drop s).take m → b ∈ B.map barVal :=
    fun h => List.mem_of_mem_drop (List.mem_of_mem_take h)
  have len32 : ∀ s m : ℕ, ((((B.map barVal).drop s).take m).length : ℝ) ≤ 2 ^ 32 := by
    intro s m
    have : (((B.map barVal).drop s).take m).length ≤ 2 ^ 32 := by
      rw [List.length_take, List.length_drop, List.length_map, hlen]
      omega
    exact_mod_cast this
  have bm : ∀ s m : ℕ, 0 ≤ ((((B.map barVal).drop s).take m).map fun b => typical b * b.2.2.2).sum ∧
      ((((B.map barVal).drop s).take m).map fun b => typical b * b.2.2.2).sum ≤ 2 ^ 832 := by
    intro s m
    constructor
    · refine List.sum_nonneg fun x hx => ?_
      obtain ⟨b, hb, rfl⟩ := List.mem_map.1 hx
      exact mul_nonneg (le_trans (by positivity) (good b (part hb)).1) (good b (part hb)).2.2.1
    · refine (sum_le_of (B := 2 ^ 800) fun b hb => ?_).trans ?_
      · have := mul_le_mul (good b (part hb)).2.1 (good b (part hb)).2.2.2 (good b (part hb)).2.2.1 (by positivity)
        rwa [← pow_add] at this
      · rw [show (2 : ℝ) ^ 832 = 2 ^ 32 * 2 ^ 800 by rw [← pow_add]]
        exact mul_le_mul_of_nonneg_right (len32 s m) (by positivity)
  have bs : ∀ s m : ℕ, 0 ≤ ((((B.map barVal).drop s).take m).map fun b => b.2.2.2).sum ∧
      ((((B.map barVal).drop s).take m).map fun b => b.2.2.2).sum ≤ 2 ^ 432 := by
    intro s m
    constructor
    · refine List.sum_nonneg fun x hx => ?_
      obtain ⟨b, hb, rfl⟩ := List.mem_map.1 hx
      exact (good b (part hb)).2.2.1
    · refine (sum_le_of (B := 2 ^ 400) fun b hb => (good b (part hb)).2.2.2).trans ?_
      rw [show (2 : ℝ) ^ 432 = 2 ^ 32 * 2 ^ 400 by rw [← pow_add]]
      exact mul_le_mul_of_nonneg_right (len32 s m) (by positivity)
  have fit : ∀ {a : ℝ}, 0 ≤ a → a ≤ 2 ^ 832 → 2 * a ≤ max64 := by
    intro a h0 h
    have := fits_of_le (a := a) (e := 832) (by norm_num) (by rwa [abs_of_nonneg h0])
    rwa [abs_of_nonneg h0] at this
  refine scanM_idx
    (I := fun i (s : VwapState F64) => s.resets = queue R i ∧
      Rel s.tpv ((((B.map barVal).drop (start R i)).take (i - start R i)).map fun b => typical b * b.2.2.2).sum (4 + (i - start R i)) ∧
      Rel s.vol ((((B.map barVal).drop (start R i)).take (i - start R i)).map fun b => b.2.2.2).sum (i - start R i))
    (P := fun i y => 0 < ((session (B.map barVal) R i).map fun b => b.2.2.2).sum → WithinUnits (4 * (session (B.map barVal) R i).length + 10)
      (((session (B.map barVal) R i).map fun b => typical b * b.2.2.2).sum / ((session (B.map barVal) R i).map fun b => b.2.2.2).sum) y)
    ?_ ⟨(queue_zero R).symm, by simpa [start] using relZero.mono (by omega), by simpa [start] using relZero⟩ ho i y hy
  rintro i s ⟨j, h, l, c, v⟩ s' y hx ⟨hq, h1, h2⟩ e
  rw [List.getElem?_zip_eq_some] at hx
  obtain ⟨hj, hb⟩ := hx
  have hj : j = i := by
    obtain ⟨_, hj⟩ := List.getElem?_eq_some_iff.1 hj
    simpa using hj.symm
  subst hj
  have jlt : j < high.length := by rw [← hlen]; exact (List.getElem?_eq_some_iff.1 hb).1
  obtain ⟨e1, e2, e3, e4⟩ := zip4_getElem?.1 (hB ▸ hb)
  have cv := fv _ (List.mem_of_getElem? e4)
  obtain ⟨t0, t1, t2⟩ := typical_rel (fh _ (List.mem_of_getElem? e1)) (fl _ (List.mem_of_getElem? e2)) (fc _ (List.mem_of_getElem? e3))
  have tn : 0 ≤ (h.val + l.val + c.val) / 3 := le_trans (by positivity) t1
  have tv0 : 0 ≤ typical (barVal (h, l, c, v)) * (barVal (h, l, c, v)).2.2.2 := mul_nonneg tn cv.nonneg
  have ct : Rel ((h + l + c) / 3 * v) (typical (barVal (h, l, c, v)) * (barVal (h, l, c, v)).2.2.2) 4 := by
    have := Rel.mul t0 cv.rel (units_ok (by norm_num)) (by
      rcases cv.clear with e | h
      · exact .inl (by rw [e, mul_zero])
      · refine clear_of_le (e := -800) (by norm_num) ?_
        have := mul_le_mul t1 h (by positivity) tn
        rwa [← zpow_add₀ (by norm_num), show (-400 : ℤ) + -400 = -800 by norm_num] at this) (by
      refine fits_of_le (e := 800) (by norm_num) ?_
      rw [abs_of_nonneg (mul_nonneg tn cv.nonneg)]
      have := mul_le_mul t2 cv.le cv.nonneg (by positivity)
      rwa [← pow_add] at this)
    exact this
  have hm : (B.map barVal)[j]? = some (barVal (h, l, c, v)) := by rw [List.getElem?_map, hb]; rfl
  -- what the sums are after adding the bar
  have key : ∀ (a b : F64) (st : ℕ), st ≤ j →
      Rel a ((((B.map barVal).drop st).take (j - st)).map fun b => typical b * b.2.2.2).sum (4 + (j - st)) →
      Rel b ((((B.map barVal).drop st).take (j - st)).map fun b => b.2.2.2).sum (j - st) →
      Rel (a + (h + l + c) / 3 * v) ((((B.map barVal).drop st).take (j + 1 - st)).map fun b => typical b * b.2.2.2).sum (4 + (j + 1 - st)) ∧
      Rel (b + v) ((((B.map barVal).drop st).take (j + 1 - st)).map fun b => b.2.2.2).sum (j + 1 - st) := by
    intro a b st hst ha hb
    have m1 := bm st (j + 1 - st)
    have m2 := bs st (j + 1 - st)
    have m3 := (bm st (j - st)).1
    have m4 := (bs st (j - st)).1
    rw [drop_take_succ hst hm, List.map_append, List.sum_append, List.map_singleton, List.sum_singleton] at m1 m2 ⊢
    rw [List.map_append, List.sum_append, List.map_singleton, List.sum_singleton]
    rw [show 4 + (j + 1 - st) = 4 + (j - st) + 1 by omega, show j + 1 - st = j - st + 1 by omega]
    exact ⟨Rel.add ha (ct.mono (by omega)) m3 tv0 (units_ok (by omega)) (fit m1.1 m1.2),
      Rel.add hb (cv.rel.mono (Nat.zero_le _)) m4 cv.nonneg (units_ok (by omega)) (fit m2.1 (m2.2.trans (pow_le_pow_right₀ (by norm_num) (by norm_num))))⟩
  have fin : ∀ (a b : F64),
      Rel a ((((B.map barVal).drop (start R (j + 1))).take (j + 1 - start R (j + 1))).map fun b => typical b * b.2.2.2).sum (4 + (j + 1 - start R (j + 1))) →
      Rel b ((((B.map barVal).drop (start R (j + 1))).take (j + 1 - start R (j + 1))).map fun b => b.2.2.2).sum (j + 1 - start R (j + 1)) →
      0 < ((session (B.map barVal) R j).map fun b => b.2.2.2).sum → WithinUnits (4 * (session (B.map barVal) R j).length + 10)
        (((session (B.map barVal) R j).map fun b => typical b * b.2.2.2).sum / ((session (B.map barVal) R j).map fun b => b.2.2.2).sum) (a / b) := by
    intro a b ha hb
    have := start_le R (j + 1)
    rw [session, recent, lastReset_eq, show j + 1 - (j + 1 - start R (j + 1)) = start R (j + 1) by omega]
    intro hpos
    obtain ⟨q1, q2⟩ := weighted_between (l := ((B.map barVal).drop (start R (j + 1))).take (j + 1 - start R (j + 1))) (x := typical)
      (v := fun b => b.2.2.2) (fun b hb => (good b (part hb)).2.2.1) (fun b hb => ⟨(good b (part hb)).1, (good b (part hb)).2.1⟩) hpos
    have := Rel.withinUnits (Rel.quot ha hb hpos.ne' (units_ok (by omega)) (clear_of_le (e := -400) (by norm_num) q1)
      (fits_of_le (e := 400) (by norm_num) (by rw [abs_of_nonneg (le_trans (by positivity) q1)]; exact q2))) (by omega)
    have el : (((B.map barVal).drop (start R (j + 1))).take (j + 1 - start R (j + 1))).length = j + 1 - start R (j + 1) := by
      rw [List.length_take, List.length_drop, List.length_map, hlen]
      omega
    rw [el]
    refine this.mono ?_
    refine mul_le_mul_of_nonneg_right (mul_le_mul_of_nonneg_right ?_ unit64_pos.le) (abs_nonneg _)
    push_cast
    linarith
  by_cases hjR : j ∈ R
  · obtain ⟨rs, q1, q2⟩ := queue_hit hp hjR
    have hst := start_hit hp hjR
    simp only [vwapStep, hq, q1, if_true, Option.some.injEq, Prod.mk.injEq] at e
    obtain ⟨rfl, rfl⟩ := e
    obtain ⟨k1, k2⟩ := key 0 0 j le_rfl (by simpa using relZero.mono (by omega)) (by simpa using relZero)
    exact ⟨⟨q2.symm, by rw [hst]; exact k1, by rw [hst]; exact k2⟩, fin _ _ (by rw [hst]; exact k1) (by rw [hst]; exact k2)⟩
  · obtain ⟨q1, q2⟩ := queue_miss hjR
    have hst := start_miss hjR
    obtain ⟨r, rs, eq⟩ := List.exists_cons_of_ne_nil (queue_ne hne j)
    simp only [vwapStep, hq, eq, if_neg (q2 r rs eq), Option.some.injEq, Prod.mk.injEq] at e
    obtain ⟨rfl, rfl⟩ := e
    obtain ⟨k1, k2⟩ := key s.tpv s.vol (start R j) (start_le R j) h1 h2
    rw [← hst] at k1 k2
    exact ⟨⟨by rw [q1, eq], k1, k2⟩, fin _ _ k1 k2⟩

end Traquer.Volume
