import Verif.Spec.Flow
import Verif.Lemmas.Bars
import Verif.Lemmas.Indexed
import Verif.Lemmas.Sign
import Verif.Props.Kendall
import Verif.Props.Percent
import Verif.Props.ShapeVolume
import Verif.Props.ShapeTrend
/-!
# C49, C50, C65: the accumulating indicators and unchanged prices
-/

namespace Traquer
open FP FloatLit
open scoped BigOperators

/-- What an accumulating indicator gains from bar `i` to bar `j` is the sum of the terms of the bars after `i`: a continuation adds the same
whatever came before. -/
theorem Accumulates.telescope {ρ : Rounding} {n k : ℕ} {t : ℕ → ℝ} {out : List (FP ρ)} (h : Accumulates n k t (some out)) {i j : ℕ} (hk : k ≤ i)
    (hij : i ≤ j) (hj : j < n) : ∃ x y a, out[i]? = some x ∧ out[j]? = some y ∧ x ⇓ a ∧ y ⇓ a + ∑ m ∈ Finset.Ico (i + 1) (j + 1), t m := by
  obtain ⟨_, e, h1, h2, h3⟩ := h
  cases e
  obtain ⟨x, hx, vx⟩ := h3 i hk (by omega)
  obtain ⟨y, hy, vy⟩ := h3 j (by omega) hj
  exact ⟨x, y, _, hx, hy, vx, vy.congr (Finset.sum_Ico_consecutive t (by omega) (by omega)).symm⟩

theorem bar_vals {ρ : Rounding} {l : List (FP ρ)} {j : ℕ} {x : FP ρ} (h : l[j]? = some x) : bar (vals l) j = x.val := by
  simp [bar, vals, h]

/-- A scan that adds a term per item. -/
theorem scan_adds {σ α : Type} {f : σ → α → Option (σ × XF)} {acc : σ → XF} {l : List α} {k : ℕ} {t : ℕ → ℝ} {J : ℕ → σ → Prop}
    (h : ∀ i s x s' y, l[i]? = some x → J i s → f s x = some (s', y) → J (i + 1) s' ∧ y = acc s' ∧
      ∀ u, acc s ⇓ u → acc s' ⇓ u + t (i + k)) {s : σ} (h0 : J 0 s) (hs : acc s ⇓ 0) {o : List XF}
    (ho : scanM f s l = some o) (i : ℕ) (y : XF) (hy : o[i]? = some y) : y ⇓ ∑ j ∈ Finset.Ico k (i + k + 1), t j := by
  refine scanM_idx (I := fun i s => J i s ∧ acc s ⇓ ∑ j ∈ Finset.Ico k (i + k), t j) (P := fun i y => y ⇓ ∑ j ∈ Finset.Ico k (i + k + 1), t j)
    ?_ ⟨h0, by simpa using hs⟩ ho i y hy
  rintro i s x s' y hx ⟨hj, ha⟩ e
  obtain ⟨g1, rfl, g2⟩ := h i s x s' y hx hj e
  have := g2 _ ha
  rw [← Finset.sum_Ico_succ_top (by omega)] at this
  exact ⟨⟨g1, by rw [show i + 1 + k = i + k + 1 by omega]; exact this⟩, this⟩

end Traquer

namespace Traquer.Volume
open FP FloatLit
open scoped BigOperators

theorem range_getElem {n i j : ℕ} (h : (List.range n)[i]? = some j) : j = i := by
  obtain ⟨_, h⟩ := List.getElem?_eq_some_iff.1 h
  simpa using h.symm

/-- C49, C65: `obv` adds the volume of every bar, with a minus sign exactly where the close fell: an unchanged close adds it (for finite
series without a negative zero close). -/
theorem obv_accumulates (close volume : List XF) (hv : volume.length = close.length) (hn : 1 ≤ close.length) (hc : Fins close) (hf : Fins volume)
    (hz : ∀ x ∈ close, x ≠ negz) : Accumulates close.length 1 (obvTerm (vals close) (vals volume)) (obv close volume) := by
  refine (obv_aligned close volume hv hn).reportsP fun out ho i y hi hy => ?_
  obtain ⟨r, er, ho⟩ := Option.bind_eq_some_iff.1 ho
  cases ho
  obtain ⟨i, rfl⟩ : ∃ j, i = j + 1 := ⟨i - 1, by omega⟩
  rw [List.getElem?_cons_succ] at hy
  refine scan_adds (acc := fun s => s) (J := fun _ _ => True) ?_ trivial is_zero er i y hy
  rintro i s ⟨j, p⟩ s' y hx - e
  rw [List.getElem?_zip_eq_some] at hx
  obtain ⟨hj, hp⟩ := hx
  obtain rfl := range_getElem hj
  obtain ⟨v, ev, e⟩ := Option.bind_eq_some_iff.1 e
  simp only [Option.some.injEq, Prod.mk.injEq] at e
  obtain ⟨rfl, rfl⟩ := e
  refine ⟨trivial, rfl, fun u hu => ?_⟩
  obtain ⟨h1, h2⟩ := pairs_getElem?_some hp
  have s1 := Correlation.signum_sub (hc _ (List.mem_of_getElem? h2)).is (hc _ (List.mem_of_getElem? h1)).is (.inr (hz _ (List.mem_of_getElem? h2)))
  refine (is_add hu (is_mul s1 (hf _ (List.mem_of_getElem? ev)).is)).congr ?_
  rw [obvTerm, Nat.add_sub_cancel, bar_vals h1, bar_vals h2, bar_vals ev]
  split <;> ring

/-- C49, where the code and the textbook part: after an unchanged close On-Balance Volume should stay, `obv` adds the volume. -/
theorem obv_unchanged_wrong : ∃ y : XF, obv [fin 5, fin 5] [fin 1, fin 20] = some [FP.nan, y] ∧ y ⇓ 20 := by
  obtain ⟨out, e, h1, h2, h3⟩ := obv_accumulates [fin 5, fin 5] [fin 1, fin 20] rfl (by simp) (by simp [Fins, FP.Finite]) (by simp [Fins, FP.Finite])
    (by simp)
  obtain ⟨y, hy, hv⟩ := h3 1 le_rfl (by simp)
  have h0 := h2 0 (by norm_num) (by simp)
  refine ⟨y, ?_, hv.congr (by simp [obvTerm, bar, FP.val])⟩
  rw [e]
  match out, h1 with
  | [a, b], _ => 
    simp at h0 hy
    rw [h0, hy]; rfl

/-- C65: `vpt` adds the volume times the relative change of the price (finite series, non-zero prices). -/
theorem vpt_accumulates (data volume : List XF) (hv : volume.length = data.length) (hn : 1 ≤ data.length) (hc : Fins data) (hf : Fins volume)
    (h0 : ∀ x ∈ data, x.val ≠ 0) : Accumulates data.length 1 (vptTerm (vals data) (vals volume)) (vpt data volume) := by
  refine (vpt_aligned data volume hv hn).reportsP fun out ho i y hi hy => ?_
  obtain ⟨vols, er, ho⟩ := Option.bind_eq_some_iff.1 ho
  obtain ⟨-, rfl⟩ := sliceFrom_some er
  cases ho
  obtain ⟨i, rfl⟩ : ∃ j, i = j + 1 := ⟨i - 1, by omega⟩
  rw [List.getElem?_cons_succ] at hy
  refine scan_adds (acc := fun s => s) (J := fun _ _ => True) (f := fun s x => some (_, _)) ?_ trivial is_zero (scanM_some _ _ _) i y hy
  rintro i s ⟨p, v⟩ s' y hx - e
  rw [List.getElem?_zip_eq_some] at hx
  obtain ⟨hp, hv⟩ := hx
  rw [List.getElem?_drop, add_comm] at hv
  simp only [Option.some.injEq, Prod.mk.injEq] at e
  obtain ⟨rfl, rfl⟩ := e
  refine ⟨trivial, rfl, fun u hu => ?_⟩
  obtain ⟨h1, h2⟩ := pairs_getElem?_some hp
  refine (is_add hu (is_div (is_mul (hf _ (List.mem_of_getElem? hv)).is (is_sub (hc _ (List.mem_of_getElem? h2)).is
    (hc _ (List.mem_of_getElem? h1)).is)) (hc _ (List.mem_of_getElem? h1)).is (h0 _ (List.mem_of_getElem? h1)))).congr ?_
  rw [vptTerm, Nat.add_sub_cancel, bar_vals h1, bar_vals h2, bar_vals hv]

/-- C65: `ad` adds the volume times the position of the close in the bar (finite bars with high above low). -/
theorem ad_accumulates (high low close volume : List XF) (hl : low.length = high.length) (hc : close.length = high.length)
    (hv : volume.length = high.length) (hn : 1 ≤ high.length) (fh : Fins high) (fl : Fins low) (fc : Fins close) (fv : Fins volume)
    (hr : ∀ (j : ℕ) (h l : XF), high[j]? = some h → low[j]? = some l → h.val ≠ l.val) :
    Accumulates high.length 0 (adTerm (vals high) (vals low) (vals close) (vals volume)) (ad high low close volume none) := by
  refine (ad_aligned high low close volume none hl hc hv hn).reportsP fun out ho i y hi hy => ?_
  simp only [ad, Option.getD_none, Bool.not_false, if_true, Option.some.injEq] at ho
  subst ho
  refine scan_adds (k := 0) (acc := fun s => s) (J := fun _ _ => True) (f := fun s x => some (_, _)) ?_ trivial is_zero (scanM_some _ _ _) i y hy
  rintro i s ⟨h, l, c, v⟩ s' y hx - e
  obtain ⟨e1, e2, e3, e4⟩ := zip4_getElem?.1 hx
  simp only [Option.some.injEq, Prod.mk.injEq] at e
  obtain ⟨rfl, rfl⟩ := e
  refine ⟨trivial, rfl, fun u hu => ?_⟩
  have ch := (fh _ (List.mem_of_getElem? e1)).is
  have cl := (fl _ (List.mem_of_getElem? e2)).is
  have cc := (fc _ (List.mem_of_getElem? e3)).is
  have cv := (fv _ (List.mem_of_getElem? e4)).is
  refine (is_add hu (is_mul (is_div (is_sub (is_sub cc cl) (is_sub ch cc)) (is_sub ch cl) (sub_ne_zero.2 (hr i h l e1 e2))) cv)).congr ?_
  rw [adTerm, add_zero, bar_vals e1, bar_vals e2, bar_vals e3, bar_vals e4]

theorem tail_getElem?' {α : Type} (l : List α) (i : ℕ) : l.tail[i]? = l[i + 1]? := by simp

/-- C65: Williams' `ad` adds the volume times the distance of the close from the true low or the true high (finite bars). -/
theorem ad_williams_accumulates (high low close volume : List XF) (hl : low.length = high.length) (hc : close.length = high.length)
    (hv : volume.length = high.length) (hn : 1 ≤ high.length) (fh : Fins high) (fl : Fins low) (fc : Fins close) (fv : Fins volume) :
    Accumulates high.length 1 (adWilliamsTerm (vals high) (vals low) (vals close) (vals volume)) (ad high low close volume (some true)) := by
  refine (ad_aligned high low close volume (some true) hl hc hv hn).reportsP fun out ho i y hi hy => ?_
  simp only [ad, Option.getD_some, Bool.not_true, Bool.false_eq_true, if_false] at ho
  obtain ⟨bars, eb, ho⟩ := Option.bind_eq_some_iff.1 ho
  obtain rfl := tailBars_some eb
  obtain ⟨c0, ec, ho⟩ := Option.bind_eq_some_iff.1 ho
  cases ho
  obtain ⟨i, rfl⟩ : ∃ j, i = j + 1 := ⟨i - 1, by simp at hi; omega⟩
  rw [List.getElem?_cons_succ] at hy
  refine scan_adds (acc := fun s => s.2) (J := fun i s => close[i]? = some s.1) (f := fun s x => some (_, _)) ?_ ec is_zero (scanM_some _ _ _) i y hy
  rintro i s ⟨h, l, c, v⟩ s' y hx hj e
  rw [tail_getElem?'] at hx
  obtain ⟨e1, e2, e3, e4⟩ := zip4_getElem?.1 hx
  simp only [Option.some.injEq, Prod.mk.injEq] at e
  obtain ⟨rfl, rfl⟩ := e
  refine ⟨e3, rfl, fun u hu => ?_⟩
  have ch := (fh _ (List.mem_of_getElem? e1)).is
  have cl := (fl _ (List.mem_of_getElem? e2)).is
  have cc := (fc _ (List.mem_of_getElem? e3)).is
  have cp := (fc _ (List.mem_of_getElem? hj)).is
  have cv := (fv _ (List.mem_of_getElem? e4)).is
  rw [adWilliamsTerm, Nat.add_sub_cancel, bar_vals e1, bar_vals e2, bar_vals e3, bar_vals e4, bar_vals hj]
  refine is_add hu (is_mul ?_ cv)
  rw [is_lt cp cc]
  by_cases g : s.1.val < c.val
  · simp only [g, decide_true, if_true]
    exact is_sub cc (is_fmin cl cp)
  · simp only [g, decide_false, if_false]
    exact is_sub cc (is_fmax ch cp)

/-- C65: `tvi` adds the volume with the sign of the last move of more than the tick (finite series). -/
theorem tvi_accumulates (close volume : List XF) (tick : XF) (hv : volume.length = close.length) (hn : 1 ≤ close.length) (hc : Fins close)
    (hf : Fins volume) (ht : tick.Finite) : Accumulates close.length 1 (tviTerm (vals close) (vals volume) tick.val) (tvi close volume tick) := by
  refine (tvi_aligned close volume tick hv hn).reportsP fun out ho i y hi hy => ?_
  obtain ⟨n, en, ho⟩ := Option.bind_eq_some_iff.1 ho
  obtain ⟨-, rfl⟩ := usub_some en
  obtain ⟨_, e1, ho⟩ := Option.bind_eq_some_iff.1 ho
  obtain ⟨-, rfl⟩ := sliceTo_some e1
  obtain ⟨_, e1, ho⟩ := Option.bind_eq_some_iff.1 ho
  obtain ⟨-, rfl⟩ := sliceFrom_some e1
  obtain ⟨_, e1, ho⟩ := Option.bind_eq_some_iff.1 ho
  obtain ⟨-, rfl⟩ := sliceFrom_some e1
  cases ho
  obtain ⟨i, rfl⟩ : ∃ j, i = j + 1 := ⟨i - 1, by omega⟩
  rw [List.getElem?_cons_succ] at hy
  refine scan_adds (acc := fun s => s.2) (J := fun i s => s.1 = tickUp (vals close) tick.val i) (f := fun s x => some (_, _)) ?_ rfl is_zero
    (scanM_some _ _ _) i y hy
  rintro i s ⟨p, c, v⟩ s' y hx hj e
  obtain ⟨e1, e2, e3⟩ := zip3_getElem?.1 hx
  rw [List.getElem?_drop, add_comm] at e2 e3
  have e1 : close[i]? = some p := by
    rw [List.getElem?_take] at e1
    split at e1
    · exact e1
    · cases e1
  simp only [Option.some.injEq, Prod.mk.injEq] at e
  obtain ⟨rfl, rfl⟩ := e
  have cp := (hc _ (List.mem_of_getElem? e1)).is
  have cc := (hc _ (List.mem_of_getElem? e2)).is
  have cv := (hf _ (List.mem_of_getElem? e3)).is
  have key : (if tick <. c - p then true else if tick <. p - c then false else s.1) = tickUp (vals close) tick.val (i + 1) := by
    rw [is_lt ht.is (is_sub cc cp), is_lt ht.is (is_sub cp cc), tickUp, bar_vals e1, bar_vals e2, hj]
    simp only [decide_eq_true_eq]
  refine ⟨key, rfl, fun u hu => ?_⟩
  rw [tviTerm, ← key, bar_vals e3]
  have dir : ∀ b : Bool, (if b then (1 : XF) else -1) * v ⇓ if b then v.val else -v.val
    | true => (is_mul is_one cv).congr (one_mul _)
    | false => (is_mul (is_neg is_one) cv).congr (neg_one_mul _)
  exact is_add hu (dir _)

/-- The values of `pvi` and `nvi`: the start times the factors so far. -/
theorem index_is {data volume : List XF} {up : XF → XF → Bool} {fac : ℕ → ℝ} {i : ℕ} {y : XF}
    (hstep : ∀ i p c v v', data[i]? = some p → data[i + 1]? = some c → volume[i]? = some v → volume[i + 1]? = some v' →
      ∀ s u, s ⇓ u → (if up v v' then s * (c / p) else s) ⇓ u * fac (i + 1))
    (hy : (scanS (fun (s : XF) ((c, vol) : (XF × XF) × (XF × XF)) => if up vol.1 vol.2 then s * (c.2 / c.1) else s) 100
      ((pairs data).zip (pairs volume)))[i]? = some y) : y ⇓ 100 * ∏ j ∈ Finset.Ico 1 (i + 2), fac j := by
  refine scan_idx (I := fun i s => s ⇓ 100 * ∏ j ∈ Finset.Ico 1 (i + 1), fac j) (P := fun i y => y ⇓ 100 * ∏ j ∈ Finset.Ico 1 (i + 2), fac j)
    ?_ (by simpa using is_lit 100) i y hy
  rintro i s ⟨c, v⟩ hx hs
  rw [List.getElem?_zip_eq_some] at hx
  obtain ⟨c1, c2⟩ := pairs_getElem?_some hx.1
  obtain ⟨v1, v2⟩ := pairs_getElem?_some hx.2
  have := hstep i c.1 c.2 v.1 v.2 c1 c2 v1 v2 s _ hs
  rw [mul_assoc, ← Finset.prod_Ico_succ_top (by omega)] at this
  exact ⟨this, this⟩

/-- C50: `pvi` is 100 times the relative price changes of the bars whose volume rose; all others leave it alone (finite series, non-zero
prices). -/
theorem pvi_reports (data volume : List XF) (hv : volume.length = data.length) (hn : 1 ≤ data.length) (hc : Fins data) (hf : Fins volume)
    (h0 : ∀ x ∈ data, x.val ≠ 0) :
    Reports data.length 1 (fun i => 100 * ∏ j ∈ Finset.Ico 1 (i + 1), pviFactor (vals data) (vals volume) j) (some (pvi data volume)) := by
  refine (pvi_aligned data volume hv hn).reportsP fun out ho i y hi hy => ?_
  cases ho
  obtain ⟨i, rfl⟩ : ∃ j, i = j + 1 := ⟨i - 1, by omega⟩
  rw [pvi, List.getElem?_cons_succ] at hy
  refine index_is (up := fun a b => a <. b) ?_ hy
  intro i p c v v' c1 c2 v1 v2 s u hs
  have e := is_lt (hf _ (List.mem_of_getElem? v1)).is (hf _ (List.mem_of_getElem? v2)).is
  rw [e, pviFactor, Nat.add_sub_cancel, bar_vals c1, bar_vals c2, bar_vals v1, bar_vals v2]
  by_cases g : v.val < v'.val
  · simp only [g, decide_true, if_true]
    exact is_mul hs (is_div (hc _ (List.mem_of_getElem? c2)).is (hc _ (List.mem_of_getElem? c1)).is (h0 _ (List.mem_of_getElem? c1)))
  · simpa only [g, decide_false, if_false, mul_one, Bool.false_eq_true] using hs

/-- C50: `nvi` is 100 times the relative price changes of the bars whose volume fell; all others leave it alone (finite series, non-zero
prices). -/
theorem nvi_reports (data volume : List XF) (hv : volume.length = data.length) (hn : 1 ≤ data.length) (hc : Fins data) (hf : Fins volume)
    (h0 : ∀ x ∈ data, x.val ≠ 0) :
    Reports data.length 1 (fun i => 100 * ∏ j ∈ Finset.Ico 1 (i + 1), nviFactor (vals data) (vals volume) j) (some (nvi data volume)) := by
  refine (nvi_aligned data volume hv hn).reportsP fun out ho i y hi hy => ?_
  cases ho
  obtain ⟨i, rfl⟩ : ∃ j, i = j + 1 := ⟨i - 1, by omega⟩
  rw [nvi, List.getElem?_cons_succ] at hy
  refine index_is (up := fun a b => b <. a) ?_ hy
  intro i p c v v' c1 c2 v1 v2 s u hs
  have e := is_lt (hf _ (List.mem_of_getElem? v2)).is (hf _ (List.mem_of_getElem? v1)).is
  rw [e, nviFactor, Nat.add_sub_cancel, bar_vals c1, bar_vals c2, bar_vals v1, bar_vals v2]
  by_cases g : v'.val < v.val
  · simp only [g, decide_true, if_true]
    exact is_mul hs (is_div (hc _ (List.mem_of_getElem? c2)).is (hc _ (List.mem_of_getElem? c1)).is (h0 _ (List.mem_of_getElem? c1)))
  · simpa only [g, decide_false, if_false, mul_one, Bool.false_eq_true] using hs

section anyRounding
variable {ρ : Rounding}

/-- What `pvi` reports at two consecutive bars. -/
theorem pvi_step (data volume : List (FP ρ)) (i : ℕ) (y p c v v' : FP ρ) (hy : (pvi data volume)[i + 1]? = some y)
    (hp : data[i]? = some p) (hc : data[i + 1]? = some c) (h1 : volume[i]? = some v) (h2 : volume[i + 1]? = some v') :
    ∃ x, (if i = 0 then some 100 else (pvi data volume)[i]?) = some x ∧ y = if v <. v' then x * (c / p) else x := by
  rw [pvi, List.getElem?_cons_succ] at hy
  have hx : ((pairs data).zip (pairs volume))[i]? = some ((p, c), (v, v')) := by
    rw [List.getElem?_zip_eq_some, pairs_getElem?, pairs_getElem?, hp, hc, h1, h2]; simp
  have hlt := (List.getElem?_eq_some_iff.1 hx).1
  rw [scanS_getElem? _ _ _ _ hlt, foldl_take_succ _ _ _ _ hx] at hy
  cases i with
  | zero => exact ⟨100, rfl, (Option.some.inj hy).symm⟩
  | succ i =>
    refine ⟨_, ?_, (Option.some.inj hy).symm⟩
    rw [if_neg (by omega), pvi, List.getElem?_cons_succ, scanS_getElem? _ _ _ _ (by omega)]

/-- What `nvi` reports at two consecutive bars. -/
theorem nvi_step (data volume : List (FP ρ)) (i : ℕ) (y p c v v' : FP ρ) (hy : (nvi data volume)[i + 1]? = some y)
    (hp : data[i]? = some p) (hc : data[i + 1]? = some c) (h1 : volume[i]? = some v) (h2 : volume[i + 1]? = some v') :
    ∃ x, (if i = 0 then some 100 else (nvi data volume)[i]?) = some x ∧ y = if v' <. v then x * (c / p) else x := by
  rw [nvi, List.getElem?_cons_succ] at hy
  have hx : ((pairs data).zip (pairs volume))[i]? = some ((p, c), (v, v')) := by
    rw [List.getElem?_zip_eq_some, pairs_getElem?, pairs_getElem?, hp, hc, h1, h2]; simp
  have hlt := (List.getElem?_eq_some_iff.1 hx).1
  rw [scanS_getElem? _ _ _ _ hlt, foldl_take_succ _ _ _ _ hx] at hy
  cases i with
  | zero => exact ⟨100, rfl, (Option.some.inj hy).symm⟩
  | succ i =>
    refine ⟨_, ?_, (Option.some.inj hy).symm⟩
    rw [if_neg (by omega), nvi, List.getElem?_cons_succ, scanS_getElem? _ _ _ _ (by omega)]

/-- C50, in every rounding and for every input (NaN and infinities included): at no bar do `pvi` and `nvi` both move. -/
theorem pvi_nvi_exclusive (data volume : List (FP ρ)) (i : ℕ) (x y x' y' : FP ρ) (hi : 1 ≤ i) (h1 : (pvi data volume)[i]? = some x)
    (h2 : (pvi data volume)[i + 1]? = some y) (h3 : (nvi data volume)[i]? = some x') (h4 : (nvi data volume)[i + 1]? = some y') :
    y = x ∨ y' = x' := by
  have hlt := (List.getElem?_eq_some_iff.1 h2).1
  simp only [pvi, List.length_cons, scanS_length, List.length_zip, pairs_length] at hlt
  have g : ∀ (l : List (FP ρ)) (j : ℕ), j < l.length → ∃ z, l[j]? = some z := fun l j h => ⟨_, List.getElem?_eq_getElem h⟩
  obtain ⟨p, hp⟩ := g data i (by omega)
  obtain ⟨c, hc⟩ := g data (i + 1) (by omega)
  obtain ⟨v, hv⟩ := g volume i (by omega)
  obtain ⟨v', hv'⟩ := g volume (i + 1) (by omega)
  obtain ⟨a, ea, rfl⟩ := pvi_step data volume i y p c v v' h2 hp hc hv hv'
  obtain ⟨b, eb, rfl⟩ := nvi_step data volume i y' p c v v' h4 hp hc hv hv'
  rw [if_neg (by omega)] at ea eb
  cases h1.symm.trans ea
  cases h3.symm.trans eb
  cases h : (v <. v')
  · left; simp
  · right
    have : (v' <. v) = false := by
      by_contra g
      rw [Bool.not_eq_false] at g
      simp only [lt_def, FP.lt, Bool.and_eq_true, decide_eq_true_eq] at h g
      exact lt_asymm h.2 g.2
    simp [this]

end anyRounding

end Traquer.Volume

namespace Traquer.Momentum
open FP FloatLit

/-- C49: `psych` is the percentage of the last `w` bars whose close did not fall below the previous one: an unchanged close counts as an
advance (for finite series without a negative zero). -/
theorem psych_reports (data : List XF) (w : ℕ) (hw : 1 ≤ w) (hn : w ≤ data.length) (hd : Fins data) (hz : ∀ x ∈ data, x ≠ negz) :
    Reports data.length w (fun i => 100 * mean (lastOf (fun j => if bar (vals data) j < bar (vals data) (j - 1) then 0 else 1) w i))
      (psych data w) := by
  have h0 : Reports (data.length - 1) 0 (fun j => if bar (vals data) (j + 1) < bar (vals data) j then 0 else 1)
      (some ((pairs data).map fun (p : XF × XF) => fmax (signum (p.2 - p.1)) 0)) := by
    refine reports_map (by simp) (fun i b _ h => by omega) fun i p hp _ => ?_
    obtain ⟨h1, h2⟩ := pairs_getElem?_some hp
    have s1 := Correlation.signum_sub (hd _ (List.mem_of_getElem? h2)).is (hd _ (List.mem_of_getElem? h1)).is (.inr (hz _ (List.mem_of_getElem? h2)))
    refine (is_fmax s1 is_zero).congr ?_
    rw [bar_vals h1, bar_vals h2]
    split <;> norm_num
  have h1 := h0.windows (w := w) (v' := fun i => 100 * mean (lastOf (fun j => if bar (vals data) (j + 1) < bar (vals data) j then 0 else 1) w i))
    (f := fun l => fsum l * 100 / flt w) hw (by omega)
    (fun l _ hx => NaNLaws.div_left _ _ (NaNLaws.mul_left _ _ (isNaN_fsum hx))) fun i g1 g2 => by
      obtain ⟨h3, h4⟩ := h0.recent (w := w) g1 g2
      refine (is_div (is_mul h3.fsum (is_lit 100)) (is_flt w) (Smooth.natCast_pos hw).ne').congr ?_
      rw [h4, mean, lastOf, List.length_map, List.length_range]
      ring
  have h2 := h1.pad 1
  rw [← List.append_assoc, ← nans_succ' hw] at h2
  have e : psych data w = some (nans w ++ (windowsOf w ((pairs data).map fun (p : XF × XF) => fmax (signum (p.2 - p.1)) 0)).map
      fun l => fsum l * 100 / flt w) := by
    run_model [psych]
  rw [e]
  refine ((h2.cast (by omega) (by omega)).congr fun i g1 g2 => ?_)
  congr 2
  refine lastOf_congr fun j hj => ?_
  rw [show i - 1 + 1 - w + j + 1 = i + 1 - w + j by omega, show i - 1 + 1 - w + j = i + 1 - w + j - 1 by omega]

/-- C49, where the code and its name part: on a constant price, without a single advance, `psych` reports 100. -/
theorem psych_unchanged_wrong (c : ℝ) (n w : ℕ) (hw : 1 ≤ w) (hn : w ≤ n) :
    Reports n w (fun _ => 100) (psych ((List.replicate n c).map (fin (ρ := Rounding.exact))) w) := by
  have := psych_reports ((List.replicate n c).map fin) w hw (by simpa using hn) (fins_map_fin _) (by
    intro x hx
    obtain ⟨r, -, rfl⟩ := List.mem_map.1 hx
    simp)
  refine (this.cast (by simp) rfl).congr fun i g1 g2 => ?_
  rw [vals_map_fin]
  have e : lastOf (fun j => if bar (List.replicate n c) j < bar (List.replicate n c) (j - 1) then (0 : ℝ) else 1) w i = List.replicate w 1 := by
    rw [lastOf, List.eq_replicate_iff]
    refine ⟨by simp, fun x hx => ?_⟩
    obtain ⟨j, hj, rfl⟩ := List.mem_map.1 hx
    have hj := List.mem_range.1 hj
    have g : ∀ m, m < n → bar (List.replicate n c) m = c := fun m hm => by simp [bar, hm]
    simp only [g _ (show i + 1 - w + j < n by omega), g _ (show i + 1 - w + j - 1 < n by omega), lt_irrefl, if_false]
  rw [e, mean_replicate hw, mul_one]

end Traquer.Momentum

namespace Traquer.Trend
open FP FloatLit

/-- C65, in every arithmetic: `asi` is the running sum of the swing index `si`. -/
theorem asi_accumulates {F : Type} [FloatOps F] (openp high low close : List F) (limit : F) (ho : openp.length = high.length)
    (hl : low.length = high.length) (hc : close.length = high.length) (hn : 1 ≤ high.length) :
    ∃ si asi', Momentum.si openp high low close limit = some si ∧ asi openp high low close limit = some asi' ∧
      ∀ i, 1 ≤ i → i < high.length → ∃ x y s, (if i = 1 then some 0 else asi'[i - 1]?) = some x ∧ asi'[i]? = some y ∧ si[i]? = some s ∧ y = x + s := by
  obtain ⟨s, es, ls⟩ := Momentum.swing_yields openp high low close limit ho hl hc hn
  refine ⟨nan :: s, nan :: scanS (fun acc x => acc + x) 0 s, by run_model [Momentum.si, es], by run_model [asi, es], fun i h1 h2 => ?_⟩
  obtain ⟨i, rfl⟩ : ∃ j, i = j + 1 := ⟨i - 1, by omega⟩
  have e := getElem?_of_lt (show i < s.length by omega)
  rw [Nat.add_sub_cancel]
  refine ⟨_, _, _, ?_, by rw [List.getElem?_cons_succ, scanS_getElem? _ _ _ _ (by omega)], by rw [List.getElem?_cons_succ, e], foldl_take_succ _ _ _ _ e⟩
  cases i with
  | zero => rfl
  | succ i => rw [if_neg (by omega), List.getElem?_cons_succ, scanS_getElem? _ _ _ _ (by omega)]

end Traquer.Trend

/-! ## Examples -/

namespace Traquer
open FP

example : Accumulates 3 1 (obvTerm [1, 2, 2] [5, 6, 7]) (Volume.obv [fin 1, fin 2, (fin 2 : XF)] [fin 5, fin 6, fin 7]) := by
  have := Volume.obv_accumulates [fin 1, fin 2, fin 2] [fin 5, fin 6, fin 7] rfl (by simp) (by simp [Fins, FP.Finite]) (by simp [Fins, FP.Finite])
    (by simp)
  simpa [vals, FP.val] using this
example : Accumulates 3 1 (vptTerm [1, 2, 2] [5, 6, 7]) (Volume.vpt [fin 1, fin 2, (fin 2 : XF)] [fin 5, fin 6, fin 7]) := by
  have := Volume.vpt_accumulates [fin 1, fin 2, fin 2] [fin 5, fin 6, fin 7] rfl (by simp) (by simp [Fins, FP.Finite]) (by simp [Fins, FP.Finite])
    (by simp [FP.val])
  simpa [vals, FP.val] using this
example : Accumulates 2 0 (adTerm [3, 5] [1, 2] [2, 5] [5, 6]) (Volume.ad [fin 3, fin 5] [fin 1, fin 2] [fin 2, fin 5] [fin 5, (fin 6 : XF)] none) := by
  have := Volume.ad_accumulates [fin 3, fin 5] [fin 1, fin 2] [fin 2, fin 5] [fin 5, fin 6] rfl rfl rfl (by simp) (by simp [Fins, FP.Finite])
    (by simp [Fins, FP.Finite]) (by simp [Fins, FP.Finite]) (by simp [Fins, FP.Finite]) (by
      rintro (_ | _ | j) h l h1 h2
      · simp at h1 h2; subst h1 h2; norm_num [FP.val]
      · simp at h1 h2; subst h1 h2; norm_num [FP.val]
      · simp at h1)
  simpa [vals, FP.val] using this
example : Accumulates 2 1 (adWilliamsTerm [3, 5] [1, 2] [2, 5] [5, 6])
    (Volume.ad [fin 3, fin 5] [fin 1, fin 2] [fin 2, fin 5] [fin 5, (fin 6 : XF)] (some true)) := by
  have := Volume.ad_williams_accumulates [fin 3, fin 5] [fin 1, fin 2] [fin 2, fin 5] [fin 5, fin 6] rfl rfl rfl (by simp) (by simp [Fins, FP.Finite])
    (by simp [Fins, FP.Finite]) (by simp [Fins, FP.Finite]) (by simp [Fins, FP.Finite])
  simpa [vals, FP.val] using this
example : Accumulates 3 1 (tviTerm [1, 2, 2] [5, 6, 7] (1 / 2)) (Volume.tvi [fin 1, fin 2, (fin 2 : XF)] [fin 5, fin 6, fin 7] (fin (1 / 2))) := by
  have := Volume.tvi_accumulates [fin 1, fin 2, fin 2] [fin 5, fin 6, fin 7] (fin (1 / 2)) rfl (by simp) (by simp [Fins, FP.Finite])
    (by simp [Fins, FP.Finite]) (by simp [FP.Finite])
  simpa [vals, FP.val] using this
example : Reports 3 1 (fun i => 100 * ∏ j ∈ Finset.Ico 1 (i + 1), pviFactor [1, 2, 3] [5, 6, 4] j)
    (some (Volume.pvi [fin 1, fin 2, (fin 3 : XF)] [fin 5, fin 6, fin 4])) := by
  have := Volume.pvi_reports [fin 1, fin 2, fin 3] [fin 5, fin 6, fin 4] rfl (by simp) (by simp [Fins, FP.Finite]) (by simp [Fins, FP.Finite])
    (by simp [FP.val])
  simpa [vals, FP.val] using this
example : Reports 3 1 (fun i => 100 * ∏ j ∈ Finset.Ico 1 (i + 1), nviFactor [1, 2, 3] [5, 6, 4] j)
    (some (Volume.nvi [fin 1, fin 2, (fin 3 : XF)] [fin 5, fin 6, fin 4])) := by
  have := Volume.nvi_reports [fin 1, fin 2, fin 3] [fin 5, fin 6, fin 4] rfl (by simp) (by simp [Fins, FP.Finite]) (by simp [Fins, FP.Finite])
    (by simp [FP.val])
  simpa [vals, FP.val] using this

end Traquer
