import Verif.Spec.Flow
import Verif.Lemmas.Bars
import Verif.Lemmas.Indexed
import Verif.Props.ShapeVolume
/-!
# C51, C52: volume weighted prices
-/

namespace Traquer.Volume
open FP FloatLit

/-! ## The reset list as a queue -/

theorem filter_hit {l : List ℕ} (hl : l.Pairwise (· < ·)) {i : ℕ} (hi : i ∈ l) :
    (l.filter fun r => decide (i ≤ r)) = i :: l.filter (fun r => decide (i + 1 ≤ r)) ∧
      (l.filter fun r => decide (r < i + 1)) = l.filter (fun r => decide (r < i)) ++ [i] := by
  induction l with
  | nil => simp at hi
  | cons a l ih =>
    rw [List.pairwise_cons] at hl
    rcases List.mem_cons.1 hi with rfl | hi
    · have e1 : (l.filter fun r => decide (i ≤ r)) = l := List.filter_eq_self.2 fun x hx => by have := hl.1 x hx; simp; omega
      have e2 : (l.filter fun r => decide (i + 1 ≤ r)) = l := List.filter_eq_self.2 fun x hx => by have := hl.1 x hx; simp; omega
      have e3 : (l.filter fun r => decide (r < i + 1)) = [] := List.filter_eq_nil_iff.2 fun x hx => by have := hl.1 x hx; simp; omega
      have e4 : (l.filter fun r => decide (r < i)) = [] := List.filter_eq_nil_iff.2 fun x hx => by have := hl.1 x hx; simp; omega
      rw [List.filter_cons_of_pos (by simp), List.filter_cons_of_neg (by simp), List.filter_cons_of_pos (by simp), List.filter_cons_of_neg (by simp),
        e1, e2, e3, e4]
      exact ⟨rfl, rfl⟩
    · have ha := hl.1 i hi
      obtain ⟨h1, h2⟩ := ih hl.2 hi
      rw [List.filter_cons_of_neg (by simp; omega), List.filter_cons_of_neg (by simp; omega), List.filter_cons_of_pos (by simp; omega),
        List.filter_cons_of_pos (by simp; omega), h1, h2]
      simp

theorem filter_miss {l : List ℕ} {i : ℕ} (hi : i ∉ l) :
    (l.filter fun r => decide (i ≤ r)) = l.filter (fun r => decide (i + 1 ≤ r)) ∧
      (l.filter fun r => decide (r < i + 1)) = l.filter (fun r => decide (r < i)) := by
  constructor
  · refine List.filter_congr fun x hx => ?_
    have : x ≠ i := fun h => hi (h ▸ hx)
    simp; omega
  · refine List.filter_congr fun x hx => ?_
    have : x ≠ i := fun h => hi (h ▸ hx)
    simp; omega

theorem foldl_max_le {l : List ℕ} {b : ℕ} (h : ∀ x ∈ l, x ≤ b) (a : ℕ) (ha : a ≤ b) : l.foldl max a ≤ b := by
  induction l generalizing a with
  | nil => exact ha
  | cons x l ih => exact ih (fun y hy => h y (by simp [hy])) _ (max_le ha (h x (by simp)))

/-- The start of the session before bar `i`. -/
def start (resets : List ℕ) (i : ℕ) : ℕ := (resets.filter fun r => decide (r < i)).foldl max 0

theorem start_le (resets : List ℕ) (i : ℕ) : start resets i ≤ i :=
  foldl_max_le (fun x hx => by have := (List.mem_filter.1 hx).2; simp at this; omega) 0 (Nat.zero_le _)

theorem lastReset_eq (resets : List ℕ) (i : ℕ) : lastReset resets i = start resets (i + 1) := by
  simp only [lastReset, start, Nat.lt_succ_iff]

theorem start_hit {resets : List ℕ} (hl : resets.Pairwise (· < ·)) {i : ℕ} (hi : i ∈ resets) : start resets (i + 1) = i := by
  rw [start, (filter_hit hl hi).2, List.foldl_append]
  exact max_eq_right (start_le resets i)

theorem start_miss {resets : List ℕ} {i : ℕ} (hi : i ∉ resets) : start resets (i + 1) = start resets i := by
  rw [start, (filter_miss hi).2]; rfl

/-- The queue of resets before bar `i`: the ones to come, then the ones that have been. -/
def queue (resets : List ℕ) (i : ℕ) : List ℕ := (resets.filter fun r => decide (i ≤ r)) ++ resets.filter fun r => decide (r < i)

theorem queue_ne {resets : List ℕ} (h : resets ≠ []) (i : ℕ) : queue resets i ≠ [] := by
  obtain ⟨r, hr⟩ := List.exists_mem_of_ne_nil _ h
  refine List.ne_nil_of_mem (a := r) ?_
  simp only [queue, List.mem_append, List.mem_filter, decide_eq_true_eq]
  rcases Nat.lt_or_ge r i with g | g
  · exact .inr ⟨hr, g⟩
  · exact .inl ⟨hr, g⟩

theorem queue_zero (resets : List ℕ) : queue resets 0 = resets := by
  simp [queue]

theorem queue_hit {resets : List ℕ} (hl : resets.Pairwise (· < ·)) {i : ℕ} (hi : i ∈ resets) :
    ∃ rs, queue resets i = i :: rs ∧ queue resets (i + 1) = rs ++ [i] := by
  obtain ⟨h1, h2⟩ := filter_hit hl hi
  refine ⟨_, by rw [queue, h1]; rfl, ?_⟩
  rw [queue, h2]; simp

theorem queue_miss {resets : List ℕ} {i : ℕ} (hi : i ∉ resets) :
    queue resets (i + 1) = queue resets i ∧ ∀ r rs, queue resets i = r :: rs → i ≠ r := by
  obtain ⟨h1, h2⟩ := filter_miss hi
  refine ⟨by rw [queue, queue, h1, h2], fun r rs e h => hi ?_⟩
  have : r ∈ queue resets i := by rw [e]; simp
  simp only [queue, List.mem_append, List.mem_filter] at this
  rw [h]
  exact this.elim And.left And.left

theorem drop_take_succ {α : Type} {l : List α} {s i : ℕ} {x : α} (hs : s ≤ i) (hx : l[i]? = some x) :
    (l.drop s).take (i + 1 - s) = (l.drop s).take (i - s) ++ [x] := by
  rw [show i + 1 - s = i - s + 1 by omega, List.take_add_one, List.getElem?_drop, show s + (i - s) = i by omega, hx]
  rfl

/-- C51: `vwap` is the volume weighted mean of the typical price over the bars since the last reset, for every strictly increasing reset list
(finite bars): the sum of typical price times volume over the sum of the volume. -/
theorem vwap_reports (high low close volume : List XF) (resetIdx : Option (List ℕ)) (hl : low.length = high.length)
    (hc : close.length = high.length) (hv : volume.length = high.length) (fh : Fins high) (fl : Fins low) (fc : Fins close) (fv : Fins volume)
    (hr : resetIdx ≠ some []) (hp : (resetIdx.getD [close.length]).Pairwise (· < ·)) :
    ReportsP high.length 0 (fun i => QuotIs
      ((session (zip4 (vals high) (vals low) (vals close) (vals volume)) (resetIdx.getD [close.length]) i).map fun b => typical b * b.2.2.2).sum
      ((session (zip4 (vals high) (vals low) (vals close) (vals volume)) (resetIdx.getD [close.length]) i).map fun b => b.2.2.2).sum)
      (vwap high low close volume resetIdx) := by
  refine (vwap_aligned high low close volume resetIdx hl hc hv hr).reportsP fun out ho i y hi hy => ?_
  unfold vwap at ho
  have hne : resetIdx.getD [close.length] ≠ [] := by
    cases resetIdx with
    | none => simp
    | some l => simpa using hr
  generalize hR : resetIdx.getD [close.length] = R at ho hp hne ⊢
  simp only at ho
  rw [zip4_vals]
  set B := zip4 high low close volume with hB
  refine scanM_idx
    (I := fun i (s : VwapState XF) => s.resets = queue R i ∧
      s.tpv ⇓ ((((B.map barVal).drop (start R i)).take (i - start R i)).map fun b => typical b * b.2.2.2).sum ∧
      s.vol ⇓ ((((B.map barVal).drop (start R i)).take (i - start R i)).map fun b => b.2.2.2).sum)
    (P := fun i y => QuotIs ((session (B.map barVal) R i).map fun b => typical b * b.2.2.2).sum ((session (B.map barVal) R i).map fun b => b.2.2.2).sum y)
    ?_ ⟨(queue_zero R).symm, by simpa [start] using is_zero, by simpa [start] using is_zero⟩ ho i y hy
  rintro i s ⟨j, h, l, c, v⟩ s' y hx ⟨hq, h1, h2⟩ e
  rw [List.getElem?_zip_eq_some] at hx
  obtain ⟨hj, hb⟩ := hx
  have hj : j = i := by
    obtain ⟨_, hj⟩ := List.getElem?_eq_some_iff.1 hj
    simpa using hj.symm
  subst hj
  obtain ⟨e1, e2, e3, e4⟩ := zip4_getElem?.1 (hB ▸ hb)
  have ch := (fh _ (List.mem_of_getElem? e1)).is
  have cl := (fl _ (List.mem_of_getElem? e2)).is
  have cc := (fc _ (List.mem_of_getElem? e3)).is
  have cv := (fv _ (List.mem_of_getElem? e4)).is
  have ct : (h + l + c) / 3 * v ⇓ typical (barVal (h, l, c, v)) * (barVal (h, l, c, v)).2.2.2 :=
    is_mul (is_div (is_add (is_add ch cl) cc) (is_lit 3) (by norm_num)) cv
  have hm : (B.map barVal)[j]? = some (barVal (h, l, c, v)) := by rw [List.getElem?_map, hb]; rfl
  -- what the sums are after adding the bar
  have key : ∀ (a b : XF) (st : ℕ), st ≤ j → a ⇓ ((((B.map barVal).drop st).take (j - st)).map fun b => typical b * b.2.2.2).sum →
      b ⇓ ((((B.map barVal).drop st).take (j - st)).map fun b => b.2.2.2).sum →
      a + (h + l + c) / 3 * v ⇓ ((((B.map barVal).drop st).take (j + 1 - st)).map fun b => typical b * b.2.2.2).sum ∧
      b + v ⇓ ((((B.map barVal).drop st).take (j + 1 - st)).map fun b => b.2.2.2).sum := by
    intro a b st hst ha hb
    rw [drop_take_succ hst hm]
    exact ⟨(is_add ha ct).congr (by simp), (is_add hb cv).congr (by simp [barVal])⟩
  have fin : ∀ (a b : XF), a ⇓ ((((B.map barVal).drop (start R (j + 1))).take (j + 1 - start R (j + 1))).map fun b => typical b * b.2.2.2).sum →
      b ⇓ ((((B.map barVal).drop (start R (j + 1))).take (j + 1 - start R (j + 1))).map fun b => b.2.2.2).sum →
      QuotIs ((session (B.map barVal) R j).map fun b => typical b * b.2.2.2).sum ((session (B.map barVal) R j).map fun b => b.2.2.2).sum (a / b) := by
    intro a b ha hb
    have := start_le R (j + 1)
    rw [session, recent, lastReset_eq, show j + 1 - (j + 1 - start R (j + 1)) = start R (j + 1) by omega]
    exact quotIs ha hb
  by_cases hjR : j ∈ R
  · obtain ⟨rs, q1, q2⟩ := queue_hit hp hjR
    have hst := start_hit hp hjR
    simp only [vwapStep, hq, q1, if_true, Option.some.injEq, Prod.mk.injEq] at e
    obtain ⟨rfl, rfl⟩ := e
    obtain ⟨k1, k2⟩ := key 0 0 j le_rfl (by simpa using is_zero) (by simpa using is_zero)
    exact ⟨⟨q2.symm, by rw [hst]; exact k1, by rw [hst]; exact k2⟩, fin _ _ (by rw [hst]; exact k1) (by rw [hst]; exact k2)⟩
  · obtain ⟨q1, q2⟩ := queue_miss hjR
    have hst := start_miss hjR
    obtain ⟨r, rs, eq⟩ := List.exists_cons_of_ne_nil (queue_ne hne j)
    simp only [vwapStep, hq, eq, if_neg (q2 r rs eq), Option.some.injEq, Prod.mk.injEq] at e
    obtain ⟨rfl, rfl⟩ := e
    obtain ⟨k1, k2⟩ := key s.tpv s.vol (start R j) (start_le R j) h1 h2
    rw [← hst] at k1 k2
    exact ⟨⟨by rw [q1, eq], k1, k2⟩, fin _ _ k1 k2⟩

/-- A quotient of a weighted sum by the sum of its non-negative, not all zero weights lies where the values lie. -/
theorem quotIs_within {α : Type} {s : List α} {x v : α → ℝ} {lo hi : ℝ} {y : XF} (h : QuotIs (s.map fun b => x b * v b).sum (s.map v).sum y)
    (hv : ∀ b ∈ s, 0 ≤ v b) (hs : ∃ b ∈ s, v b ≠ 0) (hx : ∀ b ∈ s, lo ≤ x b ∧ x b ≤ hi) : ∃ r, y ⇓ r ∧ lo ≤ r ∧ r ≤ hi := by
  have pos : 0 < (s.map v).sum := by
    obtain ⟨b, hb, h0⟩ := hs
    have h1 : 0 < v b := lt_of_le_of_ne (hv b hb) (Ne.symm h0)
    have h2 := List.single_le_sum (l := s.map v) (by intro z hz; obtain ⟨c, hc, rfl⟩ := List.mem_map.1 hz; exact hv c hc) (v b) (List.mem_map_of_mem hb)
    linarith
  refine ⟨_, h.1 pos.ne', ?_⟩
  have := within_dot (lo := lo) (hi := hi) (ws := s.map v) (l := s.map x) (by
    intro z hz; obtain ⟨c, hc, rfl⟩ := List.mem_map.1 hz; exact hx c hc) (by
    intro z hz; obtain ⟨c, hc, rfl⟩ := List.mem_map.1 hz; exact hv c hc) (by simp)
  have e : (((s.map v).zip (s.map x)).map fun p => p.1 * p.2).sum = (s.map fun b => x b * v b).sum := by
    rw [List.zip_map', List.map_map]
    congr 1
    exact List.map_congr_left fun b _ => mul_comm _ _
  rw [e] at this
  rw [le_div_iff₀ pos, div_le_iff₀ pos]
  exact this

/-- C51: for non-negative volumes that are not all zero since the last reset, `vwap` lies between the lowest and the highest typical price
since the last reset. -/
theorem vwap_within (high low close volume : List XF) (resetIdx : Option (List ℕ)) (hl : low.length = high.length)
    (hc : close.length = high.length) (hv : volume.length = high.length) (fh : Fins high) (fl : Fins low) (fc : Fins close) (fv : Fins volume)
    (hr : resetIdx ≠ some []) (hp : (resetIdx.getD [close.length]).Pairwise (· < ·)) (v0 : ∀ v ∈ volume, 0 ≤ v.val)
    {i : ℕ} {y : XF} {out : List XF} (ho : vwap high low close volume resetIdx = some out) (hy : out[i]? = some y)
    (hs : ∃ b ∈ session (zip4 (vals high) (vals low) (vals close) (vals volume)) (resetIdx.getD [close.length]) i, b.2.2.2 ≠ 0) {lo hi : ℝ}
    (hb : ∀ b ∈ session (zip4 (vals high) (vals low) (vals close) (vals volume)) (resetIdx.getD [close.length]) i, lo ≤ typical b ∧ typical b ≤ hi) :
    ∃ r, y ⇓ r ∧ lo ≤ r ∧ r ≤ hi := by
  obtain ⟨_, e, h1, -, h3⟩ := vwap_reports high low close volume resetIdx hl hc hv fh fl fc fv hr hp
  cases ho.symm.trans e
  have hi := (List.getElem?_eq_some_iff.1 hy).1
  obtain ⟨z, hz, hq⟩ := h3 i (Nat.zero_le _) (by omega)
  cases hy.symm.trans hz
  refine quotIs_within hq (fun b hb => ?_) hs hb
  obtain ⟨b1, b2, b3, b4⟩ := b
  obtain ⟨j, hj⟩ := List.mem_iff_getElem?.1 (List.mem_of_mem_drop (List.mem_of_mem_take hb))
  have := (zip4_getElem?.1 hj).2.2.2
  rw [vals_getElem?, Option.map_eq_some_iff] at this
  obtain ⟨v, hv, rfl⟩ := this
  exact v0 _ (List.mem_of_getElem? hv)

/-- C51: `vwma` is the volume weighted mean of the last `w` values. -/
theorem vwma_reports (data volume : List XF) (w : ℕ) (hv : volume.length = data.length) (hw : 1 ≤ w) (hn : w ≤ data.length + 1) (hd : Fins data)
    (hf : Fins volume) :
    ReportsP data.length (w - 1) (fun i => QuotIs ((((recent (vals data) w i).zip (recent (vals volume) w i)).map fun p => p.1 * p.2).sum)
      (recent (vals volume) w i).sum) (vwma data volume w) := by
  run_model [vwma]
  refine reportsP_windows2 hw hv hn fun i h1 h2 => ?_
  refine quotIs ?_ ?_
  · refine (foldl_add_is (t := fun p : XF × XF => p.1 * p.2) (v := fun p => p.1.val * p.2.val) is_zero fun p hp => ?_).congr ?_
    · exact is_mul (hd.recent w i _ (List.of_mem_zip hp).1).is (hf.recent w i _ (List.of_mem_zip hp).2).is
    · rw [zero_add, ← recent_vals, ← recent_vals]
      simp [vals, List.zip_map, Function.comp_def]
  · rw [← recent_vals]
    exact (hf.recent w i).fsum

/-- C51: for non-negative volumes that are not all zero in the window, `vwma` lies between the lowest and the highest value of the window. -/
theorem vwma_within (data volume : List XF) (w : ℕ) (hv : volume.length = data.length) (hw : 1 ≤ w) (hn : w ≤ data.length + 1) (hd : Fins data)
    (hf : Fins volume) (v0 : ∀ v ∈ volume, 0 ≤ v.val) {i : ℕ} {y : XF} {out : List XF} (ho : vwma data volume w = some out) (hi : w ≤ i + 1)
    (hy : out[i]? = some y) (hs : ∃ v ∈ recent (vals volume) w i, v ≠ 0) {lo hi : ℝ} (hb : Within lo hi (recent (vals data) w i)) :
    ∃ r, y ⇓ r ∧ lo ≤ r ∧ r ≤ hi := by
  obtain ⟨_, e, h1, -, h3⟩ := vwma_reports data volume w hv hw hn hd hf
  cases ho.symm.trans e
  have hlt := (List.getElem?_eq_some_iff.1 hy).1
  obtain ⟨z, hz, hq⟩ := h3 i (by omega) (by omega)
  cases hy.symm.trans hz
  have l1 : (recent (vals data) w i).length = w := recent_length (by omega) (by simp; omega)
  have l2 : (recent (vals volume) w i).length = w := recent_length (by omega) (by simp; omega)
  have e2 : recent (vals volume) w i = ((recent (vals data) w i).zip (recent (vals volume) w i)).map (·.2) := by
    rw [List.map_snd_zip]; omega
  have hq' : QuotIs (((recent (vals data) w i).zip (recent (vals volume) w i)).map fun p => p.1 * p.2).sum
      (((recent (vals data) w i).zip (recent (vals volume) w i)).map fun p => p.2).sum y := by
    rw [← e2]; exact hq
  refine quotIs_within hq' (fun p hp => ?_) ?_ fun p hp => hb _ (List.of_mem_zip hp).1
  · have := List.mem_of_mem_drop (List.mem_of_mem_take (List.of_mem_zip hp).2)
    obtain ⟨v, hv, e⟩ := List.mem_map.1 this
    rw [← e]
    exact v0 _ hv
  · obtain ⟨v, hv, h0⟩ := hs
    rw [e2] at hv
    obtain ⟨p, hp, rfl⟩ := List.mem_map.1 hv
    exact ⟨p, hp, h0⟩

/-! ## Corner cases of the reset list -/

section anyF
variable {F : Type} [FloatOps F]

/-- C52, in every arithmetic: `vwap` panics on an empty reset list as soon as there is a bar. -/
theorem vwap_empty_panics (h l c v : F) (high low close volume : List F) :
    vwap (h :: high) (l :: low) (c :: close) (v :: volume) (some []) = none := by
  simp [vwap, zip4, List.range_succ_eq_map, scanM, vwapStep]

/-- Two scans in step. -/
theorem scanM_sim {σ τ α β : Type} {f : σ → α → Option (σ × β)} {g : τ → α → Option (τ × β)} {R : ℕ → σ → τ → Prop} {l : List α}
    (h : ∀ i s t x, l[i]? = some x → R i s t → ∃ s' t' y, f s x = some (s', y) ∧ g t x = some (t', y) ∧ R (i + 1) s' t') {s : σ} {t : τ}
    (h0 : R 0 s t) : scanM f s l = scanM g t l := by
  induction l generalizing s t R with
  | nil => rfl
  | cons x l ih =>
    obtain ⟨s', t', y, e1, e2, hR⟩ := h 0 s t x rfl h0
    have := ih (R := fun i => R (i + 1)) (fun i s t x hx => h (i + 1) s t x (by simpa using hx)) hR
    simp only [scanM, e1, e2, this]

/-- One step of `vwap` depends on the reset list through its head only. -/
theorem vwapStep_eq (s : VwapState F) (i : ℕ) (b : Bar F) (r : ℕ) (rs : List ℕ) (e : s.resets = r :: rs) :
    vwapStep s (i, b) = some
      ({ tpv := (if i = r then 0 else s.tpv) + (b.1 + b.2.1 + b.2.2.1) / 3 * b.2.2.2, vol := (if i = r then 0 else s.vol) + b.2.2.2,
         resets := if i = r then rs ++ [r] else r :: rs },
        ((if i = r then 0 else s.tpv) + (b.1 + b.2.1 + b.2.2.1) / 3 * b.2.2.2) / ((if i = r then 0 else s.vol) + b.2.2.2)) := by
  obtain ⟨h, l, c, v⟩ := b
  simp only [vwapStep, e]
  split <;> rfl

/-- C52, in every arithmetic: if the (otherwise sorted) reset list names an index twice, every reset after it is silently lost: the result is
the one for the list that ends with the first occurrence. -/
theorem vwap_repeated_reset (high low close volume : List F) (pre post : List ℕ) (a : ℕ) (hp : (pre ++ [a]).Pairwise (· < ·)) :
    vwap high low close volume (some (pre ++ a :: a :: post)) = vwap high low close volume (some (pre ++ [a])) := by
  unfold vwap
  simp only [Option.getD_some]
  have hpa : ∀ x ∈ pre, x < a := fun x hx => (List.pairwise_append.1 hp).2.2 x hx a (by simp)
  have hpp : pre.Pairwise (· < ·) := (List.pairwise_append.1 hp).1
  refine scanM_sim (R := fun i (s t : VwapState F) => s.tpv = t.tpv ∧ s.vol = t.vol ∧
    ((i ≤ a ∧ s.resets = (pre.filter fun r => decide (i ≤ r)) ++ a :: a :: post ++ pre.filter (fun r => decide (r < i)) ∧
        t.resets = (pre.filter fun r => decide (i ≤ r)) ++ a :: pre.filter (fun r => decide (r < i))) ∨
      (∃ r rs q qs, s.resets = r :: rs ∧ t.resets = q :: qs ∧ r < i ∧ q < i))) ?_ ?_
  · rintro i s t ⟨j, b⟩ hx ⟨h1, h2, h3⟩
    have hj : j = i := by
      rw [List.getElem?_zip_eq_some] at hx
      obtain ⟨_, hj⟩ := List.getElem?_eq_some_iff.1 hx.1
      simpa using hj.symm
    subst hj
    rcases h3 with ⟨hja, e1, e2⟩ | ⟨r, rs, q, qs, e1, e2, hr, hq⟩
    · rcases Nat.lt_or_ge j a with hlt | hge
      · by_cases hm : j ∈ pre
        · obtain ⟨f1, f2⟩ := filter_hit hpp hm
          rw [f1] at e1 e2
          rw [vwapStep_eq s j b _ _ e1, vwapStep_eq t j b _ _ e2]
          simp only [if_true]
          refine ⟨_, _, _, rfl, rfl, rfl, rfl, .inl ⟨hlt, ?_, ?_⟩⟩
          · simp only [f2]; simp
          · simp only [f2]; simp
        · obtain ⟨f1, f2⟩ := filter_miss hm
          have hd : ∃ r rs qs, s.resets = r :: rs ∧ t.resets = r :: qs ∧ j ≠ r := by
            cases hf : pre.filter fun r => decide (j ≤ r) with
            | nil => exact ⟨a, _, _, by rw [e1, hf]; rfl, by rw [e2, hf]; rfl, by omega⟩
            | cons r rs =>
              have : r ∈ pre := (List.mem_filter.1 (by rw [hf]; simp : r ∈ pre.filter fun r => decide (j ≤ r))).1
              exact ⟨r, _, _, by rw [e1, hf]; rfl, by rw [e2, hf]; rfl, fun h => hm (h ▸ this)⟩
          obtain ⟨r, rs, qs, g1, g2, hne⟩ := hd
          rw [vwapStep_eq s j b _ _ g1, vwapStep_eq t j b _ _ g2]
          simp only [if_neg hne, h1, h2]
          refine ⟨_, _, _, rfl, rfl, rfl, rfl, .inl ⟨hlt, ?_, ?_⟩⟩
          · simp only; rw [← g1, e1, f1, f2]
          · simp only; rw [← g2, e2, f1, f2]
      · obtain rfl : j = a := by omega
        have f1 : (pre.filter fun r => decide (j ≤ r)) = [] := List.filter_eq_nil_iff.2 fun x hx => by have := hpa x hx; simp; omega
        have f2 : (pre.filter fun r => decide (r < j)) = pre := List.filter_eq_self.2 fun x hx => by have := hpa x hx; simp; omega
        rw [f1, f2] at e1 e2
        simp only [List.nil_append, List.cons_append] at e1 e2
        rw [vwapStep_eq s j b _ _ e1, vwapStep_eq t j b _ _ e2]
        simp only [if_true]
        refine ⟨_, _, _, rfl, rfl, rfl, rfl, .inr ?_⟩
        cases pre with
        | nil => exact ⟨_, _, _, _, rfl, rfl, by omega, by omega⟩
        | cons p pre => exact ⟨_, _, _, _, rfl, rfl, by omega, by have := hpa p (by simp); omega⟩
    · rw [vwapStep_eq s j b _ _ e1, vwapStep_eq t j b _ _ e2]
      simp only [if_neg (by omega : j ≠ r), if_neg (by omega : j ≠ q), h1, h2]
      exact ⟨_, _, _, rfl, rfl, rfl, rfl, .inr ⟨_, _, _, _, rfl, rfl, by omega, by omega⟩⟩
  · refine ⟨rfl, rfl, .inl ⟨Nat.zero_le _, ?_, ?_⟩⟩ <;> simp

end anyF

/-! ## Examples -/

example : (some [2, 4]).getD [5] = [2, 4] ∧ lastReset [2, 4] 3 = 2 ∧ lastReset [2, 4] 1 = 0 ∧ lastReset [2, 4] 7 = 4 := by decide

example : ReportsP 3 0 (fun i => QuotIs
      ((session (zip4 [3, 5, 4] [1, 2, 2] [2, 5, 3] [5, 6, 0]) [1] i).map fun b => typical b * b.2.2.2).sum
      ((session (zip4 [3, 5, 4] [1, 2, 2] [2, 5, 3] [5, 6, 0]) [1] i).map fun b : ℝ × ℝ × ℝ × ℝ => b.2.2.2).sum)
    (vwap [fin 3, fin 5, fin 4] [fin 1, fin 2, fin 2] [fin 2, fin 5, fin 3] [fin 5, fin 6, (fin 0 : XF)] (some [1])) := by
  have := vwap_reports [fin 3, fin 5, fin 4] [fin 1, fin 2, fin 2] [fin 2, fin 5, fin 3] [fin 5, fin 6, fin 0] (some [1]) rfl rfl rfl
    (by simp [Fins, FP.Finite]) (by simp [Fins, FP.Finite]) (by simp [Fins, FP.Finite]) (by simp [Fins, FP.Finite]) (by simp) (by simp)
  exact this

example : ReportsP 3 1 (fun i => QuotIs ((((recent [3, 5, 4] 2 i).zip (recent [1, 0, 2] 2 i)).map fun p => p.1 * p.2).sum)
      (recent [1, 0, 2] 2 i).sum) (vwma [fin 3, fin 5, fin 4] [fin 1, fin 0, (fin 2 : XF)] 2) := by
  have := vwma_reports [fin 3, fin 5, fin 4] [fin 1, fin 0, fin 2] 2 rfl (by norm_num) (by norm_num) (by simp [Fins, FP.Finite]) (by simp [Fins, FP.Finite])
  simpa [vals, FP.val] using this

/-- Resets at 3, 3 and 7: the one at 7 is lost. -/
example (high low close volume : List XF) : vwap high low close volume (some [3, 3, 7]) = vwap high low close volume (some [3]) :=
  vwap_repeated_reset high low close volume [] [7] 3 (by simp)

end Traquer.Volume
