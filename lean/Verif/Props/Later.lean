import Verif.Spec.Later
import Verif.Props.Accumulate
import Verif.Props.ForecastErrors
import Verif.Props.Vwap
import Verif.Props.MomentumFormulas
/-!
# C108: where the series starts

Cutting off the first bars changes a running total by a constant, an index by a constant factor, and nothing at all in a session that
starts later.
-/

namespace Traquer
open FP FloatLit
open scoped BigOperators
variable {ρ : Rounding}

theorem bar_drop (l : List ℝ) (k j : ℕ) : bar (l.drop k) j = bar l (j + k) := by
  simp [bar, List.getD_eq_getElem?_getD, Nat.add_comm]

theorem drop_zip' {α β : Type} (a : List α) (b : List β) (k : ℕ) : (a.zip b).drop k = (a.drop k).zip (b.drop k) := by
  induction k generalizing a b with
  | zero => simp
  | succ k ih => cases a <;> cases b <;> simp [ih]

theorem Accumulates.later {n k₀ k w : ℕ} {t t' : ℕ → ℝ} {r r' : Option (List (FP ρ))} (h : Accumulates n k₀ t r) (h' : Accumulates (n - k) k₀ t' r')
    (hk : k ≤ n) (hw : k₀ ≤ w) (ht : ∀ m, w ≤ m → m < n - k → t' m = t (m + k)) : LaterAdds k w r r' := by
  obtain ⟨out, e, l, -, v⟩ := h
  obtain ⟨out', e', l', -, v'⟩ := h'
  refine ⟨out, out', (∑ m ∈ Finset.Ico k₀ (w + k), t m) - ∑ m ∈ Finset.Ico k₀ w, t' m, e, e', by omega, fun i hi hin => ?_⟩
  obtain ⟨x, hx, vx⟩ := v (i + k) (by omega) (by omega)
  obtain ⟨y, hy, vy⟩ := v' i (by omega) (by omega)
  refine ⟨x, y, _, hx, hy, vx.congr ?_, vy⟩
  beta_reduce
  rw [← Finset.sum_Ico_consecutive t (show k₀ ≤ w + k by omega) (show w + k ≤ i + k + 1 by omega),
    ← Finset.sum_Ico_consecutive t' (show k₀ ≤ w by omega) (show w ≤ i + 1 by omega),
    show i + k + 1 = i + 1 + k by omega, ← Finset.sum_Ico_add' t w (i + 1) k,
    Finset.sum_congr rfl fun m hm => (ht m (Finset.mem_Ico.1 hm).1 (by have := (Finset.mem_Ico.1 hm).2; omega)).symm]
  ring

end Traquer

namespace Traquer.Volume
open FP FloatLit
open scoped BigOperators

section
variable {close volume : List XF} (hv : volume.length = close.length) {k : ℕ} (hk : k < close.length) (hc : Fins close) (hf : Fins volume)
include hv hk hc hf

/-- C108: cutting the first `k` bars off lowers the rest of `obv` by a constant. -/
theorem obv_later (hz : ∀ x ∈ close, x ≠ negz) : LaterAdds k 1 (obv close volume) (obv (close.drop k) (volume.drop k)) := by
  have h := obv_accumulates close volume hv (by omega) hc hf hz
  have h' := obv_accumulates (close.drop k) (volume.drop k) (by simp [hv]) (by simp; omega) (hc.drop k) (hf.drop k)
    fun x hx => hz x (List.mem_of_mem_drop hx)
  rw [List.length_drop] at h'
  refine h.later h' hk.le le_rfl fun m hm _ => ?_
  simp only [obvTerm, vals_drop, bar_drop, show m - 1 + k = m + k - 1 by omega]

/-- C108: `vpt`. -/
theorem vpt_later (h0 : ∀ x ∈ close, x.val ≠ 0) : LaterAdds k 1 (vpt close volume) (vpt (close.drop k) (volume.drop k)) := by
  have h := vpt_accumulates close volume hv (by omega) hc hf h0
  have h' := vpt_accumulates (close.drop k) (volume.drop k) (by simp [hv]) (by simp; omega) (hc.drop k) (hf.drop k)
    fun x hx => h0 x (List.mem_of_mem_drop hx)
  rw [List.length_drop] at h'
  refine h.later h' hk.le le_rfl fun m hm _ => ?_
  simp only [vptTerm, vals_drop, bar_drop, show m - 1 + k = m + k - 1 by omega]

omit hv hk hc hf in
theorem tickUp_later {close : List ℝ} {t : ℝ} {k d : ℕ} (hd : t < |bar close (d + 1 + k) - bar close (d + k)|) (m : ℕ) (hm : d + 1 ≤ m) :
    tickUp (close.drop k) t m = tickUp close t (m + k) := by
  induction m, hm using Nat.le_induction with
  | base =>
    rw [show d + 1 + k = (d + k) + 1 by omega] at hd ⊢
    simp only [tickUp, bar_drop, show d + 1 + k = (d + k) + 1 by omega]
    rcases le_total 0 (bar close (d + k + 1) - bar close (d + k)) with h | h
    · rw [abs_of_nonneg h] at hd
      rw [if_pos hd, if_pos hd]
    · rw [abs_of_nonpos h] at hd
      have h2 : t < bar close (d + k) - bar close (d + k + 1) := by linarith
      rw [if_pos h2]
      simp [h2]
  | succ m hm ih =>
    rw [show m + 1 + k = (m + k) + 1 by omega]
    simp only [tickUp, bar_drop, show m + 1 + k = (m + k) + 1 by omega, ih]

/-- C108: `tvi`, from the first bar `d + 1` of the shorter series that moves by more than the tick. -/
theorem tvi_later {tick : XF} (ht : tick.Finite) {d : ℕ} (hd : tick.val < |bar (vals close) (d + 1 + k) - bar (vals close) (d + k)|) :
    LaterAdds k (d + 1) (tvi close volume tick) (tvi (close.drop k) (volume.drop k) tick) := by
  have h := tvi_accumulates close volume tick hv (by omega) hc hf ht
  have h' := tvi_accumulates (close.drop k) (volume.drop k) tick (by simp [hv]) (by simp; omega) (hc.drop k) (hf.drop k) ht
  rw [List.length_drop] at h'
  refine h.later h' hk.le (by omega) fun m hm _ => ?_
  simp only [tviTerm, vals_drop, bar_drop]
  rw [tickUp_later hd m hm]

omit hv hk hc hf in
theorem index_later {n : ℕ} {fac fac' : ℕ → ℝ} {r r' : Option (List XF)} (hk : k < n)
    (h : Reports n 1 (fun i => 100 * ∏ j ∈ Finset.Ico 1 (i + 1), fac j) r)
    (h' : Reports (n - k) 1 (fun i => 100 * ∏ j ∈ Finset.Ico 1 (i + 1), fac' j) r') (hf : ∀ m, 1 ≤ m → fac' m = fac (m + k)) : LaterScales k 1 r r' := by
  obtain ⟨out, e, l, -, v⟩ := h
  obtain ⟨out', e', l', -, v'⟩ := h'
  refine ⟨out, out', ∏ m ∈ Finset.Ico 1 (1 + k), fac m, e, e', by omega, fun i hi hin => ?_⟩
  obtain ⟨x, hx, vx⟩ := v (i + k) (by omega) (by omega)
  obtain ⟨y, hy, vy⟩ := v' i (by omega) (by omega)
  refine ⟨x, y, _, hx, hy, vx.congr ?_, vy⟩
  beta_reduce
  rw [← Finset.prod_Ico_consecutive fac (show 1 ≤ 1 + k by omega) (show 1 + k ≤ i + k + 1 by omega),
    show i + k + 1 = i + 1 + k by omega, ← Finset.prod_Ico_add' fac 1 (i + 1) k,
    Finset.prod_congr rfl fun m hm => (hf m (Finset.mem_Ico.1 hm).1).symm]
  ring

/-- C108: cutting the first `k` bars off changes the rest of `pvi` by a constant factor. -/
theorem pvi_later (h0 : ∀ x ∈ close, x.val ≠ 0) : LaterScales k 1 (some (pvi close volume)) (some (pvi (close.drop k) (volume.drop k))) := by
  have h := pvi_reports close volume hv (by omega) hc hf h0
  have h' := pvi_reports (close.drop k) (volume.drop k) (by simp [hv]) (by simp; omega) (hc.drop k) (hf.drop k)
    fun x hx => h0 x (List.mem_of_mem_drop hx)
  rw [List.length_drop] at h'
  refine index_later hk h h' fun m hm => ?_
  simp only [pviFactor, vals_drop, bar_drop, show m - 1 + k = m + k - 1 by omega]

/-- C108: `nvi`. -/
theorem nvi_later (h0 : ∀ x ∈ close, x.val ≠ 0) : LaterScales k 1 (some (nvi close volume)) (some (nvi (close.drop k) (volume.drop k))) := by
  have h := nvi_reports close volume hv (by omega) hc hf h0
  have h' := nvi_reports (close.drop k) (volume.drop k) (by simp [hv]) (by simp; omega) (hc.drop k) (hf.drop k)
    fun x hx => h0 x (List.mem_of_mem_drop hx)
  rw [List.length_drop] at h'
  refine index_later hk h h' fun m hm => ?_
  simp only [nviFactor, vals_drop, bar_drop, show m - 1 + k = m + k - 1 by omega]

end

section
variable {high low close volume : List XF} (hl : low.length = high.length) (hc : close.length = high.length)
  (hv : volume.length = high.length) {k : ℕ} (hk : k < high.length) (fh : Fins high) (fl : Fins low) (fc : Fins close) (fv : Fins volume)
include hl hc hv hk fh fl fc fv

/-- C108: `ad`, from the first bar of the shorter series on. -/
theorem ad_later (hr : ∀ (j : ℕ) (h l : XF), high[j]? = some h → low[j]? = some l → h.val ≠ l.val) :
    LaterAdds k 0 (ad high low close volume none) (ad (high.drop k) (low.drop k) (close.drop k) (volume.drop k) none) := by
  have h := ad_accumulates high low close volume hl hc hv (by omega) fh fl fc fv hr
  have h' := ad_accumulates (high.drop k) (low.drop k) (close.drop k) (volume.drop k) (by simp [hl]) (by simp [hc]) (by simp [hv]) (by simp; omega)
    (fh.drop k) (fl.drop k) (fc.drop k) (fv.drop k) fun j h l e1 e2 => by
      rw [List.getElem?_drop] at e1 e2
      exact hr _ h l e1 e2
  rw [List.length_drop] at h'
  refine h.later h' hk.le le_rfl fun m hm _ => ?_
  simp only [adTerm, vals_drop, bar_drop]

/-- C108: Williams' `ad`. -/
theorem ad_williams_later :
    LaterAdds k 1 (ad high low close volume (some true)) (ad (high.drop k) (low.drop k) (close.drop k) (volume.drop k) (some true)) := by
  have h := ad_williams_accumulates high low close volume hl hc hv (by omega) fh fl fc fv
  have h' := ad_williams_accumulates (high.drop k) (low.drop k) (close.drop k) (volume.drop k) (by simp [hl]) (by simp [hc]) (by simp [hv])
    (by simp; omega) (fh.drop k) (fl.drop k) (fc.drop k) (fv.drop k)
  rw [List.length_drop] at h'
  refine h.later h' hk.le le_rfl fun m hm _ => ?_
  simp only [adWilliamsTerm, vals_drop, bar_drop, show m - 1 + k = m + k - 1 by omega]

end

/-! ## Sessions -/

section
variable {F : Type} [FloatOps F]

theorem zip4_drop {α β γ δ : Type} (a : List α) (b : List β) (c : List γ) (d : List δ) (k : ℕ) :
    zip4 (a.drop k) (b.drop k) (c.drop k) (d.drop k) = (zip4 a b c d).drop k := by
  induction k generalizing a b c d with
  | zero => simp
  | succ k ih => cases a <;> cases b <;> cases c <;> cases d <;> simp [zip4, ih]

/-- The closed form of `vwap`, in every arithmetic. -/
theorem vwap_closed (high low close volume : List F) {resetIdx : Option (List ℕ)} (hr : resetIdx ≠ some [])
    (hp : (resetIdx.getD [close.length]).Pairwise (· < ·)) {out : List F} (ho : vwap high low close volume resetIdx = some out)
    (i : ℕ) (y : F) (hy : out[i]? = some y) :
    y = (session (zip4 high low close volume) (resetIdx.getD [close.length]) i).foldl (fun a b => a + (b.1 + b.2.1 + b.2.2.1) / 3 * b.2.2.2) 0 /
      (session (zip4 high low close volume) (resetIdx.getD [close.length]) i).foldl (fun a b => a + b.2.2.2) 0 := by
  unfold vwap at ho
  have hne : resetIdx.getD [close.length] ≠ [] := by
    cases resetIdx with
    | none => simp
    | some l => simpa using hr
  generalize hR : resetIdx.getD [close.length] = R at ho hp hne ⊢
  simp only at ho
  set B := zip4 high low close volume with hB
  set T : F → Bar F → F := fun a b => a + (b.1 + b.2.1 + b.2.2.1) / 3 * b.2.2.2 with hT
  set V : F → Bar F → F := fun a b => a + b.2.2.2 with hV
  refine scanM_idx
    (I := fun i (s : VwapState F) => s.resets = queue R i ∧ s.tpv = ((B.drop (start R i)).take (i - start R i)).foldl T 0 ∧
      s.vol = ((B.drop (start R i)).take (i - start R i)).foldl V 0)
    (P := fun i y => y = (session B R i).foldl T 0 / (session B R i).foldl V 0)
    ?_ ⟨(queue_zero R).symm, by simp [start], by simp [start]⟩ ho i y hy
  rintro i s ⟨j, b⟩ s' y hx ⟨hq, h1, h2⟩ e
  rw [List.getElem?_zip_eq_some] at hx
  obtain ⟨hj, hb⟩ := hx
  obtain rfl := range_getElem hj
  obtain ⟨r, rs, eq⟩ := List.exists_cons_of_ne_nil (queue_ne hne j)
  have es : session B R j = (B.drop (start R (j + 1))).take (j + 1 - start R (j + 1)) := by
    have := start_le R (j + 1)
    rw [session, recent, lastReset_eq, show j + 1 - (j + 1 - start R (j + 1)) = start R (j + 1) by omega]
  rw [vwapStep_eq s j b r rs (hq.trans eq)] at e
  cases e
  by_cases hjR : j ∈ R
  · obtain ⟨rs', q1, q2⟩ := queue_hit hp hjR
    have hst := start_hit hp hjR
    obtain ⟨rfl, rfl⟩ : r = j ∧ rs = rs' := by rw [q1] at eq; cases eq; exact ⟨rfl, rfl⟩
    have ed : (B.drop r).take (r + 1 - r) = [b] := by
      have := drop_take_succ (le_refl r) hb
      simpa using this
    simp only [if_true, es, hst, ed]
    exact ⟨⟨q2.symm, rfl, rfl⟩, rfl⟩
  · obtain ⟨q1, q2⟩ := queue_miss hjR
    have hst := start_miss hjR
    simp only [if_neg (q2 r rs eq), es, hst, drop_take_succ (start_le R j) hb, List.foldl_append, ← h1, ← h2]
    exact ⟨⟨by rw [q1, eq], rfl, rfl⟩, rfl⟩

/-- C108, in every arithmetic and to the bit: the value of `vwap` at a bar is what a fresh call on the bars since the last reset, that knows of no
reset, reports for that bar. -/
theorem vwap_session (high low close volume : List F) (resets : List ℕ) (hl : low.length = high.length)
    (hc : close.length = high.length) (hv : volume.length = high.length) (hr : resets ≠ []) (hp : resets.Pairwise (· < ·))
    (i : ℕ) (hi : i < high.length) :
    ∃ out out', vwap high low close volume (some resets) = some out ∧
      vwap (high.drop (lastReset resets i)) (low.drop (lastReset resets i)) (close.drop (lastReset resets i)) (volume.drop (lastReset resets i)) none =
        some out' ∧ ∃ y, out[i]? = some y ∧ out'[i - lastReset resets i]? = some y := by
  have hs : lastReset resets i ≤ i := by
    exact foldl_max_le (fun x hx => by simpa using (List.mem_filter.1 hx).2) 0 (Nat.zero_le _)
  set s := lastReset resets i with hs'
  obtain ⟨out, e, l, -⟩ := vwap_aligned high low close volume (some resets) hl hc hv (by simpa using hr)
  obtain ⟨out', e', l', -⟩ := vwap_aligned (high.drop s) (low.drop s) (close.drop s) (volume.drop s) none (by simp [hl]) (by simp [hc]) (by simp [hv]) (by simp)
  rw [List.length_drop] at l'
  refine ⟨out, out', e, e', out[i], List.getElem?_eq_getElem _, ?_⟩
  have h1 := vwap_closed high low close volume (resetIdx := some resets) (by simpa using hr) hp e i _ (List.getElem?_eq_getElem (by omega))
  have h2 := vwap_closed _ _ _ _ (by simp) (by simp) e' (i - s) _ (List.getElem?_eq_getElem (by omega))
  rw [List.getElem?_eq_getElem (by omega), h1, h2]
  have z : session (zip4 (high.drop s) (low.drop s) (close.drop s) (volume.drop s)) ((none : Option (List ℕ)).getD [(close.drop s).length]) (i - s) =
      session (zip4 high low close volume) ((some resets).getD [close.length]) i := by
    have h0 : lastReset [(close.drop s).length] (i - s) = 0 := by
      have : ¬ (close.drop s).length ≤ i - s := by rw [List.length_drop]; omega
      simp only [lastReset, List.filter_cons, List.filter_nil, this, decide_false]
      rfl
    have ez : zip4 (high.drop s) (low.drop s) (close.drop s) (volume.drop s) = (zip4 high low close volume).drop s := by
      exact zip4_drop _ _ _ _ s
    simp only [Option.getD_none, Option.getD_some, session, recent, h0, ← hs', ez]
    rw [List.drop_drop]
    congr 1
    · omega
    · congr 1; omega
  rw [z]

end

end Traquer.Volume

namespace Traquer.Regression
open FP FloatLit

theorem errors_drop (f : ℝ → ℝ → ℝ) (ds es : List ℝ) (k i : ℕ) :
    (errors f ds es (i + k)).sum = (((ds.zip es).take k).map fun p => f p.1 p.2).sum + (errors f (ds.drop k) (es.drop k) i).sum := by
  unfold errors
  rw [← drop_zip', ← List.sum_append, ← List.map_append, ← List.take_add, show k + (i + 1) = i + k + 1 by omega]

theorem averages_later {data estimate : List XF} {k : ℕ} (g : ℝ) {f : ℝ → ℝ → ℝ} {r r' : Option (List XF)} (hl : estimate.length = data.length)
    (h : Reports data.length 0 (fun i => g * mean (errors f (vals data) (vals estimate) i)) r)
    (h' : Reports (data.drop k).length 0 (fun i => g * mean (errors f (vals (data.drop k)) (vals (estimate.drop k)) i)) r') (hk : k ≤ data.length) :
    LaterAverages k r r' := by
  rw [List.length_drop] at h'
  obtain ⟨out, e, l, -, v⟩ := h
  obtain ⟨out', e', l', -, v'⟩ := h'
  refine ⟨out, out', g * ((((vals data).zip (vals estimate)).take k).map fun p => f p.1 p.2).sum, e, e', by omega, fun i hin => ?_⟩
  obtain ⟨x, hx, vx⟩ := v (i + k) (by omega) (by omega)
  obtain ⟨y, hy, vy⟩ := v' i (by omega) (by omega)
  refine ⟨x, y, _, _, hx, hy, vx, vy, ?_⟩
  beta_reduce
  rw [mean_errors _ _ hl (by omega), mean_errors _ _ (by simp [hl]) (by simp; omega), errors_drop, vals_drop, vals_drop]
  have h1 : ((i + k + 1 : ℕ) : ℝ) ≠ 0 := by positivity
  have h2 : ((i + 1 : ℕ) : ℝ) ≠ 0 := by positivity
  field_simp

section
variable {data estimate : List XF} (hl : estimate.length = data.length) (hd : Fins data) (he : Fins estimate) {k : ℕ} (hk : k ≤ data.length)
include hl hd he hk

/-- C108: `mse` of the whole series is the average of what the first `k` bars contribute and `mse` of the rest. -/
theorem mse_later : LaterAverages k (some (mse data estimate)) (some (mse (data.drop k) (estimate.drop k))) := by
  have h := mse_reports data estimate hl hd he
  have h' := mse_reports (data.drop k) (estimate.drop k) (by simp [hl]) (hd.drop k) (he.drop k)
  exact averages_later 1 hl (by simpa only [one_mul] using h) (by simpa only [one_mul] using h') hk

/-- C108: `mae`. -/
theorem mae_later : LaterAverages k (some (mae data estimate)) (some (mae (data.drop k) (estimate.drop k))) := by
  have h := mae_reports data estimate hl hd he
  have h' := mae_reports (data.drop k) (estimate.drop k) (by simp [hl]) (hd.drop k) (he.drop k)
  exact averages_later 1 hl (by simpa only [one_mul] using h) (by simpa only [one_mul] using h') hk

/-- C108: `mape`. -/
theorem mape_later (h0 : ∀ o ∈ data, o.val ≠ 0) : LaterAverages k (some (mape data estimate)) (some (mape (data.drop k) (estimate.drop k))) :=
  averages_later 100 hl (mape_reports data estimate hl hd he h0)
    (mape_reports (data.drop k) (estimate.drop k) (by simp [hl]) (hd.drop k) (he.drop k) fun o ho => h0 o (List.mem_of_mem_drop ho)) hk

/-- C108: `smape`. -/
theorem smape_later : LaterAverages k (some (smape data estimate)) (some (smape (data.drop k) (estimate.drop k))) :=
  averages_later 100 hl (smape_reports data estimate hl hd he)
    (smape_reports (data.drop k) (estimate.drop k) (by simp [hl]) (hd.drop k) (he.drop k)) hk

end

end Traquer.Regression

namespace Traquer.Trend
open FP FloatLit
open scoped BigOperators

/-- What `asi` adds at bar `i`. -/
noncomputable def asiTerm (L : ℝ) (o h l c : List ℝ) (i : ℕ) : ℝ :=
  Momentum.swingOf L (bar o (i - 1)) (bar o i) (bar h i) (bar l i) (bar c (i - 1)) (bar c i)

/-- The bar has a swing: not all of its prices and the close before are the same. -/
def Swings (o h l c : List ℝ) (i : ℕ) : Prop :=
  Momentum.swingR |bar h i - bar c (i - 1)| |bar l i - bar c (i - 1)| (bar h i - bar l i) (|bar c (i - 1) - bar o (i - 1)| / 4) ≠ 0

section
variable {openp high low close : List XF} {limit : XF} {L : ℝ} (ho : openp.length = high.length) (hl : low.length = high.length)
  (hc : close.length = high.length) (fo : Fins openp) (fh : Fins high) (fl : Fins low) (fc : Fins close) (hL : limit ⇓ L) (L0 : L ≠ 0)
include ho hl hc fo fh fl fc hL L0

theorem asi_sums (hn : 1 ≤ high.length) (hs : ∀ i, 1 ≤ i → i < high.length → Swings (vals openp) (vals high) (vals low) (vals close) i) :
    Accumulates high.length 1 (asiTerm L (vals openp) (vals high) (vals low) (vals close)) (asi openp high low close limit) := by
  obtain ⟨si, out, e1, e2, step⟩ := asi_accumulates openp high low close limit ho hl hc hn
  obtain ⟨si', e1', ls, -, vs⟩ := Momentum.si_reports openp high low close limit ho hl hc hn fo fh fl fc hL L0
  obtain rfl := Option.some.inj (e1.symm.trans e1')
  obtain ⟨out', e2', lo, -, w⟩ := asi_aligned openp high low close limit ho hl hc hn
  obtain rfl := Option.some.inj (e2.symm.trans e2')
  refine ⟨out, e2, lo, fun i h1 h2 => ?_, fun i h1 h2 => ?_⟩
  · obtain ⟨s, es, -⟩ := Momentum.swing_yields openp high low close limit ho hl hc hn
    have : asi openp high low close limit = some (nan :: scanS (fun acc x => acc + x) 0 s) := by run_model [asi, es]
    obtain rfl := Option.some.inj (e2.symm.trans this)
    obtain rfl : i = 0 := by omega
    rfl
  · induction i, h1 using Nat.le_induction with
    | base =>
      obtain ⟨x, y, s, hx, hy, hs', rfl⟩ := step 1 le_rfl h2
      obtain ⟨s', hs'', v, -⟩ := vs 1 le_rfl h2
      obtain rfl := Option.some.inj (hs'.symm.trans hs'')
      rw [if_pos rfl] at hx
      cases hx
      refine ⟨_, hy, (is_add is_zero (v (hs 1 le_rfl h2))).congr ?_⟩
      simp [asiTerm]
    | succ i h1 ih =>
      obtain ⟨x, y, s, hx, hy, hs', rfl⟩ := step (i + 1) (by omega) h2
      obtain ⟨s', hs'', v, -⟩ := vs (i + 1) (by omega) h2
      obtain rfl := Option.some.inj (hs'.symm.trans hs'')
      rw [if_neg (by omega), Nat.add_sub_cancel] at hx
      obtain ⟨x', hx', vx⟩ := ih (by omega)
      obtain rfl := Option.some.inj (hx.symm.trans hx')
      refine ⟨_, hy, (is_add vx (v (hs (i + 1) (by omega) h2))).congr ?_⟩
      beta_reduce
      rw [Finset.sum_Ico_succ_top (show 1 ≤ i + 1 by omega)]
      rfl

/-- C108: `asi`, on bars that swing. -/
theorem asi_later {k : ℕ} (hk : k < high.length) (hs : ∀ i, 1 ≤ i → i < high.length → Swings (vals openp) (vals high) (vals low) (vals close) i) :
    LaterAdds k 1 (asi openp high low close limit) (asi (openp.drop k) (high.drop k) (low.drop k) (close.drop k) limit) := by
  have h := asi_sums ho hl hc fo fh fl fc hL L0 (by omega) hs
  have h' := asi_sums (openp := openp.drop k) (high := high.drop k) (low := low.drop k) (close := close.drop k) (by simp [ho]) (by simp [hl])
    (by simp [hc]) (fo.drop k) (fh.drop k) (fl.drop k) (fc.drop k) hL L0 (by simp; omega) fun i h1 h2 => by
      rw [List.length_drop] at h2
      have := hs (i + k) (by omega) (by omega)
      simp only [Swings, vals_drop, bar_drop, show i - 1 + k = i + k - 1 by omega]
      exact this
  rw [List.length_drop] at h'
  refine h.later h' hk.le le_rfl fun m hm _ => ?_
  simp only [asiTerm, vals_drop, bar_drop, show m - 1 + k = m + k - 1 by omega]

end

end Traquer.Trend

/-! ## Examples -/

namespace Traquer
open FP

example : LaterAdds 1 1 (Volume.obv [fin 1, fin 2, (fin 2 : XF), fin 1] [fin 5, fin 6, fin 7, fin 8])
    (Volume.obv [fin 2, (fin 2 : XF), fin 1] [fin 6, fin 7, fin 8]) :=
  Volume.obv_later (k := 1) (close := [fin 1, fin 2, fin 2, fin 1]) (volume := [fin 5, fin 6, fin 7, fin 8]) rfl (by simp) (by simp [Fins, FP.Finite])
    (by simp [Fins, FP.Finite]) (by simp)

example : LaterScales 1 1 (some (Volume.pvi [fin 1, fin 2, (fin 2 : XF), fin 1] [fin 5, fin 6, fin 7, fin 8]))
    (some (Volume.pvi [fin 2, (fin 2 : XF), fin 1] [fin 6, fin 7, fin 8])) :=
  Volume.pvi_later (k := 1) (close := [fin 1, fin 2, fin 2, fin 1]) (volume := [fin 5, fin 6, fin 7, fin 8]) rfl (by simp) (by simp [Fins, FP.Finite])
    (by simp [Fins, FP.Finite]) (by simp [FP.val])

example : LaterAdds 1 2 (Volume.tvi [fin 1, fin 2, (fin 2 : XF), fin 1] [fin 5, fin 6, fin 7, fin 8] (fin (1 / 2)))
    (Volume.tvi [fin 2, (fin 2 : XF), fin 1] [fin 6, fin 7, fin 8] (fin (1 / 2))) :=
  Volume.tvi_later (k := 1) (d := 1) (close := [fin 1, fin 2, fin 2, fin 1]) (volume := [fin 5, fin 6, fin 7, fin 8]) rfl (by simp)
    (by simp [Fins, FP.Finite]) (by simp [Fins, FP.Finite]) (by simp [FP.Finite]) (by norm_num [bar, vals, FP.val])

example : LaterAdds 1 1 (Trend.asi [fin 1, fin 2, (fin 4 : XF)] [fin 3, fin 5, fin 7] [fin 0, fin 1, fin 3] [fin 2, fin 3, fin 5] (fin 1))
    (Trend.asi [fin 2, (fin 4 : XF)] [fin 5, fin 7] [fin 1, fin 3] [fin 3, fin 5] (fin 1)) :=
  Trend.asi_later (k := 1) (openp := [fin 1, fin 2, fin 4]) (high := [fin 3, fin 5, fin 7]) (low := [fin 0, fin 1, fin 3]) (close := [fin 2, fin 3, fin 5])
    (L := 1) rfl rfl rfl (by simp [Fins, FP.Finite]) (by simp [Fins, FP.Finite]) (by simp [Fins, FP.Finite]) (by simp [Fins, FP.Finite])
    (is_fin 1) one_ne_zero (by simp) (by
      intro i h1 h2
      have h3 : i < 3 := h2
      interval_cases i <;> norm_num [Trend.Swings, Momentum.swingR, bar, vals, FP.val])

example : LaterAverages 1 (some (Regression.mse [fin 1, fin 2, (fin 2 : XF)] [fin 5, fin 6, fin 7]))
    (some (Regression.mse [fin 2, (fin 2 : XF)] [fin 6, fin 7])) :=
  Regression.mse_later (k := 1) (data := [fin 1, fin 2, fin 2]) (estimate := [fin 5, fin 6, fin 7]) rfl (by simp [Fins, FP.Finite])
    (by simp [Fins, FP.Finite]) (by simp)

/-- Bar 3 of a series with resets at 1 and 2 is bar 1 of the series from bar 2 on. -/
example {F : Type} [FloatOps F] (p q r s : F) : ∃ out out', Volume.vwap [p, q, r, s] [p, q, r, s] [p, q, r, s] [p, q, r, s] (some [1, 2]) = some out ∧
    Volume.vwap [r, s] [r, s] [r, s] [r, s] none = some out' ∧ ∃ y, out[3]? = some y ∧ out'[1]? = some y :=
  Volume.vwap_session [p, q, r, s] [p, q, r, s] [p, q, r, s] [p, q, r, s] [1, 2] rfl rfl rfl (by simp) (by simp) 3 (by simp)

end Traquer
