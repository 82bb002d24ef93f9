import Verif.Lemmas.Flip
import Verif.Model.Smooth
/-!
# C80: the averages of the mirror image are the mirror images of the averages
-/

namespace Traquer.Smooth
open FP FloatLit
variable {ρ : Rounding} {p : Parity} {data data' : List (FP ρ)}

theorem ewma_mirror (h : Each (Par p) data data') (window : ℕ) : Alike (Each (Par p)) (ewma data window) (ewma data' window) := by
  parity [ewma]

parity_rule ewma_mirror

theorem sma_mirror (h : Each (Par p) data data') (window : ℕ) : Alike (Each (Par p)) (sma data window) (sma data' window) := by
  parity [sma]

parity_rule sma_mirror

theorem dema_mirror (h : Each (Par p) data data') (window : ℕ) : Alike (Each (Par p)) (dema data window) (dema data' window) := by
  parity [dema]

theorem tema_mirror (h : Each (Par p) data data') (window : ℕ) : Alike (Each (Par p)) (tema data window) (tema data' window) := by
  parity [tema]

parity_rule dema_mirror
parity_rule tema_mirror

/-- the weighted sum of a window -/
theorem dot_mirror (weights : List (FP ρ)) (h : Each (Par p) data data') : Par p (dot weights data) (dot weights data') := by
  parity [dot]

parity_rule dot_mirror

theorem wma_mirror (h : Each (Par p) data data') (window : ℕ) : Alike (Each (Par p)) (wma data window) (wma data' window) := by
  parity [wma]

parity_rule wma_mirror

theorem pwma_mirror (h : Each (Par p) data data') (window : ℕ) : Alike (Each (Par p)) (pwma data window) (pwma data' window) := by
  parity [pwma]

parity_rule pwma_mirror

theorem fwma_mirror (h : Each (Par p) data data') (window : ℕ) : Alike (Each (Par p)) (fwma data window) (fwma data' window) := by
  parity [fwma]

parity_rule fwma_mirror

theorem wilder_mirror (h : Each (Par p) data data') (window : ℕ) : Alike (Each (Par p)) (wilder data window) (wilder data' window) := by
  parity [wilder]

parity_rule wilder_mirror

theorem hull_mirror (h : Each (Par p) data data') (window : ℕ) : Alike (Each (Par p)) (hull data window) (hull data' window) := by
  parity [hull]

parity_rule hull_mirror

/-- one window of lrf -/
theorem lrfWin_mirror (window : ℕ) (h : Each (Par p) data data') : Par p (lrfWin window data) (lrfWin window data') := by
  have hf : Both (Par p) (Par p)
      ((((List.range' 1 window).map fun x => (flt x : FP ρ)).zip data).foldl
        (fun (st : FP ρ × FP ρ) (cv : FP ρ × FP ρ) => (st.1 + cv.2, st.2 + cv.1 * cv.2)) (0, 0))
      ((((List.range' 1 window).map fun x => (flt x : FP ρ)).zip data').foldl
        (fun (st : FP ρ × FP ρ) (cv : FP ρ × FP ρ) => (st.1 + cv.2, st.2 + cv.1 * cv.2)) (0, 0)) := by
    repeat' parity_step
  simp only [lrfWin]
  revert hf
  generalize List.foldl _ _ _ = a
  generalize List.foldl _ _ _ = b
  rintro ⟨h1, h2⟩
  repeat' parity_step

parity_rule lrfWin_mirror

theorem lrf_mirror (h : Each (Par p) data data') (window : ℕ) : Alike (Each (Par p)) (lrf data window) (lrf data' window) := by
  parity [lrf]

parity_rule lrf_mirror

theorem trima_mirror (h : Each (Par p) data data') (window : ℕ) : Alike (Each (Par p)) (trima data window) (trima data' window) := by
  parity [trima]

parity_rule trima_mirror

theorem zlma_mirror (h : Each (Par p) data data') (window : ℕ) : Alike (Each (Par p)) (zlma data window) (zlma data' window) := by
  parity [zlma]

parity_rule zlma_mirror

/-- one window of the standard deviation -/
theorem stdDevWin_mirror (window : ℕ) (h : Each (Par p) data data') :
    Par .eq (Distribution.stdDevWin window data) (Distribution.stdDevWin window data') := by
  parity [Distribution.stdDevWin, Distribution.winMean, Distribution.powDev]

parity_rule stdDevWin_mirror

/-- the standard deviations -/
theorem stdDevRaw_mirror (h : Each (Par p) data data') (window : ℕ) :
    Alike (Each (Par .eq)) (Distribution.stdDevRaw data window) (Distribution.stdDevRaw data' window) := by
  parity [Distribution.stdDevRaw]

parity_rule stdDevRaw_mirror

theorem vidya_mirror (h : Each (Par p) data data') (window : ℕ) : Alike (Each (Par p)) (vidya data window) (vidya data' window) := by
  parity [vidya]

parity_rule vidya_mirror

/-- the efficiency ratio of kama -/
theorem effRatio_mirror (h : Each (Par p) data data') : Alike (Par .eq) (effRatio data) (effRatio data') := by
  parity [effRatio]

parity_rule effRatio_mirror

theorem kama_mirror (h : Each (Par p) data data') (window : ℕ) (short long : Option ℕ) :
    Alike (Each (Par p)) (kama data window short long) (kama data' window short long) := by
  parity [kama]

theorem hwma_mirror (h : Each (Par p) data data') (alpha beta gamma : Option (FP ρ)) :
    Alike (Each (Par p)) (hwma data alpha beta gamma) (hwma data' alpha beta gamma) := by
  parity [hwma]

theorem ssf_mirror (h : Each (Par p) data data') (window : ℕ) (triPoles : Option Bool) :
    Alike (Each (Par p)) (ssf data window triPoles) (ssf data' window triPoles) := by
  parity [ssf]

theorem t3_mirror (h : Each (Par p) data data') (window : ℕ) (factor : Option (FP ρ)) :
    Alike (Each (Par p)) (t3 data window factor) (t3 data' window factor) := by
  parity [t3]

/-- running gains and losses change places -/
theorem gainLoss_mirror (h : Each (Par .odd) data data') :
    Each (Crossed (Par .eq) (Par .eq)) (gainLoss data) (gainLoss data') := by
  simp only [gainLoss]
  refine each_cons (.mk .lit .lit) (each_scanS (X := Crossed (Par .eq) (Par .eq)) (.mk .lit .lit) (each_pairs h) ?_)
  rintro s s' ⟨h1, h2⟩ a b ⟨h3, h4⟩
  exact ⟨h1.add (fmax_zero_same (Par.sub_rev h4 h3)), h2.add (fmax_zero_same (Par.sub_rev h3 h4))⟩

/-- the momentum used by vma -/
theorem cmoRaw_mirror (h : Each (Par .odd) data data') (window : ℕ) :
    Alike (Each (Par .odd)) (cmoRaw data window) (cmoRaw data' window) := by
  simp only [cmoRaw, Option.bind_eq_bind]
  refine Alike.bind (Alike.windows (gainLoss_mirror h)) fun ws ws' hws => Alike.mapP hws fun w w' hw => ?_
  refine Alike.bind (Alike.getElem? hw rfl) fun a a' ha => Alike.bind (Alike.getElem? hw (by rw [hw.length])) fun b b' hb => .answer ?_
  have e1 := hb.1.sub ha.1
  have e2 := hb.2.sub ha.2
  refine (Par.odd_sub_swap e1.same e2.same).div ?_
  show _ = _
  rw [show _ = _ from e1, show _ = _ from e2, SameNumber.add_comm']

parity_rule cmoRaw_mirror

theorem vma_mirror (h : Each (Par .odd) data data') (window : ℕ) : Alike (Each (Par .odd)) (vma data window) (vma data' window) := by
  parity [vma]

parity_rule vma_mirror

theorem ma_mirror (h : Each (Par .odd) data data') (window : ℕ) (mode : MaMode) :
    Alike (Each (Par .odd)) (ma data window mode) (ma data' window mode) := by
  cases mode <;> simp only [ma] <;> repeat' parity_step

parity_rule ma_mirror

theorem kernel_mirror (h : Each (Par p) data data') (sigma : FP ρ) : Each (Par p) (kernel data sigma) (kernel data' sigma) := by
  have hf : ∀ {past past' : List (FP ρ)}, Each (Par p) past past' →
      Par p (kernelAt (kernelWeights sigma) past) (kernelAt (kernelWeights sigma) past') := by
    intro past past' hp
    rw [kernelAt, kernelAt, hp.length]
    generalize kernelWeights sigma = ws
    repeat' parity_step
  simp only [kernel]
  refine each_map (each_range h.length) (forall_eq_rel fun i => hf ?_)
  repeat' parity_step

theorem alma_mirror (h : Each (Par p) data data') (window : ℕ) (sigma : FP ρ) (mu : Option (FP ρ)) :
    Alike (Each (Par p)) (alma data window sigma mu) (alma data' window sigma mu) := by
  simp only [alma, Option.bind_eq_bind]
  refine Alike.bind Alike.same (forall_eq_rel fun j => ?_)
  generalize almaWeights window sigma _ = ws
  repeat' parity_step

theorem mdma_mirror (h : Each (Par p) data data') (window : ℕ) : Alike (Each (Par p)) (mdma data window) (mdma data' window) := by
  simp only [mdma, Option.bind_eq_bind]
  refine Alike.bind (Alike.getElem? h rfl) fun a a' ha => Alike.bind (Alike.sliceFrom h rfl) fun r r' hr => .answer (each_cons ha (each_scanS ha hr ?_))
  intro s s' hs x x' hx
  exact hs.add ((hx.sub hs).div (Par.lit.mul (hx.powi_even_div hs rfl (by decide)) rfl))

/-- extremes of the two halves of a window: highs and lows change places -/
def FramaCrossed (s s' : FP ρ × FP ρ × FP ρ × FP ρ) : Prop :=
  Par .odd s.1 s'.2.1 ∧ Par .odd s.2.1 s'.1 ∧ Par .odd s.2.2.1 s'.2.2.2 ∧ Par .odd s.2.2.2 s'.2.2.1

/-- the gain of frama -/
theorem framaAlpha_mirror (h : Each (Par .odd) data data') (window mid : ℕ) : framaAlpha window mid data = framaAlpha window mid data' := by
  have hf : FramaCrossed
      (((data.take mid).zip (data.reverse.take mid)).foldl (fun (st : FP ρ × FP ρ × FP ρ × FP ρ) (x : FP ρ × FP ρ) =>
        (fmax st.1 x.1, fmin st.2.1 x.1, fmax st.2.2.1 x.2, fmin st.2.2.2 x.2)) (-maxValue, maxValue, -maxValue, maxValue))
      (((data'.take mid).zip (data'.reverse.take mid)).foldl (fun (st : FP ρ × FP ρ × FP ρ × FP ρ) (x : FP ρ × FP ρ) =>
        (fmax st.1 x.1, fmin st.2.1 x.1, fmax st.2.2.1 x.2, fmin st.2.2.2 x.2)) (-maxValue, maxValue, -maxValue, maxValue)) := by
    have e : Par .odd (-maxValue : FP ρ) maxValue := Flip.odd (neg_neg' _).symm
    have e' : Par .odd (maxValue : FP ρ) (-maxValue) := Flip.odd rfl
    refine foldl_rel (X := FramaCrossed) ⟨e, e', e, e'⟩
      (each_zip (each_take mid h) (each_take mid (each_reverse h))) ?_
    rintro s s' ⟨h1, h2, h3, h4⟩ x x' ⟨hx, hy⟩
    exact ⟨h1.fmax_odd hx, h2.fmin_odd hx, h3.fmax_odd hy, h4.fmin_odd hy⟩
  simp only [framaAlpha]
  revert hf
  generalize List.foldl _ _ _ = s
  generalize List.foldl _ _ _ = s'
  rintro ⟨h1, h2, h3, h4⟩
  have n1 : Par .same ((s.1 - s.2.1) / flt mid) ((s'.1 - s'.2.1) / flt mid) := (Par.sub_swap h1 h2).div .lit
  have n2 : Par .same ((s.2.2.1 - s.2.2.2) / flt mid) ((s'.2.2.1 - s'.2.2.2) / flt mid) := (Par.sub_swap h3 h4).div .lit
  have n3 : Par .same ((fmax s.1 s.2.2.1 - fmin s.2.1 s.2.2.2) / flt window) ((fmax s'.1 s'.2.2.1 - fmin s'.2.1 s'.2.2.2) / flt window) :=
    (Par.sub_swap (h1.fmax_odd h3) (h2.fmin_odd h4)).div .lit
  rw [show _ = _ from (n1.add n2).ln_same, show _ = _ from n3.ln_same]

theorem frama_mirror (h : Each (Par .odd) data data') (window : ℕ) :
    Alike (fun r r' => match r, r' with
      | .ok l, .ok l' => Each (Par .odd) l l'
      | .error e, .error e' => e = e'
      | _, _ => False) (frama data window) (frama data' window) := by
  simp only [frama, Option.bind_eq_bind]
  refine Alike.ite Iff.rfl (.answer rfl) (Alike.bind Alike.same (forall_eq_rel fun k => ?_))
  refine Alike.bind (Alike.windows h) fun ws ws' hws => Alike.bind (P := Each (Par .odd)) ?_ fun r r' hr => .answer ?_
  · refine Alike.scanM (X := Par .odd) (Q := Par .odd) .zero hws fun s s' hs w w' hw => ?_
    rw [framaAlpha_mirror hw]
    refine Alike.bind (Alike.getLast? hw) fun x x' hx => .answer ?_
    have := ((Par.lit (x := framaAlpha window (window / 2) w')).mul hx (r := .odd) rfl).add
      ((Par.lit (x := 1 - framaAlpha window (window / 2) w')).mul hs rfl)
    exact ⟨this, this⟩
  · exact each_append (each_par_nans k) hr

end Traquer.Smooth
