import Verif.Props.MirrorTrend
import Verif.Model.Volume
/-!
# C80: the mirror image, volume

The volumes stay as they are.
-/

namespace Traquer.Trend
open FP FloatLit Traquer.Volatility
variable {ρ : Rounding} {p : Parity} {data data' : List (FP ρ)}

/-- The rescaled range of one chunk stays. -/
theorem hurst_rs_mirror (h : Each (Par .odd) data data') : Alike (Par .same) (hurst_rs data) (hurst_rs data') := by
  have ha : Par .odd (fsum data / flt data.length) (fsum data' / flt data'.length) := by
    rw [h.length]; exact (Par.fsum h).div .lit
  simp only [hurst_rs, Option.bind_eq_bind]
  generalize fsum data / flt data.length = a at ha ⊢
  generalize fsum data' / flt data'.length = a' at ha ⊢
  have key := foldl_rel (X := fun (s s' : FP ρ × FP ρ × FP ρ × FP ρ) => Par .odd s.1 s'.2.1 ∧ Par .odd s.2.1 s'.1 ∧ Par .odd s.2.2.1 s'.2.2.1 ∧ Par .eq s.2.2.2 s'.2.2.2)
    (f := fun (st : FP ρ × FP ρ × FP ρ × FP ρ) x =>
      (fmax st.1 (st.2.2.1 + (x - a)), fmin st.2.1 (st.2.2.1 + (x - a)), st.2.2.1 + (x - a), st.2.2.2 + (x - a) * (x - a)))
    (g := fun (st : FP ρ × FP ρ × FP ρ × FP ρ) x =>
      (fmax st.1 (st.2.2.1 + (x - a')), fmin st.2.1 (st.2.2.1 + (x - a')), st.2.2.1 + (x - a'), st.2.2.2 + (x - a') * (x - a')))
    (s := (-maxValue, maxValue, 0, 0)) (t := (-maxValue, maxValue, 0, 0))
    ⟨.of_eq (neg_neg' _), SameNumber.refl _, Par.zero, Par.zero⟩ h fun s s' hs x x' hx =>
      ⟨hs.1.fmax_odd (hs.2.2.1.add (hx.sub ha)), hs.2.1.fmin_odd (hs.2.2.1.add (hx.sub ha)), hs.2.2.1.add (hx.sub ha),
        hs.2.2.2.add (hx.sub ha).square⟩
  obtain ⟨h1, h2, h3, h4⟩ := key
  refine Alike.bind (Alike.usub h.length rfl) (forall_eq_rel fun n => .answer ?_)
  exact (Par.sub_swap h1 h2).div (h4.div .lit).sqrt_eq

theorem chunksExact_mirror (h : Each (Par p) data data') (x : ℕ) :
    Alike (Each (Each (Par p))) (chunksExact x data) (chunksExact x data') := by
  simp only [chunksExact]
  refine Alike.ite Iff.rfl .panic (.answer ?_)
  rw [h.length]
  exact each_map each_eq (forall_eq_rel fun i => each_take _ (each_drop _ h))

/-- The Hurst exponent of a chart is that of its mirror image. -/
theorem hurst_mirror (window : ℕ) (minWin : Option ℕ) : hurst (mirror data) window minWin = hurst data window minWin := by
  refine Alike.eq_of_each ?_
  simp only [hurst, Option.bind_eq_bind]
  refine Alike.bind Alike.same (forall_eq_rel fun sizes => Alike.bind Alike.same (forall_eq_rel fun k =>
    Alike.bind (Alike.windows (each_mirror_odd data)) fun ws ws' hw => Alike.bind (P := Each (Par .eq)) (Alike.mapP hw fun w w' e => ?_)
      fun r r' hr => .answer (each_append (each_par_nans (p := .eq) k) hr)))
  refine Alike.bind (P := Each (Par .eq)) (Alike.mapP each_eq (forall_eq_rel fun x => Alike.bind (chunksExact_mirror e x) fun c c' hc =>
    Alike.bind (P := Each (Par .same)) (Alike.mapP hc fun _ _ => hurst_rs_mirror) fun v v' hv => .answer ?_)) fun rs rs' hrs => .answer ?_
  · rw [hc.length]
    exact (Par.div (p := .same) (foldl_rel (X := Par .same) .zero hv fun _ _ h1 _ _ h2 => h1.add h2) .lit).log10_same
  · rw [each_par_eq hrs]; exact .lit

end Traquer.Trend

namespace Traquer.Volume
open FP FloatLit Traquer.Volatility
variable {ρ : Rounding} {p : Parity} {data data' high low close volume : List (FP ρ)}

theorem elder_force_mirror (h : Each (Par p) close data') (window : ℕ) :
    Alike (Each (Par p)) (elder_force close volume window) (elder_force data' volume window) := by
  simp only [elder_force, Option.bind_eq_bind]
  refine Alike.bind (Alike.usub h.length rfl) (forall_eq_rel fun n => Alike.bind (Alike.sliceTo h rfl) fun a a' ha =>
    Alike.bind (Alike.sliceFrom h rfl) fun b b' hb => Alike.bind Alike.same (forall_eq_rel fun vs => Alike.bind
      (Smooth.ewma_mirror (each_map (each_zip3 ha hb (each_par_lit (l := vs))) ?_) window) fun r r' hr => .answer (each_cons .nan hr)))
  rintro ⟨x, y, v⟩ ⟨x', y', v'⟩ ⟨e1, e2, e3⟩
  exact (e2.sub e1).mul e3 (Parity.mul_eq p)

theorem vwma_mirror (h : Each (Par p) data data') (window : ℕ) :
    Alike (Each (Par p)) (vwma data volume window) (vwma data' volume window) := by
  parity [vwma]

/-- The market facilitation index depends on the range of the bar only. -/
theorem bw_mfi_mirror : bw_mfi (mirror low) (mirror high) volume = bw_mfi high low volume := by
  refine (each_par_eq (each_map (each_zip3_cross (each_mirror high) (each_mirror low) each_par_lit) ?_)).symm
  rintro ⟨h, l, v⟩ ⟨h', l', v'⟩ ⟨e1, e2, e3⟩
  show (h - l) / v * powi 10 6 = (h' - l') / v' * powi 10 6
  rw [sub_flip e1 e2, show v = v' from e3]

/-- The money flow multiplier changes sign. -/
theorem mfm_mirror {h l c h' l' c' : FP ρ} (e1 : Flip h l') (e2 : Flip l h') (e3 : Flip c c') :
    Par .odd (c - l - (h - c)) (c' - l' - (h' - c')) := by
  rw [sub_flip e3 e2, show c' - l' = h - c from sub_flip e1 e3]
  exact Par.odd_sub_swap (Par.lit.same) (Par.lit.same)

/-- The accumulation/distribution line changes sign. -/
theorem ad_mirror : Alike (Each Opposite) (ad high low close volume (some false)) (ad (mirror low) (mirror high) (mirror close) volume (some false)) := by
  simp only [ad]
  refine .answer (each_scanS (X := Par .odd) .zero (each_zip4_cross (each_mirror high) (each_mirror low) (each_mirror close) each_par_lit) ?_)
  rintro s s' hs ⟨h, l, c, v⟩ ⟨h', l', c', v'⟩ ⟨e1, e2, e3, e4⟩
  dsimp only
  rw [sub_flip e1 e2]
  exact hs.add (((mfm_mirror e1 e2 e3).div .lit).mul e4 rfl)

/-- Chaikin's money flow changes sign. -/
theorem cmf_mirror (window : ℕ) : Alike (Each Opposite) (cmf high low close volume window) (cmf (mirror low) (mirror high) (mirror close) volume window) := by
  simp only [cmf, Option.bind_eq_bind]
  refine Alike.bind Alike.same (forall_eq_rel fun k => Alike.bind (Alike.windows (P := Par .odd) (each_map
    (each_zip4_cross (each_mirror high) (each_mirror low) (each_mirror close) (each_par_lit (l := volume))) ?_)) fun m m' hm =>
      Alike.bind Alike.same (forall_eq_rel fun vs => .answer (each_append (P := Par .odd) (each_par_nans k) (each_map (each_zip hm each_eq) ?_))))
  · rintro ⟨h, l, c, v⟩ ⟨h', l', c', v'⟩ ⟨e1, e2, e3, e4⟩
    dsimp only
    rw [sub_flip e1 e2]
    exact (Par.mul e4 (mfm_mirror e1 e2 e3) rfl).div .lit
  · rintro ⟨m, v⟩ ⟨m', v'⟩ ⟨e1, e2⟩
    dsimp only at e1 e2
    subst e2
    exact (Par.fsum e1).div .lit

/-- The volume weighted average price changes sign. -/
theorem vwap_mirror (resets : Option (List ℕ)) :
    Alike (Each Opposite) (vwap high low close volume resets) (vwap (mirror low) (mirror high) (mirror close) volume resets) := by
  have hb := each_zip4_cross (each_mirror high) (each_mirror low) (each_mirror close) (each_par_lit (l := volume))
  have hl : (mirror close).length = close.length := by simp [mirror]
  simp only [vwap, hl]
  refine Alike.scanM (X := fun s s' : VwapState (FP ρ) => Par .odd s.tpv s'.tpv ∧ s'.vol = s.vol ∧ s'.resets = s.resets)
    ⟨.zero, rfl, rfl⟩ (each_zip (show Each Eq _ _ by rw [hb.length]; exact each_eq) hb) ?_
  rintro ⟨t, v, r⟩ ⟨t', v', r'⟩ ⟨h1, h2, h3⟩ ⟨i, h, l, c, w⟩ ⟨i', h', l', c', w'⟩ ⟨e0, e1, e2, e3, e4⟩
  dsimp only at h1 h2 h3 e0 e1 e2 e3 e4
  subst h2 h3 e0
  have ht : Par .odd ((h + l + c) / 3 * w) ((h' + l' + c') / 3 * w') :=
    (((Par.add_cross e1.odd e2.odd).add e3.odd).div .lit).mul e4 rfl
  have e4 : w = w' := e4
  subst e4
  simp only [vwapStep]
  cases r' with
  | nil => exact .panic
  | cons r rs =>
    by_cases hr : i = r
    · simp only [hr, if_pos]
      exact .answer ⟨⟨Par.zero.add ht, rfl, rfl⟩, (Par.zero.add ht).div .lit⟩
    · simp only [hr, if_false]
      exact .answer ⟨⟨h1.add ht, rfl, rfl⟩, (h1.add ht).div .lit⟩

/-- The volume price trend stays: it counts relative changes. -/
theorem vpt_mirror : Alike (Each SameNumber) (vpt data volume) (vpt (mirror data) volume) := by
  simp only [vpt, Option.bind_eq_bind]
  refine Alike.bind Alike.same (forall_eq_rel fun vs => .answer (each_cons (P := Par .same) .nan
    (each_scanS (X := Par .same) .zero (each_zip (each_pairs (each_mirror data)) each_eq) ?_)))
  rintro s s' hs ⟨⟨x, y⟩, v⟩ ⟨⟨x', y'⟩, v'⟩ ⟨⟨e1, e2⟩, e3⟩
  dsimp only at e1 e2 e3 ⊢
  subst e3
  exact hs.add (Par.div_flip (Par.lit.mul (e2.odd.sub e1.odd) rfl) e1)

/-- The positive volume index stays: it multiplies relative changes. -/
theorem pvi_mirror : Each SameNumber (pvi data volume) (pvi (mirror data) volume) := by
  refine each_cons (P := Par .same) .nan (each_scanS (X := Par .same) (.refl _) (each_zip (each_pairs (each_mirror data)) each_eq) ?_)
  rintro s s' hs ⟨⟨x, y⟩, v⟩ ⟨⟨x', y'⟩, v'⟩ ⟨⟨e1, e2⟩, e3⟩
  dsimp only at e1 e2 e3 ⊢
  subst e3
  exact Par.ite rfl (hs.mul (Par.div_flip e2.odd e1) rfl) hs

/-- The negative volume index stays. -/
theorem nvi_mirror : Each SameNumber (nvi data volume) (nvi (mirror data) volume) := by
  refine each_cons (P := Par .same) .nan (each_scanS (X := Par .same) (.refl _) (each_zip (each_pairs (each_mirror data)) each_eq) ?_)
  rintro s s' hs ⟨⟨x, y⟩, v⟩ ⟨⟨x', y'⟩, v'⟩ ⟨⟨e1, e2⟩, e3⟩
  dsimp only at e1 e2 e3 ⊢
  subst e3
  exact Par.ite rfl (hs.mul (Par.div_flip e2.odd e1) rfl) hs

end Traquer.Volume
