import Verif.Props.MonoSmooth
import Verif.Model.Volatility
import Verif.Model.Volume
import Verif.Model.Trend
/-!
# C79: bands, typical prices and volume weighted prices are monotone in every rounding
-/

namespace Traquer
open FP FloatLit
variable {ρ : Rounding} {x y x' y' c : FP ρ}

/-- `x ≤ y`, neither is NaN. -/
def AtMost (x y : FP ρ) : Prop := (x <=. y) = true

namespace AtMost

theorem notAbove (h : AtMost x y) : NotAbove x y := by
  rw [notAbove_iff]
  intro _ _
  exact (le_iff.1 h).2.2

theorem fmax (h : AtMost x x') (g : AtMost y y') : AtMost (fmax x y) (Traquer.fmax x' y') := by
  obtain ⟨h1, h2, h3⟩ := le_iff.1 h
  obtain ⟨g1, g2, g3⟩ := le_iff.1 g
  rw [ne_eq, ← isNaN_iff, Bool.not_eq_true] at h1 h2 g1 g2
  obtain ⟨a1, a2⟩ := toE_fmax h1 g1
  obtain ⟨b1, b2⟩ := toE_fmax h2 g2
  refine le_iff.2 ⟨?_, ?_, ?_⟩
  · rw [ne_eq, ← isNaN_iff, Bool.not_eq_true]; exact a1
  · rw [ne_eq, ← isNaN_iff, Bool.not_eq_true]; exact b1
  · rw [a2, b2]; exact max_le_max h3 g3

theorem fmin (h : AtMost x x') (g : AtMost y y') : AtMost (fmin x y) (Traquer.fmin x' y') := by
  obtain ⟨h1, h2, h3⟩ := le_iff.1 h
  obtain ⟨g1, g2, g3⟩ := le_iff.1 g
  rw [ne_eq, ← isNaN_iff, Bool.not_eq_true] at h1 h2 g1 g2
  obtain ⟨a1, a2⟩ := toE_fmin h1 g1
  obtain ⟨b1, b2⟩ := toE_fmin h2 g2
  refine le_iff.2 ⟨?_, ?_, ?_⟩
  · rw [ne_eq, ← isNaN_iff, Bool.not_eq_true]; exact a1
  · rw [ne_eq, ← isNaN_iff, Bool.not_eq_true]; exact b1
  · rw [a2, b2]; exact min_le_min h3 g3

theorem foldMax {l l' : List (FP ρ)} (h : Each AtMost l l') : NotAbove (Volatility.foldMax l) (Volatility.foldMax l') := by
  have := foldl_rel (X := fun s t : FP ρ => (s = nan ∧ t = nan) ∨ AtMost s t) (f := Traquer.fmax) (g := Traquer.fmax) (s := nan) (t := nan)
    (.inl ⟨rfl, rfl⟩) h (by
      rintro s t (⟨rfl, rfl⟩ | hs) x y hx
      · exact .inr hx
      · exact .inr (hs.fmax hx))
  rcases this with ⟨h1, h2⟩ | h
  · rw [Volatility.foldMax, Volatility.foldMax]; change NotAbove (l.foldl _ nan) (l'.foldl _ nan); rw [h1, h2]; exact .refl _
  · exact h.notAbove

theorem foldMin {l l' : List (FP ρ)} (h : Each AtMost l l') : NotAbove (Volatility.foldMin l) (Volatility.foldMin l') := by
  have := foldl_rel (X := fun s t : FP ρ => (s = nan ∧ t = nan) ∨ AtMost s t) (f := Traquer.fmin) (g := Traquer.fmin) (s := nan) (t := nan)
    (.inl ⟨rfl, rfl⟩) h (by
      rintro s t (⟨rfl, rfl⟩ | hs) x y hx
      · exact .inr hx
      · exact .inr (hs.fmin hx))
  rcases this with ⟨h1, h2⟩ | h
  · rw [Volatility.foldMin, Volatility.foldMin]; change NotAbove (l.foldl _ nan) (l'.foldl _ nan); rw [h1, h2]; exact .refl _
  · exact h.notAbove

end AtMost
end Traquer

namespace Traquer.Volatility
open FP FloatLit
variable {ρ : Rounding} {high high' low low' close close' : List (FP ρ)}

/-- C79: raising prices never lowers the typical price. -/
theorem typical_mono (h : Each NotAbove high high') (l : Each NotAbove low low') (c : Each NotAbove close close') (window : ℕ) :
    Alike (Each NotAbove) (typical high low close window) (typical high' low' close' window) := by
  refine Smooth.sma_mono (each_map (each_zip3 h l c) ?_) window
  rintro ⟨a, b, d⟩ ⟨a', b', d'⟩ ⟨h1, h2, h3⟩
  exact ((h1.add h2).add h3).div (signClear_flt 3)

/-- C79: raising prices never lowers the weighted close. -/
theorem wcp_mono (h : Each NotAbove high high') (l : Each NotAbove low low') (c : Each NotAbove close close') :
    Each NotAbove (wcp high low close) (wcp high' low' close') := by
  refine each_map (each_zip3 h l c) ?_
  rintro ⟨a, b, d⟩ ⟨a', b', d'⟩ ⟨h1, h2, h3⟩
  exact ((h1.add h2).add (h3.mul_left (signClear_flt 2).nonNeg)).div (signClear_flt 4)

/-- C79: raising prices never lowers any line of the Donchian channel. -/
theorem donchian_mono (h : Each AtMost high high') (l : Each AtMost low low') (window : ℕ) :
    Alike (Each (Both NotAbove (Both NotAbove NotAbove))) (donchian high low window) (donchian high' low' window) := by
  unfold donchian
  refine .bind (.usub rfl rfl) fun k _ e => ?_
  subst e
  refine .bind (.windows h) fun hs hs' hh => .bind (.windows l) fun ls ls' hl => .answer ?_
  refine each_append (each_replicate _ ⟨.refl _, .refl _, .refl _⟩) (each_map (each_zip hh hl) ?_)
  rintro ⟨a, b⟩ ⟨a', b'⟩ ⟨h1, h2⟩
  have m := AtMost.foldMax h1
  have n := AtMost.foldMin h2
  exact ⟨m, (m.add n).div (signClear_flt 2), n⟩

end Traquer.Volatility

namespace Traquer.Trend
open FP FloatLit
variable {ρ : Rounding} {high high' low low' close close' : List (FP ρ)}

theorem midLine_mono (h : Each AtMost high high') (l : Each AtMost low low') (win pad : ℕ) :
    Alike (Each NotAbove) (midLine high low win pad) (midLine high' low' win pad) := by
  unfold midLine
  refine .bind (.windows h) fun hs hs' hh => .bind (.windows l) fun ls ls' hl => .answer ?_
  refine each_append (each_notAbove_nans _) (each_map (each_zip hh hl) ?_)
  rintro ⟨a, b⟩ ⟨a', b'⟩ ⟨h1, h2⟩
  exact ((AtMost.foldMax h1).add (AtMost.foldMin h2)).div (signClear_flt 2)

theorem alligatorLine_mono (h : Each NotAbove close close') (win offset maxOffset : ℕ) :
    Alike (Each NotAbove) (alligatorLine close win offset maxOffset) (alligatorLine close' win offset maxOffset) := by
  unfold alligatorLine
  refine .bind (Smooth.wilder_mono h win) fun w w' hw => .bind (.usub rfl rfl) fun t _ e => ?_
  subst e
  exact .answer (each_append (each_append (each_notAbove_nans _) hw) (each_notAbove_nans _))

/-- C79: raising prices never lowers any line of the alligator. -/
theorem alligator_mono (h : Each NotAbove close close') (w1 o1 w2 o2 w3 o3 : ℕ) :
    Alike (Each (Both NotAbove (Both NotAbove NotAbove))) (alligator close w1 o1 w2 o2 w3 o3) (alligator close' w1 o1 w2 o2 w3 o3) := by
  unfold alligator
  exact .bind (alligatorLine_mono h _ _ _) fun _ _ h1 => .bind (alligatorLine_mono h _ _ _) fun _ _ h2 =>
    .bind (alligatorLine_mono h _ _ _) fun _ _ h3 => .answer (each_zip3 h1 h2 h3)

/-- C79: raising prices never lowers any line of the Ichimoku cloud. -/
theorem ichimoku_mono (h : Each AtMost high high') (l : Each AtMost low low') (c : Each NotAbove close close') (w1 w2 w3 w4 : ℕ) :
    Alike (Each (Both NotAbove (Both NotAbove (Both NotAbove (Both NotAbove NotAbove)))))
      (ichimoku high low close w1 w2 w3 w4) (ichimoku high' low' close' w1 w2 w3 w4) := by
  unfold ichimoku
  refine .bind (.usub rfl rfl) fun k1 _ e => ?_
  subst e
  refine .bind (midLine_mono h l _ _) fun cl cl' hc => .bind (.usub rfl rfl) fun k2 _ e => ?_
  subst e
  refine .bind (midLine_mono h l _ _) fun bl bl' hb => .bind (.usub rfl rfl) fun k3 _ e => ?_
  subst e
  refine .bind (midLine_mono h l _ _) fun lb lb' hlb => .answer ?_
  refine each_zip5 (each_append hc (each_notAbove_nans _)) (each_append hb (each_notAbove_nans _))
    (each_append (each_notAbove_nans _) (each_map (each_zip hc hb) ?_)) hlb (each_append (each_drop _ c) (each_notAbove_nans _))
  rintro ⟨a, b⟩ ⟨a', b'⟩ ⟨h1, h2⟩
  exact (h1.add h2).div (signClear_flt 2)

end Traquer.Trend

namespace Traquer.Volume
open FP FloatLit
variable {ρ : Rounding} {data data' high high' low low' close close' volume : List (FP ρ)}

theorem SignClear.add_nonNeg {s v : FP ρ} (hs : SignClear s) (hv : NonNegOrNaN v) : SignClear (s + v) := by
  rcases hv with rfl | rfl | ⟨a, ha, h0⟩
  · exact .inl add_nan
  · exact hs.add (.inr (.inl rfl))
  · rcases is_iff.1 ha with rfl | ⟨rfl, rfl⟩
    · exact hs.add (.inr (.inr ⟨a, h0, rfl⟩))
    · rcases hs with rfl | rfl | ⟨r, hr, rfl⟩
      · exact .inl rfl
      · exact .inr (.inl rfl)
      · exact signClear_mk hr

/-- C79: raising prices never lowers the volume weighted average. -/
theorem vwma_mono (h : Each NotAbove data data') (hv : ∀ v ∈ volume, NonNegOrNaN v) (window : ℕ) :
    Alike (Each NotAbove) (vwma data volume window) (vwma data' volume window) := by
  unfold vwma
  refine .bind (.usub rfl rfl) fun k _ e => ?_
  subst e
  refine .bind (.windows h) fun ds ds' hd => .bind (.windows (each_sameWeight hv)) fun vs vs' hvs => .answer ?_
  refine each_append (each_notAbove_nans _) (each_map (each_zip hd hvs) ?_)
  rintro ⟨d, v⟩ ⟨d', v'⟩ ⟨h1, h2⟩
  dsimp only at h1 h2
  have e : v = v' := List.forall₂_eq_eq_eq ▸ h2.imp fun _ _ h => h.1
  subst e
  refine NotAbove.div (foldl_rel (X := NotAbove) (.refl 0) (each_zip h1 h2) ?_) ?_
  · rintro s s' hs ⟨a, b⟩ ⟨a', b'⟩ ⟨g1, g2, g3⟩
    dsimp only at *
    subst g2
    exact hs.add (g1.mul_right g3)
  · have : ∀ v' : List (FP ρ), Each SameWeight v v' → SignClear (fsum v) := fun v' h =>
      (foldl_rel (X := fun s _ : FP ρ => SignClear s) (f := (· + ·)) (g := (· + ·)) (t := 0) (l' := v') signClear_zero h
        fun s _ hs x _ hx => SignClear.add_nonNeg hs hx.2)
    exact this v h2

/-- The states of two runs of `vwap` on the same volumes. -/
def VwapRel (s t : VwapState (FP ρ)) : Prop := NotAbove s.tpv t.tpv ∧ s.vol = t.vol ∧ SignClear s.vol ∧ s.resets = t.resets

/-- C79: raising prices never lowers the volume weighted average price. -/
theorem vwap_mono (h : Each NotAbove high high') (l : Each NotAbove low low') (c : Each NotAbove close close')
    (hv : ∀ v ∈ volume, NonNegOrNaN v) (resets : Option (List ℕ)) :
    Alike (Each NotAbove) (vwap high low close volume resets) (vwap high' low' close' volume resets) := by
  have hb := each_zip4 h l c (each_sameWeight hv)
  unfold vwap
  dsimp only
  rw [c.length_eq]
  refine .scanM (X := VwapRel) ⟨.refl 0, rfl, signClear_zero, rfl⟩ (each_zip (each_range hb.length_eq) hb) ?_
  rintro ⟨a, v, r⟩ ⟨a', v', r'⟩ ⟨h1, h2, h3, h4⟩ ⟨i, p, q, t, u⟩ ⟨i', p', q', t', u'⟩ ⟨g0, g1, g2, g3, g4, g5⟩
  dsimp only at *
  subst h2 h4 g0 g4
  unfold vwapStep
  dsimp only
  cases r with
  | nil => exact .panic
  | cons r rs =>
    have ht : NotAbove ((p + q + t) / 3 * u) ((p' + q' + t') / 3 * u) := (((g1.add g2).add g3).div (signClear_flt 3)).mul_right g5
    by_cases e : i = r
    · simp only [e, if_true]
      have := (NotAbove.refl (0 : FP ρ)).add ht
      have hs := SignClear.add_nonNeg signClear_zero g5
      exact .answer ⟨⟨this, rfl, hs, rfl⟩, this.div hs⟩
    · simp only [e, if_false]
      have := h1.add ht
      have hs := SignClear.add_nonNeg h3 g5
      exact .answer ⟨⟨this, rfl, hs, rfl⟩, this.div hs⟩

end Traquer.Volume
