import Verif.Props.LiftMomentum
import Verif.Model.Trend
/-!
# C82: all prices raised by the same amount, trend
-/

namespace Traquer.Trend
open FP FloatLit
open Traquer.Momentum (each_eq_iff)
open Traquer.Volatility (foldMax foldMin trueRange atr argBest)
variable {c : ℝ} {data data' openp openp' high high' low low' close close' volume volume' : List XF}

theorem fsum_lift {l l' : List XF} {n : ℕ} (h : l.length = n ∧ Each (Lifted c 1) l l') : Lifted c n (fsum l) (fsum l') := by
  refine .inl ((Raised.fsum (each_raised.1 h.2)).congr ?_)
  rw [h.1]; push_cast; rfl

theorem sums_lift (h : Each (Lifted c 1) data data') (n : ℕ) :
    Alike (Each (Lifted c n)) ((windows n data).bind fun w => some (w.map fsum)) ((windows n data').bind fun w => some (w.map fsum)) :=
  Alike.bind (alike_windows_sized n h) fun _ _ hw => .answer (each_map hw fun _ _ g => fsum_lift g)

theorem shinohara_lift (h0 : Each (Lifted c 1) high high') (h1 : Each (Lifted c 1) low low') (h2 : Each (Lifted c 1) close close') (window : ℕ) :
    Alike (Each (Both (Lifted c 0) (Lifted c 0))) (shinohara high low close window) (shinohara high' low' close' window) := by
  rcases Nat.eq_zero_or_pos window with rfl | hw
  · exact .panic
  simp only [shinohara, Option.bind_eq_bind]
  refine Alike.bind (alike_windows_sized window h0) fun _ _ g0 => Alike.bind (alike_windows_sized window h1) fun _ _ g1 =>
    Alike.bind (alike_windows_sized window h2) fun _ _ g2 => ?_
  have e0 := each_map g0 fun _ _ g => fsum_lift g
  have e1 := each_map g1 fun _ _ g => fsum_lift g
  have e2 := each_map g2 fun _ _ g => fsum_lift g
  have k : ∀ {a a' b b' : XF}, Lifted c window a a' → Lifted c window b b' → a - b = a' - b' := fun h g =>
    (h.sub g (j := 0) (by ring) (.inl (.inr rfl))).eq
  have m : ∀ {a b x a' b' x' : List XF}, Each (Lifted c window) a a' → Each (Lifted c window) b b' → Each (Lifted c window) x x' →
      Each (Lifted c 0) ((zip3 a b x).map fun p => 100 * (p.1 - p.2.2) / (p.2.2 - p.2.1)) ((zip3 a' b' x').map fun p => 100 * (p.1 - p.2.2) / (p.2.2 - p.2.1)) := by
    intro a b x a' b' x' ha hb hx
    refine each_map (each_zip3 ha hb hx) fun p q h => ?_
    rw [k h.1 h.2.2, k h.2.2 h.2.1]
    exact .lit
  refine Alike.bind (.sliceFrom e0 rfl) fun _ _ f0 => Alike.bind (.sliceFrom e1 rfl) fun _ _ f1 => ?_
  refine Alike.bind (Alike.usub e2.length rfl) (forall_eq_rel fun n => Alike.bind (.sliceTo e2 rfl) fun _ _ f2 => Alike.bind .same (forall_eq_rel fun j => .answer ?_))
  exact each_zip (each_append (lifted_each_nans _) (m f0 f1 f2)) (each_append (lifted_each_nans _) (m e0 e1 e2))

theorem dmBars_lift (h0 : Each (Lifted c 1) high high') (h1 : Each (Lifted c 1) low low') (h2 : Each (Lifted c 1) close close') :
    Alike (Each (Both (Lifted c 1) (Both (Lifted c 1) (Both (Lifted c 1) (Both (Lifted c 1) (Lifted c 1)))))) (dmBars high low close) (dmBars high' low' close') := by
  lifts [dmBars]

lifts_rule dmBars_lift

theorem dmTerm_lift : ∀ b b' : XF × XF × XF × XF × XF, Both (Lifted c 1) (Both (Lifted c 1) (Both (Lifted c 1) (Both (Lifted c 1) (Lifted c 1)))) b b' → dmTerm b = dmTerm b' := by
  rintro ⟨b1, b2, b3, b4, b5⟩ ⟨d1, d2, d3, d4, d5⟩ ⟨h1, h2, h3, h4, h5⟩
  dsimp only at h1 h2 h3 h4 h5
  have k : ∀ {a a' b b' : XF}, Lifted c 1 a a' → Lifted c 1 b b' → a - b = a' - b' := fun h g =>
    (h.sub g (j := 0) (by norm_num) (.inr (by norm_num))).eq
  simp only [dmTerm, k h2 h1, k h3 h4, k h2 h4, k h2 h5, k h4 h5]

theorem vortexTerm_lift : ∀ b b' : XF × XF × XF × XF × XF, Both (Lifted c 1) (Both (Lifted c 1) (Both (Lifted c 1) (Both (Lifted c 1) (Lifted c 1)))) b b' → vortexTerm b = vortexTerm b' := by
  rintro ⟨b1, b2, b3, b4, b5⟩ ⟨d1, d2, d3, d4, d5⟩ ⟨h1, h2, h3, h4, h5⟩
  dsimp only at h1 h2 h3 h4 h5
  have k : ∀ {a a' b b' : XF}, Lifted c 1 a a' → Lifted c 1 b b' → a - b = a' - b' := fun h g =>
    (h.sub g (j := 0) (by norm_num) (.inr (by norm_num))).eq
  simp only [vortexTerm, k h2 h3, k h4 h1, k h2 h4, k h2 h5, k h4 h5]

theorem adx_lift (h0 : Each (Lifted c 1) high high') (h1 : Each (Lifted c 1) low low') (h2 : Each (Lifted c 1) close close') (window smoothing : ℕ) :
    Alike Eq (adx high low close window smoothing) (adx high' low' close' window smoothing) := by
  simp only [adx, Option.bind_eq_bind]
  refine Alike.bind (dmBars_lift h0 h1 h2) fun b b' hb => ?_
  rw [each_eq_iff.1 (each_map hb dmTerm_lift)]
  exact .same

theorem vortex_lift (h0 : Each (Lifted c 1) high high') (h1 : Each (Lifted c 1) low low') (h2 : Each (Lifted c 1) close close') (window : ℕ) :
    Alike Eq (vortex high low close window) (vortex high' low' close' window) := by
  simp only [vortex, Option.bind_eq_bind]
  refine Alike.bind (dmBars_lift h0 h1 h2) fun b b' hb => ?_
  rw [each_eq_iff.1 (each_map hb vortexTerm_lift)]
  exact .same

theorem asi_lift (limit : XF) (h0 : Each (Lifted c 1) openp openp') (h1 : Each (Lifted c 1) high high') (h2 : Each (Lifted c 1) low low') (h3 : Each (Lifted c 1) close close') :
    Alike (Each (Lifted c 0)) (asi openp high low close limit) (asi openp' high' low' close' limit) := by
  lifts [asi]

/-- States of supertrend before and after the rise. The initial previous close is the smallest positive number in both; it is compared with NaN only. -/
structure StLift (c : ℝ) (s s' : StState XF) : Prop where
  lower : Lifted c 1 s.lower s'.lower
  upper : Lifted c 1 s.upper s'.upper
  prevc : Lifted c 1 s.prevc s'.prevc ∨ (s.lower = nan ∧ s.upper = nan) ∧ s'.lower = nan ∧ s'.upper = nan
  up : s.up = s'.up

theorem supertrendStep_lift (multiplier : XF) : ∀ s s' : StState XF, StLift c s s' → ∀ b b' : XF × XF × XF × XF,
    Both (Lifted c 1) (Both (Lifted c 1) (Both (Lifted c 1) (Lifted c 0))) b b' →
    Both (StLift c) (Lifted c 1) (supertrendStep multiplier s b) (supertrendStep multiplier s' b') := by
  rintro s s' ⟨hl, hu, hp, up⟩ ⟨h, l, x, t⟩ ⟨h', l', x', t'⟩ ⟨hh, hL, hc, ht⟩
  dsimp only at hh hL hc ht
  have ln : ∀ x : XF, (x <. nan) = false := fun x => by cases x <;> rfl
  have nl : ∀ x : XF, (nan <. x) = false := fun x => by cases x <;> rfl
  have h1 : (s.lower <. s.prevc) = (s'.lower <. s'.prevc) := by
    rcases hp with hp | ⟨hp, hp'⟩
    · exact hl.lt hp
    · rw [hp.1, hp'.1, nl, nl]
  have h2 : (s.prevc <. s.upper) = (s'.prevc <. s'.upper) := by
    rcases hp with hp | ⟨hp, hp'⟩
    · exact hp.lt hu
    · rw [hp.2, hp'.2, ln, ln]
  have hm : Lifted c 1 ((h + l) / 2) ((h' + l') / 2) := by repeat' lifts_step
  have hmt : Lifted c 0 (multiplier * t) (multiplier * t') := Lifted.lit.mul ht
  have q1 : Lifted c 1 ((h + l) / 2 - multiplier * t) ((h' + l') / 2 - multiplier * t') := hm.sub hmt (by norm_num) (.inr (by norm_num))
  have q2 : Lifted c 1 ((h + l) / 2 + multiplier * t) ((h' + l') / 2 + multiplier * t') := hm.add hmt (by norm_num)
  have hlo : Lifted c 1 (supertrendStep multiplier s (h, l, x, t)).1.lower (supertrendStep multiplier s' (h', l', x', t')).1.lower := by
    simp only [supertrendStep]
    exact Lifted.ite (by rw [h1, q1.lt hl]) hl q1
  have hup : Lifted c 1 (supertrendStep multiplier s (h, l, x, t)).1.upper (supertrendStep multiplier s' (h', l', x', t')).1.upper := by
    simp only [supertrendStep]
    exact Lifted.ite (by rw [h2, hu.lt q2]) hu q2
  have hud : (supertrendStep multiplier s (h, l, x, t)).1.up = (supertrendStep multiplier s' (h', l', x', t')).1.up := by
    simp only [supertrendStep, hu.lt hc, hc.lt hl, up]
  exact ⟨⟨hlo, hup, .inl hc, hud⟩, Lifted.ite hud hlo hup⟩

theorem supertrend_lift (h0 : Each (Lifted c 1) high high') (h1 : Each (Lifted c 1) low low') (h2 : Each (Lifted c 1) close close') (window : ℕ) (multiplier : XF) :
    Alike (Each (Lifted c 1)) (supertrend high low close window multiplier) (supertrend high' low' close' window multiplier) := by
  simp only [supertrend, Option.bind_eq_bind]
  refine Alike.bind (Volatility.trueRange_lift h0 h1 h2) fun t t' ht => Alike.bind (Smooth.wilder_lifts ht window) fun w w' hw => .answer ?_
  exact each_scan (X := StLift c) ⟨.nan, .nan, .inr ⟨⟨rfl, rfl⟩, rfl, rfl⟩, rfl⟩ (each_zip4 h0 h1 h2 (each_cons (Lifted.nan (c := c)) hw))
    (supertrendStep_lift multiplier)

theorem rwiStep_lift (window : ℕ) {h h' l l' tr : List XF} (hh : Each (Lifted c 1) h h') (hl : Each (Lifted c 1) l l')
    (s : XF × XF × XF) (i : ℕ) : Alike Eq (rwiStep window h l tr s i) (rwiStep window h' l' tr s i) := by
  have k : ∀ {a a' b b' : XF}, Lifted c 1 a a' → Lifted c 1 b b' → a - b = a' - b' := fun h g =>
    (h.sub g (j := 0) (by norm_num) (.inr (by norm_num))).eq
  simp only [rwiStep, Option.bind_eq_bind]
  refine Alike.bind .same (forall_eq_rel fun p => Alike.bind .same (forall_eq_rel fun t => Alike.bind (.getElem? hh rfl) fun a a' ha =>
    Alike.bind (.getElem? hl rfl) fun b b' hb => Alike.bind (.getElem? hh rfl) fun d d' hd => Alike.bind (.getElem? hl rfl) fun e e' he => .answer ?_))
  rw [k ha hb, k hd he]

theorem rwi_lift (h0 : Each (Lifted c 1) high high') (h1 : Each (Lifted c 1) low low') (h2 : Each (Lifted c 1) close close') (window : ℕ) :
    Alike Eq (rwi high low close window) (rwi high' low' close' window) := by
  simp only [rwi, Option.bind_eq_bind]
  refine Alike.bind (.sliceFrom h0 rfl) fun _ _ f0 => Alike.bind (.sliceFrom h1 rfl) fun _ _ f1 => Alike.bind (Volatility.trueRange_lift h0 h1 h2) fun t t' ht => ?_
  rw [← lifted_each_zero.1 ht]
  refine Alike.bind (.windows f0) fun _ _ g0 => Alike.bind (.windows f1) fun _ _ g1 => Alike.bind .same (forall_eq_rel fun ts => ?_)
  refine Alike.bind (P := Each Eq) (Alike.mapP (each_zip3 g0 g1 (each_eq (l := ts))) ?_) fun r r' hr => .answer (by rw [each_eq_iff.1 hr])
  rintro ⟨h, l, tr⟩ ⟨h', l', tr'⟩ ⟨hh, hl, rfl⟩
  refine Alike.bind (P := Eq) (Alike.foldlM (X := Eq) rfl each_eq ?_) (forall_eq_rel fun x => .answer rfl)
  rintro s _ rfl
  exact forall_eq_rel fun i => rwiStep_lift window hh hl s i

/-- States of psar before and after the rise: the acceleration factor is a pure number. -/
structure SarLift (c : ℝ) (s s' : SarState XF) : Prop where
  af : Lifted c 0 s.af s'.af
  fall : s.fall = s'.fall
  sar : Lifted c 1 s.sar s'.sar
  ep : Lifted c 1 s.ep s'.ep

theorem psarMove_lift (afInc afMax : XF) {s s' : SarState XF} (hs : SarLift c s s') {hp hp' lp lp' h h' l l' : XF}
    (h1 : Lifted c 1 hp hp') (h2 : Lifted c 1 lp lp') (h3 : Lifted c 1 h h') (h4 : Lifted c 1 l l') :
    (psarMove afInc afMax s hp lp h l).1 = (psarMove afInc afMax s' hp' lp' h' l').1 ∧
      SarLift c (psarMove afInc afMax s hp lp h l).2 (psarMove afInc afMax s' hp' lp' h' l').2 := by
  obtain ⟨ha, hf, hsar, he⟩ := hs
  have hm : Lifted c 1 (s.sar + s.af * (s.ep - s.sar)) (s'.sar + s'.af * (s'.ep - s'.sar)) := by
    have : Lifted c 0 (s.ep - s.sar) (s'.ep - s'.sar) := by repeat' lifts_step
    exact hsar.add (ha.mul this) (by norm_num)
  simp only [psarMove, ← hf]
  rcases s.fall
  · simp only [Bool.false_eq_true, if_false, apply_ite Prod.fst, apply_ite Prod.snd]
    refine ⟨h4.lt hm, ?_, rfl, h2.fmin h4 |>.fmin hm, ?_⟩ <;> dsimp only <;> repeat' lifts_step
  · simp only [if_true, apply_ite Prod.fst, apply_ite Prod.snd]
    refine ⟨hm.lt h3, ?_, rfl, h1.fmax h3 |>.fmax hm, ?_⟩ <;> dsimp only <;> repeat' lifts_step

theorem psarStep_lift (afInc afMax : XF) {s s' : SarState XF} (hs : SarLift c s s') {hp hp' lp lp' h h' l l' : XF}
    (h1 : Lifted c 1 hp hp') (h2 : Lifted c 1 lp lp') (h3 : Lifted c 1 h h') (h4 : Lifted c 1 l l') :
    SarLift c (psarStep afInc afMax s hp lp h l) (psarStep afInc afMax s' hp' lp' h' l') := by
  obtain ⟨hm1, hm2⟩ := psarMove_lift afInc afMax hs h1 h2 h3 h4
  simp only [psarStep, ← hm1]
  split
  · refine ⟨.lit, by rw [hm2.fall], hm2.ep, ?_⟩
    rw [← hm2.fall]
    split <;> assumption
  · exact hm2

theorem psar_lift (h0 : Each (Lifted c 1) high high') (h1 : Each (Lifted c 1) low low') (af afMax : Option XF) :
    Alike (Each (Lifted c 1)) (psar high low af afMax) (psar high' low' af afMax) := by
  simp only [psar, Option.bind_eq_bind]
  refine Alike.bind (.getElem? h0 rfl) fun x x' hx => Alike.bind (.getElem? h1 rfl) fun y y' hy => ?_
  rw [h0.length]
  refine Alike.bind .same (forall_eq_rel fun n => Alike.bind (Alike.scanM (X := SarLift c) (Q := Lifted c 1) ⟨.lit, rfl, hx, hy⟩ each_eq ?_) fun _ _ h => ?_)
  · intro s s' hs
    refine forall_eq_rel fun i => ?_
    refine Alike.bind (.getElem? h0 rfl) fun _ _ g0 => Alike.bind (.getElem? h1 rfl) fun _ _ g1 =>
      Alike.bind (.getElem? h0 rfl) fun _ _ g2 => Alike.bind (.getElem? h1 rfl) fun _ _ g3 => .answer ?_
    have := psarStep_lift (af.getD 0.02) (afMax.getD 0.2) hs g2 g3 g0 g1
    exact ⟨this, this.sar⟩
  · exact .answer (each_cons (Lifted.nan (c := c)) h)

theorem dpo_lift (h0 : Each (Lifted c 1) data data') (window : ℕ) (mamode : Option Smooth.MaMode)
    (hm : mamode ≠ some .Variable ∧ mamode ≠ some .Vidya) :
    Alike (Each (Lifted c 0)) (dpo data window mamode) (dpo data' window mamode) := by
  simp only [dpo, Option.bind_eq_bind]
  refine Alike.bind (Smooth.ma_lift h0 window _ ?_ ?_) ?_
  · cases mamode with
    | none => simp
    | some m => simpa using hm.1
  · cases mamode with
    | none => simp
    | some m => simpa using hm.2
  · repeat' lifts_step

theorem aroon_lift (h0 : Each (Lifted c 1) high high') (h1 : Each (Lifted c 1) low low') (window : ℕ) :
    Alike (Each (Both (Lifted c 0) (Lifted c 0))) (aroon high low window) (aroon high' low' window) := by
  lifts [aroon]

theorem chandelier_lift (h0 : Each (Lifted c 1) high high') (h1 : Each (Lifted c 1) low low') (h2 : Each (Lifted c 1) close close') (window : ℕ) (multiplier : Option XF) :
    Alike (Each (Both (Lifted c 1) (Lifted c 1))) (chandelier high low close window multiplier) (chandelier high' low' close' window multiplier) := by
  lifts [chandelier]

theorem midLine_lift (h0 : Each (Lifted c 1) high high') (h1 : Each (Lifted c 1) low low') (win pad : ℕ) :
    Alike (Each (Lifted c 1)) (midLine high low win pad) (midLine high' low' win pad) := by
  lifts [midLine]

lifts_rule midLine_lift

theorem ichimoku_lift (h0 : Each (Lifted c 1) high high') (h1 : Each (Lifted c 1) low low') (h2 : Each (Lifted c 1) close close') (conversionWin baseWin leadWin lagWin : ℕ) :
    Alike (Each (Both (Lifted c 1) (Both (Lifted c 1) (Both (Lifted c 1) (Both (Lifted c 1) (Lifted c 1)))))) (ichimoku high low close conversionWin baseWin leadWin lagWin) (ichimoku high' low' close' conversionWin baseWin leadWin lagWin) := by
  lifts [ichimoku]

theorem hurst_rs_lift (h : Each (Lifted c 1) data data') : hurst_rs data = hurst_rs data' := by
  rcases Nat.eq_zero_or_pos data.length with h0 | h0
  · rw [List.length_eq_zero_iff] at h0
    subst h0
    cases h
    rfl
  have hm : Lifted c 1 (fsum data / flt data.length) (fsum data' / flt data'.length) := by
    rw [← h.length]
    exact .of_raised (Smooth.raised_mean (each_raised.1 h) rfl h0)
  have e : Each (Lifted c 0) (data.map fun x => x - fsum data / flt data.length) (data'.map fun x => x - fsum data' / flt data'.length) :=
    each_map h fun x y hx => hx.sub hm (by norm_num) (.inr (by norm_num))
  have f : ∀ (d : List XF) (a : XF) (st : XF × XF × XF × XF), d.foldl (fun (st : XF × XF × XF × XF) x =>
      (fmax st.1 (st.2.2.1 + (x - a)), fmin st.2.1 (st.2.2.1 + (x - a)), st.2.2.1 + (x - a), st.2.2.2 + (x - a) * (x - a))) st =
      (d.map fun x => x - a).foldl (fun (st : XF × XF × XF × XF) y =>
      (fmax st.1 (st.2.2.1 + y), fmin st.2.1 (st.2.2.1 + y), st.2.2.1 + y, st.2.2.2 + y * y)) st := by
    intro d a st
    rw [List.foldl_map]
  have e' := lifted_each_zero.1 e
  simp only [hurst_rs, f]
  rw [e', h.length]

/-- Hurst's exponent does not change. -/
theorem hurst_lift (h : Each (Lifted c 1) data data') (window : ℕ) (minWin : Option ℕ) :
    Alike (Each (Lifted c 0)) (hurst data window minWin) (hurst data' window minWin) := by
  simp only [hurst, Option.bind_eq_bind]
  refine Alike.bind .same (forall_eq_rel fun s => Alike.bind .same (forall_eq_rel fun k => Alike.bind (.windows h) fun ws ws' hws =>
    Alike.bind (Alike.mapP (Q := Lifted c 0) hws fun w w' g => ?_) fun _ _ h => .answer (each_append (lifted_each_nans _) h)))
  refine Alike.bind (P := Each Eq) (Alike.mapP (P := Eq) each_eq (forall_eq_rel fun x => ?_)) fun r r' hr => .answer (by rw [each_eq_iff.1 hr]; exact .lit)
  have hc : Alike (Each (Each (Lifted c 1))) (chunksExact x w) (chunksExact x w') := by
    rw [chunksExact, chunksExact, g.length]
    split
    · exact .panic
    · exact .answer (each_map each_eq (forall_eq_rel fun i => each_take _ (each_drop _ g)))
  refine Alike.bind hc fun a a' ha => Alike.bind (P := Each Eq) (Alike.mapP ha fun l l' hl => by rw [hurst_rs_lift hl]; exact .same) fun v v' hv => .answer ?_
  rw [each_eq_iff.1 hv, ha.length]

end Traquer.Trend
