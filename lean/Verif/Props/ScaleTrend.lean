import Verif.Props.ScaleMomentum
import Verif.Model.Trend
/-!
# C78: a change of units, trend
-/

namespace Traquer.Trend
open FP FloatLit
open Traquer.Volatility (foldMax foldMin trueRange atr argBest)
variable {ρ : Rounding} {k : ℝ} [ρ.Scales k] {data data' openp openp' high high' low low' close close' volume volume' : List (FP ρ)}

theorem shinohara_units (h0 : Each (Scaled k 1) high high') (h1 : Each (Scaled k 1) low low') (h2 : Each (Scaled k 1) close close') (window : ℕ) :
    Alike (Each (Both (Scaled k 0) (Scaled k 0))) (shinohara high low close window) (shinohara high' low' close' window) := by
  units [shinohara]

units_rule shinohara_units

theorem dmBars_units (h0 : Each (Scaled k 1) high high') (h1 : Each (Scaled k 1) low low') (h2 : Each (Scaled k 1) close close') :
    Alike (Each (Both (Scaled k 1) (Both (Scaled k 1) (Both (Scaled k 1) (Both (Scaled k 1) (Scaled k 1)))))) (dmBars high low close) (dmBars high' low' close') := by
  units [dmBars]

units_rule dmBars_units

theorem dmTerm_units : ∀ b b' : FP ρ × FP ρ × FP ρ × FP ρ × FP ρ, Both (Scaled k 1) (Both (Scaled k 1) (Both (Scaled k 1) (Both (Scaled k 1) (Scaled k 1)))) b b' → Both (Scaled k 1) (Both (Scaled k 1) (Scaled k 1)) (dmTerm b) (dmTerm b') := by
  units [dmTerm]

units_rule dmTerm_units

theorem adx_units (h0 : Each (Scaled k 1) high high') (h1 : Each (Scaled k 1) low low') (h2 : Each (Scaled k 1) close close') (window smoothing : ℕ) :
    Alike (Each (Both (Scaled k 0) (Both (Scaled k 0) (Scaled k 0)))) (adx high low close window smoothing) (adx high' low' close' window smoothing) := by
  units [adx]

units_rule adx_units

theorem vortexTerm_units : ∀ b b' : FP ρ × FP ρ × FP ρ × FP ρ × FP ρ, Both (Scaled k 1) (Both (Scaled k 1) (Both (Scaled k 1) (Both (Scaled k 1) (Scaled k 1)))) b b' → Both (Scaled k 1) (Both (Scaled k 1) (Scaled k 1)) (vortexTerm b) (vortexTerm b') := by
  units [vortexTerm]

units_rule vortexTerm_units

theorem reduce3_units {l l' : List (FP ρ × FP ρ × FP ρ)} (h : Each (Both (Scaled k 1) (Both (Scaled k 1) (Scaled k 1))) l l') :
    Alike (Both (Scaled k 1) (Both (Scaled k 1) (Scaled k 1))) (reduce3 l) (reduce3 l') := by
  cases h <;> simp only [reduce3] <;> repeat' units_step

units_rule reduce3_units

theorem vortex_units (h0 : Each (Scaled k 1) high high') (h1 : Each (Scaled k 1) low low') (h2 : Each (Scaled k 1) close close') (window : ℕ) :
    Alike (Each (Both (Scaled k 0) (Scaled k 0))) (vortex high low close window) (vortex high' low' close' window) := by
  units [vortex]

units_rule vortex_units

theorem asi_units {limit limit' : FP ρ} (h0 : Each (Scaled k 1) openp openp') (h1 : Each (Scaled k 1) high high') (h2 : Each (Scaled k 1) low low') (h3 : Each (Scaled k 1) close close') (h4 : Scaled k 1 limit limit') :
    Alike (Each (Scaled k 0)) (asi openp high low close limit) (asi openp' high' low' close' limit') := by
  units [asi]

units_rule asi_units

theorem ulcer_units (h0 : Each (Scaled k 1) data data') (window : ℕ) :
    Alike (Each (Scaled k 0)) (ulcer data window) (ulcer data' window) := by
  units [ulcer]

units_rule ulcer_units

/-- States of supertrend in the two units. The initial previous close is the smallest positive number in both; it is compared with NaN only. -/
structure StUnits (k : ℝ) (s s' : StState (FP ρ)) : Prop where
  lower : Scaled k 1 s.lower s'.lower
  upper : Scaled k 1 s.upper s'.upper
  prevc : Scaled k 1 s.prevc s'.prevc ∨ s.lower = nan ∧ s.upper = nan
  up : s.up = s'.up

theorem lt_nan (x : FP ρ) : (x <. nan) = false := by cases x <;> rfl
theorem nan_lt (x : FP ρ) : (nan <. x) = false := by cases x <;> rfl

theorem supertrendStep_units (multiplier : FP ρ) : ∀ s s' : StState (FP ρ), StUnits k s s' → ∀ b b' : FP ρ × FP ρ × FP ρ × FP ρ,
    Both (Scaled k 1) (Both (Scaled k 1) (Both (Scaled k 1) (Scaled k 1))) b b' →
    Both (StUnits k) (Scaled k 1) (supertrendStep multiplier s b) (supertrendStep multiplier s' b') := by
  rintro s s' ⟨hl, hu, hp, up⟩ ⟨h, l, c, t⟩ ⟨h', l', c', t'⟩ ⟨hh, hL, hc, ht⟩
  dsimp only at hh hL hc ht
  have h1 : (s.lower <. s.prevc) = (s'.lower <. s'.prevc) := by
    rcases hp with hp | ⟨hp, -⟩
    · exact hl.lt hp
    · have : s'.lower = nan := by rw [hp] at hl; exact hl
      rw [hp, this, nan_lt, nan_lt]
  have h2 : (s.prevc <. s.upper) = (s'.prevc <. s'.upper) := by
    rcases hp with hp | ⟨-, hp⟩
    · exact hp.lt hu
    · have : s'.upper = nan := by rw [hp] at hu; exact hu
      rw [hp, this, lt_nan, lt_nan]
  have hlo : Scaled k 1 (supertrendStep multiplier s (h, l, c, t)).1.lower (supertrendStep multiplier s' (h', l', c', t')).1.lower := by
    units [supertrendStep]
  have hup : Scaled k 1 (supertrendStep multiplier s (h, l, c, t)).1.upper (supertrendStep multiplier s' (h', l', c', t')).1.upper := by
    units [supertrendStep]
  have hud : (supertrendStep multiplier s (h, l, c, t)).1.up = (supertrendStep multiplier s' (h', l', c', t')).1.up := by
    simp only [supertrendStep, hu.lt hc, hc.lt hl, up]
  exact ⟨⟨hlo, hup, .inl hc, hud⟩, Scaled.ite hud hlo hup⟩

units_rule supertrendStep_units

theorem supertrend_units (h0 : Each (Scaled k 1) high high') (h1 : Each (Scaled k 1) low low') (h2 : Each (Scaled k 1) close close') (window : ℕ) (multiplier : FP ρ) :
    Alike (Each (Scaled k 1)) (supertrend high low close window multiplier) (supertrend high' low' close' window multiplier) := by
  units [supertrend]
  exact ⟨.nan, .nan, .inr ⟨rfl, rfl⟩, rfl⟩

units_rule supertrend_units

theorem rwiStep_units (window : ℕ) {h h' l l' tr tr' : List (FP ρ)} (hh : Each (Scaled k 1) h h') (hl : Each (Scaled k 1) l l')
    (ht : Each (Scaled k 1) tr tr') : ∀ s s' : FP ρ × FP ρ × FP ρ, Both (Scaled k 0) (Both (Scaled k 0) (Scaled k 1)) s s' → ∀ i : ℕ,
    Alike (Both (Scaled k 0) (Both (Scaled k 0) (Scaled k 1))) (rwiStep window h l tr s i) (rwiStep window h' l' tr' s' i) := by
  rintro ⟨a, b, c⟩ ⟨a', b', c'⟩ ⟨h1, h2, h3⟩ i
  dsimp only at h1 h2 h3
  units [rwiStep]

units_rule rwiStep_units

theorem rwi_units (h0 : Each (Scaled k 1) high high') (h1 : Each (Scaled k 1) low low') (h2 : Each (Scaled k 1) close close') (window : ℕ) :
    Alike (Each (Both (Scaled k 0) (Scaled k 0))) (rwi high low close window) (rwi high' low' close' window) := by
  units [rwi]

units_rule rwi_units

/-- States of psar in the two units: the acceleration factor is a pure number. -/
structure SarUnits (k : ℝ) (s s' : SarState (FP ρ)) : Prop where
  af : Scaled k 0 s.af s'.af
  fall : s.fall = s'.fall
  sar : Scaled k 1 s.sar s'.sar
  ep : Scaled k 1 s.ep s'.ep

theorem psarMove_units (afInc afMax : FP ρ) {s s' : SarState (FP ρ)} (hs : SarUnits k s s') {hp hp' lp lp' h h' l l' : FP ρ}
    (h1 : Scaled k 1 hp hp') (h2 : Scaled k 1 lp lp') (h3 : Scaled k 1 h h') (h4 : Scaled k 1 l l') :
    (psarMove afInc afMax s hp lp h l).1 = (psarMove afInc afMax s' hp' lp' h' l').1 ∧
      SarUnits k (psarMove afInc afMax s hp lp h l).2 (psarMove afInc afMax s' hp' lp' h' l').2 := by
  obtain ⟨ha, hf, hsar, he⟩ := hs
  have hm : Scaled k 1 (s.sar + s.af * (s.ep - s.sar)) (s'.sar + s'.af * (s'.ep - s'.sar)) := by repeat' units_step
  simp only [psarMove, ← hf]
  rcases s.fall
  · simp only [Bool.false_eq_true, if_false, apply_ite Prod.fst, apply_ite Prod.snd]
    refine ⟨h4.lt hm, ?_, rfl, h2.fmin h4 |>.fmin hm, ?_⟩ <;> dsimp only <;> repeat' units_step
  · simp only [if_true, apply_ite Prod.fst, apply_ite Prod.snd]
    refine ⟨hm.lt h3, ?_, rfl, h1.fmax h3 |>.fmax hm, ?_⟩ <;> dsimp only <;> repeat' units_step

theorem psarStep_units (afInc afMax : FP ρ) {s s' : SarState (FP ρ)} (hs : SarUnits k s s') {hp hp' lp lp' h h' l l' : FP ρ}
    (h1 : Scaled k 1 hp hp') (h2 : Scaled k 1 lp lp') (h3 : Scaled k 1 h h') (h4 : Scaled k 1 l l') :
    SarUnits k (psarStep afInc afMax s hp lp h l) (psarStep afInc afMax s' hp' lp' h' l') := by
  obtain ⟨hm1, hm2⟩ := psarMove_units afInc afMax hs h1 h2 h3 h4
  simp only [psarStep, ← hm1]
  split
  · refine ⟨.lit, by rw [hm2.fall], hm2.ep, ?_⟩
    rw [← hm2.fall]
    split <;> assumption
  · exact hm2

theorem psar_units (h0 : Each (Scaled k 1) high high') (h1 : Each (Scaled k 1) low low') (af afMax : Option (FP ρ)) :
    Alike (Each (Scaled k 1)) (psar high low af afMax) (psar high' low' af afMax) := by
  simp only [psar, Option.bind_eq_bind]
  refine Alike.bind (.getElem? h0 rfl) fun x x' hx => Alike.bind (.getElem? h1 rfl) fun y y' hy => ?_
  rw [h0.length]
  refine Alike.bind .same (forall_eq_rel fun n => Alike.bind (Alike.scanM (X := SarUnits k) (Q := Scaled k 1) ⟨.lit, rfl, hx, hy⟩ each_eq ?_) fun _ _ h => ?_)
  · intro s s' hs
    refine forall_eq_rel fun i => ?_
    refine Alike.bind (.getElem? h0 rfl) fun _ _ g0 => Alike.bind (.getElem? h1 rfl) fun _ _ g1 =>
      Alike.bind (.getElem? h0 rfl) fun _ _ g2 => Alike.bind (.getElem? h1 rfl) fun _ _ g3 => .answer ?_
    have := psarStep_units (af.getD 0.02) (afMax.getD 0.2) hs g2 g3 g0 g1
    exact ⟨this, this.sar⟩
  · exact .answer (each_cons .nan h)

units_rule psar_units

theorem dpo_units (h0 : Each (Scaled k 1) data data') (window : ℕ) (mamode : Option Smooth.MaMode) :
    Alike (Each (Scaled k 1)) (dpo data window mamode) (dpo data' window mamode) := by
  units [dpo]

units_rule dpo_units

theorem aroon_units (h0 : Each (Scaled k 1) high high') (h1 : Each (Scaled k 1) low low') (window : ℕ) :
    Alike (Each (Both (Scaled k 0) (Scaled k 0))) (aroon high low window) (aroon high' low' window) := by
  units [aroon]

units_rule aroon_units

theorem chandelier_units (h0 : Each (Scaled k 1) high high') (h1 : Each (Scaled k 1) low low') (h2 : Each (Scaled k 1) close close') (window : ℕ) (multiplier : Option (FP ρ)) :
    Alike (Each (Both (Scaled k 1) (Scaled k 1))) (chandelier high low close window multiplier) (chandelier high' low' close' window multiplier) := by
  units [chandelier]

units_rule chandelier_units

/-- States of zigzag in the two units. -/
structure ZigUnits (k : ℝ) (s s' : ZigState (FP ρ)) : Prop where
  result : Each (Scaled k 1) s.result s'.result
  start : Both Eq (Scaled k 1) s.start s'.start
  fin : Both Eq (Scaled k 1) s.fin s'.fin

theorem zigInit_units (distance : FP ρ) {x x' y y' : FP ρ} (hx : Scaled k 1 x x') (hy : Scaled k 1 y y') (h0 : Each (Scaled k 1) high high')
    (h1 : Each (Scaled k 1) low low') (idx : List ℕ) {s s' : ZigState (FP ρ)} (hs : ZigUnits k s s') :
    Alike (ZigUnits k) (zigInit distance x y high low idx s) (zigInit distance x' y' high' low' idx s') := by
  induction idx with
  | nil => exact .answer hs
  | cons i rest ih =>
    simp only [zigInit, Option.bind_eq_bind]
    refine Alike.bind (.getElem? h1 rfl) fun a a' ha => ?_
    have e1 : (distance <=. (x - a) / x * 100) = (distance <=. (x' - a') / x' * 100) := by
      apply Scaled.le (k := k) (n := 0) <;> repeat' units_step
    refine Alike.ite (by rw [e1]) (.answer ⟨each_set hs.result rfl hx, ⟨rfl, hx⟩, ⟨rfl, ha⟩⟩) (Alike.bind (.getElem? h0 rfl) fun b b' hb => ?_)
    have e2 : (distance <=. (b - y) / y * 100) = (distance <=. (b' - y') / y' * 100) := by
      apply Scaled.le (k := k) (n := 0) <;> repeat' units_step
    exact Alike.ite (by rw [e2]) (.answer ⟨each_set hs.result rfl hy, ⟨rfl, hy⟩, ⟨rfl, hb⟩⟩) ih

theorem zigStep_units (distance : FP ρ) (h0 : Each (Scaled k 1) high high') (h1 : Each (Scaled k 1) low low') {s s' : ZigState (FP ρ)}
    (hs : ZigUnits k s s') (i : ℕ) : Alike (ZigUnits k) (zigStep distance high low s i) (zigStep distance high' low' s' i) := by
  simp only [zigStep, Option.bind_eq_bind]
  refine Alike.bind (.getElem? h0 rfl) fun a a' ha => ?_
  obtain ⟨hr, hst, hf⟩ := hs
  have e1 : (distance <=. (a - s.fin.2) / a * 100) = (distance <=. (a' - s'.fin.2) / a' * 100) := by
    have := hf.2
    apply Scaled.le (k := k) (n := 0) <;> repeat' units_step
  have e2 : ∀ b b', Scaled k 1 b b' → (distance <=. (s.fin.2 - b) / b * 100) = (distance <=. (s'.fin.2 - b') / b' * 100) := fun b b' hb => by
    have := hf.2
    apply Scaled.le (k := k) (n := 0) <;> repeat' units_step
  have read : ∀ {p p' : FP ρ → Bool} {c c' : Bool}, c = c' → (∀ b b', Scaled k 1 b b' → p b = p' b') →
      Alike Eq (andThen c (low[i]?.map p)) (andThen c' (low'[i]?.map p')) := by
    rintro p p' c c' rfl hp
    cases c
    · exact .answer rfl
    · show Alike Eq (low[i]?.map p) (low'[i]?.map p')
      rw [Option.map_eq_bind, Option.map_eq_bind]
      refine Alike.bind (.getElem? h1 rfl) fun b b' hb => .answer (hp b b' hb)
  refine Alike.ite (by rw [hst.2.lt hf.2, hf.2.lt ha]) (.answer ⟨hr, hst, ⟨rfl, ha⟩⟩) ?_
  refine Alike.ite (by rw [hf.2.lt hst.2, e1]) (.answer ⟨each_set hr hf.1 hf.2, hf, ⟨rfl, ha⟩⟩) ?_
  refine Alike.bind (read (hf.2.lt hst.2) fun b b' hb => hb.lt hf.2) fun c c' hc => ?_
  refine Alike.ite (by rw [hc]) (Alike.bind (.getElem? h1 rfl) fun b b' hb => .answer ⟨hr, hst, ⟨rfl, hb⟩⟩) ?_
  refine Alike.bind (read (hst.2.lt hf.2) e2) fun c c' hc => ?_
  exact Alike.ite (by rw [hc]) (Alike.bind (.getElem? h1 rfl) fun b b' hb => .answer ⟨each_set hr hf.1 hf.2, hf, ⟨rfl, hb⟩⟩) (.answer ⟨hr, hst, hf⟩)

theorem zigzag_units (h0 : Each (Scaled k 1) high high') (h1 : Each (Scaled k 1) low low') (distance : Option (FP ρ)) :
    Alike (Each (Scaled k 1)) (zigzag high low distance) (zigzag high' low' distance) := by
  simp only [zigzag, Option.bind_eq_bind]
  refine Alike.bind (.getElem? h1 rfl) fun y y' hy => ?_
  rw [h0.length]
  refine Alike.bind .same (forall_eq_rel fun n => Alike.bind (.getLast? h0) fun z z' hz => Alike.bind (.getElem? h0 rfl) fun x x' hx => ?_)
  refine Alike.bind (zigInit_units _ hx hy h0 h1 _ ⟨each_set (each_replicate _ .nan) rfl hy, ⟨rfl, hy⟩, ⟨rfl, hz⟩⟩) fun s s' hs => ?_
  have e : s.fin.1 < n ↔ s'.fin.1 < n := by rw [hs.fin.1]
  have tail : ∀ s s' : ZigState (FP ρ), ZigUnits k s s' → Alike (Each (Scaled k 1))
      (s.result.getLast?.bind fun last => if isNaN last = true then
          if (s.fin.2 <. s.start.2) = true then high.getLast?.bind fun v => some (s.result.set (s.result.length - 1) v)
          else low.getLast?.bind fun v => some (s.result.set (s.result.length - 1) v)
        else some s.result)
      (s'.result.getLast?.bind fun last => if isNaN last = true then
          if (s'.fin.2 <. s'.start.2) = true then high'.getLast?.bind fun v => some (s'.result.set (s'.result.length - 1) v)
          else low'.getLast?.bind fun v => some (s'.result.set (s'.result.length - 1) v)
        else some s'.result) := by
    intro s s' hs
    refine Alike.bind (.getLast? hs.result) fun v v' hv => Alike.ite (by rw [hv.isNaN]) ?_ (.answer hs.result)
    refine Alike.ite (by rw [hs.fin.2.lt hs.start.2]) (Alike.bind (.getLast? h0) fun w w' hw => .answer ?_)
      (Alike.bind (.getLast? h1) fun w w' hw => .answer ?_)
    all_goals exact each_set hs.result (by rw [hs.result.length]) hw
  refine Alike.ite e (Alike.bind ?_ tail) (tail s s' hs)
  rw [← hs.fin.1]
  exact Alike.foldlM hs each_eq fun s s' hs => forall_eq_rel fun i => zigStep_units _ h0 h1 hs i

units_rule zigzag_units

theorem atrStopStep_units (multiplier : FP ρ) : ∀ s s' : Bool × FP ρ, Both Eq (Scaled k 1) s s' → ∀ c c' : FP ρ, Scaled k 1 c c' →
    ∀ t t' : FP ρ, Scaled k 1 t t' → Both Eq (Scaled k 1) (atrStopStep multiplier s c t) (atrStopStep multiplier s' c' t') := by
  rintro ⟨u, b⟩ ⟨u', b'⟩ ⟨rfl, hb⟩ c c' hc t t' ht
  dsimp only at hb
  cases u <;> simp only [atrStopStep, if_true, Bool.false_eq_true, if_false] <;> repeat' units_step

units_rule atrStopStep_units

theorem atrStopStep_snd (multiplier : FP ρ) {s s' : Bool × FP ρ} (hs : Both Eq (Scaled k 1) s s') {c c' t t' : FP ρ} (hc : Scaled k 1 c c')
    (ht : Scaled k 1 t t') : Scaled k 1 (atrStopStep multiplier s c t).2 (atrStopStep multiplier s' c' t').2 :=
  (atrStopStep_units _ _ _ hs _ _ hc _ _ ht).2

units_rule atrStopStep_snd

theorem atr_stop_units (h0 : Each (Scaled k 1) high high') (h1 : Each (Scaled k 1) low low') (h2 : Each (Scaled k 1) close close') (window : ℕ) (multiplier : Option (FP ρ)) :
    Alike (Each (Scaled k 1)) (atr_stop high low close window multiplier) (atr_stop high' low' close' window multiplier) := by
  simp only [atr_stop, Option.bind_eq_bind]
  refine Alike.bind (.windows h2) fun _ _ hc => Alike.bind (Volatility.atr_units h0 h1 h2 window) fun _ _ ha =>
    Alike.bind (Alike.scanM (X := Both Eq (Scaled k 1)) (Q := Scaled k 1) ⟨rfl, .zero⟩ (each_zip (each_drop _ hc) (each_drop _ ha)) ?_) fun _ _ h =>
      .answer (each_append (each_nans _) h)
  rintro s s' hs ⟨c, t⟩ ⟨c', t'⟩ ⟨hc, ht⟩
  refine Alike.bind (.getElem? hc rfl) fun x x' hx => .answer ?_
  have := atrStopStep_units (multiplier.getD 3) _ _ hs _ _ hx _ _ ht
  exact ⟨this, this.2⟩

units_rule atr_stop_units

theorem midLine_units (h0 : Each (Scaled k 1) high high') (h1 : Each (Scaled k 1) low low') (win pad : ℕ) :
    Alike (Each (Scaled k 1)) (midLine high low win pad) (midLine high' low' win pad) := by
  units [midLine]

units_rule midLine_units

theorem ichimoku_units (h0 : Each (Scaled k 1) high high') (h1 : Each (Scaled k 1) low low') (h2 : Each (Scaled k 1) close close') (conversionWin baseWin leadWin lagWin : ℕ) :
    Alike (Each (Both (Scaled k 1) (Both (Scaled k 1) (Both (Scaled k 1) (Both (Scaled k 1) (Scaled k 1)))))) (ichimoku high low close conversionWin baseWin leadWin lagWin) (ichimoku high' low' close' conversionWin baseWin leadWin lagWin) := by
  units [ichimoku]

units_rule ichimoku_units

end Traquer.Trend
