import Verif.Props.LiftVolatility
import Verif.Model.Momentum
/-!
# C82: all prices raised by the same amount, momentum
-/

namespace Traquer.Momentum
open FP FloatLit
open Traquer.Volatility (foldMax foldMin trueRange)
variable {c : ℝ} {data data' openp openp' high high' low low' close close' volume volume' : List XF}

theorem each_eq_iff {α : Type} {l l' : List α} : Each Eq l l' ↔ l = l' := by
  constructor
  · intro h
    induction h with
    | nil => rfl
    | cons h _ ih => rw [h, ih]
  · rintro rfl
    exact each_eq

theorem alligatorLine_lift (h : Each (Lifted c 1) data data') (win offset maxOffset : ℕ) :
    Alike (Each (Lifted c 1)) (Trend.alligatorLine data win offset maxOffset) (Trend.alligatorLine data' win offset maxOffset) := by
  lifts [Trend.alligatorLine]

lifts_rule alligatorLine_lift

theorem alligator_lift (h : Each (Lifted c 1) data data') (jawWin jawOffset teethWin teethOffset lipsWin lipsOffset : ℕ) :
    Alike (Each (Both (Lifted c 1) (Both (Lifted c 1) (Lifted c 1))))
      (Trend.alligator data jawWin jawOffset teethWin teethOffset lipsWin lipsOffset)
      (Trend.alligator data' jawWin jawOffset teethWin teethOffset lipsWin lipsOffset) := by
  lifts [Trend.alligator]

lifts_rule alligator_lift

theorem sumPair_lift {l l' : List (XF × XF)} (h : Each (Both (Lifted c 0) (Lifted c 0)) l l') : sumPair l = sumPair l' := by
  have : l = l' := by
    induction h with
    | nil => rfl
    | cons h _ ih => rw [ih, Prod.ext h.1.eq h.2.eq]
  rw [this]

theorem gains_lift (h0 : Each (Lifted c 1) data data') : Each (Lifted c 0) (gains data) (gains data') := by
  lifts [gains]

lifts_rule gains_lift

theorem losses_lift (h0 : Each (Lifted c 1) data data') : Each (Lifted c 0) (losses data) (losses data') := by
  lifts [losses]

lifts_rule losses_lift

theorem rsi_lift (h0 : Each (Lifted c 1) data data') (window : ℕ) :
    Alike (Each (Lifted c 0)) (rsi data window) (rsi data' window) := by
  lifts [rsi]

lifts_rule rsi_lift

theorem macd_lift (h0 : Each (Lifted c 1) close close') (short long : ℕ) :
    Alike (Each (Lifted c 0)) (macd close short long) (macd close' short long) := by
  lifts [macd]

lifts_rule macd_lift

theorem cmo_lift (h0 : Each (Lifted c 1) data data') (window : ℕ) :
    Alike (Each (Lifted c 0)) (cmo data window) (cmo data' window) := by
  lifts [cmo, Smooth.cmoRaw, Smooth.gainLoss]

theorem elder_ray_lift (h0 : Each (Lifted c 1) high high') (h1 : Each (Lifted c 1) low low') (h2 : Each (Lifted c 1) close close') (window : ℕ) :
    Alike (Each (Both (Lifted c 0) (Lifted c 0))) (elder_ray high low close window) (elder_ray high' low' close' window) := by
  lifts [elder_ray]

theorem wpr_lift (h0 : Each (Lifted c 1) high high') (h1 : Each (Lifted c 1) low low') (h2 : Each (Lifted c 1) close close') (window : ℕ) :
    Alike (Each (Lifted c 0)) (wpr high low close window) (wpr high' low' close' window) := by
  lifts [wpr]

theorem apo_lift (h0 : Each (Lifted c 1) data data') (short long : ℕ) :
    Alike (Each (Lifted c 0)) (apo data short long) (apo data' short long) := by
  lifts [apo]

theorem bpTr_lift (h0 : Each (Lifted c 1) high high') (h1 : Each (Lifted c 1) low low') (h2 : Each (Lifted c 1) close close') :
    Alike Eq (bpTr high low close) (bpTr high' low' close') := by
  have : Alike (Each (Both (Lifted c 0) (Lifted c 0))) (bpTr high low close) (bpTr high' low' close') := by lifts [bpTr]
  generalize bpTr high low close = a at *
  generalize bpTr high' low' close' = b at *
  cases this with
  | panic => exact .panic
  | answer h =>
    refine .answer ?_
    induction h with
    | nil => rfl
    | cons h _ ih => rw [ih, Prod.ext h.1.eq h.2.eq]

theorem ultimate_lift (h0 : Each (Lifted c 1) high high') (h1 : Each (Lifted c 1) low low') (h2 : Each (Lifted c 1) close close') (win1 win2 win3 : ℕ) :
    Alike (Each (Lifted c 0)) (ultimate high low close win1 win2 win3) (ultimate high' low' close' win1 win2 win3) := by
  simp only [ultimate, Option.bind_eq_bind]
  exact Alike.bind (bpTr_lift h0 h1 h2) (forall_eq_rel fun v => Alike.refl fun _ => lifted_each_lit)

theorem pgo_lift (h0 : Each (Lifted c 1) high high') (h1 : Each (Lifted c 1) low low') (h2 : Each (Lifted c 1) close close') (window : ℕ) :
    Alike (Each (Lifted c 0)) (pgo high low close window) (pgo high' low' close' window) := by
  lifts [pgo]

/-- `limit` is a price difference and does not change. -/
theorem swingTerm_lift {limit prevo prevo' o o' h h' l l' prevc prevc' x x' : XF} (h0 : Lifted c 1 prevo prevo')
    (h1 : Lifted c 1 o o') (h2 : Lifted c 1 h h') (h3 : Lifted c 1 l l') (h4 : Lifted c 1 prevc prevc') (h5 : Lifted c 1 x x') :
    Lifted c 0 (swingTerm limit prevo o h l prevc x) (swingTerm limit prevo' o' h' l' prevc' x') := by
  have k : ∀ {a a' b b' : XF}, Lifted c 1 a a' → Lifted c 1 b b' → a - b = a' - b' := fun h g =>
    (h.sub g (j := 0) (by norm_num) (.inr (by norm_num))).eq
  rw [swingTerm, swingTerm, k h2 h4, k h3 h4, k h2 h3, k h4 h0, k h5 h4, k h5 h1]
  exact .lit

lifts_rule swingTerm_lift

theorem swing_lift (limit : XF) (h0 : Each (Lifted c 1) openp openp') (h1 : Each (Lifted c 1) high high') (h2 : Each (Lifted c 1) low low') (h3 : Each (Lifted c 1) close close') :
    Alike (Each (Lifted c 0)) (swing openp high low close limit) (swing openp' high' low' close' limit) := by
  lifts [swing]

lifts_rule swing_lift

theorem si_lift (limit : XF) (h0 : Each (Lifted c 1) openp openp') (h1 : Each (Lifted c 1) high high') (h2 : Each (Lifted c 1) low low') (h3 : Each (Lifted c 1) close close') :
    Alike (Each (Lifted c 0)) (si openp high low close limit) (si openp' high' low' close' limit) := by
  lifts [si]

theorem tii_lift (h0 : Each (Lifted c 1) data data') (window : ℕ) :
    Alike (Each (Lifted c 0)) (tii data window) (tii data' window) := by
  simp only [tii, Option.bind_eq_bind]
  refine Alike.bind .same (forall_eq_rel fun k => Alike.bind (Smooth.sma_lift h0 window) fun m m' hm => ?_)
  have e : ∀ p q : XF × XF, Both (Lifted c 1) (Lifted c 1) p q → p.2 - p.1 = q.2 - q.1 := fun p q h =>
    (h.2.sub h.1 (j := 0) (by norm_num) (.inr (by norm_num))).eq
  have : Each Eq ((m.zip data).map fun p => (fmax (p.2 - p.1) 0, fabs (fmin (p.2 - p.1) 0)))
      ((m'.zip data').map fun p => (fmax (p.2 - p.1) 0, fabs (fmin (p.2 - p.1) 0))) :=
    each_map (each_zip hm h0) fun p q h => by rw [e p q h]
  rw [each_eq_iff.1 this]
  exact Alike.refl fun _ => lifted_each_lit

theorem stoch_lift (h0 : Each (Lifted c 1) high high') (h1 : Each (Lifted c 1) low low') (h2 : Each (Lifted c 1) close close') (window smoothWin : ℕ) :
    Alike (Each (Both (Lifted c 0) (Lifted c 0))) (stoch high low close window smoothWin) (stoch high' low' close' window smoothWin) := by
  lifts [stoch]

lifts_rule stoch_lift

theorem stochastic_lift (h0 : Each (Lifted c 1) high high') (h1 : Each (Lifted c 1) low low') (h2 : Each (Lifted c 1) close close') (window : ℕ) :
    Alike (Each (Both (Lifted c 0) (Lifted c 0))) (stochastic high low close window) (stochastic high' low' close' window) := by
  lifts [stochastic]

theorem stc_lift (h0 : Each (Lifted c 1) close close') (window short long : ℕ) :
    Alike (Each (Lifted c 0)) (stc close window short long) (stc close' window short long) := by
  simp only [stc, Option.bind_eq_bind]
  refine Alike.bind .same (forall_eq_rel fun k => Alike.bind .same (forall_eq_rel fun j => Alike.bind (macd_lift h0 short long) fun m m' hm => ?_))
  rw [lifted_each_zero.1 hm]
  exact Alike.refl fun _ => lifted_each_lit

theorem relative_vigor_lift (h0 : Each (Lifted c 1) openp openp') (h1 : Each (Lifted c 1) high high') (h2 : Each (Lifted c 1) low low') (h3 : Each (Lifted c 1) close close') (window : ℕ) :
    Alike (Each (Lifted c 0)) (relative_vigor openp high low close window) (relative_vigor openp' high' low' close' window) := by
  have e1 : Each (Lifted c 0) ((openp.zip close).map fun (o, c) => c - o) ((openp'.zip close').map fun (o, c) => c - o) := by repeat' lifts_step
  have e2 : Each (Lifted c 0) ((high.zip low).map fun (h, l) => h - l) ((high'.zip low').map fun (h, l) => h - l) := by repeat' lifts_step
  simp only [relative_vigor, Option.bind_eq_bind]
  rw [lifted_each_zero.1 e1, lifted_each_zero.1 e2]
  exact Alike.refl fun _ => lifted_each_lit

theorem bal_power_lift (h0 : Each (Lifted c 1) openp openp') (h1 : Each (Lifted c 1) high high') (h2 : Each (Lifted c 1) low low') (h3 : Each (Lifted c 1) close close') (window : ℕ) :
    Alike (Each (Lifted c 0)) (bal_power openp high low close window) (bal_power openp' high' low' close' window) := by
  lifts [bal_power]

theorem qstick_lift (h0 : Each (Lifted c 1) openp openp') (h1 : Each (Lifted c 1) close close') (window : ℕ) :
    Alike (Each (Lifted c 0)) (qstick openp close window) (qstick openp' close' window) := by
  lifts [qstick]

theorem psych_lift (h0 : Each (Lifted c 1) data data') (window : ℕ) :
    Alike (Each (Lifted c 0)) (psych data window) (psych data' window) := by
  lifts [psych]

theorem tsi_lift (h0 : Each (Lifted c 1) data data') (short long : ℕ) :
    Alike (Each (Lifted c 0)) (tsi data short long) (tsi data' short long) := by
  lifts [tsi]

theorem derivative_lift (h0 : Each (Lifted c 1) data data') (win1 win2 signal : ℕ) :
    Alike (Each (Lifted c 0)) (derivative data win1 win2 signal) (derivative data' win1 win2 signal) := by
  simp only [derivative, Option.bind_eq_bind]
  refine Alike.bind (rsi_lift h0 _) fun x y h => ?_
  rw [lifted_each_zero.1 h]
  exact Alike.refl fun _ => lifted_each_lit

theorem qqe_lift (h0 : Each (Lifted c 1) data data') (window smoothing : ℕ) :
    Alike (Each (Lifted c 0)) (qqe data window smoothing) (qqe data' window smoothing) := by
  simp only [qqe, Option.bind_eq_bind]
  refine Alike.bind (rsi_lift h0 _) fun x y h => ?_
  rw [lifted_each_zero.1 h]
  exact Alike.refl fun _ => lifted_each_lit

theorem cci_lift (h0 : Each (Lifted c 1) high high') (h1 : Each (Lifted c 1) low low') (h2 : Each (Lifted c 1) close close') (window : ℕ) :
    Alike (Each (Lifted c 0)) (cci high low close window) (cci high' low' close' window) := by
  rcases Nat.eq_zero_or_pos window with rfl | hw
  · exact .panic
  have ht : Each (Lifted c 1) ((zip3 high low close).map fun (h, l, c) => (h + l + c) / 3) ((zip3 high' low' close').map fun (h, l, c) => (h + l + c) / 3) := by
    repeat' lifts_step
  simp only [cci, Option.bind_eq_bind]
  refine Alike.bind .same (forall_eq_rel fun k => Alike.bind (alike_windows_sized window ht) fun ws ws' hws =>
    Alike.bind (Alike.mapP (Q := Lifted c 0) hws fun w w' g => ?_) fun _ _ h => .answer (each_append (lifted_each_nans _) h))
  have hm : Lifted c 1 (fsum w / flt window) (fsum w' / flt window) := Distribution.winMean_lift g hw
  have g2 := g.2
  generalize fsum w / flt window = a at *
  generalize fsum w' / flt window = b at *
  repeat' lifts_step

theorem deli_lift (h0 : Each (Lifted c 1) high high') (h1 : Each (Lifted c 1) low low') (window : ℕ) :
    Alike (Each (Lifted c 0)) (deli high low window) (deli high' low' window) := by
  have hq : Each (Lifted c 1) (((pairs high).zip (pairs low)).map fun p => (fmax p.1.1 p.1.2 + fmin p.2.1 p.2.2) / 2)
      (((pairs high').zip (pairs low')).map fun p => (fmax p.1.1 p.1.2 + fmin p.2.1 p.2.2) / 2) := by
    repeat' lifts_step
  simp only [deli, Option.bind_eq_bind]
  generalize ((pairs high).zip (pairs low)).map _ = q at *
  generalize ((pairs high').zip (pairs low')).map _ = q' at *
  refine Alike.bind (Smooth.ewma_lift hq window) fun a a' ha => Alike.bind (Smooth.ewma_lift hq (2 * window)) fun b b' hb => ?_
  have e : Each (Lifted c 0) ((a.zip b).map fun p => p.1 - p.2) ((a'.zip b').map fun p => p.1 - p.2) := by repeat' lifts_step
  rw [lifted_each_zero.1 e]
  exact Alike.refl fun _ => lifted_each_lit

theorem gator_lift (h0 : Each (Lifted c 1) data data') (jawWin jawOffset teethWin teethOffset lipsWin lipsOffset : ℕ) :
    Alike (Each (Both (Lifted c 0) (Lifted c 0))) (gator data jawWin jawOffset teethWin teethOffset lipsWin lipsOffset) (gator data' jawWin jawOffset teethWin teethOffset lipsWin lipsOffset) := by
  lifts [gator]

theorem kdj_lift (h0 : Each (Lifted c 1) high high') (h1 : Each (Lifted c 1) low low') (h2 : Each (Lifted c 1) close close') (kWin dWin : ℕ) (kFactor dFactor : Option XF) :
    Alike (Each (Both (Lifted c 0) (Both (Lifted c 0) (Lifted c 0)))) (kdj high low close kWin dWin kFactor dFactor) (kdj high' low' close' kWin dWin kFactor dFactor) := by
  lifts [kdj]

end Traquer.Momentum
