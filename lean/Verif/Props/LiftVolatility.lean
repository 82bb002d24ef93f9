import Verif.Props.LiftStats
/-!
# C82: all prices raised by the same amount, volatility
-/

namespace Traquer
open FP FloatLit
variable {c : ℝ} {n : ℤ} {data data' : List XF}

theorem lift_any {f : List XF → Option (List XF)}
    (H : ∀ {c : ℝ} {data data' : List XF}, Each (Lifted c 1) data data' → Alike (Each (Lifted c 1)) (f data) (f data'))
    (h : Each (Lifted c n) data data') : Alike (Each (Lifted c n)) (f data) (f data') := by
  by_cases hn : n = 0
  · subst hn
    rw [lifted_each_zero.1 h]
    exact Alike.refl fun _ => lifted_each_lit
  · have e : Lifted c n = Lifted (n * c) 1 := by
      funext x y
      simp [Lifted, hn]
    rw [e] at h ⊢
    exact H h

namespace Smooth
theorem sma_lifts (h : Each (Lifted c n) data data') (window : ℕ) : Alike (Each (Lifted c n)) (sma data window) (sma data' window) :=
  lift_any (f := fun l => sma l window) (fun h => sma_lift h window) h
theorem ewma_lifts (h : Each (Lifted c n) data data') (window : ℕ) : Alike (Each (Lifted c n)) (ewma data window) (ewma data' window) :=
  lift_any (f := fun l => ewma l window) (fun h => ewma_lift h window) h
theorem wilder_lifts (h : Each (Lifted c n) data data') (window : ℕ) : Alike (Each (Lifted c n)) (wilder data window) (wilder data' window) :=
  lift_any (f := fun l => wilder l window) (fun h => wilder_lift h window) h
theorem wma_lifts (h : Each (Lifted c n) data data') (window : ℕ) : Alike (Each (Lifted c n)) (wma data window) (wma data' window) :=
  lift_any (f := fun l => wma l window) (fun h => wma_lift h window) h
theorem lrf_lifts (h : Each (Lifted c n) data data') (window : ℕ) : Alike (Each (Lifted c n)) (lrf data window) (lrf data' window) :=
  lift_any (f := fun l => lrf l window) (fun h => lrf_lift h window) h

lifts_rule sma_lifts
lifts_rule ewma_lifts
lifts_rule wilder_lifts
lifts_rule wma_lifts
lifts_rule lrf_lifts
end Smooth

end Traquer

namespace Traquer.Volatility
open FP FloatLit
variable {c : ℝ} {data data' openp openp' high high' low low' close close' : List XF}

theorem foldMax_lift {n : ℤ} (h : Each (Lifted c n) data data') : Lifted c n (foldMax data) (foldMax data') :=
  foldl_rel (X := Lifted c n) (Lifted.nan (c := c)) h fun _ _ hs _ _ hx => hs.fmax hx
theorem foldMin_lift {n : ℤ} (h : Each (Lifted c n) data data') : Lifted c n (foldMin data) (foldMin data') :=
  foldl_rel (X := Lifted c n) (Lifted.nan (c := c)) h fun _ _ hs _ _ hx => hs.fmin hx

lifts_rule foldMax_lift
lifts_rule foldMin_lift

theorem argBest_lift {n : ℤ} {better : XF → XF → Bool}
    (hb : ∀ x x' : XF, Lifted c n x x' → ∀ y y', Lifted c n y y' → better x y = better x' y') (h : Each (Lifted c n) data data') :
    Alike Eq (argBest better data) (argBest better data') := by
  lifts [argBest]
  exact hb _ _ ‹_› _ _ ‹_›

lifts_rule argBest_lift

theorem mass_lift (h0 : Each (Lifted c 1) high high') (h1 : Each (Lifted c 1) low low') (short long : ℕ) :
    Alike (Each (Lifted c 0)) (mass high low short long) (mass high' low' short long) := by
  lifts [mass]

theorem trueRange_lift (h0 : Each (Lifted c 1) high high') (h1 : Each (Lifted c 1) low low') (h2 : Each (Lifted c 1) close close') :
    Alike (Each (Lifted c 0)) (trueRange high low close) (trueRange high' low' close') := by
  lifts [trueRange]

lifts_rule trueRange_lift

theorem tr_lift (h0 : Each (Lifted c 1) high high') (h1 : Each (Lifted c 1) low low') (h2 : Each (Lifted c 1) close close') :
    Alike (Each (Lifted c 0)) (tr high low close) (tr high' low' close') := by
  lifts [tr]

theorem atr_lift (h0 : Each (Lifted c 1) high high') (h1 : Each (Lifted c 1) low low') (h2 : Each (Lifted c 1) close close') (window : ℕ) :
    Alike (Each (Lifted c 0)) (atr high low close window) (atr high' low' close' window) := by
  lifts [atr]

lifts_rule atr_lift

theorem keltner_lift (h0 : Each (Lifted c 1) high high') (h1 : Each (Lifted c 1) low low') (h2 : Each (Lifted c 1) close close') (window : ℕ) :
    Alike (Each (Both (Lifted c 1) (Both (Lifted c 1) (Lifted c 1)))) (keltner high low close window) (keltner high' low' close' window) := by
  lifts [keltner]

theorem gri_lift (h0 : Each (Lifted c 1) high high') (h1 : Each (Lifted c 1) low low') (window : ℕ) :
    Alike (Each (Lifted c 0)) (gri high low window) (gri high' low' window) := by
  lifts [gri]

theorem typical_lift (h0 : Each (Lifted c 1) high high') (h1 : Each (Lifted c 1) low low') (h2 : Each (Lifted c 1) close close') (window : ℕ) :
    Alike (Each (Lifted c 1)) (typical high low close window) (typical high' low' close' window) := by
  lifts [typical]

theorem std_dev_lift (h0 : Each (Lifted c 1) data data') (window : ℕ) (deviations : Option XF) :
    Alike (Each (Lifted c 0)) (std_dev data window deviations) (std_dev data' window deviations) := by
  lifts [std_dev]

lifts_rule std_dev_lift

theorem bbands_lift (h0 : Each (Lifted c 1) data data') (window : ℕ) (deviations : Option XF) (mamode : Option Smooth.MaMode)
    (hm : mamode ≠ some .Variable ∧ mamode ≠ some .Vidya) :
    Alike (Each (Both (Lifted c 1) (Both (Lifted c 1) (Lifted c 1)))) (bbands data window deviations mamode) (bbands data' window deviations mamode) := by
  simp only [bbands, Option.bind_eq_bind]
  refine Alike.bind (Smooth.ma_lift h0 window _ ?_ ?_) ?_
  · cases mamode with
    | none => simp
    | some m => simpa using hm.1
  · cases mamode with
    | none => simp
    | some m => simpa using hm.2
  · repeat' lifts_step

theorem donchian_lift (h0 : Each (Lifted c 1) high high') (h1 : Each (Lifted c 1) low low') (window : ℕ) :
    Alike (Each (Both (Lifted c 1) (Both (Lifted c 1) (Lifted c 1)))) (donchian high low window) (donchian high' low' window) := by
  lifts [donchian]

theorem starc_lift (h0 : Each (Lifted c 1) high high') (h1 : Each (Lifted c 1) low low') (h2 : Each (Lifted c 1) close close') (window maWindow : ℕ) (multiplier : Option XF) :
    Alike (Each (Both (Lifted c 1) (Lifted c 1))) (starc high low close window maWindow multiplier) (starc high' low' close' window maWindow multiplier) := by
  lifts [starc]

theorem cvi_lift (h0 : Each (Lifted c 1) high high') (h1 : Each (Lifted c 1) low low') (window rateOfChange : ℕ) :
    Alike (Each (Lifted c 0)) (cvi high low window rateOfChange) (cvi high' low' window rateOfChange) := by
  lifts [cvi]

theorem relative_vol_lift (h0 : Each (Lifted c 1) close close') (window smoothing : ℕ) :
    Alike (Each (Lifted c 0)) (relative_vol close window smoothing) (relative_vol close' window smoothing) := by
  lifts [relative_vol]

lifts_rule relative_vol_lift

theorem inertia_lift (h0 : Each (Lifted c 1) close close') (window smoothing : ℕ) :
    Alike (Each (Lifted c 0)) (inertia close window smoothing) (inertia close' window smoothing) := by
  lifts [inertia]

theorem chop_lift (h0 : Each (Lifted c 1) high high') (h1 : Each (Lifted c 1) low low') (h2 : Each (Lifted c 1) close close') (window : ℕ) :
    Alike (Each (Lifted c 0)) (chop high low close window) (chop high' low' close' window) := by
  lifts [chop]

theorem vhf_lift (h0 : Each (Lifted c 1) high high') (h1 : Each (Lifted c 1) low low') (h2 : Each (Lifted c 1) close close') (window : ℕ) :
    Alike (Each (Lifted c 0)) (vhf high low close window) (vhf high' low' close' window) := by
  lifts [vhf]

theorem haStep_lift : ∀ s s' : XF × XF, Both (Lifted c 1) (Lifted c 1) s s' → ∀ b b' : XF × XF × XF × XF,
    Both (Lifted c 1) (Both (Lifted c 1) (Both (Lifted c 1) (Lifted c 1))) b b' →
    Both (Both (Lifted c 1) (Lifted c 1)) (Both (Lifted c 1) (Both (Lifted c 1) (Both (Lifted c 1) (Lifted c 1)))) (haStep s b) (haStep s' b') := by
  lifts [haStep]

lifts_rule haStep_lift

theorem heikin_ashi_lift (h0 : Each (Lifted c 1) openp openp') (h1 : Each (Lifted c 1) high high') (h2 : Each (Lifted c 1) low low') (h3 : Each (Lifted c 1) close close') :
    Alike (Each (Both (Lifted c 1) (Both (Lifted c 1) (Both (Lifted c 1) (Lifted c 1))))) (heikin_ashi openp high low close) (heikin_ashi openp' high' low' close') := by
  simp only [heikin_ashi, Option.bind_eq_bind]
  refine Alike.bind (.getElem? h0 rfl) fun o o' ho => Alike.bind (.getElem? h1 rfl) fun h h' hh => Alike.bind (.getElem? h2 rfl) fun l l' hl =>
    Alike.bind (.getElem? h3 rfl) fun k k' hk => Alike.bind (.sliceFrom h0 rfl) fun _ _ g0 => Alike.bind (.sliceFrom h1 rfl) fun _ _ g1 =>
    Alike.bind (.sliceFrom h2 rfl) fun _ _ g2 => Alike.bind (.sliceFrom h3 rfl) fun _ _ g3 => .answer ?_
  have e0 : Lifted c 1 ((o + k) / 2) ((o' + k') / 2) := by repeat' lifts_step
  have e1 : Lifted c 1 ((o + h + l + k) / 4) ((o' + h' + l' + k') / 4) := by repeat' lifts_step
  exact each_cons ⟨e0, hh, hl, e1⟩ (each_scan (X := Both (Lifted c 1) (Lifted c 1)) ⟨e0, e1⟩ (each_zip4 g0 g1 g2 g3) haStep_lift)

theorem wcp_lift (h0 : Each (Lifted c 1) high high') (h1 : Each (Lifted c 1) low low') (h2 : Each (Lifted c 1) close close') :
    Each (Lifted c 1) (wcp high low close) (wcp high' low' close') := by
  lifts [wcp]

end Traquer.Volatility
