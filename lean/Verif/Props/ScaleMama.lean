import Verif.Props.ScaleSmooth
/-!
# C78: a change of units, mama
-/

namespace Traquer.Smooth
open FP FloatLit
variable {ρ : Rounding} {k : ℝ} [ρ.Scales k] {data data' : List (FP ρ)}

/-- The state of mama in two units: averages and filters are prices, `re` and `im` squared prices, period and phase pure numbers. -/
structure MamaUnits (k : ℝ) (s s' : MamaState (FP ρ)) : Prop where
  mama : Scaled k 1 s.mama s'.mama
  fama : Scaled k 1 s.fama s'.fama
  pd : Scaled k 0 s.pd s'.pd
  phase : Scaled k 0 s.phase s'.phase
  re : Scaled k 2 s.re s'.re
  im : Scaled k 2 s.im s'.im
  i2 : Scaled k 1 s.i2 s'.i2
  q2 : Scaled k 1 s.q2 s'.q2
  dtrend : Each (Scaled k 1) s.dtrend s'.dtrend
  i1 : Each (Scaled k 1) s.i1 s'.i1
  q1 : Each (Scaled k 1) s.q1 s'.q1

omit [ρ.Scales k] in
theorem pushFront_units {q q' : List (FP ρ)} {x x' : FP ρ} (h : Each (Scaled k 1) q q') (g : Scaled k 1 x x') :
    Each (Scaled k 1) (pushFront q x) (pushFront q' x') := by
  rw [pushFront, pushFront, List.dropLast_eq_take, List.dropLast_eq_take, h.length]
  exact each_cons g (each_take _ h)

theorem hilbert_units {a b c d t a' b' c' d' t' : FP ρ} (ha : Scaled k 1 a a') (hb : Scaled k 1 b b') (hc : Scaled k 1 c c')
    (hd : Scaled k 1 d d') (ht : Scaled k 0 t t') : Scaled k 1 (hilbert a b c d t) (hilbert a' b' c' d' t') := by
  units [hilbert]

theorem hilbertQ_units {q q' : List (FP ρ)} {t t' : FP ρ} (h : Each (Scaled k 1) q q') (ht : Scaled k 0 t t') :
    Alike (Scaled k 1) (hilbertQ q t) (hilbertQ q' t') := by
  simp only [hilbertQ, Option.bind_eq_bind]
  exact Alike.bind (.getElem? h rfl) fun _ _ a => Alike.bind (.getElem? h rfl) fun _ _ b => Alike.bind (.getElem? h rfl) fun _ _ c =>
    Alike.bind (.getElem? h rfl) fun _ _ d => .answer (hilbert_units a b c d ht)

theorem mamaSmooth_units (h : Each (Scaled k 1) data data') : Each (Scaled k 1) (mamaSmooth data) (mamaSmooth data') := by
  refine each_append (each_replicate 3 .zero) (each_map (each_windowsOf h) fun w w' hw => ?_)
  rcases hw with _ | ⟨a, _ | ⟨b, _ | ⟨c, _ | ⟨d, _ | ⟨e, hw⟩⟩⟩⟩⟩
  case cons.cons.cons.cons.nil => exact (((Scaled.lit.mul d rfl).add (Scaled.lit.mul c rfl)).add (Scaled.lit.mul b rfl) |>.add a).div Scaled.lit rfl
  all_goals exact Scaled.nan


theorem mamaStep_units {fast slow : FP ρ} {sm sm' : List (FP ρ)} {s s' : MamaState (FP ρ)} (hsm : Each (Scaled k 1) sm sm')
    (h : Each (Scaled k 1) data data') (hs : MamaUnits k s s') (i : ℕ) :
    Alike (Both (MamaUnits k) (Both (Scaled k 1) (Scaled k 1))) (mamaStep fast slow sm data s i) (mamaStep fast slow sm' data' s' i) := by
  have epd := Scaled.iff_zero.1 hs.pd
  have eph := Scaled.iff_zero.1 hs.phase
  have ht : Scaled k 0 (0.075 * s.pd + 0.54) (0.075 * s'.pd + 0.54) := (Scaled.lit.mul hs.pd rfl).add Scaled.lit
  unfold mamaStep
  refine Alike.bind (.getElem? hsm rfl) fun _ _ h0 => Alike.bind (.getElem? hsm rfl) fun _ _ h2 => Alike.bind (.getElem? hsm rfl) fun _ _ h4 =>
    Alike.bind (.getElem? hsm rfl) fun _ _ h6 => ?_
  have hd := pushFront_units hs.dtrend (hilbert_units h0 h2 h4 h6 ht)
  refine Alike.bind (hilbertQ_units hd ht) fun q q' hq => Alike.bind (.getElem? hd rfl) fun d d' hd3 => ?_
  have hq1 := pushFront_units hs.q1 hq
  have hi1 := pushFront_units hs.i1 hd3
  refine Alike.bind (hilbertQ_units hi1 ht) fun ji ji' hji => Alike.bind (hilbertQ_units hq1 ht) fun jq jq' hjq =>
    Alike.bind (.getElem? hi1 rfl) fun i10 i10' hi10 => Alike.bind (.getElem? hq1 rfl) fun q10 q10' hq10 => ?_
  have hi2 : Scaled k 1 (0.2 * (i10 - jq) + 0.8 * s.i2) (0.2 * (i10' - jq') + 0.8 * s'.i2) :=
    (Scaled.lit.mul (hi10.sub hjq) rfl).add (Scaled.lit.mul hs.i2 rfl)
  have hq2 : Scaled k 1 (0.2 * (q10 + ji) + 0.8 * s.q2) (0.2 * (q10' + ji') + 0.8 * s'.q2) :=
    (Scaled.lit.mul (hq10.add hji) rfl).add (Scaled.lit.mul hs.q2 rfl)
  revert hi2 hq2
  generalize (0.2 * (i10 - jq) + 0.8 * s.i2) = i2
  generalize (0.2 * (i10' - jq') + 0.8 * s'.i2) = i2'
  generalize (0.2 * (q10 + ji) + 0.8 * s.q2) = q2
  generalize (0.2 * (q10' + ji') + 0.8 * s'.q2) = q2'
  intro hi2 hq2
  dsimp only
  have hre : Scaled k 2 (0.2 * (i2 * s.i2 + q2 * s.q2) + 0.8 * s.re) (0.2 * (i2' * s'.i2 + q2' * s'.q2) + 0.8 * s'.re) :=
    (Scaled.lit.mul ((hi2.mul hs.i2 rfl).add (hq2.mul hs.q2 rfl)) rfl).add (Scaled.lit.mul hs.re rfl)
  have him : Scaled k 2 (0.2 * (i2 * s.q2 - q2 * s.i2) + 0.8 * s.im) (0.2 * (i2' * s'.q2 - q2' * s'.i2) + 0.8 * s'.im) :=
    (Scaled.lit.mul ((hi2.mul hs.q2 rfl).sub (hq2.mul hs.i2 rfl)) rfl).add (Scaled.lit.mul hs.im rfl)
  revert hre him
  generalize (0.2 * (i2 * s.i2 + q2 * s.q2) + 0.8 * s.re) = re
  generalize (0.2 * (i2' * s'.i2 + q2' * s'.q2) + 0.8 * s'.re) = re'
  generalize (0.2 * (i2 * s.q2 - q2 * s.i2) + 0.8 * s.im) = im
  generalize (0.2 * (i2' * s'.q2 - q2' * s'.i2) + 0.8 * s'.im) = im'
  intro hre him
  have epd0 : (if !(im ==. 0) && !(re ==. 0) then 360 / atan (im / re) else 0)
      = (if !(im' ==. 0) && !(re' ==. 0) then 360 / atan (im' / re') else (0 : FP ρ)) := by
    rw [him.feq .zero, hre.feq .zero, Scaled.iff_zero.1 (him.div hre (j := 0) rfl)]
  have eph0 : (if !(i10 ==. 0) then atan (q10 / i10) else 0) = (if !(i10' ==. 0) then atan (q10' / i10') else (0 : FP ρ)) := by
    rw [hi10.feq .zero, Scaled.iff_zero.1 (hq10.div hi10 (j := 0) rfl)]
  rw [epd0, eph0, epd, eph]
  rw [epd] at hd
  refine Alike.bind Alike.same (forall_eq_rel fun pd1 => Alike.bind (.getElem? h rfl) fun x x' hx => ?_)
  have hm := fun a : FP ρ => ((Scaled.lit (k := k) (x := a)).mul hx (j := 1) rfl).add ((Scaled.lit (x := 1 - a)).mul hs.mama (j := 1) rfl)
  have hf := fun a : FP ρ => ((Scaled.lit (k := k) (x := 0.5 * a)).mul (hm a) (j := 1) rfl).add
    ((Scaled.lit (x := 1 - 0.5 * a)).mul hs.fama (j := 1) rfl)
  exact .answer ⟨⟨hm _, hf _, .lit, .lit, hre, him, hi2, hq2, hd, hi1, hq1⟩, hm _, hf _⟩

theorem mama_units (h : Each (Scaled k 1) data data') (fast slow : Option (FP ρ)) :
    Alike (Each (Both (Scaled k 1) (Scaled k 1))) (mama data fast slow) (mama data' fast slow) := by
  simp only [mama, Option.bind_eq_bind]
  rw [h.length]
  have hz : Each (Scaled k 1) (List.replicate 7 (0 : FP ρ)) (List.replicate 7 0) := each_replicate 7 .zero
  refine Alike.bind (Alike.scanM (X := MamaUnits k) (Q := Both (Scaled k 1) (Scaled k 1)) (P := Eq)
    ⟨.zero, .zero, .zero, .zero, .zero, .zero, .zero, .zero, hz, hz, hz⟩ each_eq ?_) fun r r' hr => ?_
  · rintro s s' hs i _ rfl
    exact mamaStep_units (mamaSmooth_units h) h hs i
  · exact .answer (each_append (each_replicate 6 ⟨.nan, .nan⟩) hr)

end Traquer.Smooth
