import Verif.Props.MirrorSmooth
/-!
# C80: the mirror image, mama
-/

namespace Traquer.Smooth
open FP FloatLit
variable {ρ : Rounding} {data data' : List (FP ρ)}

/-- The state of mama on a chart and on its mirror image: averages and filters are opposite, the period is the same. -/
structure MamaMirror (s s' : MamaState (FP ρ)) : Prop where
  mama : Par .odd s.mama s'.mama
  fama : Par .odd s.fama s'.fama
  pd : Par .eq s.pd s'.pd
  phase : Par .same s.phase s'.phase
  re : Par .same s.re s'.re
  im : Par .same s.im s'.im
  i2 : Par .odd s.i2 s'.i2
  q2 : Par .odd s.q2 s'.q2
  dtrend : Each (Par .odd) s.dtrend s'.dtrend
  i1 : Each (Par .odd) s.i1 s'.i1
  q1 : Each (Par .odd) s.q1 s'.q1

theorem pushFront_mirror {q q' : List (FP ρ)} {x x' : FP ρ} (h : Each (Par .odd) q q') (g : Par .odd x x') :
    Each (Par .odd) (pushFront q x) (pushFront q' x') := by
  rw [pushFront, pushFront, List.dropLast_eq_take, List.dropLast_eq_take, h.length]
  exact each_cons g (each_take _ h)

theorem hilbert_mirror {a b c d t a' b' c' d' t' : FP ρ} (ha : Par .odd a a') (hb : Par .odd b b') (hc : Par .odd c c')
    (hd : Par .odd d d') (ht : Par .eq t t') : Par .odd (hilbert a b c d t) (hilbert a' b' c' d' t') := by
  parity [hilbert]

theorem hilbertQ_mirror {q q' : List (FP ρ)} {t t' : FP ρ} (h : Each (Par .odd) q q') (ht : Par .eq t t') :
    Alike (Par .odd) (hilbertQ q t) (hilbertQ q' t') := by
  simp only [hilbertQ, Option.bind_eq_bind]
  exact Alike.bind (.getElem? h rfl) fun _ _ a => Alike.bind (.getElem? h rfl) fun _ _ b => Alike.bind (.getElem? h rfl) fun _ _ c =>
    Alike.bind (.getElem? h rfl) fun _ _ d => .answer (hilbert_mirror a b c d ht)

theorem mamaSmooth_mirror (h : Each (Par .odd) data data') : Each (Par .odd) (mamaSmooth data) (mamaSmooth data') := by
  refine each_append (each_replicate 3 .zero) (each_map (each_windowsOf h) fun w w' hw => ?_)
  rcases hw with _ | ⟨a, _ | ⟨b, _ | ⟨c, _ | ⟨d, _ | ⟨e, hw⟩⟩⟩⟩⟩
  case cons.cons.cons.cons.nil => exact (((Par.lit.mul d rfl).add (Par.lit.mul c rfl)).add (Par.lit.mul b rfl) |>.add a).div Par.lit
  all_goals exact Par.nan

/-- the angle of two filters -/
theorem phase_mirror {q i q' i' : FP ρ} (hq : Par .odd q q') (hi : Par .odd i i') :
    Par .same (if !(i ==. 0) then atan (q / i) else 0) (if !(i' ==. 0) then atan (q' / i') else (0 : FP ρ)) := by
  have hz : (i ==. 0) = (i' ==. 0) := by
    have h0 : Par .odd (0 : FP ρ) 0 := .zero
    have := SameNumber.feq hi h0
    rw [← this]
    rw [Bool.eq_iff_iff, feq_zero_iff]
    constructor
    · rintro (e | e) <;> rw [e]
      · exact SameNumber.feq (.refl _) (.refl _) ▸ (by rw [zero_lit]; show FP.feq (FP.neg _) (FP.neg _) = true; simp [FP.feq, FP.neg, FP.toE, FP.isNaN])
      · rw [zero_lit]; show FP.feq (FP.neg _) (FP.neg _) = true; simp [FP.feq, FP.neg, FP.toE, FP.isNaN]
    · intro e
      rw [zero_lit] at e
      have e' : FP.feq (FP.neg i) (FP.neg (fin 0)) = true := e
      cases i with
      | nan => simp [FP.feq, FP.neg, FP.isNaN] at e'
      | inf b => cases b <;> simp [FP.feq, FP.neg, FP.isNaN, FP.toE] at e'
      | negz => exact .inl rfl
      | fin r =>
        by_cases hr : r = 0
        · rw [hr]; exact .inr rfl
        · exfalso
          simp [FP.feq, FP.neg, FP.isNaN, FP.toE, hr] at e'
  rw [← hz]
  cases e : (i ==. 0)
  · refine SameNumber.atan ?_
    have hn : ((-i) ==. 0) = false := by
      rw [hz, ← SameNumber.feq_zero hi] at e
      exact e
    have e2 : i' = -i := (SameNumber.eq_of_ne hi hn).symm
    rw [e2]
    refine .trans ?_ (SameNumber.div_left hq _)
    refine .trans ?_ (neg_div_same q (-i))
    refine .trans ?_ (SameNumber.neg (div_neg_same q i))
    rw [neg_neg']
    exact .refl _
  · exact .refl _

theorem one_lit' : (1 : FP ρ) = fin 1 := by
  show mk false ((1 : ℕ) : ℝ) = fin 1
  have h := ρ.nat 1 (by norm_num)
  have f := ρ.fits_nat 1 (by norm_num)
  simp only [Nat.cast_one] at h f ⊢
  have f' : ρ.fits (ρ.rnd 1) := by rw [h]; exact f
  rw [mk, h, if_neg one_ne_zero, if_pos f]

theorem fmax_one_same {x y : FP ρ} (h : SameNumber x y) : fmax x 1 = fmax y 1 := by
  refine SameNumber.congr_eq (f := fun x => fmax x 1) ?_ h
  have h1 : (negz <. (1 : FP ρ)) = true := by rw [one_lit']; show FP.lt _ _ = true; simp [FP.lt, FP.isNaN, FP.toE]
  have h2 : (fin 0 <. (1 : FP ρ)) = true := by rw [one_lit']; show FP.lt _ _ = true; simp [FP.lt, FP.isNaN, FP.toE]
  have h3 : isNaN (1 : FP ρ) = false := by rw [one_lit']; rfl
  show fmax negz 1 = fmax (fin 0) 1
  rw [fmax, fmax, h1, h2, h3]
  rfl

theorem mamaStep_mirror {fast slow : FP ρ} {sm sm' : List (FP ρ)} {s s' : MamaState (FP ρ)} (hsm : Each (Par .odd) sm sm')
    (h : Each (Par .odd) data data') (hs : MamaMirror s s') (i : ℕ) :
    Alike (Both MamaMirror (Both (Par .odd) (Par .odd))) (mamaStep fast slow sm data s i) (mamaStep fast slow sm' data' s' i) := by
  have epd : s.pd = s'.pd := hs.pd
  have ht : Par .eq (0.075 * s.pd + 0.54) (0.075 * s'.pd + 0.54) := (Par.lit.mul hs.pd rfl).add Par.lit
  unfold mamaStep
  refine Alike.bind (.getElem? hsm rfl) fun _ _ h0 => Alike.bind (.getElem? hsm rfl) fun _ _ h2 => Alike.bind (.getElem? hsm rfl) fun _ _ h4 =>
    Alike.bind (.getElem? hsm rfl) fun _ _ h6 => ?_
  have hd := pushFront_mirror hs.dtrend (hilbert_mirror h0 h2 h4 h6 ht)
  refine Alike.bind (hilbertQ_mirror hd ht) fun q q' hq => Alike.bind (.getElem? hd rfl) fun d d' hd3 => ?_
  have hq1 := pushFront_mirror hs.q1 hq
  have hi1 := pushFront_mirror hs.i1 hd3
  refine Alike.bind (hilbertQ_mirror hi1 ht) fun ji ji' hji => Alike.bind (hilbertQ_mirror hq1 ht) fun jq jq' hjq =>
    Alike.bind (.getElem? hi1 rfl) fun i10 i10' hi10 => Alike.bind (.getElem? hq1 rfl) fun q10 q10' hq10 => ?_
  have hi2 : Par .odd (0.2 * (i10 - jq) + 0.8 * s.i2) (0.2 * (i10' - jq') + 0.8 * s'.i2) :=
    (Par.lit.mul (hi10.sub hjq) rfl).add (Par.lit.mul hs.i2 rfl)
  have hq2 : Par .odd (0.2 * (q10 + ji) + 0.8 * s.q2) (0.2 * (q10' + ji') + 0.8 * s'.q2) :=
    (Par.lit.mul (hq10.add hji) rfl).add (Par.lit.mul hs.q2 rfl)
  revert hi2 hq2
  generalize (0.2 * (i10 - jq) + 0.8 * s.i2) = i2
  generalize (0.2 * (i10' - jq') + 0.8 * s'.i2) = i2'
  generalize (0.2 * (q10 + ji) + 0.8 * s.q2) = q2
  generalize (0.2 * (q10' + ji') + 0.8 * s'.q2) = q2'
  intro hi2 hq2
  dsimp only
  have hre : Par .same (0.2 * (i2 * s.i2 + q2 * s.q2) + 0.8 * s.re) (0.2 * (i2' * s'.i2 + q2' * s'.q2) + 0.8 * s'.re) :=
    (Par.lit.mul ((hi2.mul hs.i2 rfl).add (hq2.mul hs.q2 rfl)) rfl).add (Par.lit.mul hs.re rfl)
  have him : Par .same (0.2 * (i2 * s.q2 - q2 * s.i2) + 0.8 * s.im) (0.2 * (i2' * s'.q2 - q2' * s'.i2) + 0.8 * s'.im) :=
    (Par.lit.mul ((hi2.mul hs.q2 rfl).sub (hq2.mul hs.i2 rfl)) rfl).add (Par.lit.mul hs.im rfl)
  revert hre him
  generalize (0.2 * (i2 * s.i2 + q2 * s.q2) + 0.8 * s.re) = re
  generalize (0.2 * (i2' * s'.i2 + q2' * s'.q2) + 0.8 * s'.re) = re'
  generalize (0.2 * (i2 * s.q2 - q2 * s.i2) + 0.8 * s.im) = im
  generalize (0.2 * (i2' * s'.q2 - q2' * s'.i2) + 0.8 * s'.im) = im'
  intro hre him
  have epd0 : (if !(im ==. 0) && !(re ==. 0) then 360 / atan (im / re) else 0)
      = (if !(im' ==. 0) && !(re' ==. 0) then 360 / atan (im' / re') else (0 : FP ρ)) := by
    rw [← SameNumber.feq_zero him, ← SameNumber.feq_zero hre]
    cases e1 : (im ==. 0)
    · cases e2 : (re ==. 0)
      · rw [SameNumber.eq_of_ne him e1, SameNumber.eq_of_ne hre e2]
      · rfl
    · rfl
  have hph := phase_mirror hq10 hi10
  have edp : fmax (s.phase - (if !(i10 ==. 0) then atan (q10 / i10) else 0)) 1
      = fmax (s'.phase - (if !(i10' ==. 0) then atan (q10' / i10') else (0 : FP ρ))) 1 := fmax_one_same (hs.phase.sub hph)
  revert hph edp
  generalize (if !(i10 ==. 0) then atan (q10 / i10) else 0) = ph
  generalize (if !(i10' ==. 0) then atan (q10' / i10') else (0 : FP ρ)) = ph'
  intro hph edp
  rw [epd0, edp, epd]
  rw [epd] at hd
  refine Alike.bind Alike.same (forall_eq_rel fun pd1 => Alike.bind (.getElem? h rfl) fun x x' hx => ?_)
  have hm := fun a : FP ρ => ((Par.lit (x := a)).mul hx (r := .odd) rfl).add ((Par.lit (x := 1 - a)).mul hs.mama (r := .odd) rfl)
  have hf := fun a : FP ρ => ((Par.lit (x := 0.5 * a)).mul (hm a) (r := .odd) rfl).add
    ((Par.lit (x := 1 - 0.5 * a)).mul hs.fama (r := .odd) rfl)
  exact .answer ⟨⟨hm _, hf _, .lit, hph, hre, him, hi2, hq2, hd, hi1, hq1⟩, hm _, hf _⟩

theorem mama_mirror (h : Each (Par .odd) data data') (fast slow : Option (FP ρ)) :
    Alike (Each (Both (Par .odd) (Par .odd))) (mama data fast slow) (mama data' fast slow) := by
  simp only [mama, Option.bind_eq_bind]
  rw [h.length]
  have hz : Each (Par .odd) (List.replicate 7 (0 : FP ρ)) (List.replicate 7 0) := each_replicate 7 .zero
  refine Alike.bind (Alike.scanM (X := MamaMirror) (Q := Both (Par .odd) (Par .odd)) (P := Eq)
    ⟨.zero, .zero, .zero, .zero, .zero, .zero, .zero, .zero, hz, hz, hz⟩ each_eq ?_) fun r r' hr => ?_
  · rintro s s' hs i _ rfl
    exact mamaStep_mirror (mamaSmooth_mirror h) h hs i
  · exact .answer (each_append (each_replicate 6 ⟨.nan, .nan⟩) hr)

end Traquer.Smooth
