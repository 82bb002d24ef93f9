import Verif.Props.MirrorMomentum
import Verif.Model.Trend
/-!
# C80: the mirror image, trend
-/

namespace Traquer.Trend
open FP FloatLit Traquer.Volatility
variable {ρ : Rounding} {p : Parity} {data data' high low close openp : List (FP ρ)}

theorem alligator_mirror (h : Each (Par p) data data') (jawWin jawOffset teethWin teethOffset lipsWin lipsOffset : ℕ) :
    Alike (Each (Both (Par p) (Both (Par p) (Par p)))) (alligator data jawWin jawOffset teethWin teethOffset lipsWin lipsOffset)
      (alligator data' jawWin jawOffset teethWin teethOffset lipsWin lipsOffset) := by
  parity [alligator, alligatorLine]

theorem dpo_mirror (h : Each (Par .odd) data data') (window : ℕ) (mamode : Option Smooth.MaMode) :
    Alike (Each (Par .odd)) (dpo data window mamode) (dpo data' window mamode) := by
  parity [dpo]

/-- The accumulation swing index changes sign. -/
theorem asi_mirror (limit : FP ρ) : Alike (Each Opposite) (asi openp high low close limit)
    (asi (mirror openp) (mirror low) (mirror high) (mirror close) limit) := by
  simp only [asi, Option.bind_eq_bind]
  exact Alike.bind (Momentum.swing_mirror limit) fun s s' hs => .answer (each_cons (P := Par .odd) .nan
    (each_scanS (X := Par .odd) .zero hs fun _ _ h1 _ _ h2 => h1.add h2))

/-- Aroon up and down change places. -/
theorem aroon_mirror (window : ℕ) :
    Alike (Each fun b b' => b'.1 = b.2 ∧ b'.2 = b.1) (aroon high low window) (aroon (mirror low) (mirror high) window) := by
  simp only [aroon, Option.bind_eq_bind]
  refine Alike.bind_cross (Alike.windows (each_mirror_odd high)) (Alike.windows (each_mirror_odd low)) fun h l' h1 l h' h2 =>
    Alike.bind (P := Each fun b b' => b'.1 = b.2 ∧ b'.2 = b.1) (Alike.mapP (each_zip_cross h1 h2) ?_) fun r r' hr => .answer
    (each_append (each_replicate _ ⟨rfl, rfl⟩) hr)
  rintro ⟨h, l⟩ ⟨h', l'⟩ ⟨e1, e2⟩
  dsimp only at e1 e2 ⊢
  rw [argBest_mirror (b := fun x y => x >=. y) (b' := fun x y => x <=. y) (fun x x' y y' hx hy => hy.le_odd hx) e1,
    argBest_mirror (b := fun x y => x <=. y) (b' := fun x y => x >=. y) (fun x x' y y' hx hy => hx.le_odd hy) e2]
  cases argBest (fun x y => x <=. y) l' <;> cases argBest (fun x y => x >=. y) h'
  · exact .panic
  · exact .panic
  · exact .panic
  · exact .answer ⟨rfl, rfl⟩

theorem dmBars_mirror : Alike (Each (CrossedDm Flip Flip)) (dmBars high low close) (dmBars (mirror low) (mirror high) (mirror close)) := by
  have hh := each_mirror high
  have hl := each_mirror low
  have hc := each_mirror close
  have n1 : ∀ b c : List (FP ρ), dmBars [] b c = none := fun b c => by simp [dmBars, usub]
  have n2 : ∀ a c : List (FP ρ), dmBars a [] c = none := fun a c => by cases a <;> simp [dmBars, usub, sliceTo, sliceFrom]
  have n3 : ∀ a b : List (FP ρ), dmBars a b [] = none := fun a b => by cases a <;> cases b <;> simp [dmBars, usub, sliceTo, sliceFrom]
  cases high with
  | nil => rw [n1, show mirror ([] : List (FP ρ)) = [] from rfl, n2]; exact .panic
  | cons h0 high =>
    cases low with
    | nil => rw [n2, show mirror ([] : List (FP ρ)) = [] from rfl, n1]; exact .panic
    | cons l0 low =>
      cases close with
      | nil => rw [n3, show mirror ([] : List (FP ρ)) = [] from rfl, n3]; exact .panic
      | cons c0 close =>
        have e : ∀ a b c : List (FP ρ), ∀ x y z, dmBars (x :: a) (y :: b) (z :: c)
            = some (zip5 ((x :: a).take a.length) a ((y :: b).take b.length) b ((z :: c).take c.length)) := by
          intro a b c x y z
          simp [dmBars, usub, sliceTo, sliceFrom]
        rw [show mirror (h0 :: high) = -h0 :: mirror high from rfl] at hh ⊢
        rw [show mirror (l0 :: low) = -l0 :: mirror low from rfl] at hl ⊢
        rw [show mirror (c0 :: close) = -c0 :: mirror close from rfl] at hc ⊢
        rw [e, e]
        have lh : (mirror high).length = high.length := by simp [mirror]
        have ll : (mirror low).length = low.length := by simp [mirror]
        have lc : (mirror close).length = close.length := by simp [mirror]
        rw [lh, ll, lc]
        exact .answer (each_zip5_cross (each_take _ hh) (each_mirror high) (each_take _ hl) (each_mirror low) (each_take _ hc))

/-- One bar of the directional movement: the two movements change places. -/
theorem dmTerm_mirror {b b' : FP ρ × FP ρ × FP ρ × FP ρ × FP ρ} (h : CrossedDm Flip Flip b b') :
    (dmTerm b').1 = (dmTerm b).2.1 ∧ (dmTerm b').2.1 = (dmTerm b).1 ∧ (dmTerm b').2.2 = (dmTerm b).2.2 := by
  obtain ⟨ph, h, pl, l, pc⟩ := b
  obtain ⟨ph', h', pl', l', pc'⟩ := b'
  obtain ⟨e1, e2, e3, e4, e5⟩ := h
  dsimp only at e1 e2 e3 e4 e5
  have m1 : h' - ph' = pl - l := sub_flip e3 e4
  have m2 : pl' - l' = h - ph := sub_flip e2 e1
  simp only [dmTerm, m1, m2]
  exact ⟨trivial, trivial, range3_flip e2 e4 e5⟩

/-- The two directional indicators change places, adx stays. -/
theorem adx_mirror (window smoothing : ℕ) :
    Alike (Each fun b b' => b'.1 = b.2.1 ∧ b'.2.1 = b.1 ∧ b'.2.2 = b.2.2)
      (adx high low close window smoothing) (adx (mirror low) (mirror high) (mirror close) window smoothing) := by
  simp only [adx, Option.bind_eq_bind]
  refine Alike.bind dmBars_mirror fun bars bars' hb => ?_
  have hv := each_map (f := dmTerm) (g := dmTerm) (Q := fun x y => y.1 = x.2.1 ∧ y.2.1 = x.1 ∧ y.2.2 = x.2.2) hb fun b b' h => dmTerm_mirror h
  have ht : (bars'.map dmTerm).map (·.2.2) = (bars.map dmTerm).map (·.2.2) :=
    (each_par_eq (each_map hv fun x y h => h.2.2.symm)).symm
  have hp : (bars'.map dmTerm).map (·.1) = (bars.map dmTerm).map (·.2.1) :=
    (each_par_eq (each_map hv fun x y h => h.1.symm)).symm
  have hn : (bars'.map dmTerm).map (·.2.1) = (bars.map dmTerm).map (·.1) :=
    (each_par_eq (each_map hv fun x y h => h.2.1.symm)).symm
  rw [ht, hp, hn]
  refine Alike.bind Alike.same (forall_eq_rel fun atr => ?_)
  generalize (bars.map dmTerm).map (·.1) = vp
  generalize (bars.map dmTerm).map (·.2.1) = vn
  refine Alike.bind_cross Alike.same Alike.same fun a _ e b _ e' => ?_
  subst e e'
  refine Alike.bind Alike.same (forall_eq_rel fun k => Alike.bind_cross Alike.same Alike.same fun dp _ e dn _ e' => ?_)
  subst e e'
  have hd : (dn.zip dp).map (fun (x : FP ρ × FP ρ) => fabs (x.1 - x.2) / (x.1 + x.2) * 100)
      = (dp.zip dn).map fun (x : FP ρ × FP ρ) => fabs (x.1 - x.2) / (x.1 + x.2) * 100 := by
    refine (each_par_eq (each_map (each_zip_cross each_eq each_eq) ?_)).symm
    rintro ⟨x, y⟩ ⟨x', y'⟩ ⟨e1, e2⟩
    dsimp only at e1 e2
    subst e1 e2
    show fabs (x - y) / (x + y) * 100 = fabs (y - x) / (y + x) * 100
    rw [SameNumber.add_comm' x, show fabs (x - y) = fabs (y - x) from (Par.odd_sub_swap (Par.lit.same) (Par.lit.same)).fabs]
  rw [hd]
  refine Alike.bind Alike.same (forall_eq_rel fun s => .answer (each_cons ⟨rfl, rfl, rfl⟩ ?_))
  refine (each_zip3_cross each_eq each_eq each_eq).imp ?_
  rintro x y ⟨e1, e2, e3⟩
  exact ⟨e2.symm, e1.symm, e3.symm⟩

theorem vortexTerm_mirror {b b' : FP ρ × FP ρ × FP ρ × FP ρ × FP ρ} (h : CrossedDm Flip Flip b b') :
    Crossed3 (Par .eq) (Par .eq) (Par .eq) (vortexTerm b) (vortexTerm b') := by
  obtain ⟨ph, h, pl, l, pc⟩ := b
  obtain ⟨ph', h', pl', l', pc'⟩ := b'
  obtain ⟨e1, e2, e3, e4, e5⟩ := h
  exact ⟨(e2.odd.sub e3.odd).fabs, (e4.odd.sub e1.odd).fabs, (range3_flip e2 e4 e5).symm⟩

/-- The two vortex indicators change places. -/
theorem vortex_mirror (window : ℕ) :
    Alike (Each fun b b' => b'.1 = b.2 ∧ b'.2 = b.1) (vortex high low close window) (vortex (mirror low) (mirror high) (mirror close) window) := by
  simp only [vortex, Option.bind_eq_bind]
  refine Alike.bind dmBars_mirror fun bars bars' hb => Alike.bind (Alike.windows (each_map hb fun b b' h => vortexTerm_mirror h)) fun ws ws' hw =>
    Alike.bind (P := Each fun b b' => b'.1 = b.2 ∧ b'.2 = b.1) (Alike.mapP hw fun w w' e => ?_) fun r r' hr => .answer
      (each_append (each_replicate _ ⟨rfl, rfl⟩) hr)
  refine Alike.bind (P := Crossed3 (Par .eq) (Par .eq) (Par .eq)) ?_ ?_
  · cases e with
    | nil => exact .panic
    | cons e0 e => exact .answer (foldl_rel (X := Crossed3 (Par .eq) (Par .eq) (Par .eq)) e0 e fun s s' h x x' g =>
        ⟨h.1.add g.1, h.2.1.add g.2.1, h.2.2.add g.2.2⟩)
  · rintro ⟨x, y, z⟩ ⟨x', y', z'⟩ ⟨e1, e2, e3⟩
    exact .answer ⟨(Par.div (p := .eq) e2 e3).symm, (Par.div (p := .eq) e1 e3).symm⟩

/-- The two random walk indices change places. -/
theorem rwi_mirror (window : ℕ) :
    Alike (Each fun b b' => b'.1 = b.2 ∧ b'.2 = b.1) (rwi high low close window) (rwi (mirror low) (mirror high) (mirror close) window) := by
  simp only [rwi, Option.bind_eq_bind]
  refine Alike.bind_cross (Alike.sliceFrom (each_mirror _) rfl) (Alike.sliceFrom (each_mirror _) rfl) fun h l' h1 l h' h2 => ?_
  rw [trueRange_mirror]
  refine Alike.bind Alike.same (forall_eq_rel fun t => Alike.bind_cross (Alike.windows h1) (Alike.windows h2)
    fun h l' h1 l h' h2 => Alike.bind Alike.same (forall_eq_rel fun ts => 
      Alike.bind (P := Each fun b b' => b'.1 = b.2 ∧ b'.2 = b.1) (Alike.mapP (each_zip3_cross h1 h2 each_eq) ?_) fun r r' hr => .answer
        (each_append (each_replicate _ ⟨rfl, rfl⟩) hr)))
  rintro ⟨h, l, tr⟩ ⟨h', l', tr'⟩ ⟨e1, e2, e3⟩
  dsimp only at e1 e2 e3 ⊢
  subst e3
  refine Alike.bind (P := Crossed3 (Par .eq) (Par .eq) (Par .eq)) (Alike.foldlM ⟨.lit, .lit, .lit⟩ each_eq ?_) ?_
  · rintro ⟨a, b, c⟩ ⟨a', b', c'⟩ ⟨s1, s2, s3⟩ i _ rfl
    change a = b' at s1
    change b = a' at s2
    change c = c' at s3
    subst s1 s2 s3
    simp only [rwiStep, Option.bind_eq_bind]
    refine Alike.bind Alike.same (forall_eq_rel fun q => Alike.bind Alike.same (forall_eq_rel fun t => ?_))
    generalize (c + t) / flt (i - 1) * sqrt (flt (i - 1)) = den
    have hx := Alike.getElem? (n := window - 1) e1 rfl
    have hy := Alike.getElem? (n := q) e2 rfl
    have hz := Alike.getElem? (n := q) e1 rfl
    have hw := Alike.getElem? (n := window - 1) e2 rfl
    revert hx hy hz hw
    generalize h[window - 1]? = x
    generalize l'[window - 1]? = x'
    generalize l[q]? = y
    generalize h'[q]? = y'
    generalize h[q]? = z
    generalize l'[q]? = z'
    generalize l[window - 1]? = w
    generalize h'[window - 1]? = w'
    intro hx hy hz hw
    cases hx <;> cases hy <;> cases hz <;> cases hw <;> try exact .panic
    next x x' hx y y' hy z z' hz w w' hw =>
    refine .answer ⟨?_, ?_, rfl⟩
    · show fmax a ((x - y) / den) = fmax a ((y' - x') / den)
      rw [sub_flip hx hy]
    · show fmax b ((z - w) / den) = fmax b ((w' - z') / den)
      rw [sub_flip hz hw]
  · rintro ⟨a, b, c⟩ ⟨a', b', c'⟩ ⟨s1, s2, s3⟩
    exact .answer ⟨Eq.symm s2, Eq.symm s1⟩

/-- The chandelier exits `(long, short)` change places. -/
theorem chandelier_mirror (window : ℕ) (multiplier : Option (FP ρ)) :
    Alike (Each fun b b' => Opposite b.1 b'.2 ∧ Opposite b.2 b'.1)
      (chandelier high low close window multiplier) (chandelier (mirror low) (mirror high) (mirror close) window multiplier) := by
  simp only [chandelier, Option.bind_eq_bind]
  rw [atr_mirror]
  refine Alike.bind_cross (Alike.windows (each_mirror _)) (Alike.windows (each_mirror _)) fun h l' h1 l h' h2 =>
    Alike.bind Alike.same (forall_eq_rel fun a => .answer (each_append (each_replicate _ ⟨Par.nan (p := .odd), Par.nan (p := .odd)⟩)
      (each_map (each_zip3_cross (each_drop 1 h1) (each_drop 1 h2) each_eq) ?_)))
  rintro ⟨x, y, z⟩ ⟨x', y', z'⟩ ⟨e1, e2, e3⟩
  dsimp only at e1 e2 e3 ⊢
  subst e3
  exact ⟨Par.add (Flip.foldMax e1).odd (Flip.odd (neg_neg' _).symm), Par.add (Flip.foldMin e2).odd (Flip.odd rfl)⟩

theorem midLine_mirror (win pad : ℕ) : Alike (Each (Par .odd)) (midLine high low win pad) (midLine (mirror low) (mirror high) win pad) := by
  simp only [midLine, Option.bind_eq_bind]
  refine Alike.bind_cross (Alike.windows (each_mirror _)) (Alike.windows (each_mirror _)) fun h l' h1 l h' h2 =>
    .answer (each_append (each_par_nans _) (each_map (each_zip_cross h1 h2) ?_))
  rintro ⟨x, y⟩ ⟨x', y'⟩ ⟨e1, e2⟩
  exact (Par.add_cross (Flip.foldMax e1).odd (Flip.foldMin e2).odd).div .lit

/-- All five lines of the cloud are opposite. -/
theorem ichimoku_mirror (conversionWin baseWin leadWin lagWin : ℕ) :
    Alike (Each (Both Opposite (Both Opposite (Both Opposite (Both Opposite Opposite)))))
      (ichimoku high low close conversionWin baseWin leadWin lagWin)
      (ichimoku (mirror low) (mirror high) (mirror close) conversionWin baseWin leadWin lagWin) := by
  show Alike (Each (Both (Par .odd) (Both (Par .odd) (Both (Par .odd) (Both (Par .odd) (Par .odd)))))) _ _
  have hc := each_mirror_odd close
  simp only [ichimoku, Option.bind_eq_bind]
  refine Alike.bind Alike.same (forall_eq_rel fun kc => Alike.bind (midLine_mirror _ _) fun c c' hcl => ?_)
  refine Alike.bind Alike.same (forall_eq_rel fun kb => Alike.bind (midLine_mirror _ _) fun b b' hbl => ?_)
  refine Alike.bind Alike.same (forall_eq_rel fun kl => Alike.bind (midLine_mirror _ _) fun d d' hdl => ?_)
  repeat' parity_step

end Traquer.Trend
