import Verif.Props.MirrorSmooth
/-!
# C80: the mirror image, volatility

The mirror image of a chart has the highs `mirror low`, the lows `mirror high` and the closes `mirror close`.
-/

namespace Traquer.Volatility
open FP FloatLit
variable {ρ : Rounding} {p : Parity} {data data' high low close high' low' close' openp : List (FP ρ)}

/-- the true ranges of the mirror image -/
theorem trueRange_flip (hh : Each Flip high low') (hl : Each Flip low high') (hc : Each Flip close close') :
    trueRange high' low' close' = trueRange high low close := by
  refine Alike.eq_of_each ?_
  simp only [trueRange, Option.bind_eq_bind]
  refine Alike.bind_cross (Alike.sliceFrom hh rfl) (Alike.sliceFrom hl rfl) fun h l' h1 l h' h2 => ?_
  refine Alike.bind (Alike.usub hc.length rfl) (forall_eq_rel fun n => Alike.bind (Alike.sliceTo hc rfl) fun c c' h3 => .answer ?_)
  refine each_map (each_zip3_cross h1 h2 h3) ?_
  rintro ⟨x, y, z⟩ ⟨x', y', z'⟩ ⟨e1, e2, e3⟩
  exact (range3_flip e1 e2 e3).symm

theorem trueRange_mirror : trueRange (mirror low) (mirror high) (mirror close) = trueRange high low close :=
  trueRange_flip (each_mirror _) (each_mirror _) (each_mirror _)

theorem tr_mirror : tr (mirror low) (mirror high) (mirror close) = tr high low close := by
  rw [tr, tr, trueRange_mirror]

theorem atr_mirror (window : ℕ) : atr (mirror low) (mirror high) (mirror close) window = atr high low close window := by
  rw [atr, atr, trueRange_mirror]

/-- `h - l`, bar by bar -/
theorem ranges_mirror : ((mirror low).zip (mirror high)).map (fun (x : FP ρ × FP ρ) => x.1 - x.2) = (high.zip low).map fun (x : FP ρ × FP ρ) => x.1 - x.2 := by
  refine (each_par_eq (each_map (each_zip_cross (each_mirror high) (each_mirror low)) ?_)).symm
  rintro ⟨x, y⟩ ⟨x', y'⟩ ⟨e1, e2⟩
  exact (sub_flip e1 e2).symm

theorem mass_mirror (short long : ℕ) : mass (mirror low) (mirror high) short long = mass high low short long := by
  rw [mass, mass, ranges_mirror]

theorem cvi_mirror (window rateOfChange : ℕ) : cvi (mirror low) (mirror high) window rateOfChange = cvi high low window rateOfChange := by
  rw [cvi, cvi, ranges_mirror]

theorem gri_mirror (window : ℕ) : gri (mirror low) (mirror high) window = gri high low window := by
  refine Alike.eq_of_each ?_
  simp only [gri, Option.bind_eq_bind]
  refine Alike.bind Alike.same (forall_eq_rel fun k => Alike.bind_cross (Alike.windows (each_mirror _)) (Alike.windows (each_mirror _))
    fun h l' h1 l h' h2 => .answer (each_append (each_par_nans k) (each_map (each_zip_cross h1 h2) ?_)))
  rintro ⟨x, y⟩ ⟨x', y'⟩ ⟨e1, e2⟩
  show _ = _
  dsimp only
  rw [sub_flip (Flip.foldMax e1) (Flip.foldMin e2)]

theorem chop_mirror (window : ℕ) : chop (mirror low) (mirror high) (mirror close) window = chop high low close window := by
  refine Alike.eq_of_each ?_
  simp only [chop, Option.bind_eq_bind]
  refine Alike.bind_cross (Alike.sliceFrom (each_mirror _) rfl) (Alike.sliceFrom (each_mirror _) rfl) fun h l' h1 l h' h2 => ?_
  rw [trueRange_mirror]
  refine Alike.bind Alike.same (forall_eq_rel fun t => Alike.bind_cross (Alike.windows h1) (Alike.windows h2)
    fun h l' h1 l h' h2 => Alike.bind Alike.same (forall_eq_rel fun ts => .answer
      (each_append (each_par_nans _) (each_map (each_zip3_cross h1 h2 each_eq) ?_))))
  rintro ⟨x, y, z⟩ ⟨x', y', z'⟩ ⟨e1, e2, e3⟩
  show _ = _
  dsimp only at e3 ⊢
  rw [sub_flip (Flip.foldMax e1) (Flip.foldMin e2), e3]

theorem vhf_mirror (window : ℕ) : vhf (mirror low) (mirror high) (mirror close) window = vhf high low close window := by
  refine Alike.eq_of_each ?_
  have hd : (pairs (mirror close)).map (fun (x : FP ρ × FP ρ) => fabs (x.2 - x.1)) = (pairs close).map fun (x : FP ρ × FP ρ) => fabs (x.2 - x.1) := by
    refine (each_par_eq (each_map (each_pairs (each_mirror_odd close)) ?_)).symm
    rintro ⟨x, y⟩ ⟨x', y'⟩ ⟨e1, e2⟩
    exact (Par.sub e2 e1).fabs
  simp only [vhf, Option.bind_eq_bind]
  rw [hd]
  refine Alike.bind Alike.same (forall_eq_rel fun t => Alike.bind_cross (Alike.windows (each_mirror _)) (Alike.windows (each_mirror _))
    fun h l' h1 l h' h2 => .answer (each_append (each_par_nans _) ?_))
  have e : ∀ (a : List (List (FP ρ))) (b c : List (List (FP ρ))), zip3 a b c = (zip3 b c a).map fun x => (x.2.2, x.1, x.2.1) := by
    intro a b c
    induction a generalizing b c with
    | nil => cases b <;> cases c <;> rfl
    | cons x a ih => cases b with
      | nil => rfl
      | cons y b => cases c with
        | nil => rfl
        | cons z c => rw [zip3, zip3, List.map_cons, ih]
  rw [e _ (h.drop 1), e _ (h'.drop 1), List.map_map, List.map_map]
  refine each_map (each_zip3_cross (each_drop 1 h1) (each_drop 1 h2) each_eq) ?_
  rintro ⟨x, y, z⟩ ⟨x', y', z'⟩ ⟨e1, e2, e3⟩
  show _ = _
  dsimp only [Function.comp] at e3 ⊢
  rw [sub_flip (Flip.foldMax e1) (Flip.foldMin e2), e3]

/-- Keltner channels `(middle, upper, lower)`: the middle line is opposite, the other two change places. -/
theorem keltner_mirror (window : ℕ) :
    Alike (Each fun b b' => Opposite b.1 b'.1 ∧ Opposite b.2.1 b'.2.2 ∧ Opposite b.2.2 b'.2.1)
      (keltner high low close window) (keltner (mirror low) (mirror high) (mirror close) window) := by
  simp only [keltner, Option.bind_eq_bind]
  rw [atr_mirror]
  refine Alike.bind (Smooth.ewma_mirror (each_mirror_odd close) window) fun m m' hm => Alike.bind Alike.same (forall_eq_rel fun a => .answer
    (each_map (each_zip hm each_eq) ?_))
  rintro ⟨x, y⟩ ⟨x', y'⟩ ⟨e1, e2⟩
  dsimp only at e1 e2 ⊢
  subst e2
  exact ⟨e1, e1.add (Flip.odd rfl), Par.add e1 (Flip.odd (neg_neg' _).symm)⟩

/-- The Starc bands change places. -/
theorem starc_mirror (window maWindow : ℕ) (multiplier : Option (FP ρ)) :
    Alike (Each fun b b' => Opposite b.1 b'.2 ∧ Opposite b.2 b'.1)
      (starc high low close window maWindow multiplier) (starc (mirror low) (mirror high) (mirror close) window maWindow multiplier) := by
  simp only [starc, Option.bind_eq_bind]
  rw [atr_mirror]
  refine Alike.bind Alike.same (forall_eq_rel fun a => Alike.bind (Smooth.sma_mirror (each_mirror_odd close) maWindow) fun m m' hm => .answer
    (each_map (each_zip each_eq hm) ?_))
  rintro ⟨y, x⟩ ⟨y', x'⟩ ⟨e2, e1⟩
  dsimp only at e1 e2 ⊢
  subst e2
  exact ⟨e1.add (Flip.odd rfl), Par.add e1 (Flip.odd (neg_neg' _).symm)⟩

/-- The Donchian channel `(upper, middle, lower)`: the middle line is opposite, the other two change places. -/
theorem donchian_mirror (window : ℕ) :
    Alike (Each fun b b' => Opposite b.1 b'.2.2 ∧ Opposite b.2.1 b'.2.1 ∧ Opposite b.2.2 b'.1)
      (donchian high low window) (donchian (mirror low) (mirror high) window) := by
  simp only [donchian, Option.bind_eq_bind]
  refine Alike.bind Alike.same (forall_eq_rel fun k => Alike.bind_cross (Alike.windows (each_mirror _)) (Alike.windows (each_mirror _))
    fun h l' h1 l h' h2 => .answer (each_append (each_replicate k ⟨Par.nan (p := .odd), Par.nan (p := .odd), Par.nan (p := .odd)⟩)
      (each_map (each_zip_cross h1 h2) ?_)))
  rintro ⟨x, y⟩ ⟨x', y'⟩ ⟨e1, e2⟩
  have e1 := (Flip.foldMax e1).odd
  have e2 := (Flip.foldMin e2).odd
  exact ⟨e1, (Par.add_cross e1 e2).div .lit, e2⟩

theorem std_dev_mirror (h : Each (Par p) data data') (window : ℕ) (deviations : Option (FP ρ)) :
    Alike (Each (Par .eq)) (std_dev data window deviations) (std_dev data' window deviations) := by
  parity [std_dev, Distribution.std_dev]

/-- The Bollinger bands `(upper, middle, lower)`: the middle line is opposite, the other two change places. -/
theorem bbands_mirror (h : Each (Par .odd) data data') (window : ℕ) (deviations : Option (FP ρ)) (mamode : Option Smooth.MaMode) :
    Alike (Each fun b b' => Opposite b.1 b'.2.2 ∧ Opposite b.2.1 b'.2.1 ∧ Opposite b.2.2 b'.1)
      (bbands data window deviations mamode) (bbands data' window deviations mamode) := by
  simp only [bbands, Option.bind_eq_bind]
  refine Alike.bind (Smooth.ma_mirror h window _) fun m m' hm => Alike.bind (std_dev_mirror h window deviations) fun s s' hs => .answer
    (each_map (each_zip hm hs) ?_)
  rintro ⟨x, y⟩ ⟨x', y'⟩ ⟨e1, e2⟩
  change y = y' at e2
  subst e2
  exact ⟨e1.add (Flip.odd rfl), e1, Par.add e1 (Flip.odd (neg_neg' _).symm)⟩

/-- The extreme of a window is where the extreme of the mirror image is. -/
theorem argBest_mirror {b b' : FP ρ → FP ρ → Bool} (hb : ∀ x x' y y', Par .odd x x' → Par .odd y y' → b x y = b' x' y')
    {h h' : List (FP ρ)} (e : Each (Par .odd) h h') : argBest b h = argBest b' h' := by
  have : Alike Eq (argBest b h) (argBest b' h') := by
    simp only [argBest, Option.bind_eq_bind]
    refine Alike.bind (Alike.getElem? e rfl) fun x x' hx => .answer ?_
    rw [e.length]
    have := foldl_rel (X := Both Eq (Par .odd)) (P := Both Eq (Par .odd))
      (f := fun (st : ℕ × FP ρ) (x : ℕ × FP ρ) => if b x.2 st.2 then (x.1, x.2) else st)
      (g := fun (st : ℕ × FP ρ) (x : ℕ × FP ρ) => if b' x.2 st.2 then (x.1, x.2) else st)
      (s := (0, x)) (t := (0, x')) ⟨rfl, hx⟩ (each_zip (each_eq (l := List.range h'.length)) e) ?_
    · exact this.1
    · rintro ⟨i, s⟩ ⟨i', s'⟩ ⟨h1, h2⟩ ⟨j, y⟩ ⟨j', y'⟩ ⟨h3, h4⟩
      dsimp only at h1 h2 h3 h4 ⊢
      rw [hb _ _ _ _ h4 h2]
      split
      · exact ⟨h3, h4⟩
      · exact ⟨h1, h2⟩
  cases e1 : argBest b h <;> cases e2 : argBest b' h' <;> rw [e1, e2] at this <;> cases this
  next h => rw [h]

/-- The fractal bands `(upper, lower)` change places. -/
theorem fbands_mirror :
    Alike (Each fun b b' => Opposite b.1 b'.2 ∧ Opposite b.2 b'.1) (fbands high low) (fbands (mirror low) (mirror high)) := by
  simp only [fbands, Option.bind_eq_bind]
  refine Alike.bind (P := Each (Crossed (Par .odd) (Par .odd)))
    (Alike.scanM (X := Crossed (Par .odd) (Par .odd)) (.mk .zero .zero)
      (each_zip_cross (each_windowsOf (each_mirror_odd high)) (each_windowsOf (each_mirror_odd low))) ?_) fun r r' hr => .answer
    (each_append (each_replicate 4 ⟨Par.nan (p := .odd), Par.nan (p := .odd)⟩) hr)
  rintro ⟨u, l⟩ ⟨u', l'⟩ ⟨s1, s2⟩ ⟨h, k⟩ ⟨h', k'⟩ ⟨e1, e2⟩
  dsimp only at s1 s2 e1 e2 ⊢
  rw [argBest_mirror (b := fun x y => x >. y) (b' := fun x y => x <. y) (fun x x' y y' hx hy => hy.lt_odd hx) e1,
    argBest_mirror (b := fun x y => x <. y) (b' := fun x y => x >. y) (fun x x' y y' hx hy => hx.lt_odd hy) e2]
  cases argBest (fun x y => x <. y) k' with
  | none => cases argBest (fun x y => x >. y) h' <;> cases h'[2]? <;> exact .panic
  | some i =>
    cases argBest (fun x y => x >. y) h' with
    | none => cases h[2]? <;> exact .panic
    | some j =>
      dsimp only [Option.bind_some]
      refine Alike.bind_cross (Alike.getElem? e1 rfl) (Alike.getElem? e2 rfl) fun x y' hx y x' hy => .answer ?_
      have h1 : Par .odd (if i = 2 then x else u) (if i = 2 then y' else l') := Par.ite_same hx s1
      have h2 : Par .odd (if j = 2 then y else l) (if j = 2 then x' else u') := Par.ite_same hy s2
      exact ⟨⟨h1, h2⟩, h1, h2⟩

/-- The typical price -/
theorem typical_mirror (window : ℕ) :
    Alike (Each Opposite) (typical high low close window) (typical (mirror low) (mirror high) (mirror close) window) := by
  simp only [typical]
  refine Smooth.sma_mirror (p := .odd) (each_map (each_zip3_cross (each_mirror_odd _) (each_mirror_odd _) (each_mirror_odd _)) ?_) window
  rintro ⟨x, y, z⟩ ⟨x', y', z'⟩ ⟨e1, e2, e3⟩
  exact ((Par.add_cross e1 e2).add e3).div .lit

/-- The weighted close -/
theorem wcp_mirror : Each Opposite (wcp high low close) (wcp (mirror low) (mirror high) (mirror close)) := by
  simp only [wcp]
  refine each_map (each_zip3_cross (each_mirror_odd _) (each_mirror_odd _) (each_mirror_odd _)) ?_
  rintro ⟨x, y, z⟩ ⟨x', y', z'⟩ ⟨e1, e2, e3⟩
  exact Par.div (p := .odd) ((Par.add_cross e1 e2).add (Par.lit.mul e3 rfl)) .lit

end Traquer.Volatility
