import Verif.Spec.Mirror
import Verif.Lemmas.Monotone
import Verif.Lemmas.Units
/-!
# Proof rules for mirror images, in every rounding
-/

namespace Traquer
open FloatLit FP
variable {ρ : Rounding} {x y x' y' c z : FP ρ}

/-- one of the two zeros -/
def IsZ (x : FP ρ) : Prop := x = FP.negz ∨ x = FP.fin 0

theorem isZ_mk (s : Bool) : IsZ (mk s 0 : FP ρ) := by
  have h : ρ.rnd 0 = 0 := by simpa using ρ.nat 0 (by norm_num)
  cases s <;> simp [mk, h, IsZ]

theorem isZ_iff : IsZ x ↔ x ≠ FP.nan ∧ x.toE = 0 := by
  cases x with
  | nan => simp [IsZ]
  | inf b => cases b <;> simp [IsZ, toE]
  | negz => simp [IsZ, toE]
  | fin r => simp [IsZ, toE]

theorem same_of_toE (hx : x ≠ FP.nan) (hy : y ≠ FP.nan) (h : x.toE = y.toE) : x = y ∨ IsZ x ∧ IsZ y := by
  by_cases h0 : x.toE = 0
  · exact .inr ⟨isZ_iff.2 ⟨hx, h0⟩, isZ_iff.2 ⟨hy, h ▸ h0⟩⟩
  · left
    have h1 : y.toE ≠ 0 := h ▸ h0
    rcases x with _ | (_ | _) | _ | r <;> rcases y with _ | (_ | _) | _ | s <;> simp_all [toE]

theorem sameNumber_iff : SameNumber x y ↔ x = y ∨ IsZ x ∧ IsZ y := by
  constructor
  · rintro (⟨rfl, rfl⟩ | h)
    · exact .inl rfl
    · have h' : (!FP.isNaN x && !FP.isNaN y && decide (toE x = toE y)) = true := h
      simp only [Bool.and_eq_true, Bool.not_eq_true', decide_eq_true_eq] at h'
      refine same_of_toE ?_ ?_ h'.2
      · rintro rfl; exact absurd h'.1.1 (by simp [FP.isNaN])
      · rintro rfl; exact absurd h'.1.2 (by simp [FP.isNaN])
  · have e : ∀ x y : FP ρ, x ≠ FP.nan → y ≠ FP.nan → x.toE = y.toE → (x ==. y) = true := by
      intro x y hx hy h
      show (!FP.isNaN x && !FP.isNaN y && decide (toE x = toE y)) = true
      cases x <;> cases y <;> simp_all [FP.isNaN]
    rintro (rfl | ⟨h1, h2⟩)
    · by_cases hx : x = FP.nan
      · exact .inl ⟨hx, hx⟩
      · exact .inr (e x x hx hx rfl)
    · rw [isZ_iff] at h1 h2
      exact .inr (e x y h1.1 h2.1 (h1.2.trans h2.2.symm))

namespace SameNumber

theorem refl (x : FP ρ) : SameNumber x x := sameNumber_iff.2 (.inl rfl)
theorem of_eq (h : x = y) : SameNumber x y := h ▸ refl x
theorem zeros (h : IsZ x) (g : IsZ y) : SameNumber x y := sameNumber_iff.2 (.inr ⟨h, g⟩)

theorem symm (h : SameNumber x y) : SameNumber y x := by
  rw [sameNumber_iff] at *
  rcases h with rfl | ⟨h, g⟩
  · exact .inl rfl
  · exact .inr ⟨g, h⟩

theorem trans (h : SameNumber x y) (g : SameNumber y z) : SameNumber x z := by
  rw [sameNumber_iff] at *
  rcases h with rfl | ⟨h, h'⟩
  · exact g
  · rcases g with rfl | ⟨-, g⟩
    · exact .inr ⟨h, h'⟩
    · exact .inr ⟨h, g⟩

/-- an operation that maps zeros to the same numbers -/
theorem congr {f : FP ρ → FP ρ} (hf : SameNumber (f negz) (f (fin 0))) (h : SameNumber x y) : SameNumber (f x) (f y) := by
  rcases sameNumber_iff.1 h with rfl | ⟨rfl | rfl, rfl | rfl⟩
  · exact refl _
  · exact refl _
  · exact hf
  · exact hf.symm
  · exact refl _

theorem congr_eq {α : Type} {f : FP ρ → α} (hf : f negz = f (fin 0)) (h : SameNumber x y) : f x = f y := by
  rcases sameNumber_iff.1 h with rfl | ⟨rfl | rfl, rfl | rfl⟩
  · rfl
  · rfl
  · exact hf
  · exact hf.symm
  · rfl

theorem neg (h : SameNumber x y) : SameNumber (-x) (-y) :=
  congr (f := fun x => -x) (zeros (.inr rfl) (.inl (by show FP.neg _ = _; simp [FP.neg]))) h

theorem add_comm' (x y : FP ρ) : x + y = y + x := by
  show FP.add x y = FP.add y x
  cases x <;> cases y <;> simp [FP.add, add_comm]
  rename_i a b
  cases a <;> cases b <;> rfl

theorem add_left (h : SameNumber x x') (y : FP ρ) : SameNumber (x + y) (x' + y) := by
  refine congr (f := fun x => x + y) ?_ h
  show SameNumber (FP.add negz y) (FP.add (fin 0) y)
  cases y with
  | nan => exact refl _
  | inf b => exact refl _
  | negz => exact zeros (.inl rfl) (isZ_mk _)
  | fin r => exact of_eq (by simp [FP.add])

theorem add (h : SameNumber x x') (g : SameNumber y y') : SameNumber (x + y) (x' + y') := by
  refine (h.add_left y).trans ?_
  rw [add_comm' x', add_comm' x']
  exact g.add_left x'

theorem sub (h : SameNumber x x') (g : SameNumber y y') : SameNumber (x - y) (x' - y') := h.add g.neg

theorem mul_left (h : SameNumber x x') (y : FP ρ) : SameNumber (x * y) (x' * y) := by
  refine congr (f := fun x => x * y) ?_ h
  show SameNumber (FP.mul negz y) (FP.mul (fin 0) y)
  cases y with
  | nan => exact refl _
  | inf b => exact of_eq (by simp [FP.mul])
  | negz => exact zeros (by simpa [FP.mul, val] using isZ_mk _) (by simpa [FP.mul, val] using isZ_mk _)
  | fin r => exact zeros (by simpa [FP.mul, val] using isZ_mk _) (by simpa [FP.mul, val] using isZ_mk _)

theorem mul (h : SameNumber x x') (g : SameNumber y y') : SameNumber (x * y) (x' * y') := by
  refine (h.mul_left y).trans ?_
  rw [times_comm x', times_comm x']
  exact g.mul_left x'

theorem div_left (h : SameNumber x x') (y : FP ρ) : SameNumber (x / y) (x' / y) := by
  refine congr (f := fun x => x / y) ?_ h
  show SameNumber (FP.div negz y) (FP.div (fin 0) y)
  cases y with
  | nan => exact refl _
  | inf b => cases b <;> simp [FP.div, sgn] <;> exact zeros (by simp [IsZ]) (by simp [IsZ])
  | negz => exact of_eq (by simp [FP.div, val])
  | fin r =>
    by_cases hr : r = 0
    · exact of_eq (by simp [FP.div, val, hr])
    · exact zeros (by simpa [FP.div, val, hr] using isZ_mk _) (by simpa [FP.div, val, hr] using isZ_mk _)

theorem fabs (h : SameNumber x y) : fabs x = Traquer.fabs y :=
  congr_eq (f := Traquer.fabs) (by show FP.abs _ = FP.abs _; simp [FP.abs]) h

theorem square (h : SameNumber x y) : x * x = y * y :=
  congr_eq (f := fun x => x * x) (by show FP.mul _ _ = FP.mul _ _; simp [FP.mul, sgn, val]) h

theorem isNaN (h : SameNumber x y) : isNaN x = Traquer.isNaN y := congr_eq (f := Traquer.isNaN) rfl h

theorem toE (h : SameNumber x y) : x.toE = y.toE := congr_eq (f := FP.toE) (by simp [FP.toE]) h

theorem sqrt (h : SameNumber x y) : SameNumber (sqrt x) (Traquer.sqrt y) := by
  refine congr (f := Traquer.sqrt) ?_ h
  show SameNumber (FP.sqrt _) (FP.sqrt _)
  simp only [FP.sqrt, lt_irrefl, if_false, Real.sqrt_zero]
  exact zeros (.inl rfl) (isZ_mk _)

theorem logWith {f : ℝ → ℝ} (h : SameNumber x y) : FP.logWith f x = FP.logWith f y :=
  congr_eq (f := FP.logWith f) (by simp [FP.logWith]) h

theorem ln (h : SameNumber x y) : ln x = Traquer.ln y := h.logWith
theorem log10 (h : SameNumber x y) : log10 x = Traquer.log10 y := h.logWith

theorem exp (h : SameNumber x y) : exp x = Traquer.exp y :=
  congr_eq (f := Traquer.exp) (by show FP.exp _ = FP.exp _; simp [FP.exp, val]) h

theorem lt (h : SameNumber x x') (g : SameNumber y y') : (x <. y) = (x' <. y') := by
  show FP.lt x y = FP.lt x' y'
  have h1 : FP.isNaN x = FP.isNaN x' := h.isNaN
  have h2 : FP.isNaN y = FP.isNaN y' := g.isNaN
  rw [FP.lt, FP.lt, h1, h2, h.toE, g.toE]

theorem le (h : SameNumber x x') (g : SameNumber y y') : (x <=. y) = (x' <=. y') := by
  show FP.le x y = FP.le x' y'
  have h1 : FP.isNaN x = FP.isNaN x' := h.isNaN
  have h2 : FP.isNaN y = FP.isNaN y' := g.isNaN
  rw [FP.le, FP.le, h1, h2, h.toE, g.toE]

theorem feq (h : SameNumber x x') (g : SameNumber y y') : (x ==. y) = (x' ==. y') := by
  show FP.feq x y = FP.feq x' y'
  have h1 : FP.isNaN x = FP.isNaN x' := h.isNaN
  have h2 : FP.isNaN y = FP.isNaN y' := g.isNaN
  rw [FP.feq, FP.feq, h1, h2, h.toE, g.toE]

theorem ite {c c' : Bool} (e : c = c') (h : SameNumber x x') (g : SameNumber y y') :
    SameNumber (if c then x else y) (if c' then x' else y') := by
  subst e; split <;> assumption

theorem fmax (h : SameNumber x x') (g : SameNumber y y') : SameNumber (fmax x y) (Traquer.fmax x' y') := by
  rw [Traquer.fmax, Traquer.fmax]
  exact ite h.isNaN g (ite g.isNaN h (ite (h.lt g) g h))

theorem fmin (h : SameNumber x x') (g : SameNumber y y') : SameNumber (fmin x y) (Traquer.fmin x' y') := by
  rw [Traquer.fmin, Traquer.fmin]
  exact ite h.isNaN g (ite g.isNaN h (ite (g.lt h) g h))

end SameNumber

/-! ## Opposites -/

theorem neg_neg' (x : FP ρ) : - -x = x := by
  show FP.neg (FP.neg x) = x
  cases x with
  | fin r => by_cases h : r = 0 <;> simp [FP.neg, h]
  | _ => simp [FP.neg]

theorem sgn_neg (h : x ≠ FP.nan) : (-x).sgn = !x.sgn := by
  show (FP.neg x).sgn = _
  cases x with
  | nan => exact absurd rfl h
  | inf b => rfl
  | negz => simp [FP.neg, sgn]
  | fin r =>
    by_cases h : r = 0
    · simp [FP.neg, sgn, h]
    · rcases lt_or_gt_of_ne h with h' | h' <;> simp [FP.neg, sgn, h, h', h'.le, h'.not_gt]

theorem mk_neg (s : Bool) {r : ℝ} (hr : r ≠ 0) : (mk s (-r) : FP ρ) = -mk s r := by
  show _ = FP.neg _
  have h1 : (-r < 0) = ¬ (r < 0) := by
    rw [neg_lt_zero, not_lt]
    exact propext ⟨fun h => h.le, fun h => lt_of_le_of_ne h hr.symm⟩
  have f : ρ.fits (-ρ.rnd r) ↔ ρ.fits (ρ.rnd r) := ⟨ρ.fits_mono _ _ (by simp), ρ.fits_mono _ _ (by simp)⟩
  have o := ρ.odd r
  have f' : ρ.fits (ρ.rnd (-r)) ↔ ρ.fits (ρ.rnd r) := by rw [o]; exact f
  simp only [mk, o, neg_eq_zero, f, h1, hr, false_and, or_false]
  by_cases h0 : ρ.rnd r = 0
  · by_cases h2 : r < 0 <;> simp [h0, h2, FP.neg]
  · by_cases h3 : ρ.fits (ρ.rnd r)
    · rw [if_neg h0, if_neg h0, if_pos (f'.2 h3), if_pos h3]; simp [FP.neg, h0]
    · rw [if_neg h0, if_neg h0, if_neg (fun h => h3 (f'.1 h)), if_neg h3]; by_cases h2 : r < 0 <;> simp [h2, FP.neg]

theorem sameNumber_mk_neg (s t u : Bool) (r : ℝ) (h : r ≠ 0 → s = t) : SameNumber (-(mk s r : FP ρ)) (mk u (-r)) := by
  by_cases hr : r = 0
  · subst hr
    rw [neg_zero]
    have := isZ_mk (ρ := ρ) s
    refine .zeros ?_ (isZ_mk _)
    rcases this with e | e <;> rw [e]
    · exact .inr rfl
    · exact .inl (by show FP.neg _ = _; simp [FP.neg])
  · have : (mk u (-r) : FP ρ) = mk s (-r) := by
      simp [mk, hr]
    rw [this, mk_neg s hr]
    exact .refl _

theorem neg_add_same (x y : FP ρ) : SameNumber (-(x + y)) (-x + -y) := by
  have hz : (-(fin 0 : FP ρ)) = negz := by show FP.neg _ = _; simp [FP.neg]
  have hn : (-(negz : FP ρ)) = fin 0 := rfl
  have hi : ∀ b, (-(inf b : FP ρ)) = inf (!b) := fun _ => rfl
  have hf : ∀ r : ℝ, SameNumber (-(fin r : FP ρ)) (fin (-r)) := fun r => by
    by_cases h : r = 0
    · subst h; rw [hz, neg_zero]; exact .zeros (.inl rfl) (.inr rfl)
    · exact .of_eq (by show FP.neg _ = _; simp [FP.neg, h])
  cases x with
  | nan => exact .refl _
  | inf a =>
    cases y with
    | nan => exact .refl _
    | inf b => cases a <;> cases b <;> exact .refl _
    | negz => rw [hn, hi]; exact .of_eq rfl
    | fin r => exact .trans (.of_eq (by rfl)) (.add (.refl _) (hf r).symm)
  | negz =>
    cases y with
    | nan => exact .refl _
    | inf b => rw [hn, hi]; exact .of_eq rfl
    | negz => rw [hn]; exact .zeros (.inr rfl) (by show IsZ (FP.add _ _); simpa [FP.add] using isZ_mk _)
    | fin r =>
      refine .trans ?_ (.add (.refl _) (hf r).symm)
      rw [hn]
      show SameNumber (-(mk false r)) (mk false (0 + -r))
      rw [zero_add]
      exact sameNumber_mk_neg _ _ _ _ fun _ => rfl
  | fin a =>
    cases y with
    | nan => exact .of_eq ((congrArg (fun z => -z) (add_nan (x := (fin a : FP ρ)))).trans (add_nan (x := -(fin a : FP ρ))).symm)
    | inf b => exact .trans (.of_eq (by rfl)) (.add (hf a).symm (.refl _))
    | negz =>
      refine .trans ?_ (.add (hf a).symm (.refl _))
      rw [hn]
      show SameNumber (-(mk false a)) (mk false (-a + 0))
      rw [add_zero]
      exact sameNumber_mk_neg _ _ _ _ fun _ => rfl
    | fin b =>
      refine .trans ?_ (.add (hf a).symm (hf b).symm)
      show SameNumber (-(mk false (a + b))) (mk false (-a + -b))
      rw [← neg_add]
      exact sameNumber_mk_neg _ _ _ _ fun _ => rfl

theorem neg_mul_same (x y : FP ρ) : SameNumber (-(x * y)) (-x * y) := by
  have hz : (-(fin 0 : FP ρ)) = negz := by show FP.neg _ = _; simp [FP.neg]
  have hn : (-(negz : FP ρ)) = fin 0 := rfl
  have hi : ∀ b, (-(inf b : FP ρ)) = inf (!b) := fun _ => rfl
  have key : ∀ z w : FP ρ, z ≠ FP.nan → (∀ b, z ≠ inf b) → w ≠ FP.nan → (∀ b, w ≠ inf b) → z * w = mk (sgn z != sgn w) (val z * val w) := by
    intro z w h1 h2 h3 h4
    show FP.mul z w = _
    cases z <;> cases w <;> simp_all [FP.mul]
  by_cases hx : x = FP.nan
  · subst hx; exact .refl _
  by_cases hy : y = FP.nan
  · subst hy; rw [mul_nan', mul_nan']; exact .refl _
  cases x with
  | nan => exact absurd rfl hx
  | inf a =>
    rw [hi]
    show SameNumber (-(FP.mul _ _)) (FP.mul _ _)
    by_cases h0 : y = fin 0 ∨ y = negz
    · rcases h0 with rfl | rfl <;> simp [FP.mul] <;> exact .refl _
    · refine .of_eq ?_
      have e : ∀ b, FP.mul (inf b) y = inf (b != sgn y) := by
        intro b; cases y <;> simp_all [FP.mul]
      rw [e, e, hi]
      cases a <;> cases y.sgn <;> rfl
  | negz =>
    cases y with
    | nan => exact absurd rfl hy
    | inf b => rw [hn]; exact .of_eq (by show -(FP.mul _ _) = FP.mul _ _; simp [FP.mul]; rfl)
    | negz => rw [hn]; refine .trans (.neg (y := negz) (.zeros ?_ (.inl rfl))) (.zeros (.inr rfl) ?_) <;> (show IsZ (FP.mul _ _); simpa [FP.mul, val] using isZ_mk _)
    | fin r => rw [hn]; refine .trans (.neg (y := negz) (.zeros ?_ (.inl rfl))) (.zeros (.inr rfl) ?_) <;> (show IsZ (FP.mul _ _); simpa [FP.mul, val] using isZ_mk _)
  | fin a =>
    by_cases ha : a = 0
    · subst ha
      rw [hz]
      cases y with
      | nan => exact absurd rfl hy
      | inf b => exact .of_eq (by show -(FP.mul _ _) = FP.mul _ _; simp [FP.mul]; rfl)
      | negz => refine .trans (.neg (y := negz) (.zeros ?_ (.inl rfl))) (.zeros (.inr rfl) ?_) <;> (show IsZ (FP.mul _ _); simpa [FP.mul, val] using isZ_mk _)
      | fin r => refine .trans (.neg (y := negz) (.zeros ?_ (.inl rfl))) (.zeros (.inr rfl) ?_) <;> (show IsZ (FP.mul _ _); simpa [FP.mul, val] using isZ_mk _)
    · have e : (-(fin a : FP ρ)) = fin (-a) := by show FP.neg _ = _; simp [FP.neg, ha]
      cases y with
      | nan => exact absurd rfl hy
      | inf b =>
        have := sgn_neg (x := (fin a : FP ρ)) (by simp)
        rw [e] at this ⊢
        refine .of_eq ?_
        show -(FP.mul _ _) = FP.mul _ _
        simp only [FP.mul, fin.injEq, ha, neg_eq_zero, reduceCtorEq, or_self, if_false, this, hi]
        cases (fin a : FP ρ).sgn <;> cases b <;> rfl
      | negz =>
        rw [e]
        refine .trans (.neg (y := negz) (.zeros ?_ (.inl rfl))) (.zeros (.inr rfl) ?_) <;> (show IsZ (FP.mul _ _); simpa [FP.mul, val] using isZ_mk _)
      | fin r =>
        rw [e, key _ _ (by simp) (by simp) (by simp) (by simp), key _ _ (by simp) (by simp) (by simp) (by simp)]
        simp only [val, neg_mul]
        exact sameNumber_mk_neg _ _ _ _ fun _ => rfl

theorem neg_div_same (x y : FP ρ) : SameNumber (-(x / y)) (-x / y) := by
  have hz : (-(fin 0 : FP ρ)) = negz := by show FP.neg _ = _; simp [FP.neg]
  have hn : (-(negz : FP ρ)) = fin 0 := rfl
  have hi : ∀ b, (-(inf b : FP ρ)) = inf (!b) := fun _ => rfl
  have zero : ∀ z w y : FP ρ, IsZ z → IsZ w → SameNumber (-(z / y)) (w / y) := by
    intro z w y h1 h2
    have : IsZ (-(z / y)) ∧ IsZ (z / y) ∨ z / y = FP.nan := by
      have : IsZ (z / y) ∨ z / y = FP.nan := by
        have hn0 : (negz / y : FP ρ) = FP.div negz y := rfl
        have hf0 : (fin 0 / y : FP ρ) = FP.div (fin 0) y := rfl
        rcases h1 with rfl | rfl
        · rw [hn0]
          cases y with
          | nan => exact .inr rfl
          | inf b => cases b <;> simp [FP.div, sgn, IsZ]
          | negz => simp [FP.div, val]
          | fin r =>
            by_cases hr : r = 0
            · simp [FP.div, val, hr]
            · left; simpa [FP.div, val, hr] using isZ_mk _
        · rw [hf0]
          cases y with
          | nan => exact .inr rfl
          | inf b => cases b <;> simp [FP.div, sgn, IsZ]
          | negz => simp [FP.div, val]
          | fin r =>
            by_cases hr : r = 0
            · simp [FP.div, val, hr]
            · left; simpa [FP.div, val, hr] using isZ_mk _
      rcases this with h | h
      · refine .inl ⟨?_, h⟩
        rcases h with h | h <;> rw [h]
        · exact .inr rfl
        · exact .inl hz
      · exact .inr h
    have hs : SameNumber (z / y) (w / y) := (SameNumber.zeros h1 h2).div_left y
    rcases this with ⟨h3, h4⟩ | h3
    · exact .trans (.zeros h3 h4) hs
    · rw [h3] at hs ⊢; exact hs
  by_cases hx : x = FP.nan
  · subst hx; exact .refl _
  by_cases hy : y = FP.nan
  · subst hy; rw [div_nan, div_nan]; exact .refl _
  cases x with
  | nan => exact absurd rfl hx
  | inf a =>
    rw [hi]
    show SameNumber (-(FP.div _ _)) (FP.div _ _)
    cases y with
    | nan => exact absurd rfl hy
    | inf b => exact .refl _
    | negz => cases a <;> exact .refl _
    | fin r =>
      simp only [FP.div, hi]
      refine .of_eq ?_
      cases a <;> cases (fin r : FP ρ).sgn <;> rfl
  | negz => exact zero _ _ _ (.inl rfl) (.inr rfl)
  | fin a =>
    by_cases ha : a = 0
    · subst ha; rw [hz]; exact zero _ _ _ (.inr rfl) (.inl rfl)
    · have e : (-(fin a : FP ρ)) = fin (-a) := by show FP.neg _ = _; simp [FP.neg, ha]
      have hs := sgn_neg (x := (fin a : FP ρ)) (by simp)
      rw [e] at hs ⊢
      show SameNumber (-(FP.div _ _)) (FP.div _ _)
      cases y with
      | nan => exact absurd rfl hy
      | inf b =>
        refine .zeros ?_ ?_
        · cases b <;> cases h : (fin a : FP ρ).sgn <;> simp [FP.div, h] <;> first | (rw [hn]; exact .inr rfl) | (rw [hz]; exact .inl rfl)
        · cases b <;> cases h : (fin (-a) : FP ρ).sgn <;> simp [FP.div, h, IsZ]
      | negz =>
        refine .of_eq ?_
        have h1 : (-a = 0) = False := by simp [ha]
        simp only [FP.div, val, if_true, ha, h1, if_false, hs, hi]
        cases (fin a : FP ρ).sgn <;> rfl
      | fin r =>
        by_cases hr : r = 0
        · refine .of_eq ?_
          have h1 : (-a = 0) = False := by simp [ha]
          subst hr
          simp only [FP.div, val, if_true, ha, h1, if_false, hs, hi]
          cases (fin a : FP ρ).sgn <;> cases (fin 0 : FP ρ).sgn <;> rfl
        · simp only [FP.div, val, hr, if_false, neg_div]
          exact sameNumber_mk_neg _ _ _ _ fun _ => rfl

theorem neg_lt' (x y : FP ρ) : (-x <. -y) = (y <. x) := by
  show FP.lt (-x) (-y) = FP.lt y x
  have n : ∀ x : FP ρ, FP.isNaN (-x) = FP.isNaN x := by
    intro x; show FP.isNaN (FP.neg x) = _; rcases x with _ | _ | _ | r <;> first | rfl | (by_cases h : r = 0 <;> simp [FP.neg, FP.isNaN, h])
  rw [FP.lt, FP.lt, n, n, toE_neg, toE_neg, Bool.and_comm (!FP.isNaN x)]
  simp only [EReal.neg_lt_neg_iff]

theorem neg_le' (x y : FP ρ) : (-x <=. -y) = (y <=. x) := by
  show FP.le (-x) (-y) = FP.le y x
  have n : ∀ x : FP ρ, FP.isNaN (-x) = FP.isNaN x := by
    intro x; show FP.isNaN (FP.neg x) = _; rcases x with _ | _ | _ | r <;> first | rfl | (by_cases h : r = 0 <;> simp [FP.neg, FP.isNaN, h])
  rw [FP.le, FP.le, n, n, toE_neg, toE_neg, Bool.and_comm (!FP.isNaN x)]
  simp only [EReal.neg_le_neg_iff]

theorem neg_isNaN (x : FP ρ) : isNaN (-x) = isNaN x := by
  show FP.isNaN (FP.neg x) = FP.isNaN x
  rcases x with _ | _ | _ | r <;> first | rfl | (by_cases h : r = 0 <;> simp [FP.neg, FP.isNaN, h])

theorem neg_fmax (x y : FP ρ) : -fmax x y = fmin (-x) (-y) := by
  rw [fmax, fmin, neg_isNaN, neg_isNaN, neg_lt']
  repeat' split <;> try rfl

theorem neg_fmin (x y : FP ρ) : -fmin x y = fmax (-x) (-y) := by
  rw [fmax, fmin, neg_isNaN, neg_isNaN, neg_lt']
  repeat' split <;> try rfl

theorem fabs_neg (x : FP ρ) : fabs (-x) = fabs x := by
  show FP.abs (FP.neg x) = FP.abs x
  cases x with
  | fin r => by_cases h : r = 0 <;> simp [FP.neg, FP.abs, h]
  | _ => simp [FP.neg, FP.abs]

theorem square_neg (x : FP ρ) : -x * -x = x * x := by
  show FP.mul (FP.neg x) (FP.neg x) = FP.mul x x
  cases x with
  | fin r =>
    by_cases h : r = 0
    · simp [FP.neg, FP.mul, h, sgn, val]
    · simp [FP.neg, FP.mul, h, val]
  | inf b => cases b <;> simp [FP.neg, FP.mul, sgn]
  | _ => simp [FP.neg, FP.mul, sgn, val]

end Traquer
