import Verif.Lemmas.Parity
import Verif.Model.Volatility
/-!
# Exactly opposite numbers, quotients and extremes under the mirror
-/

namespace Traquer
open FloatLit FP
variable {ρ : Rounding} {x y x' y' c z : FP ρ} {p q r : Parity}

theorem sub_def' (x y : FP ρ) : x - y = x + -y := rfl

theorem div_neg_same (x y : FP ρ) : SameNumber (-(x / y)) (x / -y) := by
  have hn : (-(negz : FP ρ)) = fin 0 := rfl
  have hz : (-(fin 0 : FP ρ)) = negz := by show FP.neg _ = _; simp [FP.neg]
  have hi : ∀ b, (-(inf b : FP ρ)) = inf (!b) := fun _ => rfl
  by_cases hy : y = FP.nan
  · subst hy
    rw [div_nan]
    exact .of_eq (div_nan (x := x)).symm
  by_cases hx : x = FP.nan
  · subst hx; exact .of_eq rfl
  have hs := sgn_neg hy
  have hinf : ∀ a : Bool, SameNumber (-(inf a / y)) (inf a / -y) := by
    intro a
    refine .of_eq ?_
    have e : ∀ y : FP ρ, y ≠ FP.nan → (∀ b, y ≠ inf b) → (inf a / y : FP ρ) = inf (a != sgn y) := by
      intro y h1 h2
      show FP.div _ _ = _
      cases y <;> simp_all [FP.div]
    cases y with
    | nan => exact absurd rfl hy
    | inf b => rfl
    | negz => rw [e _ (by simp) (by simp), hn, e _ (by simp) (by simp), hi]; cases a <;> simp [sgn]
    | fin r =>
      have h1 : -(fin r : FP ρ) ≠ FP.nan := by show FP.neg _ ≠ _; by_cases h : r = 0 <;> simp [FP.neg, h]
      have h2 : ∀ b, -(fin r : FP ρ) ≠ inf b := by intro b; show FP.neg _ ≠ _; by_cases h : r = 0 <;> simp [FP.neg, h]
      rw [e _ (by simp) (by simp), e _ h1 h2, hi, hs]
      cases a <;> cases (fin r : FP ρ).sgn <;> rfl
  have hfin : ∀ x : FP ρ, x ≠ FP.nan → (∀ b, x ≠ inf b) → SameNumber (-(x / y)) (x / -y) := by
    intro x h1 h2
    have e : ∀ y : FP ρ, y ≠ FP.nan → (∀ b, y ≠ inf b) → x / y = if val y = 0 then (if val x = 0 then FP.nan else inf (sgn x != sgn y))
        else mk (sgn x != sgn y) (val x / val y) := by
      intro y h3 h4
      show FP.div _ _ = _
      cases x <;> cases y <;> simp_all [FP.div]
    have e' : ∀ b, x / inf b = if sgn x != b then negz else fin 0 := by
      intro b
      show FP.div _ _ = _
      cases x <;> simp_all [FP.div]
    cases y with
    | nan => exact absurd rfl hy
    | inf b =>
      rw [hi, e', e']
      refine .zeros ?_ ?_
      · cases (sgn x != b)
        · exact .inl hz
        · exact .inr hn
      · cases (sgn x != !b)
        · exact .inr rfl
        · exact .inl rfl
    | negz =>
      rw [hn, e _ (by simp) (by simp), e _ (by simp) (by simp)]
      refine .of_eq ?_
      have v1 : (negz : FP ρ).val = 0 := rfl
      have v2 : (fin 0 : FP ρ).val = 0 := rfl
      rw [v1, v2, if_pos rfl, if_pos rfl]
      by_cases h : x.val = 0
      · rw [if_pos h, if_pos h]; rfl
      · rw [if_neg h, if_neg h, hi]; cases x.sgn <;> simp [sgn]
    | fin r =>
      by_cases hr : r = 0
      · subst hr
        rw [hz, e _ (by simp) (by simp), e _ (by simp) (by simp)]
        refine .of_eq ?_
        have v1 : (negz : FP ρ).val = 0 := rfl
        have v2 : (fin 0 : FP ρ).val = 0 := rfl
        rw [v1, v2, if_pos rfl, if_pos rfl]
        by_cases h : x.val = 0
        · rw [if_pos h, if_pos h]; rfl
        · rw [if_neg h, if_neg h, hi]; cases x.sgn <;> simp [sgn]
      · have en : -(fin r : FP ρ) = fin (-r) := by show FP.neg _ = _; simp [FP.neg, hr]
        rw [en, e _ (by simp) (by simp), e _ (by simp) (by simp)]
        have v1 : (fin r : FP ρ).val = r := rfl
        have v2 : (fin (-r) : FP ρ).val = -r := rfl
        rw [v1, v2, if_neg hr, if_neg (neg_ne_zero.2 hr), div_neg]
        exact sameNumber_mk_neg _ _ _ _ fun _ => rfl
  cases x with
  | nan => exact absurd rfl hx
  | inf a => exact hinf a
  | negz => exact hfin _ (by simp) (by simp)
  | fin a => exact hfin _ (by simp) (by simp)

theorem fabs_cases (x : FP ρ) : fabs x = x ∨ fabs x = -x := by
  show FP.abs x = x ∨ FP.abs x = FP.neg x
  cases x with
  | nan => exact .inl rfl
  | inf b => cases b <;> simp [FP.abs, FP.neg]
  | negz => exact .inr rfl
  | fin r =>
    by_cases h : r = 0
    · simp [FP.abs, h]
    · rcases abs_choice r with e | e <;> simp [FP.abs, FP.neg, h, e]

theorem fabs_div_fabs (x y : FP ρ) : fabs (x / y) = fabs (fabs x / fabs y) := by
  have h1 : ∀ x y : FP ρ, fabs (-x / y) = fabs (x / y) := fun x y => by rw [← (neg_div_same x y).fabs, fabs_neg]
  have h2 : ∀ x y : FP ρ, fabs (x / -y) = fabs (x / y) := fun x y => by rw [← (div_neg_same x y).fabs, fabs_neg]
  rcases fabs_cases x with e | e <;> rcases fabs_cases y with e' | e' <;> rw [e, e'] <;> simp only [h1, h2]

theorem Par.fabs_div (h : Par p x x') (g : Par q y y') : Traquer.fabs (x / y) = Traquer.fabs (x' / y') := by
  rw [fabs_div_fabs x, fabs_div_fabs x', show Traquer.fabs x = Traquer.fabs x' from h.fabs, show Traquer.fabs y = Traquer.fabs y' from g.fabs]

theorem Par.of_fabs_square (h : Traquer.fabs x = Traquer.fabs y) : x * x = y * y := by
  have e : ∀ x : FP ρ, Traquer.fabs x * Traquer.fabs x = x * x := fun x => by
    rcases fabs_cases x with e | e <;> rw [e]
    exact square_neg x
  rw [← e x, ← e y, h]

theorem Par.powi_even_div {n : ℕ} (h : Par p x x') (g : Par q y y') (e : n % 2 = 0) (e' : n ≠ 0) :
    Par .eq (powi (x / y) n) (powi (x' / y') n) := by
  have key : ∀ x : FP ρ, Traquer.powi x n = powiLoop 1 (x * x) (n / 2) := by
    intro x
    rw [Traquer.powi, powiLoop]
    have h2 : ¬ n / 2 = 0 := by omega
    simp [e', e, h2]
  show Traquer.powi _ n = Traquer.powi _ n
  rw [key, key, Par.of_fabs_square (h.fabs_div g)]

theorem SameNumber.atan (h : SameNumber x y) : SameNumber (atan x) (Traquer.atan y) := by
  refine SameNumber.congr (f := Traquer.atan) ?_ h
  show SameNumber (FP.atan negz) (FP.atan (fin 0))
  simp only [FP.atan, Real.arctan_zero]
  exact .zeros (.inl rfl) (isZ_mk _)

theorem fmax_zero_same (h : SameNumber x y) : fmax 0 x = fmax 0 y := by
  refine SameNumber.congr_eq (f := fun x => fmax 0 x) ?_ h
  simp only [zero_lit]
  show fmax (fin 0) negz = fmax (fin 0) (fin 0)
  rw [fmax, fmax]
  have h1 : ((fin 0 : FP ρ) <. negz) = false := by
    show FP.lt _ _ = _
    simp [FP.lt, FP.toE]
  rw [h1]
  simp

theorem SameNumber.feq_zero (h : SameNumber x y) : (x ==. 0) = (y ==. 0) := h.feq (.refl _)

theorem feq_zero_iff : (x ==. 0) = true ↔ IsZ x := by
  rw [isZ_iff]
  show FP.feq x 0 = true ↔ _
  rw [zero_lit]
  cases x with
  | inf b => cases b <;> simp [FP.feq, FP.isNaN, FP.toE]
  | _ => simp [FP.feq, FP.isNaN, FP.toE]

theorem SameNumber.eq_of_ne (h : SameNumber x y) (g : (x ==. 0) = false) : x = y := by
  rcases sameNumber_iff.1 h with e | ⟨e, _⟩
  · exact e
  · rw [feq_zero_iff.2 e] at g; cases g

/-- exactly opposite -/
def Flip (x y : FP ρ) : Prop := y = -x

theorem Flip.odd (h : Flip x y) : Par .odd x y := .of_eq (Eq.symm h)

theorem Flip.symm (h : Flip x y) : Flip y x := by rw [Flip, show y = -x from h, neg_neg']

theorem each_mirror (l : List (FP ρ)) : Each Flip l (mirror l) := by
  rw [Each, mirror, List.forall₂_map_right_iff, List.forall₂_same]
  exact fun _ _ => Eq.refl _

theorem each_flip_odd {l l' : List (FP ρ)} (h : Each Flip l l') : Each (Par .odd) l l' := h.imp fun _ _ => Flip.odd

theorem each_mirror_odd (l : List (FP ρ)) : Each (Par .odd) l (mirror l) := each_flip_odd (each_mirror l)

theorem mirror_of_flip {l l' : List (FP ρ)} (h : Each Flip l l') : l' = mirror l := by
  induction h with
  | nil => rfl
  | cons a _ ih => exact congrArg₂ _ a ih

/-- The range of a bar is the range of its mirror image, exactly. -/
theorem sub_flip {h l h' l' : FP ρ} (a : Flip h l') (b : Flip l h') : h' - l' = h - l := by
  rw [show l' = -h from a, show h' = -l from b, sub_def', neg_neg', SameNumber.add_comm']
  rfl

/-- The difference of opposites, in the other order. -/
theorem Par.sub_swap (h : Par .odd x y') (g : Par .odd y x') : Par .same (x - y) (x' - y') := by
  show SameNumber (x - y) (x' + -y')
  rw [SameNumber.add_comm']
  refine .trans ?_ (SameNumber.add (SameNumber.neg h) g)
  rw [neg_neg']
  exact .refl _

theorem Par.sub_rev (h : Par .odd x x') (g : Par .odd y y') : Par .same (x - y) (y' - x') := Par.sub_swap h g

theorem Par.odd_sub_swap (h : Par .same x y') (g : Par .same y x') : Par .odd (x - y) (x' - y') := by
  show SameNumber (-(x - y)) (x' + -y')
  rw [SameNumber.add_comm']
  refine .trans ?_ (SameNumber.add (SameNumber.neg h) g)
  refine .trans (neg_add_same x (-y)) ?_
  rw [neg_neg']
  exact .refl _

/-- The ratio of two opposite numbers. -/
theorem Par.div_flip (h : Par .odd x x') (g : Flip y y') : Par .same (x / y) (x' / y') := by
  rw [show y' = -y from g]
  refine .trans ?_ (SameNumber.div_left h _)
  refine .trans ?_ (neg_div_same x (-y))
  refine .trans ?_ (SameNumber.neg (div_neg_same x y))
  rw [neg_neg']
  exact .refl _

theorem Par.add_cross (h : Par .odd x y') (g : Par .odd y x') : Par .odd (x + y) (x' + y') := by
  rw [SameNumber.add_comm' x']
  exact h.add g

theorem Flip.fmax (h : Flip x x') (g : Flip y y') : Flip (fmax x y) (fmin x' y') := by
  rw [Flip, show x' = -x from h, show y' = -y from g, neg_fmax]

theorem Flip.fmin (h : Flip x x') (g : Flip y y') : Flip (fmin x y) (Traquer.fmax x' y') := by
  rw [Flip, show x' = -x from h, show y' = -y from g, neg_fmin]

theorem flip_nan : Flip (nan : FP ρ) nan := rfl

open Traquer.Volatility in
theorem Flip.foldMax {l l' : List (FP ρ)} (h : Each Flip l l') : Flip (foldMax l) (foldMin l') :=
  foldl_rel (X := Flip) flip_nan h fun _ _ hs _ _ hx => hs.fmax hx

open Traquer.Volatility in
theorem Flip.foldMin {l l' : List (FP ρ)} (h : Each Flip l l') : Flip (foldMin l) (Volatility.foldMax l') :=
  foldl_rel (X := Flip) flip_nan h fun _ _ hs _ _ hx => hs.fmin hx

open Traquer.Volatility in
theorem Par.foldMax {l l' : List (FP ρ)} (h : Each (Par .odd) l l') : Par .odd (foldMax l) (foldMin l') :=
  foldl_rel (X := Par .odd) .nan h fun _ _ hs _ _ hx => hs.fmax_odd hx

open Traquer.Volatility in
theorem Par.foldMin {l l' : List (FP ρ)} (h : Each (Par .odd) l l') : Par .odd (foldMin l) (Volatility.foldMax l') :=
  foldl_rel (X := Par .odd) .nan h fun _ _ hs _ _ hx => hs.fmin_odd hx

/-- Two components exchanged. -/
def Crossed {α β α' β' : Type} (P : α → β' → Prop) (Q : β → α' → Prop) (x : α × β) (y : α' × β') : Prop := P x.1 y.2 ∧ Q x.2 y.1

theorem Crossed.mk {α β α' β' : Type} {P : α → β' → Prop} {Q : β → α' → Prop} {a : α} {b : β} {a' : α'} {b' : β'} (h : P a b') (g : Q b a') :
    Crossed P Q (a, b) (a', b') := ⟨h, g⟩

theorem each_zip_cross {α β α' β' : Type} {P : α → β' → Prop} {Q : β → α' → Prop} {a : List α} {b : List β} {a' : List α'} {b' : List β'}
    (h : Each P a b') (g : Each Q b a') : Each (Crossed P Q) (a.zip b) (a'.zip b') := by
  induction h generalizing b a' with
  | nil =>
    cases a' <;> simp [Each]
  | cons e _ ih =>
    cases g with
    | nil => exact .nil
    | cons e' g => exact .cons ⟨e, e'⟩ (ih g)

/-- Three components, the first two exchanged. -/
def Crossed3 {α β γ α' β' γ' : Type} (P : α → β' → Prop) (Q : β → α' → Prop) (R : γ → γ' → Prop) (x : α × β × γ) (y : α' × β' × γ') : Prop :=
  P x.1 y.2.1 ∧ Q x.2.1 y.1 ∧ R x.2.2 y.2.2

section zips
variable {α β γ δ ε ζ α' β' γ' δ' ε' ζ' : Type} {P : α → β' → Prop} {Q : β → α' → Prop} {R : γ → γ' → Prop} {S : δ → δ' → Prop}
  {T : ε → ε' → Prop} {U : ζ → ζ' → Prop} {a : List α} {b : List β} {c : List γ} {d : List δ} {e : List ε} {f : List ζ}
  {a' : List α'} {b' : List β'} {c' : List γ'} {d' : List δ'} {e' : List ε'} {f' : List ζ'}

theorem each_zip3_cross (h1 : Each P a b') (h2 : Each Q b a') (h3 : Each R c c') : Each (Crossed3 P Q R) (zip3 a b c) (zip3 a' b' c') := by
  induction h1 generalizing b a' c c' with
  | nil => cases a' <;> exact .nil
  | cons e1 _ ih =>
    cases h2 with
    | nil => exact .nil
    | cons e2 h2 =>
      cases h3 with
      | nil => exact .nil
      | cons e3 h3 => exact .cons ⟨e1, e2, e3⟩ (ih h2 h3)

theorem each_zip4_cross (h1 : Each P a b') (h2 : Each Q b a') (h3 : Each R c c') (h4 : Each S d d') :
    Each (Crossed3 P Q (Both R S)) (zip4 a b c d) (zip4 a' b' c' d') := by
  have e : ∀ {α β γ δ : Type} (a : List α) (b : List β) (c : List γ) (d : List δ), zip4 a b c d = zip3 a b (c.zip d) := by
    intro α β γ δ a b c d
    rw [zip4_eq, zip3_eq]
  rw [e, e]
  exact each_zip3_cross h1 h2 (each_zip h3 h4)

theorem each_zip4_mid (h3 : Each R c c') (h1 : Each P a b') (h2 : Each Q b a') (h4 : Each S d d') :
    Each (Both R (Crossed3 P Q S)) (zip4 c a b d) (zip4 c' a' b' d') := by
  have e : ∀ {α β γ δ : Type} (a : List α) (b : List β) (c : List γ) (d : List δ), zip4 a b c d = a.zip (zip3 b c d) := by
    intro α β γ δ a b c d
    rw [zip4_eq, zip3_eq]
  rw [e, e]
  exact each_zip h3 (each_zip3_cross h1 h2 h4)

theorem each_zip6_mid (h5 : Each T e e') (h6 : Each U f f') (h1 : Each P a b') (h2 : Each Q b a') (h3 : Each R c c') (h4 : Each S d d') :
    Each (Both T (Both U (Crossed3 P Q (Both R S)))) (zip6 e f a b c d) (zip6 e' f' a' b' c' d') := by
  have e : ∀ {α β γ δ ε ζ : Type} (a : List α) (b : List β) (c : List γ) (d : List δ) (e : List ε) (f : List ζ),
      zip6 a b c d e f = a.zip (b.zip (zip3 c d (e.zip f))) := by
    intro α β γ δ ε ζ a b c d e f
    rw [zip6_eq, zip3_eq]
  rw [e, e]
  exact each_zip h5 (each_zip h6 (each_zip3_cross h1 h2 (each_zip h3 h4)))

end zips

/-- previous high, high, previous low, low, previous close: highs and lows exchanged -/
def CrossedDm {α β γ : Type} (P : α → β → Prop) (R : γ → γ → Prop) (x : α × α × α × α × γ) (y : β × β × β × β × γ) : Prop :=
  P x.1 y.2.2.1 ∧ P x.2.1 y.2.2.2.1 ∧ P x.2.2.1 y.1 ∧ P x.2.2.2.1 y.2.1 ∧ R x.2.2.2.2 y.2.2.2.2

theorem each_zip5_cross {α β γ : Type} {P : α → β → Prop} {R : γ → γ → Prop} {a b c d : List α} {e e' : List γ} {a' b' c' d' : List β}
    (h1 : Each P a c') (h2 : Each P b d') (h3 : Each P c a') (h4 : Each P d b') (h5 : Each R e e') :
    Each (CrossedDm P R) (zip5 a b c d e) (zip5 a' b' c' d' e') := by
  induction h1 generalizing b c d e a' b' d' e' with
  | nil => cases a' <;> cases b' <;> exact .nil
  | cons e1 _ ih =>
    cases h2 with
    | nil => cases a' <;> cases b' <;> cases c <;> exact .nil
    | cons e2 h2 =>
      cases h3 with
      | nil => exact .nil
      | cons e3 h3 =>
        cases h4 with
        | nil => exact .nil
        | cons e4 h4 =>
          cases h5 with
          | nil => exact .nil
          | cons e5 h5 => exact .cons ⟨e1, e2, e3, e4, e5⟩ (ih h2 h3 h4 h5)

theorem Alike.bind_cross {α β α' β' γ γ' : Type} {P : α → β' → Prop} {Q : β → α' → Prop} {R : γ → γ' → Prop} {a : Option α} {b : Option β}
    {a' : Option α'} {b' : Option β'} {f : α → β → Option γ} {f' : α' → β' → Option γ'} (h1 : Alike P a b') (h2 : Alike Q b a')
    (hf : ∀ x y', P x y' → ∀ y x', Q y x' → Alike R (f x y) (f' x' y')) :
    Alike R (a.bind fun x => b.bind fun y => f x y) (a'.bind fun x' => b'.bind fun y' => f' x' y') := by
  cases h1 with
  | panic => cases a' <;> exact .panic
  | answer h1 =>
    cases h2 with
    | panic => exact .panic
    | answer h2 => exact hf _ _ h1 _ _ h2

theorem Alike.eq_of_each {l l' : Option (List (FP ρ))} (h : Alike (Each (Par .eq)) l l') : l' = l := by
  cases h with
  | panic => rfl
  | answer h => rw [each_par_eq h]

theorem fmax_right_comm {a b c : FP ρ} (h : b.isNaN = false → c.isNaN = false → b.toE = c.toE → b = c) : fmax (fmax a b) c = fmax (fmax a c) b := by
  have key : ∀ x y : FP ρ, fmax x y = if x.isNaN then y else if y.isNaN then x else if x.toE < y.toE then y else x := by
    intro x y
    rw [fmax]
    show (if x.isNaN then y else if y.isNaN then x else if FP.lt x y then y else x) = _
    cases hx : x.isNaN <;> cases hy : y.isNaN <;> simp [FP.lt, hx, hy]
  cases ha : a.isNaN <;> cases hb : b.isNaN <;> cases hc : c.isNaN
  · by_cases h1 : a.toE < b.toE
    · by_cases h2 : a.toE < c.toE
      · rcases lt_trichotomy b.toE c.toE with h3 | h3 | h3
        · simp [key, ha, hb, hc, h1, h2, h3, h3.not_gt]
        · simp [key, ha, hb, hc, h1, h2, h3, h hb hc h3]
        · simp [key, ha, hb, hc, h1, h2, h3, h3.not_gt]
      · have h3 : ¬ b.toE < c.toE := fun h3 => h2 (h1.trans h3)
        simp [key, ha, hb, hc, h1, h2, h3]
    · by_cases h2 : a.toE < c.toE
      · have h3 : ¬ c.toE < b.toE := fun h3 => h1 (h2.trans h3)
        simp [key, ha, hb, hc, h1, h2, h3]
      · simp [key, ha, hb, hc, h1, h2]
  · by_cases h1 : a.toE < b.toE <;> simp [key, ha, hb, hc, h1]
  · by_cases h1 : a.toE < c.toE <;> simp [key, ha, hb, hc, h1]
  · simp [key, ha, hb, hc]
  · rcases lt_trichotomy b.toE c.toE with h3 | h3 | h3
    · simp [key, ha, hb, hc, h3, h3.not_gt]
    · simp [key, ha, hb, hc, h hb hc h3]
    · simp [key, ha, hb, hc, h3, h3.not_gt]
  · simp [key, ha, hb, hc]
  · simp [key, ha, hb, hc]
  · have e : ∀ x : FP ρ, x.isNaN = true → x = FP.nan := by intro x; cases x <;> simp [FP.isNaN]
    rw [e a ha, e b hb, e c hc]

theorem fabs_ext {x y : FP ρ} (h : (fabs x).toE = (fabs y).toE) (hx : (fabs x).isNaN = false) (hy : (fabs y).isNaN = false) : fabs x = fabs y := by
  have n : ∀ z : FP ρ, z.isNaN = false → z ≠ FP.nan := by rintro z hz rfl; cases hz
  rcases same_of_toE (n _ hx) (n _ hy) h with e | ⟨e1, e2⟩
  · exact e
  · have z : ∀ x : FP ρ, IsZ (fabs x) → fabs x = fin 0 := by
      intro x hx
      rcases hx with e | e
      · exfalso
        change FP.abs x = negz at e
        cases x <;> simp [FP.abs] at e
      · exact e
    rw [z x e1, z y e2]

/-- The true range of a bar and of its mirror image. -/
theorem range3_flip {h l c h' l' c' : FP ρ} (a : Flip h l') (b : Flip l h') (d : Flip c c') :
    fmax (fmax (h' - l') (fabs (h' - c'))) (fabs (l' - c')) = fmax (fmax (h - l) (fabs (h - c))) (fabs (l - c)) := by
  rw [sub_flip a b, show fabs (h' - c') = fabs (l - c) from (b.odd.sub d.odd).fabs.symm, show fabs (l' - c') = fabs (h - c) from (a.odd.sub d.odd).fabs.symm]
  exact fmax_right_comm fun h1 h2 h3 => fabs_ext h3 h1 h2

end Traquer
