import Verif.Lemmas.Mirror
/-!
# The rules for parities and the tactic `parity`
-/

namespace Traquer
open FloatLit FP
variable {ρ : Rounding} {x y x' y' c z : FP ρ} {p q r : Parity}

/-- The parity of a product. -/
def Parity.mul : Parity → Parity → Parity
  | .eq, q => q
  | p, .eq => p
  | .same, .same => .same
  | .same, .odd => .odd
  | .odd, .same => .odd
  | .odd, .odd => .same

theorem Parity.mul_eq (p : Parity) : p.mul .eq = p := by cases p <;> rfl

namespace Par

theorem lit : Par .eq x x := rfl

theorem same (h : Par .eq x y) : Par .same x y := .of_eq h

theorem nan : Par p (Traquer.nan : FP ρ) Traquer.nan := by
  cases p
  · exact Eq.refl _
  · exact .refl _
  · exact .refl _

theorem zero : Par p (0 : FP ρ) 0 := by
  cases p
  · exact Eq.refl _
  · exact .refl _
  · refine .zeros ?_ (.inr zero_lit)
    rw [zero_lit]
    exact .inl (by show FP.neg _ = _; simp [FP.neg])

theorem neg (h : Par p x x') : Par p (-x) (-x') := by
  cases p
  · exact congrArg _ h
  · exact SameNumber.neg h
  · exact SameNumber.neg (x := -x) h

theorem add (h : Par p x x') (g : Par p y y') : Par p (x + y) (x' + y') := by
  cases p
  · exact congrArg₂ _ h g
  · exact SameNumber.add h g
  · exact (neg_add_same x y).trans (SameNumber.add h g)

theorem sub (h : Par p x x') (g : Par p y y') : Par p (x - y) (x' - y') := h.add g.neg

theorem neg_mul_right (x y : FP ρ) : SameNumber (-(x * y)) (x * -y) := by
  rw [times_comm x, times_comm x]
  exact neg_mul_same y x

theorem mul (h : Par p x x') (g : Par q y y') (e : p.mul q = r) : Par r (x * y) (x' * y') := by
  subst e
  cases p <;> cases q
  · exact congrArg₂ _ h g
  · exact SameNumber.mul (.of_eq h) g
  · exact (neg_mul_right x y).trans (SameNumber.mul (.of_eq h) g)
  · exact SameNumber.mul h (.of_eq g)
  · exact SameNumber.mul h g
  · exact (neg_mul_right x y).trans (SameNumber.mul h g)
  · exact (neg_mul_same x y).trans (SameNumber.mul h (.of_eq g))
  · exact (neg_mul_same x y).trans (SameNumber.mul h g)
  · refine .trans ?_ (SameNumber.mul h g)
    refine .trans ?_ (neg_mul_right (-x) y)
    refine .trans ?_ (neg_mul_same x y).neg
    rw [neg_neg']
    exact .refl _

theorem div (h : Par p x x') (g : Par .eq y y') : Par p (x / y) (x' / y') := by
  change y = y' at g
  subst g
  cases p
  · exact congrArg (· / y) h
  · exact SameNumber.div_left h y
  · exact (neg_div_same x y).trans (SameNumber.div_left h y)

theorem fabs (h : Par p x x') : Par .eq (fabs x) (Traquer.fabs x') := by
  cases p
  · exact congrArg _ h
  · exact SameNumber.fabs h
  · show Traquer.fabs x = Traquer.fabs x'
    rw [← fabs_neg x]
    exact SameNumber.fabs h

theorem square (h : Par p x x') : Par .eq (x * x) (x' * x') := by
  cases p
  · exact congrArg (fun x => x * x) h
  · exact SameNumber.square h
  · show x * x = x' * x'
    rw [← square_neg x]
    exact SameNumber.square h

theorem powi_even {n : ℕ} (h : Par p x x') (e : n % 2 = 0) (e' : n ≠ 0) : Par .eq (powi x n) (Traquer.powi x' n) := by
  have key : ∀ x : FP ρ, Traquer.powi x n = powiLoop 1 (x * x) (n / 2) := by
    intro x
    rw [Traquer.powi, powiLoop]
    have h2 : ¬ n / 2 = 0 := by omega
    simp [e', e, h2]
  show Traquer.powi x n = Traquer.powi x' n
  rw [key, key, show x * x = x' * x' from h.square]

theorem powi_eq {n : ℕ} (h : Par .eq x x') : Par .eq (powi x n) (Traquer.powi x' n) := congrArg (fun x => Traquer.powi x n) h

theorem powi_three (h : Par p x x') : Par p (powi x 3) (Traquer.powi x' 3) := by
  have key : ∀ x : FP ρ, Traquer.powi x 3 = 1 * x * (x * x) := by
    intro x
    rw [Traquer.powi, powiLoop]
    norm_num
    rw [powiLoop]
    norm_num
  rw [key, key]
  have h2 : Par p (1 * x) (1 * x') := mul lit h (by cases p <;> rfl)
  exact mul h2 h.square (by cases p <;> rfl)

theorem sqrt_eq (h : Par .eq x x') : Par .eq (sqrt x) (Traquer.sqrt x') := congrArg _ h
theorem sqrt_same (h : Par .same x x') : Par .same (sqrt x) (Traquer.sqrt x') := SameNumber.sqrt h
theorem ln (h : Par .eq x x') : Par .eq (ln x) (Traquer.ln x') := congrArg _ h
theorem ln_same (h : Par .same x x') : Par .eq (Traquer.ln x) (Traquer.ln x') := SameNumber.ln h
theorem exp (h : Par .eq x x') : Par .eq (exp x) (Traquer.exp x') := congrArg _ h
theorem log10 (h : Par .eq x x') : Par .eq (log10 x) (Traquer.log10 x') := congrArg _ h
theorem log10_same (h : Par .same x x') : Par .eq (Traquer.log10 x) (Traquer.log10 x') := SameNumber.log10 h
theorem signum (h : Par .eq x x') : Par .eq (signum x) (Traquer.signum x') := congrArg _ h

theorem isNaN (h : Par p x x') : isNaN x = Traquer.isNaN x' := by
  cases p
  · exact congrArg _ h
  · exact SameNumber.isNaN h
  · rw [← neg_isNaN x]; exact SameNumber.isNaN h

theorem fmax_eq (h : Par .eq x x') (g : Par .eq y y') : Par .eq (fmax x y) (Traquer.fmax x' y') := congrArg₂ _ h g
theorem fmin_eq (h : Par .eq x x') (g : Par .eq y y') : Par .eq (fmin x y) (Traquer.fmin x' y') := congrArg₂ _ h g
theorem fmax_same (h : Par .same x x') (g : Par .same y y') : Par .same (fmax x y) (Traquer.fmax x' y') := SameNumber.fmax h g
theorem fmin_same (h : Par .same x x') (g : Par .same y y') : Par .same (fmin x y) (Traquer.fmin x' y') := SameNumber.fmin h g

theorem fmax_odd (h : Par .odd x x') (g : Par .odd y y') : Par .odd (fmax x y) (fmin x' y') := by
  show SameNumber (-Traquer.fmax x y) (fmin x' y')
  rw [neg_fmax]
  exact SameNumber.fmin h g

theorem fmin_odd (h : Par .odd x x') (g : Par .odd y y') : Par .odd (fmin x y) (fmax x' y') := by
  show SameNumber (-Traquer.fmin x y) (Traquer.fmax x' y')
  rw [neg_fmin]
  exact SameNumber.fmax h g

theorem lt_odd (h : Par .odd x x') (g : Par .odd y y') : (x <. y) = (y' <. x') := by
  rw [← neg_lt']
  exact SameNumber.lt g h

theorem le_odd (h : Par .odd x x') (g : Par .odd y y') : (x <=. y) = (y' <=. x') := by
  rw [← neg_le']
  exact SameNumber.le g h

theorem lt_eq (h : Par .eq x x') (g : Par .eq y y') : (x <. y) = (x' <. y') := congrArg₂ _ h g
theorem le_eq (h : Par .eq x x') (g : Par .eq y y') : (x <=. y) = (x' <=. y') := congrArg₂ _ h g
theorem feq_eq (h : Par .eq x x') (g : Par .eq y y') : (x ==. y) = (x' ==. y') := congrArg₂ _ h g

theorem ite {c c' : Bool} (e : c = c') (h : Par p x x') (g : Par p y y') :
    Par p (if c then x else y) (if c' then x' else y') := by
  subst e; split <;> assumption

theorem ite_same {c : Prop} [Decidable c] (h : Par p x x') (g : Par p y y') :
    Par p (if c then x else y) (if c then x' else y') := by
  split <;> assumption

theorem clampLit_eq {z z' : FP ρ} (h : Par .eq x x') (g : Par .eq y y') (f : Par .eq z z') :
    Par .eq (clampLit x y z) (Traquer.clampLit x' y' z') := by
  change x = x' at h; change y = y' at g; change z = z' at f
  subst h g f; exact lit

theorem fsum {l l' : List (FP ρ)} (h : Each (Par p) l l') : Par p (fsum l) (Traquer.fsum l') :=
  foldl_rel (X := Par p) zero h fun _ _ hs _ _ hx => hs.add hx

end Par

theorem each_par_lit {l : List (FP ρ)} : Each (Par .eq) l l := List.forall₂_same.2 fun _ _ => .lit

theorem each_par_eq {l l' : List (FP ρ)} (h : Each (Par .eq) l l') : l = l' := by
  induction h with
  | nil => rfl
  | cons a _ ih => rw [ih, show _ = _ from a]

theorem each_par_nans (m : ℕ) : Each (Par p) (nans m : List (FP ρ)) (nans m) := each_replicate m .nan

/-- Extension point: functions already treated. -/
syntax "parity_fn" : tactic
macro_rules | `(tactic| parity_fn) => `(tactic| fail)

/-- One step. -/
macro "parity_step" : tactic => `(tactic| first
  | (show (_ : Prop); assumption)
  | with_reducible apply Par.nan
  | with_reducible apply Par.zero
  | with_reducible apply each_par_nans
  | with_reducible exact each_nil
  | (with_reducible apply Par.lit)
  | (with_reducible apply each_par_lit)
  | parity_fn
  | (with_reducible apply Alike.answer)
  | (with_reducible exact Alike.panic)
  | (with_reducible apply Alike.bind)
  | (with_reducible apply Alike.usub)
  | (with_reducible apply Alike.sliceTo)
  | (with_reducible apply Alike.sliceFrom)
  | (with_reducible apply Alike.windows)
  | (with_reducible apply Alike.getElem?)
  | (with_reducible apply Alike.getLast?)
  | (with_reducible apply Alike.head?)
  | (with_reducible apply Alike.mapP)
  | (with_reducible apply Alike.scanM)
  | (with_reducible apply Alike.foldlM)
  | (with_reducible refine Alike.ite Iff.rfl ?_ ?_)
  | (with_reducible refine Both.forall ?_)
  | (with_reducible refine forall_eq_rel (fun _ => ?_))
  | (with_reducible apply each_append)
  | (with_reducible apply each_cons)
  | (with_reducible apply each_map)
  | (with_reducible apply each_drop)
  | (with_reducible apply each_take)
  | (with_reducible apply each_reverse)
  | (with_reducible apply each_zip)
  | (with_reducible apply each_zip3)
  | (with_reducible apply each_zip4)
  | (with_reducible apply each_zip5)
  | (with_reducible apply each_zip6)
  | (with_reducible apply each_pairs)
  | (with_reducible apply each_windowsOf)
  | (with_reducible apply each_scanS)
  | (with_reducible apply each_scan)
  | (with_reducible apply each_replicate)
  | (with_reducible apply each_range)
  | (with_reducible apply each_range')
  | (with_reducible apply Par.fsum)
  | (with_reducible apply Par.add)
  | (with_reducible apply Par.sub)
  | (with_reducible apply Par.mul)
  | (with_reducible apply Par.div)
  | (with_reducible apply Par.neg)
  | (with_reducible apply Par.fabs)
  | (with_reducible apply Par.powi_even)
  | (with_reducible apply Par.sqrt_eq)
  | (with_reducible apply Par.ite)
  | (with_reducible apply Par.ite_same)
  | (with_reducible apply foldl_rel)
  | (with_reducible apply Both.ite)
  | (with_reducible apply Both.ite_same)
  | (with_reducible apply Both.mk)
  | (with_reducible apply foldl_fst)
  | (with_reducible apply foldl_snd)
  | (with_reducible apply Par.ln)
  | (with_reducible apply Par.exp)
  | (with_reducible apply Par.log10)
  | (with_reducible exact each_eq)
  | (with_reducible exact Alike.same)
  | rfl
  | exact Parity.mul_eq _
  | decide
  | (with_reducible refine congrArg₂ and ?_ ?_)
  | (with_reducible refine congrArg₂ or ?_ ?_)
  | (with_reducible refine congrArg not ?_)
  | (with_reducible apply Each.length)
  | (with_reducible apply nat_sub_congr)
  | (intro _ _ _; try dsimp only)
  | dsimp only)

/-- Proves how a function acts on mirror images, after unfolding the listed definitions. -/
macro "parity" "[" ls:Lean.Parser.Tactic.simpLemma,* "]" : tactic =>
  `(tactic| (simp (maxSteps := 2000000) only [Option.bind_eq_bind, $ls,*]; repeat' parity_step))

open Lean Elab Command in
set_option hygiene false in
/-- Registers the theorem about a function for use inside other functions. -/
elab "parity_rule" t:ident : command => do
  let nm ← liftCoreM <| realizeGlobalConstNoOverload t
  let id := mkIdent (`_root_ ++ nm)
  elabCommand (← `(command| set_option hygiene false in macro_rules | `(tactic| parity_fn) => `(tactic| (with_reducible apply $id))))

end Traquer
