import Verif.Lemmas.Scale
/-!
# The tactic `units`
-/

namespace Traquer

theorem nat_sub_congr {a a' b b' : ℕ} (h : a = a') (g : b = b') : a - b = a' - b' := h ▸ g ▸ rfl

section
variable {α α' β γ δ ε : Type} {P : α → α' → Prop} {X : β → γ → Prop} {Y : δ → ε → Prop}
  {f : β × δ → α → β × δ} {g : γ × ε → α' → γ × ε} {s : β × δ} {t : γ × ε} {l : List α} {l' : List α'}

theorem foldl_fst (h : Both X Y (l.foldl f s) (l'.foldl g t)) : X (l.foldl f s).1 (l'.foldl g t).1 := h.1
theorem foldl_snd (h : Both X Y (l.foldl f s) (l'.foldl g t)) : Y (l.foldl f s).2 (l'.foldl g t).2 := h.2

end

/-- Extension point: functions already treated. -/
syntax "units_fn" : tactic
macro_rules | `(tactic| units_fn) => `(tactic| fail)

/-- Degree equations. -/
macro "units_deg" : tactic => `(tactic| ((try (conv_lhs => norm_num)); first | done | rfl))

set_option hygiene false in
/-- One step. The factor must be called `k`. -/
macro "units_step" : tactic => `(tactic| first
  | (show (_ : Prop); assumption)
  | with_reducible apply Scaled.nan (k := k)
  | with_reducible apply Scaled.zero (k := k)
  | with_reducible apply each_nans (k := k)
  | with_reducible exact each_nil
  | (with_reducible apply Scaled.lit (k := k))
  | (with_reducible apply each_lit (k := k))
  | units_fn
  | (with_reducible apply Alike.answer)
  | (with_reducible exact Alike.panic)
  | (with_reducible apply Alike.bind)
  | (with_reducible apply Alike.usub)
  | (with_reducible apply Alike.sliceTo)
  | (with_reducible apply Alike.sliceFrom)
  | (with_reducible apply Alike.windows)
  | (with_reducible apply Alike.getElem?)
  | (with_reducible apply Alike.getLast?)
  | (with_reducible apply Alike.head?)
  | (with_reducible apply Alike.mapP)
  | (with_reducible apply Alike.scanM)
  | (with_reducible apply Alike.foldlM)
  | (with_reducible refine Alike.ite Iff.rfl ?_ ?_)
  | (with_reducible refine Both.forall ?_)
  | (with_reducible refine forall_eq_rel (fun _ => ?_))
  | (with_reducible apply each_append)
  | (with_reducible apply each_cons)
  | (with_reducible apply each_map)
  | (with_reducible apply each_drop)
  | (with_reducible apply each_take)
  | (with_reducible apply each_reverse)
  | (with_reducible apply each_zip)
  | (with_reducible apply each_zip3)
  | (with_reducible apply each_zip4)
  | (with_reducible apply each_zip5)
  | (with_reducible apply each_zip6)
  | (with_reducible apply each_pairs)
  | (with_reducible apply each_windowsOf)
  | (with_reducible apply each_scanS)
  | (with_reducible apply each_scan)
  | (with_reducible apply each_replicate)
  | (with_reducible apply each_range)
  | (with_reducible apply each_range')
  | (with_reducible apply Scaled.fsum (k := k))
  | (with_reducible apply Scaled.add (k := k))
  | (with_reducible apply Scaled.sub (k := k))
  | (with_reducible apply Scaled.mul (k := k))
  | (with_reducible apply Scaled.div (k := k))
  | (with_reducible apply Scaled.neg (k := k))
  | (with_reducible apply Scaled.fabs (k := k))
  | (with_reducible apply Scaled.signum (k := k))
  | (with_reducible apply Scaled.fmax (k := k))
  | (with_reducible apply Scaled.fmin (k := k))
  | (with_reducible apply Scaled.clampLit (k := k))
  | (with_reducible apply Scaled.powi (k := k))
  | (with_reducible apply Scaled.sqrt (k := k))
  | (with_reducible apply Scaled.ite (k := k))
  | (with_reducible apply Scaled.ite_same (k := k))
  | (with_reducible apply foldl_rel)
  | (with_reducible apply Both.ite)
  | (with_reducible apply Both.ite_same)
  | (with_reducible apply Both.mk)
  | (with_reducible apply foldl_fst)
  | (with_reducible apply foldl_snd)
  | (with_reducible apply Scaled.ln (k := k))
  | (with_reducible apply Scaled.exp (k := k))
  | (with_reducible apply Scaled.atan (k := k))
  | (with_reducible apply Scaled.log10 (k := k))
  | (with_reducible apply Scaled.boolF (k := k))
  | (with_reducible apply Scaled.lt (k := k))
  | (with_reducible apply Scaled.le (k := k))
  | (with_reducible apply Scaled.feq (k := k))
  | (with_reducible exact each_eq)
  | (with_reducible exact Alike.same)
  | units_deg
  | (with_reducible refine congrArg₂ and ?_ ?_)
  | (with_reducible refine congrArg₂ or ?_ ?_)
  | (with_reducible refine congrArg not ?_)
  | (with_reducible apply Each.length)
  | (with_reducible apply nat_sub_congr)
  | (intro _ _ _; try dsimp only)
  | dsimp only)

/-- Proves that a function commutes with a change of units, after unfolding the listed definitions. -/
macro "units" "[" ls:Lean.Parser.Tactic.simpLemma,* "]" : tactic =>
  `(tactic| (simp (maxSteps := 2000000) only [Option.bind_eq_bind, $ls,*]; repeat' units_step))

open Lean Elab Command in
set_option hygiene false in
/-- Registers the theorem about a function for use inside other functions. -/
elab "units_rule" t:ident : command => do
  let nm ← liftCoreM <| realizeGlobalConstNoOverload t
  let id := mkIdent (`_root_ ++ nm)
  elabCommand (← `(command| set_option hygiene false in macro_rules | `(tactic| units_fn) => `(tactic| (with_reducible apply $id (k := k)))))

end Traquer
