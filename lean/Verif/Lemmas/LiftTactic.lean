import Verif.Lemmas.Units
import Verif.Lemmas.Lift
/-!
# The tactic `lifts`
-/

namespace Traquer

/-- Extension point: functions already treated. -/
syntax "lifts_fn" : tactic
macro_rules | `(tactic| lifts_fn) => `(tactic| fail)

/-- Equations between counts. -/
macro "lifts_deg" : tactic => `(tactic| ((try (conv_lhs => norm_num)); first | done | rfl))

set_option hygiene false in
/-- One step. The factor must be called `c`. -/
macro "lifts_step" : tactic => `(tactic| first
  | (show (_ : Prop); assumption)
  | with_reducible apply Lifted.nan (c := c)
  | with_reducible apply lifted_each_nans (c := c)
  | with_reducible exact each_nil
  | (with_reducible apply Lifted.lit (c := c))
  | (with_reducible apply lifted_each_lit (c := c))
  | lifts_fn
  | (with_reducible apply Alike.answer)
  | (with_reducible exact Alike.panic)
  | (with_reducible apply Alike.bind)
  | (with_reducible apply Alike.usub)
  | (with_reducible apply Alike.sliceTo)
  | (with_reducible apply Alike.sliceFrom)
  | (with_reducible apply Alike.windows)
  | (with_reducible apply Alike.getElem?)
  | (with_reducible apply Alike.getLast?)
  | (with_reducible apply Alike.head?)
  | (with_reducible apply Alike.mapP)
  | (with_reducible apply Alike.scanM)
  | (with_reducible apply Alike.foldlM)
  | (with_reducible refine Alike.ite Iff.rfl ?_ ?_)
  | (with_reducible refine Both.forall ?_)
  | (with_reducible refine forall_eq_rel (fun _ => ?_))
  | (with_reducible apply each_append)
  | (with_reducible apply each_cons)
  | (with_reducible apply each_map)
  | (with_reducible apply each_drop)
  | (with_reducible apply each_take)
  | (with_reducible apply each_reverse)
  | (with_reducible apply each_zip)
  | (with_reducible apply each_zip3)
  | (with_reducible apply each_zip4)
  | (with_reducible apply each_zip5)
  | (with_reducible apply each_zip6)
  | (with_reducible apply each_pairs)
  | (with_reducible apply each_windowsOf)
  | (with_reducible apply each_scanS)
  | (with_reducible apply each_scan)
  | (with_reducible apply each_replicate)
  | (with_reducible apply each_range)
  | (with_reducible apply each_range')
  | (with_reducible apply Lifted.fsum (c := c))
  | (with_reducible apply Lifted.add (c := c))
  | (with_reducible apply Lifted.sub (c := c))
  | (with_reducible apply Lifted.two_mul (c := c))
  | (with_reducible apply Lifted.three_mul (c := c))
  | (with_reducible apply Lifted.mul (c := c))
  | (with_reducible apply Lifted.div (c := c))
  | (with_reducible apply Lifted.half (c := c))
  | (with_reducible apply Lifted.third (c := c))
  | (with_reducible apply Lifted.quarter (c := c))
  | (with_reducible apply Lifted.neg (c := c))
  | (with_reducible apply Lifted.fabs (c := c))
  | (with_reducible apply Lifted.signum (c := c))
  | (with_reducible apply Lifted.fmax (c := c))
  | (with_reducible apply Lifted.fmin (c := c))
  | (with_reducible apply Lifted.clampLit (c := c))
  | (with_reducible apply Lifted.powi (c := c))
  | (with_reducible apply Lifted.sqrt (c := c))
  | (with_reducible apply Lifted.ite (c := c))
  | (with_reducible apply Lifted.ite_same (c := c))
  | (with_reducible apply foldl_rel)
  | (with_reducible apply Both.ite)
  | (with_reducible apply Both.ite_same)
  | (with_reducible apply Both.mk)
  | (with_reducible apply foldl_fst)
  | (with_reducible apply foldl_snd)
  | (with_reducible apply Lifted.ln (c := c))
  | (with_reducible apply Lifted.exp (c := c))
  | (with_reducible apply Lifted.atan (c := c))
  | (with_reducible apply Lifted.log10 (c := c))
  | (with_reducible apply Lifted.boolF (c := c))
  | (with_reducible apply Lifted.lt (c := c))
  | (with_reducible apply Lifted.le (c := c))
  | (with_reducible apply Lifted.feq (c := c))
  | (with_reducible exact each_eq)
  | (with_reducible exact Alike.same)
  | lifts_deg
  | exact Or.inl (Or.inl rfl)
  | exact Or.inl (Or.inr rfl)
  | exact Or.inr (by norm_num)
  | (with_reducible refine congrArg₂ and ?_ ?_)
  | (with_reducible refine congrArg₂ or ?_ ?_)
  | (with_reducible refine congrArg not ?_)
  | (with_reducible apply Each.length)
  | (with_reducible apply nat_sub_congr)
  | (intro _ _ _; try dsimp only)
  | dsimp only)

/-- Proves that a function follows a rise of all prices, after unfolding the listed definitions. -/
macro "lifts" "[" ls:Lean.Parser.Tactic.simpLemma,* "]" : tactic =>
  `(tactic| (simp (maxSteps := 2000000) only [Option.bind_eq_bind, $ls,*]; repeat' lifts_step))

open Lean Elab Command in
set_option hygiene false in
/-- Registers the theorem about a function for use inside other functions. -/
elab "lifts_rule" t:ident : command => do
  let nm ← liftCoreM <| realizeGlobalConstNoOverload t
  let id := mkIdent (`_root_ ++ nm)
  elabCommand (← `(command| set_option hygiene false in macro_rules | `(tactic| lifts_fn) => `(tactic| (with_reducible apply $id (c := c)))))

end Traquer
