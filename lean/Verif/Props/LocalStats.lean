import Verif.Lemmas.Local
import Verif.Props.LocalSmooth
import Verif.Props.ShapeStats
import Verif.Props.Quantile
import Verif.Props.RankModes
import Verif.Lemmas.Witness
/-!
# The statistics over a window depend on that window only
-/

namespace Traquer.Distribution
open FP FloatLit
variable {F : Type} [FloatOps F] {W i j c d : Nat}

theorem stdDevRaw_ag {l l' : List F} (h : Ag W i j c d l l') (w : Nat) :
    OR (Ag W i j (c + (w - 1)) (d + (w - 1))) (stdDevRaw l w) (stdDevRaw l' w) := by
  locality [stdDevRaw]
macro_rules | `(tactic| local_fn) => `(tactic| (with_reducible apply stdDevRaw_ag; local_list))

theorem std_dev_ag {l l' : List F} (h : Ag W i j c d l l') (w : Nat) : OR (Ag W i j (c + (w - 1)) d) (std_dev l w) (std_dev l' w) := by
  locality [std_dev]
macro_rules | `(tactic| local_fn) => `(tactic| (with_reducible apply std_dev_ag; local_list))

theorem variance_local {w : Nat} (hw : 1 ≤ w) : DependsOnLast w fun l : List F => variance l w :=
  dependsOnLast_of_or (fun a b i j _ _ h => by locality [variance]) hw

example (p q x y z : F) : SameAtEnd (fun l => variance l 3) [p, x, y, z] [q, q, x, y, z] :=
  (variance_local (by decide)).shown ⟨_, rfl⟩ ⟨_, rfl⟩

theorem std_dev_local {w : Nat} (hw : 1 ≤ w) : DependsOnLast w fun l : List F => std_dev l w :=
  dependsOnLast_of_or (fun a b i j _ _ h => by locality []) hw

example (p q x y z : F) : SameAtEnd (fun l => std_dev l 3) [p, x, y, z] [q, q, x, y, z] :=
  (std_dev_local (by decide)).shown ⟨_, rfl⟩ ⟨_, rfl⟩

theorem zscore_local {w : Nat} (hw : 1 ≤ w) : DependsOnLast w fun l : List F => zscore l w :=
  dependsOnLast_of_or (fun a b i j _ _ h => by locality [zscore]) hw

example (p q x y z : F) : SameAtEnd (fun l => zscore l 3) [p, x, y, z] [q, q, x, y, z] :=
  (zscore_local (by decide)).shown ⟨_, rfl⟩ ⟨_, rfl⟩

theorem mad_local {w : Nat} (hw : 1 ≤ w) : DependsOnLast w fun l : List F => mad l w :=
  dependsOnLast_of_or (fun a b i j _ _ h => by locality [mad]) hw

example (p q x y z : F) : SameAtEnd (fun l => mad l 3) [p, x, y, z] [q, q, x, y, z] :=
  (mad_local (by decide)).shown ⟨_, rfl⟩ ⟨_, rfl⟩

theorem cv_local {w : Nat} (hw : 1 ≤ w) : DependsOnLast w fun l : List F => cv l w :=
  dependsOnLast_of_or (fun a b i j _ _ h => by locality [cv]) hw

example (p q x y z : F) : SameAtEnd (fun l => cv l 3) [p, x, y, z] [q, q, x, y, z] :=
  (cv_local (by decide)).shown ⟨_, rfl⟩ ⟨_, rfl⟩

theorem kurtosis_local {w : Nat} (hw : 1 ≤ w) : DependsOnLast w fun l : List F => kurtosis l w :=
  dependsOnLast_of_or (fun a b i j _ _ h => by locality [kurtosis]) hw

example (p q x y z : F) : SameAtEnd (fun l => kurtosis l 4) [p, x, y, z, z] [q, q, x, y, z, z] :=
  (kurtosis_local (by decide)).shown ⟨_, rfl⟩ ⟨_, rfl⟩

theorem skew_local {w : Nat} (hw : 1 ≤ w) : DependsOnLast w fun l : List F => skew l w :=
  dependsOnLast_of_or (fun a b i j _ _ h => by locality [skew]) hw

example (p q x y z : F) : SameAtEnd (fun l => skew l 3) [p, x, y, z] [q, q, x, y, z] :=
  (skew_local (by decide)).shown ⟨_, rfl⟩ ⟨_, rfl⟩

theorem quantile_local {w : Nat} (hw : 1 ≤ w) (q' : F) : DependsOnLast w fun l : List F => quantile l w q' :=
  dependsOnLast_of_or (fun a b i j _ _ h => by locality [quantile, quantileT]) hw

example (p q x y z r : XF) : SameAtEnd (fun l => quantile l 3 r) [p, x, y, z] [q, q, x, y, z] :=
  (quantile_local (by decide) r).shown (quantile_aligned _ 3 r (by decide) (by norm_num) (by simp)).answers
    (quantile_aligned _ 3 r (by decide) (by norm_num) (by simp)).answers

theorem median_local {w : Nat} (hw : 1 ≤ w) : DependsOnLast w fun l : List F => median l w :=
  dependsOnLast_of_or (fun a b i j _ _ h => by locality [median, quantile, quantileT]) hw

example (p q x y z : XF) : SameAtEnd (fun l => median l 3) [p, x, y, z] [q, q, x, y, z] :=
  (median_local (by decide)).shown (median_aligned _ 3 (by decide) (by norm_num) (by simp)).answers
    (median_aligned _ 3 (by decide) (by norm_num) (by simp)).answers

/-- With a tolerance of the caller's: the default one is computed from the whole series. -/
theorem approx_entropy_local {w : Nat} (hw : 1 ≤ w) (m : Option Nat) (t : F) : DependsOnLast w fun l : List F => approx_entropy l w m (some t) :=
  dependsOnLast_of_or (fun a b i j _ _ h => by locality [approx_entropy, tolOr, Option.bind_some]) hw

example (p q x y z t : F) : SameAtEnd (fun l => approx_entropy l 3 (some 1) (some t)) [p, x, y, z] [q, q, x, y, z] :=
  (approx_entropy_local (by decide) (some 1) t).shown (approx_entropy_aligned _ 3 (some 1) (some t) (by decide) (by decide) (by simp) (by simp)).answers
    (approx_entropy_aligned _ 3 (some 1) (some t) (by decide) (by decide) (by simp) (by simp)).answers

/-- With a tolerance of the caller's: the default one is computed from the whole series. -/
theorem sample_entropy_local {w : Nat} (hw : 1 ≤ w) (m : Option Nat) (t : F) : DependsOnLast w fun l : List F => sample_entropy l w m (some t) :=
  dependsOnLast_of_or (fun a b i j _ _ h => by locality [sample_entropy, tolOr, Option.bind_some]) hw

example (p q x y z t : F) : SameAtEnd (fun l => sample_entropy l 3 (some 1) (some t)) [p, x, y, z] [q, q, x, y, z] :=
  (sample_entropy_local (by decide) (some 1) t).shown (sample_entropy_aligned _ 3 (some 1) (some t) (by decide) (by decide) (by simp) (by simp)).answers
    (sample_entropy_aligned _ 3 (some 1) (some t) (by decide) (by decide) (by simp) (by simp)).answers

end Traquer.Distribution

namespace Traquer.Correlation
open FP FloatLit
open Traquer.Distribution
variable {F : Type} [FloatOps F]

theorem pcc_local {w : Nat} (hw : 1 ≤ w) : DependsOnLast w fun l : List (F × F) => pcc (l.map (·.1)) (l.map (·.2)) w :=
  dependsOnLast_of_or (fun a b i j _ _ h => by locality [pcc]) hw

example (p q x y z : F) : SameAtEnd (fun l => pcc (l.map (·.1)) (l.map (·.2)) 3) [(p, q), (x, y), (y, z), (z, x)]
    [(q, q), (q, p), (x, y), (y, z), (z, x)] := (pcc_local (by decide)).shown ⟨_, rfl⟩ ⟨_, rfl⟩

theorem pcc_ag {W i j c d : Nat} {l l' m m' : List F} (h : Ag W i j c d l l') (g : Ag W i j c d m m') (w : Nat) :
    OR (Ag W i j (c + (w - 1)) d) (pcc l m w) (pcc l' m' w) := by
  locality [pcc]
macro_rules | `(tactic| local_fn) => `(tactic| (with_reducible apply pcc_ag; local_list; local_list))

theorem rsq_local {w : Nat} (hw : 1 ≤ w) : DependsOnLast w fun l : List (F × F) => rsq (l.map (·.1)) (l.map (·.2)) w :=
  dependsOnLast_of_or (fun a b i j _ _ h => by locality [rsq]) hw

example (p q x y z : F) : SameAtEnd (fun l => rsq (l.map (·.1)) (l.map (·.2)) 3) [(p, q), (x, y), (y, z), (z, x)]
    [(q, q), (q, p), (x, y), (y, z), (z, x)] := (rsq_local (by decide)).shown ⟨_, rfl⟩ ⟨_, rfl⟩

/-- Two rounds of windows over returns, which look one bar further back each. -/
theorem beta_local {w : Nat} (hw : 1 ≤ w) : DependsOnLast (2 * w) fun l : List (F × F) => beta (l.map (·.1)) (l.map (·.2)) w :=
  dependsOnLast_of_or (fun a b i j _ _ h => by locality [beta, returns]) (by omega)

example (p q x y z : F) : SameAtEnd (fun l => beta (l.map (·.1)) (l.map (·.2)) 2) [(p, q), (x, y), (y, z), (z, x), (x, y)]
    [(q, q), (q, p), (x, y), (y, z), (z, x), (x, y)] := (beta_local (by decide)).shown ⟨_, rfl⟩ ⟨_, rfl⟩

theorem perf_local {w : Nat} (hw : 1 ≤ w) : DependsOnLast w fun l : List (F × F) => perf (l.map (·.1)) (l.map (·.2)) w :=
  dependsOnLast_of_or (fun a b i j _ _ h => by locality [perf]) hw

example (p q x y z : F) : SameAtEnd (fun l => perf (l.map (·.1)) (l.map (·.2)) 3) [(p, q), (x, y), (y, z), (z, x)]
    [(q, q), (q, p), (x, y), (y, z), (z, x)] := (perf_local (by decide)).shown ⟨_, rfl⟩ ⟨_, rfl⟩

theorem rsc_local : DependsOnLast 1 fun l : List (F × F) => some (rsc (l.map (·.1)) (l.map (·.2))) :=
  dependsOnLast_of_or (fun a b i j _ _ h => by locality [rsc]) (Nat.le_refl 1)

example (p q x y : F) : SameAtEnd (fun l => some (rsc (l.map (·.1)) (l.map (·.2)))) [(p, q), (x, y)] [(x, x), (p, p), (x, y)] :=
  rsc_local.shown ⟨_, rfl⟩ ⟨_, rfl⟩

/-- For any sorting routine that is a function of the values it sorts. -/
theorem srcc_local (srt : Sorter F) {w : Nat} (hw : 1 ≤ w) : DependsOnLast w fun l : List (F × F) => srcc srt (l.map (·.1)) (l.map (·.2)) w :=
  dependsOnLast_of_or (fun a b i j _ _ h => by locality [srcc]) hw

example : SameAtEnd (fun l => srcc (tieSorter true) (l.map (·.1)) (l.map (·.2)) 4)
    [(fin (ρ := Rounding.exact) 7, fin 7), (fin 1, fin 2), (fin 2, fin 1), (fin 3, fin 5), (fin 4, fin 6)]
    [(fin 9, fin 0), (fin 0, fin 9), (fin 1, fin 2), (fin 2, fin 1), (fin 3, fin 5), (fin 4, fin 6)] :=
  (srcc_local (tieSorter true) (by decide)).shown
    (srcc_aligned (tieSorter true) (tieSorter_valid true) _ _ 4 (by simp) (by decide) (by simp) (NoNaN.of_fins (by simp [Fins, FP.Finite])) (NoNaN.of_fins (by simp [Fins, FP.Finite]))).answers
    (srcc_aligned (tieSorter true) (tieSorter_valid true) _ _ 4 (by simp) (by decide) (by simp) (NoNaN.of_fins (by simp [Fins, FP.Finite])) (NoNaN.of_fins (by simp [Fins, FP.Finite]))).answers

theorem krcc_local {w : Nat} (hw : 1 ≤ w) : DependsOnLast w fun l : List (F × F) => krcc (l.map (·.1)) (l.map (·.2)) w :=
  dependsOnLast_of_or (fun a b i j _ _ h => by locality [krcc]) hw

example (p q x y z : F) : SameAtEnd (fun l => krcc (l.map (·.1)) (l.map (·.2)) 3) [(p, q), (x, y), (y, z), (z, x)]
    [(q, q), (q, p), (x, y), (y, z), (z, x)] := (krcc_local (by decide)).shown ⟨_, rfl⟩ ⟨_, rfl⟩

theorem hoeffd_local (srt : Sorter F) {w : Nat} (hw : 1 ≤ w) : DependsOnLast w fun l : List (F × F) => hoeffd srt (l.map (·.1)) (l.map (·.2)) w :=
  dependsOnLast_of_or (fun a b i j _ _ h => by locality [hoeffd]) hw

example : SameAtEnd (fun l => hoeffd (tieSorter true) (l.map (·.1)) (l.map (·.2)) 4)
    [(fin (ρ := Rounding.exact) 7, fin 7), (fin 1, fin 2), (fin 2, fin 1), (fin 3, fin 5), (fin 4, fin 6)]
    [(fin 9, fin 0), (fin 0, fin 9), (fin 1, fin 2), (fin 2, fin 1), (fin 3, fin 5), (fin 4, fin 6)] :=
  (hoeffd_local (tieSorter true) (by decide)).shown
    (hoeffd_aligned (tieSorter true) (tieSorter_valid true) _ _ 4 (by simp) (by decide) (by decide) (by simp) (NoNaN.of_fins (by simp [Fins, FP.Finite])) (NoNaN.of_fins (by simp [Fins, FP.Finite]))).answers
    (hoeffd_aligned (tieSorter true) (tieSorter_valid true) _ _ 4 (by simp) (by decide) (by decide) (by simp) (NoNaN.of_fins (by simp [Fins, FP.Finite])) (NoNaN.of_fins (by simp [Fins, FP.Finite]))).answers

theorem dcor_local {w : Nat} (hw : 1 ≤ w) : DependsOnLast w fun l : List (F × F) => dcor (l.map (·.1)) (l.map (·.2)) w :=
  dependsOnLast_of_or (fun a b i j _ _ h => by locality [dcor]) hw

example (p q x y z : F) : SameAtEnd (fun l => dcor (l.map (·.1)) (l.map (·.2)) 3) [(p, q), (x, y), (y, z), (z, x)]
    [(q, q), (q, p), (x, y), (y, z), (z, x)] := (dcor_local (by decide)).shown ⟨_, rfl⟩ ⟨_, rfl⟩

end Traquer.Correlation
