import Verif.Spec.Cycle
import Verif.Spec.Local
import Verif.Lemmas.Lists
import Verif.Lemmas.Real
import Mathlib.Tactic.IntervalCases
/-!
# Windows of a series that repeats
-/

namespace Traquer
variable {α β γ : Type}

theorem Cycles.recent_eq {p W i : ℕ} {a : List β} (h : Cycles p a) (hi : W ≤ i + 1) (hp : i + p < a.length) : recent a W (i + p) = recent a W i := by
  refine List.ext_getElem? fun k => ?_
  rw [recent, recent, List.getElem?_take, List.getElem?_take]
  split
  · rename_i hk
    rw [List.getElem?_drop, List.getElem?_drop, show i + p + 1 - W + k = (i + 1 - W + k) + p by omega]
    exact h _ (by omega)
  · rfl

theorem DependsOnLast.keepsCycle {W : ℕ} {f : List β → Option (List γ)} (h : DependsOnLast W f) : KeepsCycle W f :=
  fun p a out hc ho i hi hp => h a a (i + p) i out out ho ho (by omega) hi hp (by omega) (hc.recent_eq hi hp)

theorem cycles_two (x y : β) : Cycles 2 [x, y, x, y, x, y, x, y] := fun j hj => by
  simp only [List.length_cons, List.length_nil] at hj
  have : j < 6 := by omega
  interval_cases j <;> rfl

/-- An example of a cycle of two bars, with an answer. -/
theorem KeepsCycle.shown {W : ℕ} {f : List β → Option (List γ)} (h : KeepsCycle W f) {x y : β} (hf : ∃ out, f [x, y, x, y, x, y, x, y] = some out)
    (hW : W ≤ 6) : ∃ out, f [x, y, x, y, x, y, x, y] = some out ∧ out[7]? = out[5]? := by
  obtain ⟨out, ho⟩ := hf
  exact ⟨out, ho, h 2 _ out (cycles_two x y) ho 5 hW (by simp)⟩

/-- When the series repeats every `w` bars, sliding a window of `w` bars keeps the same values in it. -/
theorem Cycles.perm {w i : ℕ} {l : List α} (h : Cycles w l) (hw : 1 ≤ w) (h1 : w ≤ i + 1) (h2 : i + 1 < l.length) :
    (recent l w i).Perm (recent l w (i + 1)) := by
  obtain ⟨k, rfl⟩ : ∃ k, w = k + 1 := ⟨w - 1, by omega⟩
  have hj : i + 1 - (k + 1) < l.length := by omega
  have e := h (i + 1 - (k + 1)) (by omega)
  rw [show i + 1 - (k + 1) + (k + 1) = i + 1 by omega, List.getElem?_eq_getElem h2, List.getElem?_eq_getElem hj] at e
  have e := Option.some.inj e
  rw [recent, recent, List.drop_eq_getElem_cons hj, List.take_succ_cons, show i + 1 - (k + 1) + 1 = i + 1 + 1 - (k + 1) by omega]
  have hd : i + 1 + 1 - (k + 1) + k = i + 1 := by omega
  have hl : k < (l.drop (i + 1 + 1 - (k + 1))).length := by rw [List.length_drop]; omega
  rw [List.take_add_one, List.getElem?_eq_getElem hl, List.getElem_drop, ← e]
  simp only [hd, Option.toList_some]
  exact List.perm_append_comm (l₁ := [l[i + 1]])

end Traquer
