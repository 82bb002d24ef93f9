import Verif.Lemmas.Panics
import Verif.Props.ShapeSmooth
import Verif.Props.SmoothWeights
import Verif.Props.SmoothConst
/-!
# C15 (smooth): exactly when a smoothing panics, and how many values it yields otherwise
-/

namespace Traquer.Smooth
open FloatLit
variable {F : Type} [FloatOps F]

theorem ewma_answers {data : List F} {n w : Nat} (hn : data.length = n) : AnswersIff (1 ≤ w ∧ w ≤ n) n (ewma data w) := by
  answers [ewma]

theorem sma_answers {data : List F} {n w : Nat} (hn : data.length = n) : AnswersIff (1 ≤ w) (max n (w - 1)) (sma data w) := by
  answers [sma]

end Traquer.Smooth

namespace Traquer
open Smooth
macro_rules | `(tactic| answers_fn) => `(tactic| first
  | (with_reducible apply ewma_answers; len)
  | (with_reducible apply sma_answers; len))
end Traquer

namespace Traquer.Smooth
open FloatLit
variable {F : Type} [FloatOps F]

theorem dema_answers {data : List F} {n w : Nat} (hn : data.length = n) : AnswersIff (1 ≤ w ∧ 2 * w - 1 ≤ n) n (dema data w) := by
  answers [dema]

theorem tema_answers {data : List F} {n w : Nat} (hn : data.length = n) : AnswersIff (1 ≤ w ∧ 3 * w - 2 ≤ n) n (tema data w) := by
  answers [tema]

theorem wma_answers {data : List F} {n w : Nat} (hn : data.length = n) : AnswersIff (1 ≤ w) (max n (w - 1)) (wma data w) := by
  answers [wma]

/-- `window` must be 1 to 63: see `pwma_panics_iff`. -/
theorem pwma_answers {data : List F} {n w : Nat} (hn : data.length = n) : AnswersIff (1 ≤ w ∧ w ≤ 63) (max n (w - 1)) (pwma data w) := by
  refine ⟨fun h => ?_, fun h => (pwma_panics_iff data w).2 (by omega)⟩
  have hr := pascalRow_eq h.1 (by omega)
  exact ⟨_, by run_model [pwma, hr]; rfl, by simp [hn]; omega⟩

theorem wilder_answers {data : List F} {n w : Nat} (hn : data.length = n) : AnswersIff (1 ≤ w ∧ w ≤ n + 1) n (wilder data w) := by
  rw [wilder]
  split
  · exact (Ans.some hn).congr (by simp only [true_iff]; omega) fun _ => rfl
  · answers []

theorem lrf_answers {data : List F} {n w : Nat} (hn : data.length = n) : AnswersIff (1 ≤ w) (max n (w - 1)) (lrf data w) := by
  answers [lrf]

theorem fwma_answers {data : List F} {n w : Nat} (hn : data.length = n) : AnswersIff (2 ≤ w) (max n (w - 1)) (fwma data w) := by
  answers [fwma]

end Traquer.Smooth

namespace Traquer
open Smooth
macro_rules | `(tactic| answers_fn) => `(tactic| first
  | (with_reducible apply ewma_answers; len)
  | (with_reducible apply sma_answers; len)
  | (with_reducible apply wma_answers; len)
  | (with_reducible apply lrf_answers; len)
  | (with_reducible apply wilder_answers; len))
end Traquer

namespace Traquer.Smooth
open FloatLit
open Traquer.Distribution (stdDevRaw)
variable {F : Type} [FloatOps F]

theorem hull_answers {data : List F} {n w s : Nat} (hn : data.length = n) (hs : toUsize (floor (sqrt (flt w : F))) = s) :
    AnswersIff (1 ≤ w ∧ 1 ≤ s) (max (max n (divCeil w 2 - 1)) (s - 1)) (hull data w) := by
  answers [hull, hs]

/-- In exact arithmetic the inner window is the integer square root, so only window 0 panics. -/
theorem hull_answers_exact {data : List XF} {n w : Nat} (hn : data.length = n) (h64 : w < 2 ^ 64) :
    AnswersIff (1 ≤ w) (max (max n (divCeil w 2 - 1)) (Nat.sqrt w - 1)) (hull data w) := by
  refine (hull_answers hn (hull_window w h64)).congr ⟨fun h => h.1, fun h => ⟨h, ?_⟩⟩ fun _ => rfl
  exact Nat.sqrt_pos.2 h

theorem stdDevRaw_answers {data : List F} {n w : Nat} (hn : data.length = n) : AnswersIff (1 ≤ w) (n + 1 - w) (stdDevRaw data w) := by
  answers [stdDevRaw]

theorem cmoRaw_answers {data : List F} {n w : Nat} (hn : data.length = n) : AnswersIff True (max n 1 - w) (cmoRaw data w) := by
  answers [cmoRaw, gainLoss]
  rename_i h
  intro x hx
  obtain ⟨h1, h2⟩ := h x hx
  simp [List.getElem?_eq_getElem (show 0 < x.length by omega), List.getElem?_eq_getElem (show x.length - 1 < x.length by omega)]

end Traquer.Smooth

namespace Traquer
open Smooth
macro_rules | `(tactic| answers_fn) => `(tactic| first
  | (with_reducible apply stdDevRaw_answers; len)
  | (with_reducible apply cmoRaw_answers; len))
end Traquer

namespace Traquer.Smooth
open FloatLit
open Traquer.Distribution (stdDevRaw)
variable {F : Type} [FloatOps F]

theorem vidya_answers {data : List F} {n w : Nat} (hn : data.length = n) : AnswersIff True (max n 23) (vidya data w) := by
  answers [vidya]

theorem vma_answers {data : List F} {n w : Nat} (hn : data.length = n) : AnswersIff True (max n (max w 9)) (vma data w) := by
  answers [vma]

theorem trima_answers {data : List F} {n w : Nat} (hn : data.length = n) : AnswersIff (1 ≤ w) (max n (w / 2)) (trima data w) := by
  answers [trima]

theorem zlma_answers {data : List F} {n w : Nat} (hn : data.length = n) : AnswersIff (1 ≤ w ∧ w + (w - 1) / 2 ≤ n) n (zlma data w) := by
  answers [zlma]

theorem kama_answers {data : List F} {n w : Nat} (short long : Option Nat) (hn : data.length = n) :
    AnswersIff (1 ≤ w) (max n (w - 1)) (kama data w short long) := by
  answers [kama]
  rename_i h
  intro x hx s
  obtain ⟨h1, h2⟩ := h x hx
  simp [effRatio, List.getElem?_eq_getElem (show 0 < x.length by omega), List.getElem?_eq_getElem (show x.length - 1 < x.length by omega)]

theorem alma_answers {data : List F} {n w : Nat} (sigma : F) (mu : Option F) (hn : data.length = n) : AnswersIff (1 ≤ w) (max n w) (alma data w sigma mu) := by
  answers [alma]
  intro i hi
  rw [mem_range_drop] at hi
  obtain ⟨v, hv⟩ := mapP_isSome (f := fun idx => (usub i idx).bind fun p => data[p]?)
    (l := List.range (almaWeights w sigma (mu.getD 0.85 * flt (w - 1))).length) (by
      intro idx hidx
      simp [almaWeights] at hidx
      simp (disch := omega) [usub_of_le])
  simp [hv]

theorem mdma_answers {data : List F} {n w : Nat} (hn : data.length = n) : AnswersIff (1 ≤ n) n (mdma data w) := by
  answers [mdma]

theorem hwma_answers {data : List F} {n : Nat} (alpha beta gamma : Option F) (hn : data.length = n) :
    AnswersIff (1 ≤ n) n (hwma data alpha beta gamma) := by
  answers [hwma]

theorem ssf_answers {data : List F} {n w : Nat} (poles : Option Bool) (hn : data.length = n) :
    AnswersIff ((if poles = some true then 3 else 2) ≤ n) n (ssf data w poles) := by
  rw [ssf]
  by_cases h : poles = some true
  · subst h
    simp only [Option.getD_some, if_true]
    answers []
  · have h' : poles.getD false = false := by cases poles <;> simp_all
    simp only [h', h, if_false, Bool.false_eq_true]
    answers []

/-- An odd window is refused with the documented error, an even one is answered unless it is 0, which panics. -/
theorem frama_answers {data : List F} {n w : Nat} (hn : data.length = n) :
    (w % 2 = 1 → frama data w = some (.error "Window must be an even number")) ∧
      (w % 2 = 0 → 1 ≤ w → ∃ o, frama data w = some (.ok o) ∧ o.length = max n (w - 1)) ∧ frama data 0 = none := by
  refine ⟨fun h => by rw [frama, if_pos (by omega)], fun h h1 => ?_, rfl⟩
  have := Ans.scanM (l := windowsOf w data) (m := n + 1 - w) (s := (0 : F)) (f := fun (state : F) x => (do
      let alpha := framaAlpha w (w / 2) x
      let last ← x.getLast?
      let state := alpha * last + (1 - alpha) * state
      some (state, state) : Option (F × F))) (by simp [hn]) (by
    intro x hx s
    have := windowsOf_mem_length hx
    have : x ≠ [] := by rintro rfl; simp at this; omega
    simp [List.getLast?_eq_some_getLast this])
  obtain ⟨o, ho, hl⟩ := this.1 trivial
  refine ⟨nans (w - 1) ++ o, ?_, by simp [hl]; omega⟩
  rw [frama, if_neg (by omega), usub_of_le h1, windows, if_neg (by omega)]
  simp only [Option.bind_eq_bind, Option.bind_some] at ho ⊢
  rw [ho]
  rfl

theorem t3_answers {data : List F} {n w : Nat} (factor : Option F) (hn : data.length = n) : AnswersIff (1 ≤ w ∧ 6 * w - 5 ≤ n) n (t3 data w factor) := by
  answers [t3]

end Traquer.Smooth
