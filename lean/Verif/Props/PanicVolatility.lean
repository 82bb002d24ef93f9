import Verif.Props.PanicSmooth
import Verif.Model.Volatility
/-!
# C15 (volatility): exactly when an indicator panics, and how many values it yields otherwise

The series may have different lengths.
-/

namespace Traquer.Distribution
open FloatLit
variable {F : Type} [FloatOps F]

theorem std_dev_answers {data : List F} {n w : Nat} (hn : data.length = n) : AnswersIff (1 ≤ w) (max n (w - 1)) (std_dev data w) := by
  answers [std_dev]

end Traquer.Distribution

namespace Traquer.Volatility
open FloatLit
variable {F : Type} [FloatOps F]

theorem trueRange_answers {high low close : List F} {a b c : Nat} (ha : high.length = a) (hb : low.length = b) (hc : close.length = c) :
    AnswersIff (1 ≤ min a (min b c)) (min a (min b c) - 1) (trueRange high low close) := by
  answers [trueRange]

end Traquer.Volatility

namespace Traquer
open Volatility
macro_rules | `(tactic| answers_fn) => `(tactic| first
  | (with_reducible apply Distribution.std_dev_answers; len)
  | (with_reducible apply trueRange_answers <;> len))
end Traquer

namespace Traquer.Volatility
open FloatLit
variable {F : Type} [FloatOps F]

theorem atr_answers {high low close : List F} {a b c w : Nat} (ha : high.length = a) (hb : low.length = b) (hc : close.length = c) :
    AnswersIff (1 ≤ w ∧ w ≤ min a (min b c)) (min a (min b c)) (atr high low close w) := by
  answers [atr]

end Traquer.Volatility

namespace Traquer
open Volatility
macro_rules | `(tactic| answers_fn) => `(tactic| first
  | (with_reducible apply atr_answers <;> len))
end Traquer

namespace Traquer.Volatility
open FloatLit
variable {F : Type} [FloatOps F]

theorem mass_answers {high low : List F} {a b s l : Nat} (ha : high.length = a) (hb : low.length = b) :
    AnswersIff (1 ≤ s ∧ 1 ≤ l ∧ 2 * s - 1 ≤ min a b) (max (min a b) (s - 1 + (l - 1))) (mass high low s l) := by
  answers [mass]

theorem tr_answers {high low close : List F} {a b c : Nat} (ha : high.length = a) (hb : low.length = b) (hc : close.length = c) :
    AnswersIff (1 ≤ min a (min b c)) (min a (min b c)) (tr high low close) := by
  answers [tr]

theorem keltner_answers {high low close : List F} {a b c w : Nat} (ha : high.length = a) (hb : low.length = b) (hc : close.length = c) :
    AnswersIff (1 ≤ w ∧ w ≤ min a (min b c)) (min a (min b c)) (keltner high low close w) := by
  answers [keltner]

theorem gri_answers {high low : List F} {a b w : Nat} (ha : high.length = a) (hb : low.length = b) :
    AnswersIff (1 ≤ w) (max (min a b) (w - 1)) (gri high low w) := by
  answers [gri]

theorem typical_answers {high low close : List F} {a b c w : Nat} (ha : high.length = a) (hb : low.length = b) (hc : close.length = c) :
    AnswersIff (1 ≤ w) (max (min a (min b c)) (w - 1)) (typical high low close w) := by
  answers [typical]

theorem std_dev_answers {data : List F} {n w : Nat} (d : Option F) (hn : data.length = n) : AnswersIff (1 ≤ w) (max n (w - 1)) (std_dev data w d) := by
  answers [std_dev]

/-- The domain of `bbands` is that of the chosen average, with `1 ≤ window`. -/
theorem bbands_answers {data : List F} {n w m : Nat} {c : Prop} (d : Option F) (mode : Option Smooth.MaMode) (hn : data.length = n)
    (h : AnswersIff c m (Smooth.ma data w (mode.getD .EWMA))) : AnswersIff (c ∧ 1 ≤ w) (min m (max n (w - 1))) (bbands data w d mode) := by
  exact Ans.bind h fun t ht => (Ans.bind (std_dev_answers d hn) fun s hs => Ans.some (by len)).congr (by simp) fun _ => rfl

theorem donchian_answers {high low : List F} {a b w : Nat} (ha : high.length = a) (hb : low.length = b) :
    AnswersIff (1 ≤ w) (max (min a b) (w - 1)) (donchian high low w) := by
  answers [donchian]

omit [FloatOps F] in
theorem argBest_total (better : F → F → Bool) {l : List F} (h : 1 ≤ l.length) : ∃ i, argBest better l = some i := by
  simp [argBest, List.getElem?_eq_getElem (show 0 < l.length by omega)]

theorem fbands_answers {high low : List F} {a b : Nat} (ha : high.length = a) (hb : low.length = b) :
    AnswersIff True (max (min a b) 4) (fbands high low) := by
  answers [fbands]
  intro x hx s
  have h1 := windowsOf_mem_length (List.of_mem_zip hx).1
  have h2 := windowsOf_mem_length (List.of_mem_zip hx).2
  obtain ⟨i, hi⟩ := argBest_total (fun x y => x >. y) (l := x.1) (by omega)
  obtain ⟨j, hj⟩ := argBest_total (fun x y => x <. y) (l := x.2) (by omega)
  simp [hi, hj, List.getElem?_eq_getElem (show 2 < x.1.length by omega), List.getElem?_eq_getElem (show 2 < x.2.length by omega)]

theorem hv_answers {data : List F} {n w : Nat} (d : Option F) (hn : data.length = n) : AnswersIff (1 ≤ w) (max n w) (hv data w d) := by
  answers [hv]

theorem starc_answers {high low close : List F} {a b c w v : Nat} (k : Option F) (ha : high.length = a) (hb : low.length = b) (hc : close.length = c) :
    AnswersIff (1 ≤ w ∧ w ≤ min a (min b c) ∧ 1 ≤ v) (min a (min b c)) (starc high low close w v k) := by
  answers [starc]

theorem cvi_answers {high low : List F} {a b w r : Nat} (ha : high.length = a) (hb : low.length = b) :
    AnswersIff (1 ≤ w ∧ w ≤ min a b) (max (min a b) r) (cvi high low w r) := by
  answers [cvi]
  rename_i h
  intro x hx
  obtain ⟨h1, h2⟩ := h x hx
  cases x with
  | nil => simp at h2
  | cons y x => simp [List.getLast?_cons]

theorem relative_vol_answers {data : List F} {n w s : Nat} (hn : data.length = n) :
    AnswersIff (2 ≤ w ∧ 1 ≤ s ∧ w + s ≤ n + 2) n (relative_vol data w s) := by
  answers [relative_vol]

end Traquer.Volatility

namespace Traquer
open Volatility
macro_rules | `(tactic| answers_fn) => `(tactic| first
  | (with_reducible apply relative_vol_answers <;> len))
end Traquer

namespace Traquer.Volatility
open FloatLit
variable {F : Type} [FloatOps F]

theorem inertia_answers {data : List F} {n w s : Nat} (hn : data.length = n) :
    AnswersIff (2 ≤ w ∧ 2 * w ≤ n + 2 ∧ 1 ≤ s) (max n (s - 1)) (inertia data w s) := by
  answers [inertia]

theorem chop_answers {high low close : List F} {a b c w : Nat} (ha : high.length = a) (hb : low.length = b) (hc : close.length = c) :
    AnswersIff (1 ≤ w ∧ 1 ≤ min a (min b c)) (max (min a (min b c)) w) (chop high low close w) := by
  answers [chop]

theorem vhf_answers {high low close : List F} {a b c w : Nat} (ha : high.length = a) (hb : low.length = b) (hc : close.length = c) :
    AnswersIff (1 ≤ w) (max (min a (min b c)) w) (vhf high low close w) := by
  answers [vhf]

theorem heikin_ashi_answers {openp high low close : List F} {o a b c : Nat} (ho : openp.length = o) (ha : high.length = a) (hb : low.length = b)
    (hc : close.length = c) : AnswersIff (1 ≤ min o (min a (min b c))) (min o (min a (min b c))) (heikin_ashi openp high low close) := by
  answers [heikin_ashi]

theorem cc_hv_answers {data : List F} {n w : Nat} (hn : data.length = n) : AnswersIff (1 ≤ w) (max n w) (cc_hv data w) := by
  answers [cc_hv]

theorem gkyz_hv_answers {openp high low close : List F} {o a b c w : Nat} (ho : openp.length = o) (ha : high.length = a) (hb : low.length = b)
    (hc : close.length = c) :
    AnswersIff (1 ≤ w ∧ 1 ≤ min o (min a (min b c))) (max (min o (min a (min b c))) w) (gkyz_hv openp high low close w) := by
  answers [gkyz_hv]

end Traquer.Volatility
