import Verif.Props.PanicVolatility
import Verif.Props.ShapeVolume
/-!
# C15 (volume): exactly when an indicator panics, and how many values it yields otherwise

The series may have different lengths.
-/

namespace Traquer.Volume
open FloatLit
variable {F : Type} [FloatOps F]

omit [FloatOps F] in
theorem tailBars_answers {high low close volume : List F} {a b c v : Nat} (ha : high.length = a) (hb : low.length = b) (hc : close.length = c)
    (hv : volume.length = v) :
    AnswersIff (1 ≤ min a (min b (min c v))) (min a (min b (min c v)) - 1) (tailBars high low close volume) := by
  answers [tailBars]

theorem wilder_sum_answers {data : List F} {n w : Nat} (hn : data.length = n) :
    AnswersIff (1 ≤ w ∧ w ≤ n + 1) (n + 1 - w) (wilder_sum data w) := by
  answers [wilder_sum]

end Traquer.Volume

namespace Traquer
open Volume
macro_rules | `(tactic| answers_fn) => `(tactic| first
  | (with_reducible apply tailBars_answers <;> len)
  | (with_reducible apply wilder_sum_answers; len))
end Traquer

namespace Traquer.Volume
open FloatLit
variable {F : Type} [FloatOps F]

theorem vforce_answers {high low close volume : List F} {a b c v : Nat} (ha : high.length = a) (hb : low.length = b) (hc : close.length = c)
    (hv : volume.length = v) :
    AnswersIff (1 ≤ min a (min b (min c v))) (min a (min b (min c v)) - 1) (vforce high low close volume) := by
  answers [vforce]

theorem vforce_alt_answers {high low close volume : List F} {a b c v : Nat} (ha : high.length = a) (hb : low.length = b) (hc : close.length = c)
    (hv : volume.length = v) :
    AnswersIff (1 ≤ min a (min b (min c v))) (min a (min b (min c v)) - 1) (vforce_alt high low close volume) := by
  answers [vforce_alt]

end Traquer.Volume

namespace Traquer
open Volume
macro_rules | `(tactic| answers_fn) => `(tactic| first
  | (with_reducible apply vforce_answers <;> len)
  | (with_reducible apply vforce_alt_answers <;> len))
end Traquer

namespace Traquer.Volume
open FloatLit
variable {F : Type} [FloatOps F]

theorem kvo_answers {high low close volume : List F} {a b c v s l : Nat} (alt : Option Bool) (ha : high.length = a) (hb : low.length = b)
    (hc : close.length = c) (hv : volume.length = v) :
    AnswersIff (1 ≤ s ∧ 1 ≤ l ∧ max s l < min a (min b (min c v))) (min a (min b (min c v))) (kvo high low close volume s l alt) := by
  rw [kvo]
  cases alt.getD true
  · simp only [Bool.false_eq_true, if_false]
    answers []
  · simp only [if_true]
    answers []

theorem twiggs_answers {high low close volume : List F} {a b c v w : Nat} (ha : high.length = a) (hb : low.length = b)
    (hc : close.length = c) (hv : volume.length = v) :
    AnswersIff (1 ≤ w ∧ w ≤ min a (min b (min c v))) (min a (min b (min c v))) (twiggs high low close volume w) := by
  answers [twiggs]

theorem ad_answers {high low close volume : List F} {a b c v : Nat} (alt : Option Bool) (ha : high.length = a) (hb : low.length = b)
    (hc : close.length = c) (hv : volume.length = v) :
    AnswersIff (alt = some true → 1 ≤ min a (min b (min c v))) (min a (min b (min c v))) (ad high low close volume alt) := by
  rw [ad]
  by_cases h : alt = some true
  · subst h
    simp only [Option.getD_some, Bool.not_true, Bool.false_eq_true, if_false, true_imp_iff]
    answers []
  · have h' : alt.getD false = false := by rcases alt with - | - | - <;> simp_all
    simp only [h', h, Bool.not_false, if_true, false_imp_iff]
    answers []

theorem elder_force_answers {close volume : List F} {c v w : Nat} (hc : close.length = c) (hv : volume.length = v) :
    AnswersIff (1 ≤ w ∧ w < min c v) (min c v) (elder_force close volume w) := by
  answers [elder_force]

theorem mfi_answers {high low close volume : List F} {a b c v w : Nat} (ha : high.length = a) (hb : low.length = b)
    (hc : close.length = c) (hv : volume.length = v) :
    AnswersIff (1 ≤ w ∧ 1 ≤ min a (min b (min c v))) (max (min a (min b (min c v))) w) (mfi high low close volume w) := by
  answers [mfi]

theorem cmf_answers {high low close volume : List F} {a b c v w : Nat} (ha : high.length = a) (hb : low.length = b)
    (hc : close.length = c) (hv : volume.length = v) :
    AnswersIff (1 ≤ w) (max (min a (min b (min c v))) (w - 1)) (cmf high low close volume w) := by
  answers [cmf]

theorem tvi_answers {close volume : List F} {c v : Nat} (tick : F) (hc : close.length = c) (hv : volume.length = v) :
    AnswersIff (1 ≤ min c v) (min c v) (tvi close volume tick) := by
  answers [tvi]

omit [FloatOps F] in
theorem mapP_fails {α β : Type} {f : α → Option β} {l : List α} {x : α} (hx : x ∈ l) (h : f x = none) : mapP f l = none :=
  mapP_none_iff.2 ⟨x, hx, h⟩

omit [FloatOps F] in
theorem scanM_fails {σ α β : Type} {f : σ → α → Option (σ × β)} {l : List α} {x : α} (hx : x ∈ l) (h : ∀ s, f s x = none) (s : σ) :
    scanM f s l = none := by
  induction l generalizing s with
  | nil => cases hx
  | cons y l ih =>
    rw [scanM]
    rcases List.mem_cons.1 hx with rfl | hx
    · simp [h]
    · split
      · rfl
      · simp [ih hx]

/-- With two or more highs the other series must be at least as long. -/
theorem ease_answers {high low volume : List F} {a b v w : Nat} (ha : high.length = a) (hb : low.length = b) (hv : volume.length = v) :
    AnswersIff (1 ≤ w ∧ (2 ≤ a → a ≤ min b v)) (max a w) (ease high low volume w) := by
  by_cases h : 2 ≤ a → a ≤ min b v
  · simp only [eq_true h, and_true]
    answers [ease]
    intro x hx
    rw [mem_range_drop] at hx
    simp (disch := omega)
  · refine ⟨fun hc => absurd hc.2 h, fun _ => ?_⟩
    have : ∃ i, 1 ≤ i ∧ i < a ∧ (low[i]? = none ∨ volume[i]? = none) := by
      refine ⟨a - 1, by omega, by omega, ?_⟩
      simp only [List.getElem?_eq_none_iff]
      omega
    obtain ⟨i, h1, h2, h3⟩ := this
    simp only [ease, Option.bind_eq_bind]
    rw [mapP_fails (x := i) (mem_range_drop.2 ⟨h1, by omega⟩)]
    · rfl
    · rcases h3 with h3 | h3
      · simp [h3]
      · simp [h3]

/-- The volume series must be as long as the prices, unless there is at most one price. -/
theorem obv_answers {close volume : List F} {c v : Nat} (hc : close.length = c) (hv : volume.length = v) :
    AnswersIff (2 ≤ c → c ≤ v) (max c 1) (obv close volume) := by
  by_cases h : 2 ≤ c → c ≤ v
  · simp only [eq_true h]
    answers [obv]
    intro x hx s
    have := List.mem_range.1 (List.of_mem_zip hx).1
    simp (disch := omega)
  · refine ⟨fun hc => absurd hc h, fun _ => ?_⟩
    simp only [obv, Option.bind_eq_bind]
    rw [scanM_fails (x := (c - 2, (pairs close)[c - 2]'(by simp; omega)))]
    · rfl
    · rw [List.mem_iff_getElem?]
      exact ⟨c - 2, List.getElem?_zip_eq_some.2 ⟨List.getElem?_range (by simp; omega), List.getElem?_eq_getElem _⟩⟩
    · intro s
      simp [List.getElem?_eq_none (show volume.length ≤ c - 2 + 1 by omega)]

/-- An empty reset list panics at the first bar. -/
theorem vwap_answers {high low close volume : List F} {a b c v : Nat} (resets : Option (List Nat)) (ha : high.length = a) (hb : low.length = b)
    (hc : close.length = c) (hv : volume.length = v) :
    AnswersIff (resets = some [] → min a (min b (min c v)) = 0) (min a (min b (min c v))) (vwap high low close volume resets) := by
  have hb : (zip4 high low close volume).length = min a (min b (min c v)) := by rw [zip4_eq]; len
  by_cases h : resets = some [] ∧ min a (min b (min c v)) ≠ 0
  · obtain ⟨rfl, h0⟩ := h
    refine ⟨fun hc => absurd (hc rfl) h0, fun _ => ?_⟩
    rw [vwap]
    generalize zip4 high low close volume = bars at hb
    cases bars with
    | nil => exact absurd hb.symm h0
    | cons y bars => simp [List.range_succ_eq_map, scanM, vwapStep]
  · refine ⟨fun _ => ?_, fun hc => absurd (fun e => by_contra fun e' => h ⟨e, e'⟩) hc⟩
    rw [vwap]
    by_cases hr : resets = some []
    · have h0 : min a (min b (min c v)) = 0 := by_contra fun e' => h ⟨hr, e'⟩
      rw [h0] at hb ⊢
      rw [List.length_eq_zero_iff.1 hb]
      exact ⟨[], rfl, rfl⟩
    · obtain ⟨o, ho⟩ := scanM_isSome_of_inv (f := vwapStep (F := F)) (I := fun s => s.resets ≠ [])
        (l := (List.range (zip4 high low close volume).length).zip (zip4 high low close volume))
        (fun s x _ h => vwapStep_isSome s x h)
        (s := { tpv := 0, vol := 0, resets := resets.getD [close.length] }) (by
          cases resets with
          | none => simp
          | some l => simp_all)
      exact ⟨o, ho, by rw [scanM_length ho]; simp [hb]⟩

theorem vwma_answers {data volume : List F} {n v w : Nat} (hn : data.length = n) (hv : volume.length = v) :
    AnswersIff (1 ≤ w) (max (min n v) (w - 1)) (vwma data volume w) := by
  answers [vwma]

theorem vpt_answers {data volume : List F} {n v : Nat} (hn : data.length = n) (hv : volume.length = v) :
    AnswersIff (1 ≤ v) (max 1 (min n v)) (vpt data volume) := by
  answers [vpt]

end Traquer.Volume
