import Verif.Props.PanicTrend
import Verif.Props.ShapeMomentum
/-!
# C15 (momentum, trend): `rainbow`, `prings` and `zigzag`
-/

namespace Traquer
open FloatLit

theorem Ans.foldlM {α β : Type} {f : List β → α → Option (List β)} {Q : α → Prop} {m : Nat} {l : List α} {s : List β} (hs : s.length = m)
    (h : ∀ x ∈ l, ∀ s : List β, s.length = m → AnswersIff (Q x) m (f s x)) : AnswersIff (∀ x ∈ l, Q x) m (l.foldlM f s) := by
  induction l generalizing s with
  | nil => exact ⟨fun _ => ⟨s, rfl, hs⟩, fun h => absurd (by simp) h⟩
  | cons x l ih =>
    rw [List.foldlM_cons]
    refine (Ans.bind (h x (by simp) s hs) fun t ht => ih ht fun y hy => h y (by simp [hy])).congr (by simp) fun _ => rfl

namespace Momentum
variable {F : Type} [FloatOps F]

theorem smaChain_some (w k : Nat) (data : List F) (hw : 1 ≤ w) : ∃ ms, smaChain w k data = some ms ∧ ∀ m ∈ ms, data.length ≤ m.length := by
  induction k generalizing data with
  | zero => exact ⟨[], rfl, by simp⟩
  | succ k ih =>
    obtain ⟨m, em, lm⟩ := (Smooth.sma_answers (w := w) (data := data) rfl).1 hw
    obtain ⟨ms, e, h⟩ := ih m
    refine ⟨m :: ms, by run_model [smaChain, em, e], ?_⟩
    intro x hx
    rcases List.mem_cons.1 hx with rfl | hx
    · omega
    · have := h x hx
      omega

/-- The lookback must lie within the warm-up, as soon as there is a bar past it. -/
theorem rainbow_answers {data : List F} {n w b : Nat} (hn : data.length = n) :
    AnswersIff (1 ≤ w ∧ ((w - 1) * 10 < n → 1 ≤ b ∧ b ≤ (w - 1) * 10 + 1)) (max n ((w - 1) * 10)) (rainbow data w b) := by
  rcases Nat.eq_zero_or_pos w with rfl | hw
  · exact ⟨fun h => by omega, fun _ => rfl⟩
  obtain ⟨ms, e, h⟩ := smaChain_some w 10 data hw
  simp only [rainbow, e, Option.bind_eq_bind, Option.bind_some, usub_of_le hw]
  have hv : ∀ i, i < n → ∃ v, mapP (fun (sma : List F) => sma[i]?) ms = some v := fun i hi => mapP_isSome (by
    intro m hm
    have := h m hm
    simp
    omega)
  by_cases hb : (w - 1) * 10 < n → 1 ≤ b ∧ b ≤ (w - 1) * 10 + 1
  · simp only [eq_true hb, and_true]
    answers []
    intro i hi
    rw [mem_range_drop] at hi
    obtain ⟨v, hv⟩ := hv i (by omega)
    simp (disch := omega) only [hv, getElem?_of_lt, sliceTo_of_le, usub_of_le, Option.bind_some, Option.some.injEq, exists_eq']
  · refine ⟨fun hc => absurd hc.2 hb, fun _ => ?_⟩
    rw [Volume.mapP_fails (x := (w - 1) * 10) (mem_range_drop.2 ⟨by omega, by omega⟩)]
    · rfl
    · obtain ⟨v, hv⟩ := hv ((w - 1) * 10) (by omega)
      simp only [hv, Option.bind_some]
      by_cases h1 : 1 ≤ b
      · simp only [usub_of_le h1, Option.bind_some]
        rw [usub, if_neg (by omega)]
        rfl
      · rw [usub, if_neg h1]
        rfl

/-- The term of rate of change `r` and period `p` is skipped if the series is not longer than `r`; otherwise the period must be positive, and
as soon as the term contributes, neither may be below the first ones. -/
def PringOk (n r0 p0 r p : Nat) : Prop := n ≤ r ∨ (1 ≤ p ∧ (r + p ≤ n → r0 ≤ r ∧ p0 ≤ p))

theorem pringRoc_answers {data : List F} {n r : Nat} (hn : data.length = n) : AnswersIff True (n - r) (pringRoc data r) := by
  obtain ⟨o, h1, h2⟩ := pringRoc_yields data r
  exact ⟨fun _ => ⟨o, h1, by omega⟩, fun h => absurd trivial h⟩

theorem pringStep_answers {data result : List F} {n r0 p0 : Nat} {x : Nat × Nat × F} (hn : data.length = n)
    (h0 : 1 ≤ p0) (hN : r0 + p0 ≤ n + 1) (hr : result.length = n - r0 - (p0 - 1)) :
    AnswersIff (PringOk n r0 p0 x.1 x.2.1) (n - r0 - (p0 - 1)) (pringStep data r0 p0 result x) := by
  obtain ⟨r, p, m⟩ := x
  obtain ⟨roc, er, lr⟩ := (pringRoc_answers (r := r) hn).1 trivial
  simp only [pringStep, er, Option.bind_eq_bind, Option.bind_some, PringOk]
  split
  · rename_i he
    have : roc.length = 0 := by simpa using he
    exact ⟨fun _ => ⟨_, rfl, hr⟩, fun h => absurd (.inl (by omega)) h⟩
  · rename_i he
    have : roc.length ≠ 0 := by simpa using he
    have key : ∀ t : List F, t.length = max roc.length (p - 1) → AnswersIff (p - 1 < n - r → r0 ≤ r ∧ p0 ≤ p) (n - r0 - (p0 - 1))
        (((List.range (t.drop (p - 1)).length).zip (t.drop (p - 1))).foldlM (fun (res : List F) (y : ℕ × F) => (usub r r0).bind fun a =>
          (usub p p0).bind fun b => addAt res (y.1 + a + b) (y.2 * m)) result) := by
      intro t ht
      have hlen : (t.drop (p - 1)).length = n - r - (p - 1) := by simp [ht, lr]; omega
      refine (Ans.foldlM (Q := fun y : ℕ × F => r0 ≤ r ∧ p0 ≤ p ∧ y.1 + (r - r0) + (p - p0) < n - r0 - (p0 - 1)) hr ?_).congr ?_ fun _ => rfl
      · intro y _ s hs
        refine (Ans.usub (c := p0 ≤ p ∧ y.1 + (r - r0) + (p - p0) < n - r0 - (p0 - 1)) (Ans.usub ?_))
        exact (Ans.getElem (c := True) hs fun z => Ans.some (by simpa using hs)).congr (by simp) fun _ => rfl
      · constructor
        · intro h hlt
          have := h (0, (t.drop (p - 1))[0]'(by omega)) (by
            rw [List.mem_iff_getElem?]
            exact ⟨0, List.getElem?_zip_eq_some.2 ⟨List.getElem?_range (by omega), List.getElem?_eq_getElem _⟩⟩)
          exact ⟨this.1, this.2.1⟩
        · rintro h ⟨c, v⟩ hy
          have hc := List.mem_range.1 (List.of_mem_zip hy).1
          rw [hlen] at hc
          dsimp only at hc ⊢
          have := h (by omega)
          omega
    exact (Ans.bind (Smooth.sma_answers rfl) fun t ht => Ans.usub (key t ht)).congr (by omega) fun _ => rfl

/-- `kst` and `special_k` for any rates of change and periods. -/
theorem prings_answers {data : List F} {n r0 p0 : Nat} {rocs periods : List Nat} {mult : List F} (hn : data.length = n) (e1 : rocs[0]? = some r0)
    (e2 : periods[0]? = some p0) :
    AnswersIff (1 ≤ p0 ∧ r0 + p0 ≤ n + 1 ∧ ∀ x ∈ zip3 rocs periods mult, PringOk n r0 p0 x.1 x.2.1) n (prings data rocs periods mult) := by
  simp only [prings, e1, e2, Option.bind_eq_bind, Option.bind_some]
  by_cases h : 1 ≤ p0 ∧ r0 + p0 ≤ n + 1
  · rw [hn, usub_of_le (show r0 ≤ n by omega), usub_of_le h.1]
    simp only [Option.bind_some]
    rw [usub_of_le (show p0 - 1 ≤ n - r0 by omega)]
    refine (Ans.bind (Ans.foldlM (m := n - r0 - (p0 - 1)) (by simp) fun x _ s hs => pringStep_answers hn h.1 h.2 hs) fun t ht =>
      Ans.some (n := n) (by simp [ht]; omega)).congr ?_ fun _ => rfl
    simp [h.1, h.2]
  · refine ⟨fun hc => absurd ⟨hc.1, hc.2.1⟩ h, fun _ => ?_⟩
    rw [hn]
    by_cases h1 : r0 ≤ n
    · by_cases h2 : 1 ≤ p0
      · simp only [usub_of_le h1, usub_of_le h2, Option.bind_some]
        rw [usub, if_neg (by omega)]
        rfl
      · simp only [usub_of_le h1, Option.bind_some]
        rw [usub, if_neg h2]
        rfl
    · rw [usub, if_neg h1]
      rfl

theorem special_k_answers {data : List F} {n : Nat} (hn : data.length = n) : AnswersIff (19 ≤ n) n (special_k data) := by
  refine (prings_answers hn rfl rfl).congr ⟨fun h => by omega, fun h => ⟨by omega, by omega, ?_⟩⟩ fun _ => rfl
  rintro ⟨r, p, m⟩ hx
  rw [zip3_eq] at hx
  have h1 : r ∈ [10, 15, 20, 30, 50, 65, 75, 100, 195, 265, 390, 530] := (List.of_mem_zip hx).1
  have h2 : p ∈ [10, 10, 10, 15, 50, 65, 75, 100, 130, 130, 130, 195] := (List.of_mem_zip (List.of_mem_zip hx).2).1
  have h3 : 10 ≤ r := (show ∀ r ∈ [10, 15, 20, 30, 50, 65, 75, 100, 195, 265, 390, 530], 10 ≤ r by decide) r h1
  have h4 : 10 ≤ p := (show ∀ p ∈ [10, 10, 10, 15, 50, 65, 75, 100, 130, 130, 130, 195], 10 ≤ p by decide) p h2
  exact .inr ⟨le_trans (by decide) h4, fun _ => ⟨h3, h4⟩⟩

theorem kst_answers {data : List F} {n r1 r2 r3 r4 p1 p2 p3 p4 : Nat} (rocs periods : Option (Nat × Nat × Nat × Nat)) (hn : data.length = n)
    (e1 : rocs.getD (10, 15, 20, 30) = (r1, r2, r3, r4)) (e2 : periods.getD (10, 10, 10, 15) = (p1, p2, p3, p4)) :
    AnswersIff (1 ≤ p1 ∧ r1 + p1 ≤ n + 1 ∧ PringOk n r1 p1 r2 p2 ∧ PringOk n r1 p1 r3 p3 ∧ PringOk n r1 p1 r4 p4) n (kst data rocs periods) := by
  unfold kst
  rw [e1, e2]
  refine (prings_answers hn rfl rfl).congr ⟨fun h => ?_, fun h => ?_⟩ fun _ => rfl
  · refine ⟨h.1, h.2.1, h.2.2 (r2, p2, 2) ?_, h.2.2 (r3, p3, 3) ?_, h.2.2 (r4, p4, 4) ?_⟩ <;> simp [zip3]
  · refine ⟨h.1, h.2.1, ?_⟩
    rintro x hx
    simp only [zip3, List.mem_cons, List.not_mem_nil, or_false] at hx
    rcases hx with rfl | rfl | rfl | rfl
    · exact .inr ⟨h.1, fun _ => ⟨le_refl _, le_refl _⟩⟩
    · exact h.2.2.1
    · exact h.2.2.2.1
    · exact h.2.2.2.2

end Momentum

namespace Trend
variable {F : Type} [FloatOps F]

/-- For high and low series of the same length. -/
theorem zigzag_answers {high low : List F} {n : Nat} (distance : Option F) (hh : high.length = n) (hl : low.length = n) :
    AnswersIff (1 ≤ n) n (zigzag high low distance) := by
  refine ⟨fun h => ?_, fun h => ?_⟩
  · obtain ⟨o, h1, h2⟩ := zigzag_yields high low distance (by omega) (by omega)
    exact ⟨o, h1, by omega⟩
  · have : low = [] := List.length_eq_zero_iff.1 (by omega)
    subst this
    rfl

end Trend
end Traquer
