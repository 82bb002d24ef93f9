import Verif.Props.PanicMomentum
import Verif.Props.ShapeTrend
/-!
# C15 (trend): exactly when an indicator panics, and how many values it yields otherwise

The series may have different lengths.
-/

namespace Traquer.Trend
open FloatLit
variable {F : Type} [FloatOps F]

omit [FloatOps F] in
theorem dmBars_answers {high low close : List F} {a b c : Nat} (ha : high.length = a) (hb : low.length = b) (hc : close.length = c) :
    AnswersIff (1 ≤ min a (min b c)) (min a (min b c) - 1) (dmBars high low close) := by
  answers [dmBars]

theorem midLine_answers {high low : List F} {a b w p : Nat} (ha : high.length = a) (hb : low.length = b) :
    AnswersIff (1 ≤ w) (p + (min a b + 1 - w)) (midLine high low w p) := by
  answers [midLine]

theorem alligator_answers {data : List F} {n jw jo tw to' lw lo : Nat} (hn : data.length = n) :
    AnswersIff (1 ≤ jw ∧ 1 ≤ tw ∧ 1 ≤ lw ∧ jw ≤ n + 1 ∧ tw ≤ n + 1 ∧ lw ≤ n + 1) (n + max jo (max to' lo)) (alligator data jw jo tw to' lw lo) := by
  have h1 := alligatorLine_answers (w := jw) (o := jo) (m := max (max jo to') lo) hn (by omega)
  have h2 := alligatorLine_answers (w := tw) (o := to') (m := max (max jo to') lo) hn (by omega)
  have h3 := alligatorLine_answers (w := lw) (o := lo) (m := max (max jo to') lo) hn (by omega)
  refine AnswersIff.congr (n := n + max (max jo to') lo) (Ans.bind h1 fun x hx => Ans.bind h2 fun y hy => Ans.bind h3 fun z hz => Ans.some ?_) ?_ ?_
  · rw [zip3_eq]
    simp [hx, hy, hz]
  · simp only [and_true]
    omega
  · omega

end Traquer.Trend

namespace Traquer
open Trend
macro_rules | `(tactic| answers_fn) => `(tactic| first
  | (with_reducible apply dmBars_answers <;> len)
  | (with_reducible apply midLine_answers <;> len)
  | (with_reducible apply alligator_answers; len)
  | (with_reducible apply Volatility.atr_answers <;> len))
end Traquer

namespace Traquer.Momentum
open FloatLit
variable {F : Type} [FloatOps F]

theorem gator_answers {data : List F} {n jw jo tw to' lw lo : Nat} (hn : data.length = n) :
    AnswersIff (1 ≤ jw ∧ 1 ≤ tw ∧ 1 ≤ lw ∧ jw ≤ n + 1 ∧ tw ≤ n + 1 ∧ lw ≤ n + 1) (n + max jo (max to' lo)) (gator data jw jo tw to' lw lo) := by
  answers [gator]

end Traquer.Momentum

namespace Traquer.Trend
open FloatLit
variable {F : Type} [FloatOps F]

theorem shinohara_answers {high low close : List F} {a b c w : Nat} (ha : high.length = a) (hb : low.length = b) (hc : close.length = c) :
    AnswersIff (1 ≤ w ∧ w ≤ min a (min b c)) (min a (min b c)) (shinohara high low close w) := by
  answers [shinohara]

theorem adx_answers {high low close : List F} {a b c w s : Nat} (ha : high.length = a) (hb : low.length = b) (hc : close.length = c) :
    AnswersIff (1 ≤ w ∧ 1 ≤ s ∧ w + s ≤ min a (min b c) + 1) (min a (min b c)) (adx high low close w s) := by
  answers [adx]

theorem vortex_answers {high low close : List F} {a b c w : Nat} (ha : high.length = a) (hb : low.length = b) (hc : close.length = c) :
    AnswersIff (1 ≤ w ∧ 1 ≤ min a (min b c)) (max (min a (min b c)) w) (vortex high low close w) := by
  answers [vortex]
  rename_i h
  intro x hx
  obtain ⟨h1, h2⟩ := h x hx
  cases x with
  | nil => simp at h2; omega
  | cons y x => simp [reduce3]

theorem asi_answers {openp high low close : List F} {o a b c : Nat} (limit : F) (ho : openp.length = o) (ha : high.length = a)
    (hb : low.length = b) (hc : close.length = c) :
    AnswersIff (1 ≤ min o (min a (min b c))) (min o (min a (min b c))) (asi openp high low close limit) := by
  answers [asi]

theorem ulcer_answers {data : List F} {n w : Nat} (hn : data.length = n) : AnswersIff (1 ≤ w) (max n (2 * (w - 1))) (ulcer data w) := by
  answers [ulcer]

theorem supertrend_answers {high low close : List F} {a b c w : Nat} (m : F) (ha : high.length = a) (hb : low.length = b) (hc : close.length = c) :
    AnswersIff (1 ≤ w ∧ w ≤ min a (min b c)) (min a (min b c)) (supertrend high low close w m) := by
  answers [supertrend]

omit [FloatOps F] in
theorem foldlM_total {α β : Type} {f : β → α → Option β} {l : List α} (h : ∀ x ∈ l, ∀ s, ∃ s', f s x = some s') (s : β) :
    ∃ s', l.foldlM f s = some s' := by
  induction l generalizing s with
  | nil => exact ⟨s, rfl⟩
  | cons x l ih =>
    obtain ⟨s', hs⟩ := h x (by simp) s
    obtain ⟨t, ht⟩ := ih (fun y hy => h y (by simp [hy])) s'
    exact ⟨t, by simp [List.foldlM_cons, hs, ht]⟩

theorem rwi_answers {high low close : List F} {a b c w : Nat} (ha : high.length = a) (hb : low.length = b) (hc : close.length = c) :
    AnswersIff (1 ≤ w ∧ 1 ≤ min a (min b c)) (max (min a (min b c)) w) (rwi high low close w) := by
  answers [rwi]
  rename_i h1 _ _ h2 _ _ h3
  intro x hx
  obtain ⟨h4, h5⟩ := h1 _ (List.of_mem_zip hx).1
  obtain ⟨-, h6⟩ := h2 _ (List.of_mem_zip (List.of_mem_zip hx).2).1
  obtain ⟨-, h7⟩ := h3 _ (List.of_mem_zip (List.of_mem_zip hx).2).2
  obtain ⟨xh, xl, xt⟩ := x
  dsimp only at h5 h6 h7
  obtain ⟨s, hs⟩ := foldlM_total (f := rwiStep w xh xl xt) (l := List.range' 2 (w - 1)) (by
    intro i hi s
    rw [List.mem_range'_1] at hi
    simp (disch := omega) [rwiStep, usub_of_le]) (0, 0, 0)
  simp [hs]

/-- The lows must be at least as many as the highs. -/
theorem psar_answers {high low : List F} {a b : Nat} (af afMax : Option F) (ha : high.length = a) (hb : low.length = b) :
    AnswersIff (1 ≤ a ∧ a ≤ b) a (psar high low af afMax) := by
  by_cases h : 1 ≤ a ∧ a ≤ b
  · simp only [h, and_self]
    answers [psar]
    intro i hi s
    rw [List.mem_range] at hi
    simp (disch := omega)
  · refine ⟨fun hc => absurd hc h, fun _ => ?_⟩
    simp only [psar, Option.bind_eq_bind]
    rcases Nat.eq_zero_or_pos a with rfl | h1
    · simp [List.length_eq_zero_iff.1 ha]
    rcases Nat.eq_zero_or_pos b with rfl | h2
    · simp [List.length_eq_zero_iff.1 hb]
    rw [getElem?_of_lt (show 0 < high.length by omega), getElem?_of_lt (show 0 < low.length by omega), usub_of_le (by omega)]
    simp only [Option.bind_some]
    rw [Volume.scanM_fails (x := b - 1) (List.mem_range.2 (by omega))]
    · rfl
    · intro s
      simp [show b - 1 + 1 = b by omega, List.getElem?_eq_none (show low.length ≤ b by omega)]

/-- `window` must be 3 or more; the rest of the domain is that of the chosen average, and the series must reach back to the lagged bar. -/
theorem dpo_answers {data : List F} {n w m : Nat} {c : Prop} (mode : Option Smooth.MaMode) (hn : data.length = n)
    (h : AnswersIff c m (Smooth.ma data w (mode.getD .SMA))) :
    AnswersIff (c ∧ 3 ≤ w ∧ w ≤ n + w / 2 + 2) (w - 1 + min (n - (w - (w / 2 + 1) - 1)) (m - (w - 1))) (dpo data w mode) := by
  rw [dpo]
  generalize Smooth.ma data w (mode.getD .SMA) = r at h
  answers []
  exact and_congr_right fun _ => by omega

theorem aroon_answers {high low : List F} {a b w : Nat} (ha : high.length = a) (hb : low.length = b) :
    AnswersIff True (max (min a b) w) (aroon high low w) := by
  answers [aroon]
  rename_i h1 _ _ h2
  intro x hx
  obtain ⟨h3, h4⟩ := h1 _ (List.of_mem_zip hx).1
  obtain ⟨-, h5⟩ := h2 _ (List.of_mem_zip hx).2
  obtain ⟨i, hi⟩ := Volatility.argBest_total (fun (x y : F) => x >=. y) (l := x.1) (by omega)
  obtain ⟨j, hj⟩ := Volatility.argBest_total (fun (x y : F) => x <=. y) (l := x.2) (by omega)
  simp [hi, hj]

theorem chandelier_answers {high low close : List F} {a b c w : Nat} (m : Option F) (ha : high.length = a) (hb : low.length = b)
    (hc : close.length = c) : AnswersIff (1 ≤ w ∧ w ≤ min a (min b c)) (min a (min b c)) (chandelier high low close w m) := by
  answers [chandelier]

theorem cks_answers {high low close : List F} {a b c u v : Nat} (m : Option F) (ha : high.length = a) (hb : low.length = b)
    (hc : close.length = c) :
    AnswersIff (1 ≤ u ∧ 1 ≤ v ∧ u ≤ min a (min b c)) (max (min a (min b c)) (u + (v - 1))) (cks high low close u v m) := by
  answers [cks]

theorem atr_stop_answers {high low close : List F} {a b c w : Nat} (m : Option F) (ha : high.length = a) (hb : low.length = b)
    (hc : close.length = c) : AnswersIff (1 ≤ w ∧ w ≤ min a (min b c)) (min a (min b c)) (atr_stop high low close w m) := by
  answers [atr_stop]
  rename_i h _ _
  intro x hx s
  obtain ⟨h1, h2⟩ := h _ (List.mem_of_mem_drop (List.of_mem_zip hx).1)
  simp (disch := omega)

theorem ichimoku_answers {high low close : List F} {a b c u v w k : Nat} (ha : high.length = a) (hb : low.length = b) (hc : close.length = c) :
    AnswersIff (1 ≤ u ∧ 1 ≤ v ∧ 1 ≤ w)
      (v + min (max (min a b) (u - 1)) (min (max (min a b) (v - 1)) (min (max (min a b) (w - 1)) (max c k))))
      (ichimoku high low close u v w k) := by
  with_reducible apply AnswersIff.congr
  focus ((try simp only [Option.bind_eq_bind, zip5_eq, ichimoku]); repeat' answers_step)
  all_goals (try simp only [and_true])
  · omega
  · intro h
    generalize min a b = m
    have e1 : u - 1 + (m + 1 - u) = max m (u - 1) := by omega
    have e2 : v - 1 + (m + 1 - v) = max m (v - 1) := by omega
    have e3 : w - 1 + v + (m + 1 - w) = v + max m (w - 1) := by omega
    have e4 : c - k + (k + v) = v + max c k := by omega
    rw [e1, e2, e3, e4]
    generalize max m (u - 1) = x1
    generalize max m (v - 1) = x2
    generalize max m (w - 1) = x3
    generalize max c k = x4
    omega

end Traquer.Trend
