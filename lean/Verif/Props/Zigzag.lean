import Verif.Spec.Zigzag
import Verif.Lemmas.Real
import Verif.Lemmas.Eval
import Verif.Props.Trailing
import Verif.Props.ShapeTrend
/-!
# C56: zigzag reports real prices
-/

namespace Traquer.Trend
open FP FloatLit

section anyF
variable {F : Type} [FloatOps F] (high low : List F)

/-- The value is the high or the low of bar `i`. -/
def IsPrice (i : ℕ) (v : F) : Prop := high[i]? = some v ∨ low[i]? = some v

/-- The buffer holds placeholders and prices of its own bars, the first of them a price, and the end of the current leg is a price of
its bar. -/
structure ZigOk (s : ZigState F) : Prop where
  length : s.result.length = high.length
  prices : ∀ i v, s.result[i]? = some v → v = nan ∨ IsPrice high low i v
  first : ∀ v, s.result[0]? = some v → IsPrice high low 0 v
  fin_lt : s.fin.1 < high.length
  fin_price : IsPrice high low s.fin.1 s.fin.2

variable {high low}

theorem ZigOk.write {s : ZigState F} (h : ZigOk high low s) {i : ℕ} {v : F} (hv : IsPrice high low i v) {st fn : ℕ × F}
    (h1 : fn.1 < high.length) (h2 : IsPrice high low fn.1 fn.2) :
    ZigOk high low { result := s.result.set i v, start := st, fin := fn } := by
  have key : ∀ j w, (s.result.set i v)[j]? = some w → (w = v ∧ j = i) ∨ s.result[j]? = some w := by
    intro j w hw
    rw [List.getElem?_set] at hw
    split_ifs at hw with g1 g2
    · cases hw; exact .inl ⟨rfl, g1.symm⟩
    · exact .inr hw
  refine ⟨by simpa using h.length, fun j w hw => ?_, fun w hw => ?_, h1, h2⟩
  · rcases key j w hw with ⟨rfl, rfl⟩ | e
    · exact .inr hv
    · exact h.prices _ _ e
  · rcases key 0 w hw with ⟨rfl, rfl⟩ | e
    · exact hv
    · exact h.first _ e

theorem ZigOk.extend {s : ZigState F} (h : ZigOk high low s) {fn : ℕ × F} (h1 : fn.1 < high.length) (h2 : IsPrice high low fn.1 fn.2) :
    ZigOk high low { s with fin := fn } := ⟨h.length, h.prices, h.first, h1, h2⟩

variable (hl : low.length = high.length)
include hl

theorem zigInit_prices {d h0 l0 : F} (h0h : high[0]? = some h0) (l0l : low[0]? = some l0) (js : List ℕ) (hj : ∀ j ∈ js, j < high.length)
    {s : ZigState F} (hs : ZigOk high low s) : ∃ s', zigInit d h0 l0 high low js s = some s' ∧ ZigOk high low s' := by
  induction js with
  | nil => exact ⟨s, rfl, hs⟩
  | cons j js ih =>
    have b := hj j (by simp)
    have e1 : high[j]? = some high[j] := List.getElem?_eq_getElem b
    have e2 : low[j]? = some (low[j]'(by omega)) := List.getElem?_eq_getElem _
    simp only [zigInit, e1, e2, Option.bind_eq_bind, Option.bind_some]
    split
    · exact ⟨_, rfl, hs.write (.inl h0h) b (.inr e2)⟩
    · split
      · exact ⟨_, rfl, hs.write (.inr l0l) b (.inl e1)⟩
      · exact ih fun k hk => hj k (by simp [hk])

theorem zigStep_prices {d : F} {i : ℕ} (hi : i < high.length) {s : ZigState F} (hs : ZigOk high low s) :
    ∃ s', zigStep d high low s i = some s' ∧ ZigOk high low s' := by
  have e1 : high[i]? = some high[i] := List.getElem?_eq_getElem hi
  have e2 : low[i]? = some (low[i]'(by omega)) := List.getElem?_eq_getElem _
  rw [zigStep_of d s e1 e2]
  split
  · exact ⟨_, rfl, hs.extend hi (.inl e1)⟩
  split
  · exact ⟨_, rfl, hs.write hs.fin_price hi (.inl e1)⟩
  split
  · exact ⟨_, rfl, hs.extend hi (.inr e2)⟩
  split
  · exact ⟨_, rfl, hs.write hs.fin_price hi (.inr e2)⟩
  · exact ⟨_, rfl, hs⟩

theorem zigLoop_prices {d : F} (js : List ℕ) (hj : ∀ j ∈ js, j < high.length) {s : ZigState F} (hs : ZigOk high low s) :
    ∃ s', js.foldlM (zigStep d high low) s = some s' ∧ ZigOk high low s' := by
  induction js generalizing s with
  | nil => exact ⟨s, rfl, hs⟩
  | cons j js ih =>
    obtain ⟨s', e, h'⟩ := zigStep_prices hl (d := d) (hj j (by simp)) hs
    rw [List.foldlM_cons, e]
    exact ih (fun k hk => hj k (by simp [hk])) h'

/-- C56, for every arithmetic: `zigzag` yields one item per bar; every item is NaN or the high or the low of its own bar; the first and
the last items are prices of their bars. -/
theorem zigzag_prices [NaNLaws F] (distance : Option F) (hn : 1 ≤ high.length) :
    ∃ out, zigzag high low distance = some out ∧ out.length = high.length ∧
      (∀ i v, out[i]? = some v → v = nan ∨ IsPrice high low i v) ∧
      (∀ v, out[0]? = some v → IsPrice high low 0 v) ∧
      ∀ v, out[high.length - 1]? = some v → IsPrice high low (high.length - 1) v := by
  have e0 : low[0]? = some (low[0]'(by omega)) := List.getElem?_eq_getElem _
  have e1 : high[0]? = some high[0] := List.getElem?_eq_getElem hn
  have e2 : high.getLast? = some (high[high.length - 1]'(by omega)) := by
    rw [List.getLast?_eq_getElem?]; exact List.getElem?_eq_getElem _
  have e3 : low.getLast? = some (low[high.length - 1]'(by omega)) := by
    rw [List.getLast?_eq_getElem?, show low.length - 1 = high.length - 1 by omega]; exact List.getElem?_eq_getElem _
  have hs0 : ZigOk high low (.mk ((List.replicate high.length nan).set 0 (low[0]'(by omega))) (0, low[0]'(by omega))
      (high.length - 1, high[high.length - 1]'(by omega))) := by
    refine ⟨by simp, fun i v hv => ?_, fun v hv => ?_, by simp; omega, .inl (List.getElem?_eq_getElem _)⟩
    · simp only [List.getElem?_set, List.length_replicate, List.getElem?_replicate] at hv
      split_ifs at hv with g1 g2
      · subst g1; cases hv; exact .inr (.inr e0)
      · cases hv; exact .inl rfl
    · rw [List.getElem?_set_self (by simp; omega)] at hv
      cases hv; exact .inr e0
  obtain ⟨s1, q1, ok1⟩ := zigInit_prices hl (d := distance.getD 5) e1 e0 ((List.range high.length).drop 1)
    (fun j hj => by simpa using List.mem_of_mem_drop hj) hs0
  have : ∃ s2, (if s1.fin.1 < high.length - 1 then
      ((List.range high.length).drop s1.fin.1).foldlM (zigStep (distance.getD 5) high low) s1 else some s1) = some s2 ∧ ZigOk high low s2 := by
    split
    · exact zigLoop_prices hl _ (fun j hj => by simpa using List.mem_of_mem_drop hj) ok1
    · exact ⟨_, rfl, ok1⟩
  obtain ⟨s2, q2, ok2⟩ := this
  have e4 : s2.result.getLast? = some (s2.result[high.length - 1]'(by rw [ok2.length]; omega)) := by
    rw [List.getLast?_eq_getElem?, show s2.result.length - 1 = high.length - 1 by rw [ok2.length]]; exact List.getElem?_eq_getElem _
  have run : zigzag high low distance = if isNaN (s2.result[high.length - 1]'(by rw [ok2.length]; omega)) then
      some (s2.result.set (s2.result.length - 1) (if (s2.start.2 >. s2.fin.2) = true then high[high.length - 1]'(by omega)
        else low[high.length - 1]'(by omega))) else some s2.result := by
    simp only [zigzag, e0, e1, e2, e3, usub_of_le hn, Option.bind_eq_bind, Option.bind_some, q1]
    by_cases g : s1.fin.1 < high.length - 1
    · rw [if_pos g] at q2 ⊢
      simp only [q2, Option.bind_some, e4]
      split_ifs <;> rfl
    · rw [if_neg g] at q2 ⊢
      cases q2
      simp only [Option.bind_some, e4]
      split_ifs <;> rfl
  rw [run]
  by_cases hnan : isNaN (s2.result[high.length - 1]'(by rw [ok2.length]; omega)) = true
  · rw [if_pos hnan]
    have hv : IsPrice high low (high.length - 1) (if (s2.start.2 >. s2.fin.2) = true then high[high.length - 1]'(by omega)
        else low[high.length - 1]'(by omega)) := by
      split
      · exact .inl (List.getElem?_eq_getElem _)
      · exact .inr (List.getElem?_eq_getElem _)
    have ok3 := ok2.write (st := s2.start) (fn := s2.fin) hv ok2.fin_lt ok2.fin_price
    refine ⟨_, rfl, ?_, ?_, ?_, ?_⟩
    · simpa using ok2.length
    · rw [ok2.length]; exact ok3.prices
    · rw [ok2.length]; exact ok3.first
    · intro w hw
      rw [ok2.length, List.getElem?_set_self (by rw [ok2.length]; omega)] at hw
      cases hw; exact hv
  · rw [if_neg hnan]
    refine ⟨_, rfl, ok2.length, ok2.prices, ok2.first, fun v hv => ?_⟩
    rcases ok2.prices _ v hv with rfl | h
    · rw [List.getElem?_eq_getElem (by rw [ok2.length]; omega)] at hv
      rw [Option.some.inj hv] at hnan
      exact (hnan NaNLaws.nan_isNaN).elim
    · exact h

end anyF

/-! ## Pivots in exact arithmetic -/

section legs
variable {high low : List XF} {d : ℝ} {dist : XF}

/-- The state of the code: the pivots so far and the end of the current leg. -/
structure ZigLeg (high low : List XF) (d : ℝ) (s : ZigState XF) (top : Bool) (P : List (ℕ × ℝ)) (x y : ℝ) : Prop where
  buffer : ∀ i, i < high.length → ∃ v, s.result[i]? = some v ∧ Marks P i v
  length : s.result.length = high.length
  head : P.head? = some (s.start.1, x)
  start_is : s.start.2 ⇓ x
  fin_is : s.fin.2 ⇓ y
  fin_lt : s.fin.1 < high.length
  pivots : Pivots (vals high) (vals low) d top ((s.fin.1, y) :: P)

theorem marks_cons {P : List (ℕ × ℝ)} {r : List XF} {n j : ℕ} {y : ℝ} {v : XF} (h : ∀ i, i < n → ∃ v, r[i]? = some v ∧ Marks P i v)
    (hl : r.length = n) (hv : v ⇓ y) : ∀ i, i < n → ∃ w, (r.set j v)[i]? = some w ∧ Marks ((j, y) :: P) i w := by
  intro i hi
  by_cases e : j = i
  · subst e
    exact ⟨v, by rw [List.getElem?_set_self (by omega)], by simpa [Marks, List.lookup] using hv⟩
  · obtain ⟨w, h1, h2⟩ := h i hi
    refine ⟨w, by rw [List.getElem?_set_ne e, h1], ?_⟩
    have : (i == j) = false := by simpa using fun h => e h.symm
    simpa [Marks, List.lookup, this] using h2

theorem leg_lower {d h y : ℝ} (hd : 0 < d) (h0 : 0 < h) (hl : d / 100 * h ≤ h - y) : d / 100 * y ≤ h - y := by
  have h1 : 0 < d / 100 * h := by positivity
  exact (mul_le_mul_of_nonneg_left (by linarith) (by positivity)).trans hl

/-- The index of a pivot is never above that of the newest one. -/
theorem pivots_lookup_none {high low : List ℝ} {d : ℝ} : ∀ {P : List (ℕ × ℝ)} {top : Bool} {j : ℕ} {y : ℝ} {i : ℕ},
    Pivots high low d top ((j, y) :: P) → j ≤ i → P.lookup i = none
  | [], _, _, _, _, _, _ => rfl
  | (a, x) :: P, top, j, y, i, h, hi => by
    obtain ⟨h1, -, -, h4⟩ := h
    have : (i == a) = false := by simp; omega
    rw [List.lookup, this]
    exact pivots_lookup_none h4 (by omega)

variable (hlen : low.length = high.length) (fh : Fins high) (fl : Fins low) (hd : 0 < d) (hdist : dist ⇓ d)
  (hpos : ∀ i, i < high.length → 0 < bar (vals low) i ∧ bar (vals low) i ≤ bar (vals high) i)
  (hnarrow : ∀ i, i < high.length → bar (vals high) i - bar (vals low) i < d / 100 * bar (vals low) i)
include hlen fh fl hd hdist hpos hnarrow

theorem zigStep_leg {i : ℕ} {s : ZigState XF} {top : Bool} {P : List (ℕ × ℝ)} {x y : ℝ} (hi : i < high.length)
    (hs : ZigLeg high low d s top P x y) (hfi : s.fin.1 ≤ i) :
    ∃ s' top' P' x' y', zigStep dist high low s i = some s' ∧ ZigLeg high low d s' top' P' x' y' ∧ s'.fin.1 ≤ i := by
  have e1 : high[i]? = some high[i] := List.getElem?_eq_getElem hi
  have e2 : low[i]? = some (low[i]'(by omega)) := List.getElem?_eq_getElem _
  have b1 := is_bar fh e1
  have b2 := is_bar fl e2
  obtain ⟨p1, p2⟩ := hpos i hi
  have p3 := hnarrow i hi
  obtain ⟨q1, q2⟩ := hpos _ hs.fin_lt
  obtain ⟨⟨a, x'⟩, P', rfl⟩ : ∃ p P', P = p :: P' := by
    cases P with
    | nil => simpa using hs.head
    | cons p P' => exact ⟨_, _, rfl⟩
  have hhead := hs.head
  simp only [List.head?_cons, Option.some.injEq, Prod.mk.injEq] at hhead
  obtain ⟨rfl, hx⟩ := hhead
  obtain rfl : x = x' := hx.symm
  obtain ⟨w1, w2, w3, w4⟩ := hs.pivots
  have l1 := is_lt hs.start_is hs.fin_is
  have l2 := is_lt hs.fin_is hs.start_is
  have l3 := is_lt hs.fin_is b1
  have l4 := is_lt b2 hs.fin_is
  have l5 := is_le_iff hdist (is_mul (is_div (is_sub b1 hs.fin_is) b1 (by linarith)) (is_lit 100))
  have l6 := is_le_iff hdist (is_mul (is_div (is_sub hs.fin_is b2) b2 (by linarith)) (is_lit 100))
  have y0 : 0 < y := by rw [w2]; split <;> linarith
  have v5 : d ≤ (bar (vals high) i - y) / bar (vals high) i * 100 ↔ d / 100 * bar (vals high) i ≤ bar (vals high) i - y := by
    rw [div_mul_eq_mul_div, le_div_iff₀ (by linarith)]; constructor <;> intro <;> linarith
  have v6 : d ≤ (y - bar (vals low) i) / bar (vals low) i * 100 ↔ d / 100 * bar (vals low) i ≤ y - bar (vals low) i := by
    rw [div_mul_eq_mul_div, le_div_iff₀ (by linarith)]; constructor <;> intro <;> linarith
  replace l5 := l5.trans v5
  replace l6 := l6.trans v6
  simp only [zigStep_of dist s e1 e2, l1, l2, l3, l4, l5, l6, Bool.and_eq_true, decide_eq_true_eq]
  cases top
  · -- falling leg
    have w3' : d / 100 * y ≤ x - y := by simpa [Leg] using w3
    have yx : y < x := by nlinarith
    have nyx : ¬ x < y := by linarith
    simp only [nyx, yx, false_and, true_and, if_false]
    by_cases g5 : d / 100 * bar (vals high) i ≤ bar (vals high) i - y
    · have hlt : s.fin.1 < i := by
        refine lt_of_le_of_ne hfi fun e => ?_
        rw [w2, if_neg (by simp), e] at g5
        nlinarith
      rw [if_pos g5]
      refine ⟨_, true, (s.fin.1, y) :: (s.start.1, x) :: P', y, _, rfl, ⟨?_, ?_, rfl, hs.fin_is, b1, hi, ?_⟩, le_rfl⟩
      · exact marks_cons hs.buffer hs.length hs.fin_is
      · simpa using hs.length
      · exact ⟨hlt, rfl, by simpa only [Leg, if_true] using leg_lower hd (by linarith) g5, hs.pivots⟩
    · rw [if_neg g5]
      by_cases g4 : bar (vals low) i < y
      · rw [if_pos g4]
        exact ⟨_, false, (s.start.1, x) :: P', x, _, rfl, ⟨hs.buffer, hs.length, rfl, hs.start_is, b2, hi, by
          exact ⟨show s.start.1 < i by omega, rfl, by simp only [Leg, Bool.false_eq_true, if_false]; nlinarith, w4⟩⟩, le_rfl⟩
      · rw [if_neg g4]
        exact ⟨_, false, _, x, y, rfl, hs, hfi⟩
  · have w3' : d / 100 * x ≤ y - x := by simpa [Leg] using w3
    have xy : x < y := by
      have x0 : 0 < x := by
        cases P' with
        | nil => obtain ⟨-, rfl⟩ := w4; simp; exact (hpos 0 (by omega)).1
        | cons p P'' =>
          obtain ⟨-, e, -, -⟩ := w4
          rw [e]; simp; exact (hpos _ (by omega)).1
      nlinarith
    have nyx : ¬ y < x := by linarith
    simp only [nyx, xy, false_and, true_and, if_false]
    by_cases g3 : y < bar (vals high) i
    · rw [if_pos g3]
      exact ⟨_, true, (s.start.1, x) :: P', x, _, rfl, ⟨hs.buffer, hs.length, rfl, hs.start_is, b1, hi, by
          exact ⟨show s.start.1 < i by omega, rfl, by simp only [Leg, if_true]; nlinarith, w4⟩⟩, le_rfl⟩
    · rw [if_neg g3]
      by_cases g6 : d / 100 * bar (vals low) i ≤ y - bar (vals low) i
      · have hlt : s.fin.1 < i := by
          refine lt_of_le_of_ne hfi fun e => ?_
          rw [w2, if_pos rfl, e] at g6
          linarith
        rw [if_pos g6]
        refine ⟨_, false, (s.fin.1, y) :: (s.start.1, x) :: P', y, _, rfl, ⟨?_, ?_, rfl, hs.fin_is, b2, hi, ?_⟩, le_rfl⟩
        · exact marks_cons hs.buffer hs.length hs.fin_is
        · simpa using hs.length
        · exact ⟨hlt, rfl, by simpa only [Leg, Bool.false_eq_true, if_false] using g6, hs.pivots⟩
      · rw [if_neg g6]
        exact ⟨_, true, _, x, y, rfl, hs, hfi⟩

theorem zigLoop_leg (m : ℕ) : ∀ (k : ℕ) {s : ZigState XF} {top : Bool} {P : List (ℕ × ℝ)} {x y : ℝ}, k + m ≤ high.length →
    ZigLeg high low d s top P x y → s.fin.1 ≤ k →
    ∃ s' top' P' x' y', (List.range' k m).foldlM (zigStep dist high low) s = some s' ∧ ZigLeg high low d s' top' P' x' y' := by
  induction m with
  | zero => intro k s top P x y _ hs _; exact ⟨s, top, P, x, y, rfl, hs⟩
  | succ m ih =>
    intro k s top P x y hk hs hf
    obtain ⟨s', top', P', x', y', e, hs', hf'⟩ := zigStep_leg hlen fh fl hd hdist hpos hnarrow (i := k) (by omega) hs hf
    rw [List.range'_succ, List.foldlM_cons, e]
    exact ih (k + 1) (by omega) hs' (by omega)

omit hnarrow in
/-- The search for the first leg. -/
theorem zigInit_leg (js : List ℕ) (hj : ∀ j ∈ js, 0 < j ∧ j < high.length) {h0 l0 : XF} (eh : high[0]? = some h0) (el : low[0]? = some l0)
    {s : ZigState XF} (hr : s.result = (List.replicate high.length FP.nan).set 0 l0) :
    (zigInit dist h0 l0 high low js s = some s ∧ ∀ j ∈ js, bar (vals high) 0 - bar (vals low) j < d / 100 * bar (vals high) 0 ∧
        bar (vals high) j - bar (vals low) 0 < d / 100 * bar (vals low) 0) ∨
      ∃ s' top P x y, zigInit dist h0 l0 high low js s = some s' ∧ ZigLeg high low d s' top P x y := by
  induction js with
  | nil => exact .inl ⟨rfl, by simp⟩
  | cons j js ih =>
    obtain ⟨j0, hjl⟩ := hj j (by simp)
    have e1 : high[j]? = some high[j] := List.getElem?_eq_getElem hjl
    have e2 : low[j]? = some (low[j]'(by omega)) := List.getElem?_eq_getElem _
    have b1 := is_bar fh e1
    have b2 := is_bar fl e2
    have c1 := is_bar fh eh
    have c2 := is_bar fl el
    obtain ⟨p1, p2⟩ := hpos j hjl
    obtain ⟨q1, q2⟩ := hpos 0 (by omega)
    have l5 := is_le_iff hdist (is_mul (is_div (is_sub c1 b2) c1 (by linarith)) (is_lit 100))
    have l6 := is_le_iff hdist (is_mul (is_div (is_sub b1 c2) c2 (by linarith)) (is_lit 100))
    have v5 : d ≤ (bar (vals high) 0 - bar (vals low) j) / bar (vals high) 0 * 100 ↔
        d / 100 * bar (vals high) 0 ≤ bar (vals high) 0 - bar (vals low) j := by
      rw [div_mul_eq_mul_div, le_div_iff₀ (by linarith)]; constructor <;> intro <;> linarith
    have v6 : d ≤ (bar (vals high) j - bar (vals low) 0) / bar (vals low) 0 * 100 ↔
        d / 100 * bar (vals low) 0 ≤ bar (vals high) j - bar (vals low) 0 := by
      rw [div_mul_eq_mul_div, le_div_iff₀ (by linarith)]; constructor <;> intro <;> linarith
    replace l5 := l5.trans v5
    replace l6 := l6.trans v6
    have mark : ∀ {v : XF} {x : ℝ}, v ⇓ x → ∀ i, i < high.length → ∃ w, (s.result.set 0 v)[i]? = some w ∧ Marks [(0, x)] i w := by
      intro v x hv
      rw [hr, List.set_set]
      exact marks_cons (P := []) (fun i hi => ⟨FP.nan, by simp [hi], rfl⟩) (by simp) hv
    simp only [zigInit, e1, e2, Option.bind_eq_bind, Option.bind_some, l5, l6]
    by_cases g5 : d / 100 * bar (vals high) 0 ≤ bar (vals high) 0 - bar (vals low) j
    · rw [if_pos g5]
      exact .inr ⟨_, false, [(0, bar (vals high) 0)], _, _, rfl, ⟨mark c1, by simp [hr], rfl, c1, b2, hjl,
        ⟨j0, rfl, by simpa only [Leg, Bool.false_eq_true, if_false] using leg_lower hd (by linarith) g5, rfl, rfl⟩⟩⟩
    · rw [if_neg g5]
      by_cases g6 : d / 100 * bar (vals low) 0 ≤ bar (vals high) j - bar (vals low) 0
      · rw [if_pos g6]
        exact .inr ⟨_, true, [(0, bar (vals low) 0)], _, _, rfl, ⟨mark c2, by simp [hr], rfl, c2, b1, hjl,
          ⟨j0, rfl, by simpa only [Leg, if_true] using g6, rfl, rfl⟩⟩⟩
      · rw [if_neg g6]
        rcases ih fun k hk => hj k (by simp [hk]) with ⟨e, h⟩ | h
        · refine .inl ⟨e, fun k hk => ?_⟩
          rcases List.mem_cons.1 hk with rfl | hk
          · exact ⟨not_le.1 g5, not_le.1 g6⟩
          · exact h k hk
        · exact .inr h

/-- C66 in exact arithmetic, for finite bars with positive prices each narrower than the threshold: there is a list of pivots, tops and
bottoms in turn with legs of at least `d` percent, such that before the last bar exactly the pivots are reported. If no bar is `d`
percent away from the first one the only pivot is the low of bar 0. Otherwise a further leg of at least `d` percent leads to a bar `e`,
which is not reported, and the last bar reports its high if that leg falls and its low if it rises. -/
theorem zigzag_legs (distance : Option XF) (hdd : distance.getD 5 = dist) (hn : 2 ≤ high.length) :
    ∃ out top P, zigzag high low distance = some out ∧ out.length = high.length ∧ Pivots (vals high) (vals low) d top P ∧
      (∀ i, i < high.length - 1 → ∃ v, out[i]? = some v ∧ Marks P i v) ∧
      ((P = [(0, bar (vals low) 0)] ∧ ∀ j, 0 < j → j < high.length →
          bar (vals high) 0 - bar (vals low) j < d / 100 * bar (vals high) 0 ∧
          bar (vals high) j - bar (vals low) 0 < d / 100 * bar (vals low) 0) ∨
        ∃ e y, e < high.length ∧ Pivots (vals high) (vals low) d (!top) ((e, y) :: P) ∧
          ∃ v, out[high.length - 1]? = some v ∧
            v ⇓ if top then bar (vals high) (high.length - 1) else bar (vals low) (high.length - 1)) := by
  subst hdd
  have e0 : low[0]? = some (low[0]'(by omega)) := List.getElem?_eq_getElem _
  have e1 : high[0]? = some (high[0]'(by omega)) := List.getElem?_eq_getElem _
  have e2 : high.getLast? = some (high[high.length - 1]'(by omega)) := by
    rw [List.getLast?_eq_getElem?]; exact List.getElem?_eq_getElem _
  have e3 : low.getLast? = some (low[high.length - 1]'(by omega)) := by
    rw [List.getLast?_eq_getElem?, show low.length - 1 = high.length - 1 by omega]; exact List.getElem?_eq_getElem _
  have hj : ∀ j ∈ (List.range high.length).drop 1, 0 < j ∧ j < high.length := by
    intro j hj
    rw [List.range_eq_range', List.drop_range'] at hj
    simp at hj
    omega
  -- the end of the call, from the state after the main loop
  have finish : ∀ s2 : ZigState XF, s2.result.length = high.length → s2.result[high.length - 1]? = some FP.nan →
      (∀ s1 : ZigState XF, zigInit (distance.getD 5) (high[0]'(by omega)) (low[0]'(by omega)) high low ((List.range high.length).drop 1)
          ⟨(List.replicate high.length nan).set 0 (low[0]'(by omega)), (0, low[0]'(by omega)),
            (high.length - 1, high[high.length - 1]'(by omega))⟩ = some s1 →
        (if s1.fin.1 < high.length - 1 then
          ((List.range high.length).drop s1.fin.1).foldlM (zigStep (distance.getD 5) high low) s1 else some s1) = some s2 →
        zigzag high low distance = some (s2.result.set (high.length - 1) (if (s2.start.2 >. s2.fin.2) = true
          then high[high.length - 1]'(by omega) else low[high.length - 1]'(by omega)))) := by
    intro s2 hl2 hnan s1 q1 q2
    have e4 : s2.result.getLast? = some FP.nan := by rw [List.getLast?_eq_getElem?, hl2]; exact hnan
    simp only [zigzag, e0, e1, e2, e3, usub_of_le (show 1 ≤ high.length by omega), Option.bind_eq_bind, Option.bind_some, q1]
    have hN : Traquer.isNaN (FP.nan : XF) = true := isNaN_iff.2 rfl
    by_cases g : s1.fin.1 < high.length - 1
    · rw [if_pos g] at q2 ⊢
      simp only [q2, Option.bind_some, e4, hN, if_true, hl2]
      split_ifs <;> rfl
    · rw [if_neg g] at q2 ⊢
      cases q2
      simp only [Option.bind_some, e4, hN, if_true, hl2]
      split_ifs <;> rfl
  have hout : ∀ {P : List (ℕ × ℝ)} {s2 : ZigState XF} {v : XF}, (∀ i, i < high.length → ∃ v, s2.result[i]? = some v ∧ Marks P i v) →
      ∀ i, i < high.length - 1 → ∃ w, (s2.result.set (high.length - 1) v)[i]? = some w ∧ Marks P i w := by
    intro P s2 v h i hi
    obtain ⟨w, h1, h2⟩ := h i (by omega)
    exact ⟨w, by rw [List.getElem?_set_ne (by omega), h1], h2⟩
  rcases zigInit_leg hlen fh fl hd hdist hpos _ hj e1 e0 (s := ⟨(List.replicate high.length nan).set 0 (low[0]'(by omega)),
      (0, low[0]'(by omega)), (high.length - 1, high[high.length - 1]'(by omega))⟩) rfl with ⟨q1, hq⟩ | ⟨s1, top, P, x, y, q1, hs⟩
  · have hb : ∀ i, i < high.length → ∃ v, ((List.replicate high.length (FP.nan : XF)).set 0 (low[0]'(by omega)))[i]? = some v ∧
        Marks [(0, bar (vals low) 0)] i v :=
      marks_cons (P := []) (fun i hi => ⟨FP.nan, by simp [hi], rfl⟩) (by simp) (is_bar fl e0)
    refine ⟨_, false, [(0, bar (vals low) 0)], finish _ (by simp) ?_ _ q1 (if_neg (by simp)), by simp, ⟨rfl, rfl⟩, ?_,
      .inl ⟨rfl, fun j h1 h2 => hq j ?_⟩⟩
    · rw [List.getElem?_set_ne (by omega), List.getElem?_replicate, if_pos (by omega)]; rfl
    · exact hout hb
    · rw [List.range_eq_range', List.drop_range']; simp; omega
  · have : ∃ s2 top P x y, (if s1.fin.1 < high.length - 1 then
          ((List.range high.length).drop s1.fin.1).foldlM (zigStep (distance.getD 5) high low) s1 else some s1) = some s2 ∧
        ZigLeg high low d s2 top P x y := by
      split
      · obtain ⟨s2, top2, P2, x2, y2, q2, h2⟩ := zigLoop_leg hlen fh fl hd hdist hpos hnarrow (high.length - s1.fin.1) s1.fin.1
          (by omega) hs le_rfl
        refine ⟨s2, top2, P2, x2, y2, ?_, h2⟩
        rw [List.range_eq_range', List.drop_range']
        simpa using q2
      · exact ⟨s1, top, P, x, y, rfl, hs⟩
    obtain ⟨s2, top2, P2, x2, y2, q2, h2⟩ := this
    have hnan : s2.result[high.length - 1]? = some FP.nan := by
      obtain ⟨v, hv, hm⟩ := h2.buffer (high.length - 1) (by omega)
      rw [Marks, pivots_lookup_none h2.pivots (by have := h2.fin_lt; omega)] at hm
      rw [hv, hm]
    obtain ⟨⟨a, x'⟩, P', rfl⟩ : ∃ p P', P2 = p :: P' := by
      cases P2 with
      | nil => simpa using h2.head
      | cons p P' => exact ⟨_, _, rfl⟩
    have hhead := h2.head
    simp only [List.head?_cons, Option.some.injEq, Prod.mk.injEq] at hhead
    obtain ⟨rfl, hx⟩ := hhead
    obtain rfl : x2 = x' := hx.symm
    obtain ⟨w1, w2, w3, w4⟩ := h2.pivots
    have b1 : high[high.length - 1]'(by omega) ⇓ _ := is_bar fh (List.getElem?_eq_getElem _)
    have b2 : low[high.length - 1]'(by omega) ⇓ _ := is_bar fl (List.getElem?_eq_getElem _)
    refine ⟨_, !top2, _, finish s2 h2.length hnan s1 q1 q2, by simp [h2.length], w4, hout h2.buffer, 
      .inr ⟨s2.fin.1, y2, h2.fin_lt, by simpa using h2.pivots, _, List.getElem?_set_self (by rw [h2.length]; omega), ?_⟩⟩
    have y0 : 0 < y2 := by
      obtain ⟨q1, q2⟩ := hpos _ h2.fin_lt
      rw [w2]; split <;> linarith
    have x0 : 0 < x2 := by
      have := h2.fin_lt
      cases P' with
      | nil =>
        obtain ⟨-, e⟩ := w4
        obtain ⟨q1, q2⟩ := hpos 0 (by omega)
        rw [e]; split <;> linarith
      | cons p P'' =>
        obtain ⟨-, e, -, -⟩ := w4
        obtain ⟨q1, q2⟩ := hpos s2.start.1 (by omega)
        rw [e]; split <;> linarith
    have l1 := is_lt h2.fin_is h2.start_is
    cases top2
    · have : y2 < x2 := by
        have : d / 100 * y2 ≤ x2 - y2 := by simpa [Leg] using w3
        nlinarith
      simpa [l1, this] using b1
    · have : ¬ y2 < x2 := by
        have : d / 100 * x2 ≤ y2 - x2 := by simpa [Leg] using w3
        nlinarith
      simpa [l1, this] using b2

end legs

/-- The bound on the width of the bars is needed: the second bar spans more than the threshold. Its top, 130, is recorded and then
overwritten by its low, so that the output starts with two bottoms. -/
theorem zigzag_loses_top : zigzag [fin 100, fin 130, fin 120, (fin 118 : XF)] [fin 100, fin 100, fin 115, fin 110] none =
    some [fin 100, fin 100, fin 120, fin 118] := by
  evalx [zigzag, zigInit, zigStep, andThen, usub, List.range_succ, List.foldlM]
  rfl

/-! ## Examples -/

/-- The prices rise by a fifth, fall by a tenth and stay: bars 0 and 1 are pivots, and the falling leg ends at the last bar. -/
example : ∃ out top P, zigzag [fin 100, fin 120, (fin 108 : XF)] [fin 100, fin 120, fin 108] none = some out ∧ out.length = 3 ∧
    Pivots [100, 120, 108] [100, 120, 108] 5 top P ∧ (∀ i, i < 2 → ∃ v, out[i]? = some v ∧ Marks P i v) := by
  obtain ⟨out, top, P, h1, h2, h3, h4, -⟩ := zigzag_legs (high := [fin 100, fin 120, (fin 108 : XF)]) (low := [fin 100, fin 120, fin 108])
    (d := 5) rfl (by simp [Fins]) (by simp [Fins]) (by norm_num) (is_lit 5) (fun i hi => by
      match i, hi with
      | 0, _ => norm_num [bar, vals]
      | 1, _ => norm_num [bar, vals]
      | 2, _ => norm_num [bar, vals]) (fun i hi => by
      match i, hi with
      | 0, _ => norm_num [bar, vals]
      | 1, _ => norm_num [bar, vals]
      | 2, _ => norm_num [bar, vals]) none rfl (by simp)
  exact ⟨out, top, P, h1, h2, by simpa [vals] using h3, h4⟩

example : Pivots [100, 120, 108] [100, 120, 108] 5 true [(1, 120), (0, 100)] := by norm_num [Pivots, Leg, bar]

example : ∃ out, zigzag [fin 100, fin 130, fin 120, (fin 118 : XF)] [fin 100, fin 100, fin 115, fin 110] none = some out ∧
    ∀ i v, out[i]? = some v → v = FP.nan ∨ IsPrice [fin 100, fin 130, fin 120, fin 118] [fin 100, fin 100, fin 115, fin 110] i v := by
  obtain ⟨out, h1, -, h2, -⟩ := zigzag_prices (high := [fin 100, fin 130, fin 120, (fin 118 : XF)])
    (low := [fin 100, fin 100, fin 115, fin 110]) rfl none (by simp)
  exact ⟨out, h1, h2⟩

end Traquer.Trend
