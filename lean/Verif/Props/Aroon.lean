import Verif.Lemmas.Rounded
import Verif.Lemmas.Items
import Verif.Model.Trend
/-!
# C32: aroon, in every monotone rounding
-/

namespace Traquer.Volatility
open FP FloatLit
variable {ρ : Rounding}

/-- The fold of `argBest` from index `off` on: the state keeps the last best value. -/
theorem argFold_spec {better : FP ρ → FP ρ → Bool} {R : ℝ → ℝ → Prop}
    (hb : ∀ x y a b, x ⇓ a → y ⇓ b → (better x y = true ↔ R a b)) (tot : ∀ a b, R a b ∨ R b a)
    (tr : ∀ a b c, R a b → R b c → R a c) (l : List (FP ρ)) (hl : Fins l) (off k : ℕ) (x : FP ρ) (u : ℝ) (hx : x ⇓ u) :
    ∃ k' x' u', ((List.range' off l.length).zip l).foldl
        (fun (st : ℕ × FP ρ) (p : ℕ × FP ρ) => if better p.2 st.2 then (p.1, p.2) else st) (k, x) = (k', x') ∧ x' ⇓ u' ∧
      R u' u ∧ (∀ y ∈ vals l, R u' y) ∧
      (k' = k ∧ (∀ y ∈ vals l, ¬ R y u') ∧ u' = u ∨
        ∃ j, k' = off + j ∧ (vals l)[j]? = some u' ∧ ∀ i y, j < i → (vals l)[i]? = some y → ¬ R y u') := by
  induction l generalizing off k x u with
  | nil => exact ⟨k, x, u, by simp, hx, (tot u u).elim id id, by simp, Or.inl ⟨rfl, by simp, rfl⟩⟩
  | cons y l ih =>
    have hy := (hl y (by simp)).is
    have hl' : Fins l := fun z hz => hl z (by simp [hz])
    simp only [List.length_cons, List.range'_succ, List.zip_cons_cons, List.foldl_cons, vals_cons]
    by_cases c : better y x = true
    · rw [if_pos c]
      obtain ⟨k', x', u', e, hx', r1, r2, h⟩ := ih hl' (off + 1) off y _ hy
      have r3 := (hb _ _ _ _ hy hx).1 c
      refine ⟨k', x', u', e, hx', tr _ _ _ r1 r3, by simpa using ⟨r1, r2⟩, Or.inr ?_⟩
      rcases h with ⟨rfl, h, rfl⟩ | ⟨j, rfl, h1, h2⟩
      · refine ⟨0, rfl, rfl, fun i z hi hz => ?_⟩
        obtain ⟨i, rfl⟩ : ∃ i', i = i' + 1 := ⟨i - 1, by omega⟩
        rw [List.getElem?_cons_succ] at hz
        exact h z (List.mem_of_getElem? hz)
      · refine ⟨j + 1, by omega, h1, fun i z hi hz => ?_⟩
        obtain ⟨i, rfl⟩ : ∃ i', i = i' + 1 := ⟨i - 1, by omega⟩
        exact h2 i z (by omega) hz
    · rw [if_neg c]
      obtain ⟨k', x', u', e, hx', r1, r2, h⟩ := ih hl' (off + 1) k x _ hx
      have r3 : ¬ R y.val u := fun h => c ((hb _ _ _ _ hy hx).2 h)
      have r4 := (tot u y.val).resolve_right r3
      refine ⟨k', x', u', e, hx', r1, by simpa using ⟨tr _ _ _ r1 r4, r2⟩, ?_⟩
      rcases h with ⟨rfl, h, rfl⟩ | ⟨j, rfl, h1, h2⟩
      · exact Or.inl ⟨rfl, by simpa using ⟨r3, h⟩, rfl⟩
      · refine Or.inr ⟨j + 1, by omega, h1, fun i z hi hz => ?_⟩
        obtain ⟨i, rfl⟩ : ∃ i', i = i' + 1 := ⟨i - 1, by omega⟩
        exact h2 i z (by omega) hz

/-- `argBest` with a reflexive order finds the last best position. -/
theorem argBest_spec {better : FP ρ → FP ρ → Bool} {R : ℝ → ℝ → Prop}
    (hb : ∀ x y a b, x ⇓ a → y ⇓ b → (better x y = true ↔ R a b)) (tot : ∀ a b, R a b ∨ R b a)
    (tr : ∀ a b c, R a b → R b c → R a c) (l : List (FP ρ)) (hl : Fins l) (hne : l ≠ []) :
    ∃ j m, argBest better l = some j ∧ (vals l)[j]? = some m ∧ (∀ y ∈ vals l, R m y) ∧
      ∀ i y, j < i → (vals l)[i]? = some y → ¬ R y m := by
  obtain ⟨x, t, rfl⟩ := List.exists_cons_of_ne_nil hne
  obtain ⟨k', x', u', e, -, -, r, h⟩ := argFold_spec hb tot tr (x :: t) hl 0 0 x _ (hl x (by simp)).is
  refine ⟨k', u', ?_, ?_, r, ?_⟩
  · rw [← List.range_eq_range'] at e
    simp only [argBest, List.getElem?_cons_zero, Option.bind_eq_bind, Option.bind_some]
    erw [e]
  · rcases h with ⟨rfl, h, rfl⟩ | ⟨j, rfl, h1, h2⟩
    · rfl
    · simpa using h1
  · rcases h with ⟨rfl, h, rfl⟩ | ⟨j, rfl, h1, h2⟩
    · exact fun i y _ hy => h y (List.mem_of_getElem? hy)
    · simpa using h2

end Traquer.Volatility

namespace Traquer.Trend
open FP FloatLit
open Traquer.Volatility (argBest argBest_spec)
variable {ρ : Rounding}

theorem getElem?_recent {l : List ℝ} {w i j : ℕ} (h : w + 1 ≤ i + 1) (hj : j ≤ w) :
    (recent l (w + 1) i)[j]? = l[i - (w - j)]? := by
  rw [recent, List.getElem?_take_of_lt (by omega), List.getElem?_drop]
  exact congrArg (l[·]?) (by omega)

/-- C32: `aroon` yields, from bar `w` on, `(w - a) / w * 100` and `(w - b) / w * 100` where `a` and `b` are the numbers of
bars since the most recent highest high and lowest low of the last `w + 1` bars. This holds in every rounding. -/
theorem aroon_items (high low : List (FP ρ)) (w : ℕ) (hn : w ≤ high.length) (hl : low.length = high.length) (fh : Fins high)
    (fl : Fins low) :
    Items high.length w (fun i p => ∃ a b, BarsSinceHigh (vals high) w i a ∧ BarsSinceLow (vals low) w i b ∧
      p = (flt (w - a) / flt w * 100, flt (w - b) / flt w * 100)) (aroon high low w) := by
  have h := items_windows2 (a := high) (b := low) (w := w + 1) (d := ((nan, nan) : FP ρ × FP ρ))
    (f := fun ((h, l) : List (FP ρ) × List (FP ρ)) => do
      let hh ← argBest (fun (x y : FP ρ) => x >=. y) h
      let ll ← argBest (fun (x y : FP ρ) => x <=. y) l
      some ((flt hh : FP ρ) / flt w * 100, (flt ll : FP ρ) / flt w * 100))
    (P := fun i p => ∃ a b, BarsSinceHigh (vals high) w i a ∧ BarsSinceLow (vals low) w i b ∧
      p = (flt (w - a) / flt w * 100, flt (w - b) / flt w * 100)) (by omega) hl (by omega) fun i h1 h2 => ?_
  · run_model [aroon]
    exact h
  obtain ⟨j, m, e1, e2, e3, e4⟩ := argBest_spec (better := fun x y : FP ρ => x >=. y) (R := fun a b => b ≤ a)
    (fun x y a b hx hy => by show (y <=. x) = true ↔ _; rw [is_le hy hx, decide_eq_true_iff]) (fun a b => le_total b a) (fun a b c h1 h2 => h2.trans h1)
    (recent high (w + 1) i) (fh.recent _ _) (by rw [← List.length_pos_iff, recent_length h1 h2]; omega)
  obtain ⟨j', m', e1', e2', e3', e4'⟩ := argBest_spec (better := fun x y : FP ρ => x <=. y) (R := fun a b => a ≤ b)
    (fun x y a b hx hy => by rw [is_le hx hy, decide_eq_true_iff]) le_total (fun a b c h1 h2 => h1.trans h2)
    (recent low (w + 1) i) (fl.recent _ _) (by rw [← List.length_pos_iff, recent_length h1 (by omega)]; omega)
  have hj := (List.getElem?_eq_some_iff.1 e2).1
  have hj' := (List.getElem?_eq_some_iff.1 e2').1
  rw [vals_length, recent_length h1 (by omega)] at hj hj'
  rw [recent_vals] at e2 e3 e4 e2' e3' e4'
  refine ⟨_, by simp only [e1, e1', Option.bind_eq_bind, Option.bind_some]; rfl, w - j, w - j', ⟨by omega, m, ?_, ?_, ?_⟩,
    ⟨by omega, m', ?_, ?_, ?_⟩, by rw [show w - (w - j) = j by omega, show w - (w - j') = j' by omega]⟩
  · rwa [← getElem?_recent h1 (by omega)]
  · intro k x k1 k2 hk
    rw [show k = i - (w - (k - (i - w))) by omega, ← getElem?_recent h1 (by omega)] at hk
    exact e3 x (List.mem_of_getElem? hk)
  · intro k x k1 k2 hk
    rw [show k = i - (w - (k - (i - w))) by omega, ← getElem?_recent h1 (by omega)] at hk
    exact not_le.1 (e4 _ x (by omega) hk)
  · rwa [← getElem?_recent h1 (by omega)]
  · intro k x k1 k2 hk
    rw [show k = i - (w - (k - (i - w))) by omega, ← getElem?_recent h1 (by omega)] at hk
    exact e3' x (List.mem_of_getElem? hk)
  · intro k x k1 k2 hk
    rw [show k = i - (w - (k - (i - w))) by omega, ← getElem?_recent h1 (by omega)] at hk
    exact not_le.1 (e4' _ x (by omega) hk)

/-- C32: in every rounding both lines of `aroon` are numbers between 0 and 100. -/
theorem aroon_range (high low : List (FP ρ)) (w : ℕ) (hw : 1 ≤ w) (hw' : w ≤ 2 ^ 53) (hn : w ≤ high.length)
    (hl : low.length = high.length) (fh : Fins high) (fl : Fins low) :
    Items high.length w (fun _ p => (∃ r, p.1 ⇓ r ∧ 0 ≤ r ∧ r ≤ 100) ∧ ∃ r, p.2 ⇓ r ∧ 0 ≤ r ∧ r ≤ 100) (aroon high low w) := by
  have key : ∀ a : ℕ, ∃ r, (flt (w - a) / flt w * 100 : FP ρ) ⇓ r ∧ 0 ≤ r ∧ r ≤ 100 := fun a => by
    have hp := Smooth.natCast_pos hw
    have hle : ((w - a : ℕ) : ℝ) ≤ w := by exact_mod_cast Nat.sub_le w a
    obtain ⟨q, hq, q0, q1⟩ := (rounds_div (ρ := ρ) (isFlt (n := w - a) (by omega)) (isFlt hw') hp.ne').between (n := 1)
      (by norm_num) (by positivity) (by rw [Nat.cast_one, div_le_one hp]; exact hle)
    rw [Nat.cast_one] at q1
    obtain ⟨r, hr, r0, r1⟩ := (rounds_mul hq (isLit (ρ := ρ) 100 (by norm_num))).between (n := 100) (by norm_num)
      (by have : (0:ℝ) ≤ OfNat.ofNat 100 := by norm_num
          exact mul_nonneg q0 this) (by norm_num; linarith)
    exact ⟨r, hr, r0, by simpa using r1⟩
  refine (aroon_items high low w hn hl fh fl).mono fun i p _ _ h => ?_
  obtain ⟨a, b, -, -, rfl⟩ := h
  exact ⟨key a, key b⟩

/-- C32: in exact arithmetic the two lines are `100 * (w - a) / w` and `100 * (w - b) / w`. -/
theorem aroon_exact (high low : List XF) (w : ℕ) (hw : 1 ≤ w) (hn : w ≤ high.length) (hl : low.length = high.length)
    (fh : Fins high) (fl : Fins low) :
    Items high.length w (fun i p => ∃ a b : ℕ, BarsSinceHigh (vals high) w i a ∧ BarsSinceLow (vals low) w i b ∧
      p.1 ⇓ 100 * (w - a) / w ∧ p.2 ⇓ 100 * (w - b) / w) (aroon high low w) := by
  refine (aroon_items high low w hn hl fh fl).mono fun i p _ _ h => ?_
  obtain ⟨a, b, ha, hb, rfl⟩ := h
  have hp := Smooth.natCast_pos hw
  have key : ∀ a : ℕ, a ≤ w → (flt (w - a) / flt w * 100 : XF) ⇓ 100 * (w - a) / w := fun a ha =>
    (is_mul (is_div (is_flt _) (is_flt w) hp.ne') (is_lit 100)).congr (by rw [Nat.cast_sub ha]; ring)
  exact ⟨a, b, ha, hb, key a ha.1, key b hb.1⟩

example (ρ : Rounding) : Items 5 2 (fun _ p => (∃ r, p.1 ⇓ r ∧ 0 ≤ r ∧ r ≤ 100) ∧ ∃ r, p.2 ⇓ r ∧ 0 ≤ r ∧ r ≤ 100)
    (aroon ([3, 5, 6, 6, 9].map (fin : ℝ → FP ρ)) ([1, 2, 4, 3, 5].map fin) 2) :=
  aroon_range _ _ 2 (by decide) (by norm_num) (by simp) rfl (fins_map_fin _) (fins_map_fin _)

/-- In the series 3, 5, 6, 6, 9 the most recent high of bars 1..3 is at bar 3, not bar 2. -/
example : BarsSinceHigh [3, 5, 6, 6, 9] 2 3 0 ∧ ¬ BarsSinceHigh [3, 5, 6, 6, 9] 2 3 1 := by
  refine ⟨⟨by decide, 6, rfl, fun j x h1 h2 hx => ?_, fun j x h1 h2 hx => by omega⟩, ?_⟩
  · obtain rfl | rfl | rfl : j = 1 ∨ j = 2 ∨ j = 3 := by omega
    all_goals simp at hx; subst hx; norm_num
  · rintro ⟨-, m, h, -, h2⟩
    simp at h
    have := h2 3 6 (by decide) (by decide) rfl
    linarith

end Traquer.Trend
