import Verif.Props.Identities
import Verif.Props.Saturate
/-!
# What an extreme reading means (C100)

An indicator with a bounded scale reaches the end of its scale exactly when the bars are of one kind, in exact arithmetic: the converse
of what C88 says about steady trends, and without the demand that every bar moves.
-/

namespace Traquer
open FP

/-- Between bar `a` and bar `b` no step goes down. -/
def NeverFalls (v : ℕ → ℝ) (a b : ℕ) : Prop := ∀ j, a < j → j ≤ b → v (j - 1) ≤ v j

/-- Between bar `a` and bar `b` no step goes up. -/
def NeverRises (v : ℕ → ℝ) (a b : ℕ) : Prop := ∀ j, a < j → j ≤ b → v j ≤ v (j - 1)

theorem NeverFalls.le {v : ℕ → ℝ} {a b : ℕ} (h : NeverFalls v a b) {c d : ℕ} (h1 : a ≤ c) (h2 : c ≤ d) (h3 : d ≤ b) : v c ≤ v d := by
  induction d, h2 using Nat.le_induction with
  | base => rfl
  | succ d hd ih => exact (ih (by omega)).trans (h (d + 1) (by omega) h3)

/-- Without a fall, some step goes up if and only if the last value exceeds the first. -/
theorem NeverFalls.not_rises {v : ℕ → ℝ} {a b : ℕ} (hab : a ≤ b) (h : NeverFalls v a b) : ¬ NeverRises v a b ↔ v a < v b := by
  constructor
  · intro hn
    rw [NeverRises] at hn
    push Not at hn
    obtain ⟨j, h1, h2, h3⟩ := hn
    exact ((h.le le_rfl (by omega) (by omega)).trans_lt h3).trans_le (h.le (by omega) h2 le_rfl)
  · intro hlt hr
    have : ∀ d, a ≤ d → d ≤ b → v d ≤ v a := by
      intro d hd
      induction d, hd using Nat.le_induction with
      | base => intro; rfl
      | succ d hd ih => intro h3; exact (hr (d + 1) (by omega) h3).trans (ih (by omega))
    exact absurd (this b hab le_rfl) (not_le.2 hlt)

theorem neverFalls_neg {v : ℕ → ℝ} {a b : ℕ} : NeverFalls (fun j => -v j) a b ↔ NeverRises v a b := by
  simp only [NeverFalls, NeverRises, neg_le_neg_iff]

theorem neverRises_neg {v : ℕ → ℝ} {a b : ℕ} : NeverRises (fun j => -v j) a b ↔ NeverFalls v a b := by
  simp only [NeverFalls, NeverRises, neg_le_neg_iff]

theorem NeverRises.not_falls {v : ℕ → ℝ} {a b : ℕ} (hab : a ≤ b) (h : NeverRises v a b) : ¬ NeverFalls v a b ↔ v b < v a := by
  rw [← neverRises_neg, (neverFalls_neg.2 h).not_rises hab, neg_lt_neg_iff]

/-! ## The value shown, as an equivalence -/

theorem ReportsP.shows_iff {ρ : Rounding} {n k : ℕ} {P : ℕ → FP ρ → Prop} {r : Option (List (FP ρ))} (h : ReportsP n k P r) {i : ℕ} (h1 : k ≤ i)
    (h2 : i < n) {v : ℝ} {Q : Prop} (hq : ∀ y, P i y → (y ⇓ v ↔ Q)) : Shows i r v ↔ Q := by
  obtain ⟨o, e, -, -, ho⟩ := h
  obtain ⟨y, hy, hp⟩ := ho i h1 h2
  rw [← hq y hp]
  refine ⟨fun ⟨o', y', e', hy', h⟩ => ?_, fun h => ⟨o, y, e, hy, h⟩⟩
  obtain rfl := Option.some.inj (e.symm.trans e')
  obtain rfl := Option.some.inj (hy.symm.trans hy')
  exact h

theorem Reports.shows_iff {ρ : Rounding} {n k : ℕ} {v : ℕ → ℝ} {r : Option (List (FP ρ))} (h : Reports n k v r) {i : ℕ} (h1 : k ≤ i)
    (h2 : i < n) {u : ℝ} : Shows i r u ↔ v i = u :=
  ⟨fun h' => (h.shows h1 h2).unique h', fun e => (h.shows h1 h2).congr e⟩

theorem is_iff_eq {ρ : Rounding} {y : FP ρ} {u v : ℝ} (h : y ⇓ u) : y ⇓ v ↔ u = v :=
  ⟨fun h' => h.2.symm.trans h'.2, fun e => e ▸ h⟩

theorem nan_not_is {ρ : Rounding} {v : ℝ} : ¬ (FP.nan : FP ρ) ⇓ v := fun h => by simpa [FP.Finite] using h.1

theorem QuotIs.is_iff {a b v : ℝ} {y : XF} (h : QuotIs a b y) : y ⇓ v ↔ b ≠ 0 ∧ a / b = v := by
  by_cases hb : b = 0
  · refine ⟨fun hy => ?_, fun hy => absurd hb hy.1⟩
    by_cases ha : a = 0
    · rw [h.2.1 hb ha] at hy; exact absurd hy nan_not_is
    · obtain ⟨s, rfl⟩ := h.2.2 hb ha
      exact absurd hy.1 (by simp [FP.Finite])
  · rw [is_iff_eq (h.1 hb)]; simp [hb]

theorem share_full {P N : ℝ} : (P + N ≠ 0 ∧ 100 * P / (P + N) = 100) ↔ N = 0 ∧ P ≠ 0 := by
  constructor
  · rintro ⟨h1, h2⟩
    rw [div_eq_iff h1] at h2
    have : N = 0 := by linarith
    exact ⟨this, by rwa [this, add_zero] at h1⟩
  · rintro ⟨rfl, h⟩
    rw [add_zero]
    exact ⟨h, by field_simp⟩

theorem share_empty {P N : ℝ} : (P + N ≠ 0 ∧ 100 * P / (P + N) = 0) ↔ P = 0 ∧ N ≠ 0 := by
  constructor
  · rintro ⟨h1, h2⟩
    rw [div_eq_iff h1] at h2
    have : P = 0 := by linarith
    exact ⟨this, by rwa [this, zero_add] at h1⟩
  · rintro ⟨rfl, h⟩
    rw [zero_add]
    exact ⟨h, by simp⟩

/-! ## Sums and averages that vanish -/

theorem mem_lastOf {v : ℕ → ℝ} {w i : ℕ} (h : w ≤ i + 1) {x : ℝ} : x ∈ lastOf v w i ↔ ∃ j, i + 1 - w ≤ j ∧ j ≤ i ∧ v j = x := by
  rw [lastOf, List.mem_map]
  constructor
  · rintro ⟨j, hj, rfl⟩
    have := List.mem_range.1 hj
    exact ⟨_, by omega, by omega, rfl⟩
  · rintro ⟨j, h1, h2, rfl⟩
    exact ⟨j - (i + 1 - w), List.mem_range.2 (by omega), by congr 1; omega⟩

theorem sum_zero_iff {l : List ℝ} (h : ∀ x ∈ l, 0 ≤ x) : l.sum = 0 ↔ ∀ x ∈ l, x = 0 :=
  ⟨fun e x hx => le_antisymm (e ▸ List.single_le_sum h x hx) (h x hx), fun e => List.sum_eq_zero e⟩

theorem lastOf_sum_zero {v : ℕ → ℝ} {w i : ℕ} (hi : w ≤ i + 1) (h : ∀ j, i + 1 - w ≤ j → j ≤ i → 0 ≤ v j) :
    (lastOf v w i).sum = 0 ↔ ∀ j, i + 1 - w ≤ j → j ≤ i → v j = 0 := by
  rw [sum_zero_iff fun x hx => by obtain ⟨j, h1, h2, rfl⟩ := (mem_lastOf hi).1 hx; exact h j h1 h2]
  exact ⟨fun e j h1 h2 => e _ ((mem_lastOf hi).2 ⟨j, h1, h2, rfl⟩), fun e x hx => by
    obtain ⟨j, h1, h2, rfl⟩ := (mem_lastOf hi).1 hx; exact e j h1 h2⟩

/-- The mean of values that are at most `c` is `c` only if each of them is. -/
theorem mean_top_iff {l : List ℝ} {c : ℝ} (hl : l ≠ []) (h : ∀ x ∈ l, x ≤ c) : mean l = c ↔ ∀ x ∈ l, x = c := by
  have e : mean (l.map fun x => c - x) = c - mean l := by
    have := Smooth.mean_affine (-1) c l hl
    rw [show (fun x => c - x) = fun x : ℝ => -1 * x + c by funext x; ring, this]; ring
  have key := mean_eq_zero_iff (l := l.map fun x => c - x) fun x hx => by
    obtain ⟨y, hy, rfl⟩ := List.mem_map.1 hx; linarith [h y hy]
  rw [e] at key
  constructor
  · intro hm x hx
    have := key.1 (by linarith) _ (List.mem_map.2 ⟨x, hx, rfl⟩)
    linarith
  · intro hx
    have := key.2 fun y hy => by obtain ⟨z, hz, rfl⟩ := List.mem_map.1 hy; rw [hx z hz, sub_self]
    linarith

theorem mean_bottom_iff {l : List ℝ} {c : ℝ} (hl : l ≠ []) (h : ∀ x ∈ l, c ≤ x) : mean l = c ↔ ∀ x ∈ l, x = c := by
  have e : mean (l.map fun x => x + -c) = mean l + -c := mean_add _ hl
  have key := mean_eq_zero_iff (l := l.map fun x => x + -c) fun x hx => by
    obtain ⟨y, hy, rfl⟩ := List.mem_map.1 hx; linarith [h y hy]
  rw [e] at key
  constructor
  · intro hm x hx
    have := key.1 (by linarith) _ (List.mem_map.2 ⟨x, hx, rfl⟩)
    linarith
  · intro hx
    have := key.2 fun y hy => by obtain ⟨z, hz, rfl⟩ := List.mem_map.1 hy; rw [hx z hz]; ring
    linarith

theorem lastOf_ne_nil {v : ℕ → ℝ} {w i : ℕ} (hw : 1 ≤ w) : lastOf v w i ≠ [] := by
  intro h
  have := congrArg List.length h
  simp [lastOf] at this
  omega

theorem mean_lastOf_top {v : ℕ → ℝ} {w i : ℕ} {c : ℝ} (hw : 1 ≤ w) (hi : w ≤ i + 1) (h : ∀ j, i + 1 - w ≤ j → j ≤ i → v j ≤ c) :
    mean (lastOf v w i) = c ↔ ∀ j, i + 1 - w ≤ j → j ≤ i → v j = c := by
  rw [mean_top_iff (lastOf_ne_nil hw) fun x hx => by obtain ⟨j, h1, h2, rfl⟩ := (mem_lastOf hi).1 hx; exact h j h1 h2]
  exact ⟨fun e j h1 h2 => e _ ((mem_lastOf hi).2 ⟨j, h1, h2, rfl⟩), fun e x hx => by
    obtain ⟨j, h1, h2, rfl⟩ := (mem_lastOf hi).1 hx; exact e j h1 h2⟩

theorem mean_lastOf_bottom {v : ℕ → ℝ} {w i : ℕ} {c : ℝ} (hw : 1 ≤ w) (hi : w ≤ i + 1) (h : ∀ j, i + 1 - w ≤ j → j ≤ i → c ≤ v j) :
    mean (lastOf v w i) = c ↔ ∀ j, i + 1 - w ≤ j → j ≤ i → v j = c := by
  rw [mean_bottom_iff (lastOf_ne_nil hw) fun x hx => by obtain ⟨j, h1, h2, rfl⟩ := (mem_lastOf hi).1 hx; exact h j h1 h2]
  exact ⟨fun e j h1 h2 => e _ ((mem_lastOf hi).2 ⟨j, h1, h2, rfl⟩), fun e x hx => by
    obtain ⟨j, h1, h2, rfl⟩ := (mem_lastOf hi).1 hx; exact e j h1 h2⟩

/-- Wilder's average of non-negative values over at least two bars is 0 only if all values so far are. -/
theorem wilderOf_zero_iff {w : ℕ} {l : List ℝ} (hw : 2 ≤ w) {i : ℕ} (h1 : w ≤ i + 1) (h2 : i < l.length) (h : ∀ x ∈ l, 0 ≤ x) :
    wilderOf w l i = 0 ↔ ∀ j, j ≤ i → bar l j = 0 := by
  have hw' : (2 : ℝ) ≤ w := by exact_mod_cast hw
  have base : mean (l.take w) = 0 ↔ ∀ j, j + 1 ≤ w → bar l j = 0 := by
    rw [mean_eq_zero_iff fun x hx => h x (List.mem_of_mem_take hx)]
    constructor
    · intro e j hj
      have hjl : j < l.length := by omega
      refine e _ (List.mem_iff_getElem?.2 ⟨j, ?_⟩)
      rw [List.getElem?_take_of_lt (by omega), bar, List.getD_eq_getElem?_getD, List.getElem?_eq_getElem hjl, Option.getD_some]
    · intro e x hx
      obtain ⟨j, hj⟩ := List.mem_iff_getElem?.1 hx
      have : j < w := by
        have := (List.getElem?_eq_some_iff.1 hj).1
        rw [List.length_take] at this; omega
      rw [List.getElem?_take_of_lt this] at hj
      rw [← bar_eq hj]
      exact e j (by omega)
  induction i with
  | zero => omega
  | succ i ih =>
    by_cases hc : i + 1 < w
    · obtain rfl : w = i + 2 := by omega
      rw [wilderOf, if_pos (by omega), base]
      exact ⟨fun e j hj => e j (by omega), fun e j hj => e j (by omega)⟩
    · rw [wilderOf, if_neg hc]
      have hn := Momentum.wilderOf_nonneg (w := w) (l := l) (i := i) (by omega) (by omega) (by omega) h
      have hb : l[i + 1]?.getD 0 = bar l (i + 1) := by rw [bar, List.getD_eq_getElem?_getD]
      have hbn : 0 ≤ bar l (i + 1) := by
        have : l[i + 1]? = some (l[i + 1]) := List.getElem?_eq_getElem h2
        rw [bar_eq this]
        exact h _ (List.getElem_mem h2)
      rw [hb, div_eq_zero_iff, or_iff_left (by linarith)]
      have hm : 0 ≤ wilderOf w l i * (w - 1) := mul_nonneg hn (by linarith)
      constructor
      · intro e j hj
        have e1 : wilderOf w l i * (w - 1) = 0 := by linarith
        rcases mul_eq_zero.1 e1 with e1 | e1
        · rcases Nat.lt_or_ge i j with hj' | hj'
          · obtain rfl : j = i + 1 := by omega
            linarith
          · exact (ih (by omega) (by omega)).1 e1 j hj'
        · linarith
      · intro e
        rw [(ih (by omega) (by omega)).2 fun j hj => e j (by omega), e (i + 1) le_rfl]; ring

theorem bar_rises {l : List ℝ} {j : ℕ} (hj : j + 1 < l.length) : bar (rises l) j = max 0 (bar l (j + 1) - bar l j) := by
  refine bar_eq ?_
  rw [rises, List.getElem?_map, pairs_getElem?]
  simp [bar, List.getD_eq_getElem?_getD, List.getElem?_eq_getElem hj, List.getElem?_eq_getElem (show j < l.length by omega)]

theorem bar_falls {l : List ℝ} {j : ℕ} (hj : j + 1 < l.length) : bar (falls l) j = max 0 (bar l j - bar l (j + 1)) := by
  refine bar_eq ?_
  rw [falls, List.getElem?_map, pairs_getElem?]
  simp [bar, List.getD_eq_getElem?_getD, List.getElem?_eq_getElem hj, List.getElem?_eq_getElem (show j < l.length by omega)]

theorem max_zero_iff {x y : ℝ} : max 0 (x - y) = 0 ↔ x ≤ y := by rw [max_eq_left_iff, sub_nonpos]

theorem rises_zero_iff {l : List ℝ} {i : ℕ} (hi : i < l.length) : (∀ j, j + 1 ≤ i → bar (rises l) j = 0) ↔ NeverRises (bar l) 0 i := by
  constructor
  · intro h j h1 h2
    have := h (j - 1) (by omega)
    rw [bar_rises (by omega), max_zero_iff, Nat.sub_add_cancel h1] at this
    exact this
  · intro h j hj
    rw [bar_rises (by omega), max_zero_iff]
    exact h (j + 1) (by omega) hj

theorem falls_zero_iff {l : List ℝ} {i : ℕ} (hi : i < l.length) : (∀ j, j + 1 ≤ i → bar (falls l) j = 0) ↔ NeverFalls (bar l) 0 i := by
  constructor
  · intro h j h1 h2
    have := h (j - 1) (by omega)
    rw [bar_falls (by omega), max_zero_iff, Nat.sub_add_cancel h1] at this
    exact this
  · intro h j hj
    rw [bar_falls (by omega), max_zero_iff]
    exact h (j + 1) (by omega) hj

theorem zero_of_bars {l : List ℝ} : (∀ x ∈ l, x = 0) ↔ ∀ j, j < l.length → bar l j = 0 := by
  constructor
  · intro h j hj
    rw [bar_eq (List.getElem?_eq_getElem hj)]
    exact h _ (List.getElem_mem hj)
  · intro h x hx
    obtain ⟨j, hj⟩ := List.mem_iff_getElem?.1 hx
    rw [← bar_eq hj]
    exact h j (List.getElem?_eq_some_iff.1 hj).1

theorem neverFalls_recent {l : List ℝ} {w i : ℕ} (h1 : w ≤ i) : NeverFalls (bar (recent l (w + 1) i)) 0 w ↔ NeverFalls (bar l) (i - w) i := by
  constructor
  · intro h j h2 h3
    have := h (j - (i - w)) (by omega) (by omega)
    rw [bar_recent (by omega), bar_recent (by omega)] at this
    rwa [show i + 1 - (w + 1) + (j - (i - w) - 1) = j - 1 by omega, show i + 1 - (w + 1) + (j - (i - w)) = j by omega] at this
  · intro h j h2 h3
    rw [bar_recent (by omega), bar_recent (by omega)]
    have := h (i + 1 - (w + 1) + j) (by omega) (by omega)
    rwa [show i + 1 - (w + 1) + j - 1 = i + 1 - (w + 1) + (j - 1) by omega] at this

theorem neverRises_recent {l : List ℝ} {w i : ℕ} (h1 : w ≤ i) : NeverRises (bar (recent l (w + 1) i)) 0 w ↔ NeverRises (bar l) (i - w) i := by
  constructor
  · intro h j h2 h3
    have := h (j - (i - w)) (by omega) (by omega)
    rw [bar_recent (by omega), bar_recent (by omega)] at this
    rwa [show i + 1 - (w + 1) + (j - (i - w) - 1) = j - 1 by omega, show i + 1 - (w + 1) + (j - (i - w)) = j by omega] at this
  · intro h j h2 h3
    rw [bar_recent (by omega), bar_recent (by omega)]
    have := h (i + 1 - (w + 1) + j) (by omega) (by omega)
    rwa [show i + 1 - (w + 1) + j - 1 = i + 1 - (w + 1) + (j - 1) by omega] at this

namespace Momentum

section
variable (data : List XF) {w i : ℕ}

private theorem rsi_parts (hw : 2 ≤ w) (h1 : w ≤ i) (h2 : i < data.length) :
    (wilderOf w (rises (vals data)) (i - 1) = 0 ↔ NeverRises (bar (vals data)) 0 i) ∧
    (wilderOf w (falls (vals data)) (i - 1) = 0 ↔ NeverFalls (bar (vals data)) 0 i) := by
  have lr := rises_length (vals data)
  have lf := falls_length (vals data)
  rw [vals_length] at lr lf
  refine ⟨?_, ?_⟩
  · rw [wilderOf_zero_iff hw (by omega) (by omega) fun x hx => rises_nonneg hx, ← rises_zero_iff (by rw [vals_length]; exact h2)]
    exact ⟨fun h j hj => h j (by omega), fun h j hj => h j (by omega)⟩
  · rw [wilderOf_zero_iff hw (by omega) (by omega) fun x hx => falls_nonneg hx, ← falls_zero_iff (by rw [vals_length]; exact h2)]
    exact ⟨fun h j hj => h j (by omega), fun h j hj => h j (by omega)⟩

/-- C100: `rsi` over two bars or more is 100 exactly when the price has not fallen once since the first bar and has risen. -/
theorem rsi_hundred (hw : 2 ≤ w) (hd : Fins data) (h1 : w ≤ i) (h2 : i < data.length) :
    Shows i (rsi data w) 100 ↔ NeverFalls (bar (vals data)) 0 i ∧ bar (vals data) 0 < bar (vals data) i := by
  obtain ⟨hp, hn⟩ := rsi_parts data hw h1 h2
  rw [(rsi_reports data w (by omega) (by omega) hd).shows_iff h1 h2 fun y hy => hy.is_iff.trans share_full, hn, Ne, hp]
  exact and_congr_right fun h => h.not_rises (by omega)

/-- C100: `rsi` over two bars or more is 0 exactly when the price has not risen once since the first bar and has fallen. -/
theorem rsi_nought (hw : 2 ≤ w) (hd : Fins data) (h1 : w ≤ i) (h2 : i < data.length) :
    Shows i (rsi data w) 0 ↔ NeverRises (bar (vals data)) 0 i ∧ bar (vals data) i < bar (vals data) 0 := by
  obtain ⟨hp, hn⟩ := rsi_parts data hw h1 h2
  rw [(rsi_reports data w (by omega) (by omega) hd).shows_iff h1 h2 fun y hy => hy.is_iff.trans share_empty, hp, Ne, hn]
  exact and_congr_right fun h => h.not_falls (by omega)

private theorem cmo_parts (h1 : w ≤ i) (h2 : i < data.length) :
    ((rises (recent (vals data) (w + 1) i)).sum = 0 ↔ NeverRises (bar (vals data)) (i - w) i) ∧
    ((falls (recent (vals data) (w + 1) i)).sum = 0 ↔ NeverFalls (bar (vals data)) (i - w) i) := by
  have hl : (recent (vals data) (w + 1) i).length = w + 1 := recent_length (by omega) (by rw [vals_length]; exact h2)
  refine ⟨?_, ?_⟩
  · rw [sum_zero_iff fun x hx => rises_nonneg hx, zero_of_bars, ← neverRises_recent h1, ← rises_zero_iff (by omega), rises_length, hl]
    exact ⟨fun h j hj => h j (by omega), fun h j hj => h j (by omega)⟩
  · rw [sum_zero_iff fun x hx => falls_nonneg hx, zero_of_bars, ← neverFalls_recent h1, ← falls_zero_iff (by omega), falls_length, hl]
    exact ⟨fun h j hj => h j (by omega), fun h j hj => h j (by omega)⟩

/-- C100: `cmo` is 100 exactly when none of the last `w` steps goes down and the price has risen over them. -/
theorem cmo_hundred (hd : Fins data) (h1 : w ≤ i) (h2 : i < data.length) :
    Shows i (cmo data w) 100 ↔ NeverFalls (bar (vals data)) (i - w) i ∧ bar (vals data) (i - w) < bar (vals data) i := by
  obtain ⟨hp, hn⟩ := cmo_parts data h1 h2
  have hs := (cmo_reports data w (by omega) (by omega) hd).shows_iff h1 h2 (v := 100)
    (Q := (falls (recent (vals data) (w + 1) i)).sum = 0 ∧ (rises (recent (vals data) (w + 1) i)).sum ≠ 0) fun y hy => by
    dsimp only at hy
    rw [← share_full]
    by_cases h0 : (rises (recent (vals data) (w + 1) i)).sum + (falls (recent (vals data) (w + 1) i)).sum = 0
    · rw [hy.2 h0]; exact ⟨fun h => absurd h nan_not_is, fun h => absurd h0 h.1⟩
    · rw [is_iff_eq (hy.1 h0), and_iff_right h0, div_mul_eq_mul_div, div_eq_iff h0, div_eq_iff h0]
      constructor <;> intro h <;> linarith
  rw [hs, hn, Ne, hp]
  exact and_congr_right fun h => h.not_rises (by omega)

/-- C100: `cmo` is -100 exactly when none of the last `w` steps goes up and the price has fallen over them. -/
theorem cmo_minus_hundred (hd : Fins data) (h1 : w ≤ i) (h2 : i < data.length) :
    Shows i (cmo data w) (-100) ↔ NeverRises (bar (vals data)) (i - w) i ∧ bar (vals data) i < bar (vals data) (i - w) := by
  obtain ⟨hp, hn⟩ := cmo_parts data h1 h2
  have hs := (cmo_reports data w (by omega) (by omega) hd).shows_iff h1 h2 (v := -100)
    (Q := (rises (recent (vals data) (w + 1) i)).sum = 0 ∧ (falls (recent (vals data) (w + 1) i)).sum ≠ 0) fun y hy => by
    dsimp only at hy
    rw [← share_empty]
    by_cases h0 : (rises (recent (vals data) (w + 1) i)).sum + (falls (recent (vals data) (w + 1) i)).sum = 0
    · rw [hy.2 h0]; exact ⟨fun h => absurd h nan_not_is, fun h => absurd h0 h.1⟩
    · rw [is_iff_eq (hy.1 h0), and_iff_right h0, div_mul_eq_mul_div, div_eq_iff h0, div_eq_iff h0]
      constructor <;> intro h <;> linarith
  rw [hs, hp, Ne, hn]
  exact and_congr_right fun h => h.not_falls (by omega)

/-- C100: `psych` is 100 exactly when none of the last `w` steps goes down. -/
theorem psych_hundred (hw : 1 ≤ w) (hd : Fins data) (hz : ∀ x ∈ data, x ≠ negz) (h1 : w ≤ i) (h2 : i < data.length) :
    Shows i (psych data w) 100 ↔ NeverFalls (bar (vals data)) (i - w) i := by
  rw [(psych_reports data w hw (by omega) hd hz).shows_iff h1 h2, show ((100 : ℝ) * _ = 100 ↔ _ = (1 : ℝ)) from
    ⟨fun h => by linarith, fun h => by linarith⟩, mean_lastOf_top hw (by omega) fun j _ _ => by split <;> norm_num]
  constructor
  · intro h j h3 h4
    have := h j (by omega) h4
    by_contra hc
    rw [if_pos (not_le.1 hc)] at this
    norm_num at this
  · intro h j h3 h4
    rw [if_neg (not_lt.2 (h j (by omega) h4))]

/-- C100: `psych` is 0 exactly when every one of the last `w` steps goes down. -/
theorem psych_nought (hw : 1 ≤ w) (hd : Fins data) (hz : ∀ x ∈ data, x ≠ negz) (h1 : w ≤ i) (h2 : i < data.length) :
    Shows i (psych data w) 0 ↔ ∀ j, i - w < j → j ≤ i → bar (vals data) j < bar (vals data) (j - 1) := by
  rw [(psych_reports data w hw (by omega) hd hz).shows_iff h1 h2, show ((100 : ℝ) * _ = 0 ↔ _ = (0 : ℝ)) from
    ⟨fun h => by linarith, fun h => by linarith⟩, mean_lastOf_bottom hw (by omega) fun j _ _ => by split <;> norm_num]
  constructor
  · intro h j h3 h4
    have := h j (by omega) h4
    by_contra hc
    rw [if_neg hc] at this
    norm_num at this
  · intro h j h3 h4
    rw [if_pos (h j (by omega) h4)]

/-- C100: `tii` is 100 exactly when, over the last half window, no price is below its moving average and one is above it. -/
theorem tii_hundred (hw : 1 ≤ w) (hn : w ≤ data.length + 1) (hd : Fins data) (h1 : (w + 1) / 2 ≤ i + 1) (h2 : i < data.length) :
    Shows i (tii data w) 100 ↔ (∀ j, i + 1 - (w + 1) / 2 ≤ j → j ≤ i → 0 ≤ deviation (bar (vals data)) w j) ∧
      ∃ j, i + 1 - (w + 1) / 2 ≤ j ∧ j ≤ i ∧ 0 < deviation (bar (vals data)) w j := by
  rw [(tii_reports data w hw hn hd).shows_iff (by omega) h2 fun y hy => hy.is_iff.trans share_full, Ne,
    lastOf_sum_zero h1 fun j _ _ => le_max_right _ _, lastOf_sum_zero h1 fun j _ _ => le_max_right _ _]
  push Not
  refine and_congr (forall_congr' fun j => forall_congr' fun _ => forall_congr' fun _ => ?_)
    (exists_congr fun j => and_congr_right fun _ => and_congr_right fun _ => ?_)
  · rw [max_eq_right_iff, neg_nonpos]
  · rw [Ne, max_eq_right_iff, not_le]

/-- C100: `tii` is 0 exactly when, over the last half window, no price is above its moving average and one is below it. -/
theorem tii_nought (hw : 1 ≤ w) (hn : w ≤ data.length + 1) (hd : Fins data) (h1 : (w + 1) / 2 ≤ i + 1) (h2 : i < data.length) :
    Shows i (tii data w) 0 ↔ (∀ j, i + 1 - (w + 1) / 2 ≤ j → j ≤ i → deviation (bar (vals data)) w j ≤ 0) ∧
      ∃ j, i + 1 - (w + 1) / 2 ≤ j ∧ j ≤ i ∧ deviation (bar (vals data)) w j < 0 := by
  rw [(tii_reports data w hw hn hd).shows_iff (by omega) h2 fun y hy => hy.is_iff.trans share_empty, Ne,
    lastOf_sum_zero h1 fun j _ _ => le_max_right _ _, lastOf_sum_zero h1 fun j _ _ => le_max_right _ _]
  push Not
  refine and_congr (forall_congr' fun j => forall_congr' fun _ => forall_congr' fun _ => ?_)
    (exists_congr fun j => and_congr_right fun _ => and_congr_right fun _ => ?_)
  · rw [max_eq_right_iff]
  · rw [Ne, max_eq_right_iff, not_le, neg_pos]
end
end Momentum
end Traquer
