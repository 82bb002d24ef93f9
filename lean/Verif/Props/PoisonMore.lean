import Verif.Props.PoisonAdaptive
import Verif.Model.Volume
import Verif.Model.Trend
import Verif.Lemmas.Lists
/-!
# A NaN bar spoils the indicators built on recursive averages and the running totals for good
-/

namespace Traquer
open FloatLit
open Smooth (ewma ewma_spoiled ewma_tail ewma_length pairs_hit)
variable {F : Type} [FloatOps F]

theorem pairs_at {α : Type} {l : List α} {m : Nat} {a b : α} (ha : l[m]? = some a) (hb : l[m + 1]? = some b) : (pairs l)[m]? = some (a, b) := by
  rw [pairs_eq_zip, ← List.drop_one]
  exact zip_at ha (by rw [List.getElem?_drop, ← hb, Nat.add_comm])

/-- The bar `i` meets the pair `i - 1`, except for the first bar, which meets the pair 0. -/
theorem pairs_bad {α : Type} {l : List α} {i : Nat} {x : α} (hx : l[i]? = some x) (hl : 2 ≤ l.length) :
    ∃ p, (pairs l)[i - 1]? = some p ∧ (p.1 = x ∨ p.2 = x) := by
  have hi := (List.getElem?_eq_some_iff.1 hx).1
  cases i with
  | zero => exact ⟨(x, l[1]), pairs_at hx (List.getElem?_eq_getElem _), .inl rfl⟩
  | succ i => exact ⟨(l[i], x), pairs_at (List.getElem?_eq_getElem _) hx, .inr rfl⟩

variable [NaNLaws F]

/-- Map of pairs by a function that keeps NaN. -/
theorem pairs_map_bad {f : F × F → F} (hf : ∀ a b, isNaN a = true ∨ isNaN b = true → isNaN (f (a, b)) = true) {l : List F} {i : Nat} {x : F}
    (hx : l[i]? = some x) (hN : isNaN x = true) (hl : 2 ≤ l.length) : Bad (i - 1) ((pairs l).map f) := by
  obtain ⟨p, hp, h⟩ := pairs_bad hx hl
  refine ⟨f p, by rw [List.getElem?_map, hp]; rfl, hf p.1 p.2 ?_⟩
  rcases h with h | h
  · exact .inl (h ▸ hN)
  · exact .inr (h ▸ hN)

end Traquer

namespace Traquer.Momentum
open FloatLit
open Smooth (ewma ewma_spoiled ewma_tail ewma_length)
variable {F : Type} [FloatOps F] [NaNLaws F]

theorem macd_poisoned (short long : Nat) : PoisonedBy 0 IsNaN fun l : List F => macd l short long := fun l i x _ hx hN o ho j y hj hy => by
  simp only [macd] at ho
  obtain ⟨s, e, ho⟩ := Option.bind_eq_some_iff.1 ho
  obtain ⟨t, -, ho⟩ := Option.bind_eq_some_iff.1 ho
  cases ho
  simp only [List.getElem?_map, Option.map_eq_some_iff, List.getElem?_zip_eq_some] at hy
  obtain ⟨⟨p, q⟩, ⟨h1, -⟩, rfl⟩ := hy
  have := (ewma_spoiled ⟨x, hx, hN⟩ e).nan j p hj h1
  show isNaN (p - q) = true
  nanp

example (a b c x y : F) (out : List F) (h : macd [a, nan, b, c, x, y] 2 3 = some out) : ∀ j y, 1 ≤ j → out[j]? = some y → isNaN y = true :=
  macd_poisoned 2 3 _ 1 nan (by decide) rfl NaNLaws.nan_isNaN out h

theorem apo_poisoned (short long : Nat) : PoisonedBy 0 IsNaN fun l : List F => apo l short long := macd_poisoned short long

example (a b c x y : F) (out : List F) (h : apo [a, nan, b, c, x, y] 2 3 = some out) : ∀ j y, 1 ≤ j → out[j]? = some y → isNaN y = true :=
  apo_poisoned 2 3 _ 1 nan (by decide) rfl NaNLaws.nan_isNaN out h

theorem ppo_poisoned (short long : Nat) : PoisonedBy 0 IsNaN fun l : List F => ppo l short long := fun l i x _ hx hN o ho j y hj hy => by
  simp only [ppo] at ho
  obtain ⟨s, e, ho⟩ := Option.bind_eq_some_iff.1 ho
  obtain ⟨t, -, ho⟩ := Option.bind_eq_some_iff.1 ho
  cases ho
  simp only [List.getElem?_map, Option.map_eq_some_iff, List.getElem?_zip_eq_some] at hy
  obtain ⟨⟨p, q⟩, ⟨h1, -⟩, rfl⟩ := hy
  have := (ewma_spoiled ⟨x, hx, hN⟩ e).nan j p hj h1
  show isNaN (100 * (p / q - 1)) = true
  nanp

example (a b c x y : F) (out : List F) (h : ppo [a, nan, b, c, x, y] 2 3 = some out) : ∀ j y, 1 ≤ j → out[j]? = some y → isNaN y = true :=
  ppo_poisoned 2 3 _ 1 nan (by decide) rfl NaNLaws.nan_isNaN out h

theorem disparity_poisoned (w : Nat) : PoisonedBy 0 IsNaN fun l : List F => disparity l w := fun l i x _ hx hN o ho j y hj hy => by
  simp only [disparity] at ho
  obtain ⟨s, e, ho⟩ := Option.bind_eq_some_iff.1 ho
  cases ho
  simp only [List.getElem?_map, Option.map_eq_some_iff, List.getElem?_zip_eq_some] at hy
  obtain ⟨⟨p, q⟩, ⟨-, h1⟩, rfl⟩ := hy
  have := (ewma_spoiled ⟨x, hx, hN⟩ e).nan j q hj h1
  show isNaN (100 * (p - q) / q) = true
  nanp

example (a b c x y : F) (out : List F) (h : disparity [a, nan, b, c, x, y] 2 = some out) : ∀ j y, 1 ≤ j → out[j]? = some y → isNaN y = true :=
  disparity_poisoned 2 _ 1 nan (by decide) rfl NaNLaws.nan_isNaN out h

/-- Either price of the bar. -/
theorem qstick_poisoned (w : Nat) : PoisonedBy 0 (fun b : F × F => isNaN b.1 = true ∨ isNaN b.2 = true)
    fun l => qstick (l.map (·.1)) (l.map (·.2)) w := fun l i x _ hx hN o ho => by
  refine (ewma_spoiled ⟨x.2 - x.1, ?_, ?_⟩ ho).nan
  · rw [List.getElem?_map, zip_at (a := x.2) (b := x.1)] <;> simp [hx]
  · rcases hN with h | h <;> nanp

example (a b c : F) (out : List F) (h : qstick [a, b, nan, c] [b, c, a, a] 2 = some out) : ∀ j y, 2 ≤ j → out[j]? = some y → isNaN y = true :=
  qstick_poisoned 2 [(a, b), (b, c), (nan, a), (c, a)] 2 (nan, a) (by decide) rfl (.inl NaNLaws.nan_isNaN) out h

/-- Both lines. -/
theorem elder_ray_poisoned (w : Nat) : PoisonedBy 0 (fun b : Candle F => isNaN b.close = true)
      (fun l => (elder_ray (l.map (·.high)) (l.map (·.low)) (l.map (·.close)) w).map (·.map (·.1))) ∧
    PoisonedBy 0 (fun b : Candle F => isNaN b.close = true)
      (fun l => (elder_ray (l.map (·.high)) (l.map (·.low)) (l.map (·.close)) w).map (·.map (·.2))) := by
  have key : ∀ (l : List (Candle F)) (i : Nat) (x : Candle F), l[i]? = some x → isNaN x.close = true → ∀ out : List (F × F), elder_ray (l.map (·.high)) (l.map (·.low)) (l.map (·.close)) w
      = some out → ∀ (j : Nat) (y : F × F), i ≤ j → out[j]? = some y → isNaN y.1 = true ∧ isNaN y.2 = true := by
    intro l i x hx hN out ho j y hj hy
    simp only [elder_ray] at ho
    obtain ⟨m, e, ho⟩ := Option.bind_eq_some_iff.1 ho
    cases ho
    simp only [zip3_eq, List.getElem?_map, Option.map_eq_some_iff, List.getElem?_zip_eq_some] at hy
    obtain ⟨⟨p, q, r⟩, ⟨-, -, h1⟩, rfl⟩ := hy
    have := (ewma_spoiled (i := i) ⟨x.close, by simp [hx], hN⟩ e).nan j r hj h1
    exact ⟨by show isNaN (p - r) = true; nanp, by show isNaN (q - r) = true; nanp⟩
  refine ⟨fun l i x _ hx hN out ho j y hj hy => ?_, fun l i x _ hx hN out ho j y hj hy => ?_⟩ <;>
  · obtain ⟨o, hq, rfl⟩ := Option.map_eq_some_iff.1 ho
    rw [List.getElem?_map] at hy
    obtain ⟨z, hz, rfl⟩ := Option.map_eq_some_iff.1 hy
    first
    | exact (key l i x hx hN o hq j z hj hz).1
    | exact (key l i x hx hN o hq j z hj hz).2

example (a b c : F) (out : List (F × F)) (h : elder_ray [a, b, b, c] [a, b, b, c] [a, b, nan, c] 2 = some out) :
    ∀ j y, 2 ≤ j → (out.map (·.1))[j]? = some y → isNaN y = true :=
  (elder_ray_poisoned 2).1 [⟨a, a, a, a, a⟩, ⟨a, b, b, b, b⟩, ⟨a, b, b, nan, c⟩, ⟨a, c, c, c, c⟩] 2 ⟨a, b, b, nan, c⟩ (by decide) rfl NaNLaws.nan_isNaN _
    (by simp [h])

theorem trix_poisoned (w : Nat) : PoisonedBy 0 IsNaN fun l : List F => trix l w := fun l i x _ hx hN o ho j y hj hy => by
  simp only [trix] at ho
  obtain ⟨e1, h1, ho⟩ := Option.bind_eq_some_iff.1 ho
  unslice ho
  obtain ⟨-, -, ho⟩ := ho
  obtain ⟨e2, h2, ho⟩ := Option.bind_eq_some_iff.1 ho
  unslice ho
  obtain ⟨-, ho⟩ := ho
  obtain ⟨e3, h3, ho⟩ := Option.bind_eq_some_iff.1 ho
  unslice ho
  obtain ⟨-, ho⟩ := ho
  cases ho
  have h := ewma_tail (ewma_tail (ewma_spoiled ⟨x, hx, hN⟩ h1) h2) h3
  rcases Nat.lt_or_ge j ((w - 1) * 2 + 1) with hk | hk
  · rw [List.getElem?_append_left (by simpa using hk)] at hy
    exact isNaN_nans hy
  rw [List.getElem?_append_right (by simpa using hk), nans_length] at hy
  simp only [List.getElem?_map, Option.map_eq_some_iff, List.getElem?_zip_eq_some, List.getElem?_drop] at hy
  obtain ⟨⟨p, q⟩, ⟨-, h4⟩, rfl⟩ := hy
  have := h.nan _ q (by omega) h4
  show isNaN (100 * (q - p) / p) = true
  nanp

example (a b c x y : F) (out : List F) (h : trix [a, nan, b, c, x, y] 2 = some out) : ∀ j y, 1 ≤ j → out[j]? = some y → isNaN y = true :=
  trix_poisoned 2 _ 1 nan (by decide) rfl NaNLaws.nan_isNaN out h

theorem pmo_poisoned (win1 win2 : Nat) : PoisonedBy 0 IsNaN fun l : List F => pmo l win1 win2 := fun l i x _ hx hN o ho j y hj hy => by
  have hi := (List.getElem?_eq_some_iff.1 hx).1
  simp only [pmo] at ho
  obtain ⟨e1, h1, ho⟩ := Option.bind_eq_some_iff.1 ho
  unslice ho
  obtain ⟨hw, -, ho⟩ := ho
  obtain ⟨e2, h2, ho⟩ := Option.bind_eq_some_iff.1 ho
  cases ho
  have hl := ewma_length h1
  simp only [List.length_map, pairs_length] at hl
  have h := ewma_tail (ewma_spoiled (pairs_map_bad (fun a b h => by dsimp only; rcases h with h | h <;> nanp) hx hN (by omega)) h1) h2
  rcases Nat.lt_or_ge j win1 with hk | hk
  · rw [List.getElem?_append_left (by simpa using hk)] at hy
    exact isNaN_nans hy
  rw [List.getElem?_append_right (by simpa using hk), nans_length] at hy
  exact h.nan _ y (by omega) hy

example (a b c x y : F) (out : List F) (h : pmo [a, nan, b, c, x, y] 2 3 = some out) : ∀ j y, 1 ≤ j → out[j]? = some y → isNaN y = true :=
  pmo_poisoned 2 3 _ 1 nan (by decide) rfl NaNLaws.nan_isNaN out h

theorem tsi_poisoned (short long : Nat) : PoisonedBy 0 IsNaN fun l : List F => tsi l short long := fun l i x _ hx hN o ho j y hj hy => by
  have hi := (List.getElem?_eq_some_iff.1 hx).1
  simp only [tsi] at ho
  unslice ho
  obtain ⟨hw, ho⟩ := ho
  obtain ⟨e1, h1, ho⟩ := Option.bind_eq_some_iff.1 ho
  obtain ⟨e2, h2, ho⟩ := Option.bind_eq_some_iff.1 ho
  obtain ⟨e3, -, ho⟩ := Option.bind_eq_some_iff.1 ho
  obtain ⟨e4, -, ho⟩ := Option.bind_eq_some_iff.1 ho
  cases ho
  have hl := ewma_length h1
  simp only [List.length_map, pairs_length] at hl
  have h := ewma_tail (ewma_spoiled (pairs_map_bad (fun a b h => by dsimp only; rcases h with h | h <;> nanp) hx hN (by omega)) h1) h2
  rcases Nat.lt_or_ge j long with hk | hk
  · rw [List.getElem?_append_left (by simpa using hk)] at hy
    exact isNaN_nans hy
  rw [List.getElem?_append_right (by simpa using hk), nans_length] at hy
  simp only [List.getElem?_map, Option.map_eq_some_iff, List.getElem?_zip_eq_some] at hy
  obtain ⟨⟨p, q⟩, ⟨h4, -⟩, rfl⟩ := hy
  have := h.nan _ p (by omega) h4
  show isNaN (100 * p / q) = true
  nanp

example (a b c x y : F) (out : List F) (h : tsi [a, nan, b, c, x, y] 2 3 = some out) : ∀ j y, 1 ≤ j → out[j]? = some y → isNaN y = true :=
  tsi_poisoned 2 3 _ 1 nan (by decide) rfl NaNLaws.nan_isNaN out h

end Traquer.Momentum

namespace Traquer.Volume
open FloatLit
variable {F : Type} [FloatOps F] [NaNLaws F]

/-- A NaN price. The volume of the first bar is not used. -/
theorem obv_poisoned : PoisonedBy 0 (fun b : Candle F => isNaN b.close = true) (fun l => obv (l.map (·.close)) (l.map (·.volume))) ∧
    PoisonedBy 1 (fun b : Candle F => isNaN b.volume = true) (fun l => obv (l.map (·.close)) (l.map (·.volume))) := by
  have key : ∀ (l : List (Candle F)) i x, l[i]? = some x → isNaN x.close = true ∨ (1 ≤ i ∧ isNaN x.volume = true) → ∀ out,
      obv (l.map (·.close)) (l.map (·.volume)) = some out → ∀ j y, i ≤ j → out[j]? = some y → isNaN y = true := by
    intro l i x hx hN out ho j y hj hy
    have hi := (List.getElem?_eq_some_iff.1 hx).1
    simp only [obv] at ho
    obtain ⟨r, hr, ho⟩ := Option.bind_eq_some_iff.1 ho
    cases ho
    cases j with
    | zero =>
      simp only [List.getElem?_cons_zero, Option.some.injEq] at hy
      subst hy
      exact NaNLaws.nan_isNaN
    | succ j =>
      rw [List.getElem?_cons_succ] at hy
      have hjr := (List.getElem?_eq_some_iff.1 hy).1
      rw [scanM_length hr] at hjr
      simp only [List.length_zip, List.length_range, pairs_length, List.length_map, Nat.min_self] at hjr
      have hp : (pairs (l.map (·.close)))[i - 1]? = some ((l[i - 1]'(by omega)).close, (l[i - 1 + 1]'(by omega)).close) :=
        pairs_at (by simp [List.getElem?_eq_getElem (show i - 1 < l.length by omega)])
          (by simp [List.getElem?_eq_getElem (show i - 1 + 1 < l.length by omega)])
      have hz := zip_at (l := List.range (pairs (l.map (·.close))).length) (i := i - 1) (a := i - 1)
        (by rw [List.getElem?_range (by rw [pairs_length, List.length_map]; omega)]) hp
      refine scanM_poison (P := fun s : F => isNaN s = true) (Q := fun y : F => isNaN y = true) ?_ ?_ hz hr j y (by omega) hy
      · intro s z s' y he hs
        obtain ⟨v, -, he⟩ := Option.bind_eq_some_iff.1 he
        cases he
        exact ⟨by nanp, by nanp⟩
      · intro s s' y he
        obtain ⟨v, hv, he⟩ := Option.bind_eq_some_iff.1 he
        cases he
        have : isNaN (signum ((l[i - 1 + 1]'(by omega)).close - (l[i - 1]'(by omega)).close) * v) = true := by
          rcases Nat.eq_zero_or_pos i with h0 | h0
          · subst h0
            have : isNaN (l[0]'(by omega)).close = true := by
              rw [List.getElem?_eq_getElem hi] at hx
              cases hx
              rcases hN with h | h
              · exact h
              · omega
            show isNaN (signum ((l[0 + 1]'(by omega)).close - (l[0]'(by omega)).close) * v) = true
            nanp
          · obtain ⟨m, rfl⟩ : ∃ m, i = m + 1 := ⟨i - 1, by omega⟩
            rw [List.getElem?_eq_getElem hi] at hx
            cases hx
            rcases hN with h | ⟨-, h⟩
            · show isNaN (signum ((l[m + 1]'(by omega)).close - (l[m]'(by omega)).close) * v) = true
              nanp
            · have : v = (l[m + 1]'(by omega)).volume := by
                simp only [Nat.add_sub_cancel, List.getElem?_map, List.getElem?_eq_getElem hi, Option.map_some] at hv
                exact (Option.some.inj hv).symm
              rw [this]
              nanp
        exact ⟨by nanp, by nanp⟩
  exact ⟨fun l i x _ hx hN => key l i x hx (.inl hN), fun l i x h1 hx hN => key l i x hx (.inr ⟨h1, hN⟩)⟩

example (a b c d : F) (out : List F) (h : obv [a, b, nan, c] [a, b, c, d] = some out) : ∀ j y, 2 ≤ j → out[j]? = some y → isNaN y = true :=
  obv_poisoned.1 [⟨a, a, a, a, a⟩, ⟨a, a, a, b, b⟩, ⟨a, a, a, nan, c⟩, ⟨a, a, a, c, d⟩] 2 ⟨a, a, a, nan, c⟩ (by decide) rfl NaNLaws.nan_isNaN out h

theorem vpt_poisoned : PoisonedBy 0 (fun b : Candle F => isNaN b.close = true) (fun l => vpt (l.map (·.close)) (l.map (·.volume))) ∧
    PoisonedBy 1 (fun b : Candle F => isNaN b.volume = true) (fun l => vpt (l.map (·.close)) (l.map (·.volume))) := by
  have key : ∀ (l : List (Candle F)) i x, l[i]? = some x → isNaN x.close = true ∨ (1 ≤ i ∧ isNaN x.volume = true) → ∀ out,
      vpt (l.map (·.close)) (l.map (·.volume)) = some out → ∀ j y, i ≤ j → out[j]? = some y → isNaN y = true := by
    intro l i x hx hN out ho j y hj hy
    have hi := (List.getElem?_eq_some_iff.1 hx).1
    simp only [vpt] at ho
    unslice ho
    obtain ⟨-, ho⟩ := ho
    cases ho
    cases j with
    | zero =>
      simp only [List.getElem?_cons_zero, Option.some.injEq] at hy
      subst hy
      exact NaNLaws.nan_isNaN
    | succ j =>
      rw [List.getElem?_cons_succ] at hy
      have hjr := (List.getElem?_eq_some_iff.1 hy).1
      simp only [scanS_length, List.length_zip, pairs_length, List.length_map, List.length_drop, Nat.min_self] at hjr
      have hp : (pairs (l.map (·.close)))[i - 1]? = some ((l[i - 1]'(by omega)).close, (l[i - 1 + 1]'(by omega)).close) :=
        pairs_at (by simp [List.getElem?_eq_getElem (show i - 1 < l.length by omega)])
          (by simp [List.getElem?_eq_getElem (show i - 1 + 1 < l.length by omega)])
      have hz := zip_at (m := (l.map (·.volume)).drop 1) (b := (l[i - 1 + 1]'(by omega)).volume) hp (by
        rw [List.getElem?_drop, List.getElem?_map, Nat.add_comm, List.getElem?_eq_getElem]; rfl)
      refine scanS_poison (P := fun s : F => isNaN s = true) (fun s z hs => ?_) (fun s => ?_) hz _ j y (by omega) hy
      · nanp
      · dsimp only
        rcases Nat.eq_zero_or_pos i with h0 | h0
        · subst h0
          have : isNaN (l[0]'(by omega)).close = true := by
            rw [List.getElem?_eq_getElem hi] at hx
            cases hx
            rcases hN with h | h
            · exact h
            · omega
          show isNaN (s + (l[0 + 1]'(by omega)).volume * ((l[0 + 1]'(by omega)).close - (l[0]'(by omega)).close) / (l[0]'(by omega)).close) = true
          nanp
        · obtain ⟨m, rfl⟩ : ∃ m, i = m + 1 := ⟨i - 1, by omega⟩
          rw [List.getElem?_eq_getElem hi] at hx
          cases hx
          show isNaN (s + (l[m + 1]'(by omega)).volume * ((l[m + 1]'(by omega)).close - (l[m]'(by omega)).close) / (l[m]'(by omega)).close) = true
          rcases hN with h | ⟨-, h⟩ <;> nanp
  exact ⟨fun l i x _ hx hN => key l i x hx (.inl hN), fun l i x h1 hx hN => key l i x hx (.inr ⟨h1, hN⟩)⟩

example (a b c d : F) (out : List F) (h : vpt [a, b, nan, c] [a, b, c, d] = some out) : ∀ j y, 2 ≤ j → out[j]? = some y → isNaN y = true :=
  vpt_poisoned.1 [⟨a, a, a, a, a⟩, ⟨a, a, a, b, b⟩, ⟨a, a, a, nan, c⟩, ⟨a, a, a, c, d⟩] 2 ⟨a, a, a, nan, c⟩ (by decide) rfl NaNLaws.nan_isNaN out h

/-- The accumulation/distribution line (default form): any NaN in the bar. -/
theorem ad_poisoned : PoisonedBy 0 (fun b : Candle F => isNaN b.high = true ∨ isNaN b.low = true ∨ isNaN b.close = true ∨ isNaN b.volume = true)
    fun l => ad (l.map (·.high)) (l.map (·.low)) (l.map (·.close)) (l.map (·.volume)) none := fun l i x _ hx hN o ho j y hj hy => by
  simp only [ad, Option.getD_none, Bool.not_false, if_true] at ho
  cases ho
  have hz : (zip4 (l.map (·.high)) (l.map (·.low)) (l.map (·.close)) (l.map (·.volume)))[i]? = some (x.high, x.low, x.close, x.volume) := by
    rw [zip4_eq]
    exact zip_at (by simp [hx]) (zip_at (by simp [hx]) (zip_at (by simp [hx]) (by simp [hx])))
  refine scanS_poison (P := fun s : F => isNaN s = true) (fun s z hs => ?_) (fun s => ?_) hz _ j y hj hy
  · nanp
  · dsimp only
    rcases hN with h | h | h | h <;> nanp

example (a b c d : F) (out : List F) (h : ad [a, b, c] [a, nan, a] [b, c, b] [d, d, d] none = some out) :
    ∀ j y, 1 ≤ j → out[j]? = some y → isNaN y = true :=
  ad_poisoned [⟨a, a, a, b, d⟩, ⟨a, b, nan, c, d⟩, ⟨a, c, a, b, d⟩] 1 ⟨a, b, nan, c, d⟩ (by decide) rfl (.inr (.inl NaNLaws.nan_isNaN)) out h

/-- A NaN volume (after the first bar) spoils the trade volume index. -/
theorem tvi_poisoned (minTick : F) : PoisonedBy 1 (fun b : Candle F => isNaN b.volume = true)
    fun l => tvi (l.map (·.close)) (l.map (·.volume)) minTick := fun l i x h1 hx hN o ho j y hj hy => by
  have hi := (List.getElem?_eq_some_iff.1 hx).1
  simp only [tvi] at ho
  unslice ho
  obtain ⟨-, -, -, -, ho⟩ := ho
  cases ho
  obtain ⟨m, rfl⟩ : ∃ m, i = m + 1 := ⟨i - 1, by omega⟩
  obtain ⟨j, rfl⟩ : ∃ k, j = k + 1 := ⟨j - 1, by omega⟩
  rw [List.getElem?_cons_succ] at hy
  have hz : (zip3 ((l.map (·.close)).take ((l.map (·.close)).length - 1)) ((l.map (·.close)).drop 1) ((l.map (·.volume)).drop 1))[m]?
      = some ((l[m]'(by omega)).close, x.close, x.volume) := by
    rw [zip3_eq]
    refine zip_at ?_ (zip_at ?_ ?_)
    · rw [List.getElem?_take_of_lt (by simp; omega), List.getElem?_map, List.getElem?_eq_getElem]; rfl
    · rw [List.getElem?_drop, List.getElem?_map, Nat.add_comm, hx]; rfl
    · rw [List.getElem?_drop, List.getElem?_map, Nat.add_comm, hx]; rfl
  refine scan_poison (P := fun s : Bool × F => isNaN s.2 = true) (Q := fun y : F => isNaN y = true) (fun s z hs => ?_) (fun s => ?_) hz _ j y (by omega) hy
  · have : isNaN s.2 = true := hs
    exact ⟨by dsimp only; nanp, by dsimp only; nanp⟩
  · have : isNaN x.volume = true := hN
    exact ⟨by dsimp only; nanp, by dsimp only; nanp⟩

example (a b c t : F) (out : List F) (h : tvi [a, b, c] [a, nan, b] t = some out) : ∀ j y, 1 ≤ j → out[j]? = some y → isNaN y = true :=
  tvi_poisoned t [⟨a, a, a, a, a⟩, ⟨a, a, a, b, nan⟩, ⟨a, a, a, c, b⟩] 1 ⟨a, a, a, b, nan⟩ (by decide) rfl NaNLaws.nan_isNaN out h

end Traquer.Volume
