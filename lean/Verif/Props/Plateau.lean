import Verif.Props.MonoSmooth
import Verif.Props.MonoBars
import Verif.Props.LocalSmooth
import Verif.Spec.Error
import Verif.Props.LocalVolatility
/-!
# C139: in binary64 too, averages over a window never fall while prices never fall

The trend theorems of C135 are about exact arithmetic. These hold in every rounding: a rounded average of a series that never falls may stall,
it never steps down, and dually for a series that never rises.
-/

namespace Traquer
open FP FloatLit
variable {ρ : Rounding}

/-- Each entry stands in `R` to the next one, from entry `k` on. -/
def StepsBy {β : Type} (R : β → β → Prop) (k : ℕ) (l : List β) : Prop :=
  ∀ (i : ℕ) x y, k ≤ i → l[i]? = some x → l[i + 1]? = some y → R x y

/-- If no price is below the one before, no full reading is below the one before, and if no price is above the one before, no full
reading is. `W` is the number of bars a full reading takes. -/
def NeverTurns (W : ℕ) (f : List (FP ρ) → Option (List (FP ρ))) : Prop :=
  ∀ data out, f data = some out → 
    (StepsBy NotAbove 0 data → StepsBy NotAbove (W - 1) (out.take data.length)) ∧
    (StepsBy (fun x y => NotAbove y x) 0 data → StepsBy (fun x y => NotAbove y x) (W - 1) (out.take data.length))

section generic
variable {β γ : Type} {R : β → β → Prop} {S : γ → γ → Prop} {W : ℕ} {f : List β → Option (List γ)}

/-- The series one bar later, its last value repeated. -/
theorem shifted_get {l : List β} {z : β} {k : ℕ} (h : k + 1 < l.length) : (l.tail ++ [z])[k]? = l[k + 1]? := by
  rw [List.getElem?_append_left (by simp; omega), List.getElem?_tail]

theorem each_shifted {l : List β} {z : β} (hz : l.getLast? = some z) (hR : R z z) (h : StepsBy R 0 l) : Each R l (l.tail ++ [z]) := by
  have hl : 0 < l.length := by
    cases l with
    | nil => simp at hz
    | cons => simp
  refine each_iff.2 ⟨by simp; omega, fun i x y hx hy => ?_⟩
  obtain ⟨hi, _⟩ := List.getElem?_eq_some_iff.1 hx
  rcases Nat.lt_or_ge (i + 1) l.length with hj | hj
  · rw [shifted_get hj] at hy
    exact h i x y (Nat.zero_le _) hx hy
  · have e : i = l.length - 1 := by omega
    subst e
    rw [← List.getLast?_eq_getElem?, hz] at hx
    rw [List.getElem?_append_right (by simp), show l.length - 1 - l.tail.length = 0 by simp] at hy
    simp at hx hy
    subst hx hy
    exact hR

theorem steps_of_local (hl : DependsOnLast W f) (hm : ∀ a b, Each R a b → Alike (Each S) (f a) (f b)) {data : List β} {out : List γ}
    (hR : ∀ z, data.getLast? = some z → R z z) (ho : f data = some out) (h : StepsBy R 0 data) : StepsBy S (W - 1) (out.take data.length) := by
  intro i x y hi hx hy
  have hn : i + 1 < data.length := by
    obtain ⟨q, _⟩ := List.getElem?_eq_some_iff.1 hy
    simp at q; omega
  rw [List.getElem?_take_of_lt hn] at hy
  rw [List.getElem?_take_of_lt (by omega)] at hx
  obtain ⟨z, hz⟩ : ∃ z, data.getLast? = some z := by
    cases hd : data.getLast? with
    | none => simp at hd; simp [hd] at hn
    | some z => exact ⟨z, rfl⟩
  have hs := hm _ _ (each_shifted hz (hR z hz) h)
  rw [ho] at hs
  rcases hb : f (data.tail ++ [z]) with _ | out'
  · rw [hb] at hs; cases hs
  rw [hb] at hs
  cases hs with
  | answer hs =>
    have hr : recent data W (i + 1) = recent (data.tail ++ [z]) W i := by
      unfold recent
      refine List.ext_getElem? fun k => ?_
      rcases Nat.lt_or_ge k W with hk | hk
      · rw [List.getElem?_take_of_lt hk, List.getElem?_take_of_lt hk, List.getElem?_drop, List.getElem?_drop, shifted_get (by omega)]
        congr 1
        omega
      · rw [List.getElem?_eq_none (by simp; omega), List.getElem?_eq_none (by simp; omega)]
    have he := hl data (data.tail ++ [z]) (i + 1) i out out' ho hb (by omega) (by omega) hn (by simp; omega) hr
    exact (each_iff.1 hs).2 i x y hx (he ▸ hy)

theorem neverTurns_of_local {f : List (FP ρ) → Option (List (FP ρ))} (hl : DependsOnLast W f)
    (hm : ∀ a b, Each NotAbove a b → Alike (Each NotAbove) (f a) (f b)) : NeverTurns W f := fun data out ho =>
  ⟨steps_of_local hl hm (fun z _ => .refl z) ho,
   steps_of_local hl (fun a b h => by
      have hs := hm b a h.flip
      revert hs
      cases f a <;> cases f b <;> intro hs <;> cases hs
      · exact .panic
      · rename_i q; exact .answer q.flip) (fun z _ => .refl z) ho⟩

end generic

namespace Smooth

theorem sma_never_turns {w : ℕ} (hw : 1 ≤ w) : NeverTurns w fun l : List (FP ρ) => sma l w :=
  neverTurns_of_local (sma_local hw) fun _ _ h => sma_mono h w

theorem wma_never_turns {w : ℕ} (hw : 1 ≤ w) : NeverTurns w fun l : List (FP ρ) => wma l w :=
  neverTurns_of_local (wma_local hw) fun _ _ h => wma_mono h w

theorem pwma_never_turns {w : ℕ} (hw : 1 ≤ w) : NeverTurns w fun l : List (FP ρ) => pwma l w :=
  neverTurns_of_local (pwma_local hw) fun _ _ h => pwma_mono h w

theorem fwma_never_turns {w : ℕ} (hw : 1 ≤ w) : NeverTurns w fun l : List (FP ρ) => fwma l w :=
  neverTurns_of_local (fwma_local hw) fun _ _ h => fwma_mono h w

theorem trima_never_turns {w : ℕ} (hw : 1 ≤ w) : NeverTurns w fun l : List (FP ρ) => trima l w :=
  neverTurns_of_local (trima_local hw) fun _ _ h => trima_mono h w

theorem alma_never_turns (w : ℕ) (sigma : FP ρ) (mu : Option (FP ρ)) : NeverTurns (w + 1) fun l : List (FP ρ) => alma l w sigma mu :=
  neverTurns_of_local (alma_local sigma mu) fun _ _ h => alma_mono h w sigma mu

theorem kernel_never_turns (sigma : FP ρ) : NeverTurns 255 fun l : List (FP ρ) => some (kernel l sigma) :=
  neverTurns_of_local (kernel_local sigma) fun _ _ h => .answer (kernel_mono h sigma)

/-- Rounded prices that rise, pause and rise. -/
theorem pausing_steps : StepsBy NotAbove 0 ([.fin 1, .fin 2, .fin 2, .fin 5] : List F64) := by
  intro i x y _ hx hy
  have hi : i < 3 := by
    obtain ⟨q, _⟩ := List.getElem?_eq_some_iff.1 hy
    simp at q; omega
  rcases (by omega : i = 0 ∨ i = 1 ∨ i = 2) with rfl | rfl | rfl <;> simp at hx hy <;> subst hx hy <;> rw [notAbove_iff] <;> intro _ _ <;>
    exact EReal.coe_le_coe_iff.2 (by norm_num)

example : ∃ out, sma ([.fin 1, .fin 2, .fin 2, .fin 5] : List F64) 2 = some out ∧ StepsBy NotAbove 1 (out.take 4) :=
  ⟨_, rfl, (sma_never_turns (w := 2) (by decide) _ _ rfl).1 pausing_steps⟩

example : ∃ out, wma ([.fin 1, .fin 2, .fin 2, .fin 5] : List F64) 3 = some out ∧ StepsBy NotAbove 2 (out.take 4) :=
  ⟨_, rfl, (wma_never_turns (w := 3) (by decide) _ _ rfl).1 pausing_steps⟩

example : ∃ out, trima ([.fin 1, .fin 2, .fin 2, .fin 5] : List F64) 3 = some out ∧ StepsBy NotAbove 2 (out.take 4) :=
  ⟨_, rfl, (trima_never_turns (w := 3) (by decide) _ _ rfl).1 pausing_steps⟩

example (sigma : F64) : StepsBy NotAbove 254 ((kernel ([.fin 1, .fin 2, .fin 2, .fin 5] : List F64) sigma).take 4) :=
  (kernel_never_turns sigma _ _ rfl).1 pausing_steps

end Smooth

namespace Volatility

/-- The typical price averages a bar's high, low and close. -/
theorem typical_never_falls {w : ℕ} (hw : 1 ≤ w) {bars : List (Candle (FP ρ))} {out : List (FP ρ)}
    (ho : typical (bars.map (·.high)) (bars.map (·.low)) (bars.map (·.close)) w = some out)
    (h : StepsBy (fun a b : Candle (FP ρ) => NotAbove a.high b.high ∧ NotAbove a.low b.low ∧ NotAbove a.close b.close) 0 bars) :
    StepsBy NotAbove (w - 1) (out.take bars.length) :=
  steps_of_local (typical_local hw) (fun _ _ h => typical_mono (each_map h fun _ _ q => q.1) (each_map h fun _ _ q => q.2.1)
    (each_map h fun _ _ q => q.2.2) w) (fun _ _ => ⟨.refl _, .refl _, .refl _⟩) ho h

theorem typical_never_rises {w : ℕ} (hw : 1 ≤ w) {bars : List (Candle (FP ρ))} {out : List (FP ρ)}
    (ho : typical (bars.map (·.high)) (bars.map (·.low)) (bars.map (·.close)) w = some out)
    (h : StepsBy (fun a b : Candle (FP ρ) => NotAbove b.high a.high ∧ NotAbove b.low a.low ∧ NotAbove b.close a.close) 0 bars) :
    StepsBy (fun x y => NotAbove y x) (w - 1) (out.take bars.length) :=
  steps_of_local (typical_local hw) (fun a b h => by
    have hs := typical_mono (each_map h.flip fun _ _ q => q.1) (each_map h.flip fun _ _ q => q.2.1) (each_map h.flip fun _ _ q => q.2.2) w
    revert hs
    cases typical (a.map (·.high)) (a.map (·.low)) (a.map (·.close)) w <;>
      cases typical (b.map (·.high)) (b.map (·.low)) (b.map (·.close)) w <;> intro hs <;> cases hs
    · exact .panic
    · rename_i q; exact .answer q.flip) (fun _ _ => ⟨.refl _, .refl _, .refl _⟩) ho h

/-- Bars that rise, then pause. -/
example : ∃ out, typical ([.fin 3, .fin 4, .fin 4] : List F64) [.fin 1, .fin 2, .fin 2] [.fin 2, .fin 3, .fin 3] 2 = some out ∧
    StepsBy NotAbove 1 (out.take 3) := by
  refine ⟨_, rfl, typical_never_falls (w := 2) (bars := [⟨.fin 1, .fin 3, .fin 1, .fin 2, .fin 1⟩, ⟨.fin 1, .fin 4, .fin 2, .fin 3, .fin 1⟩,
    ⟨.fin 1, .fin 4, .fin 2, .fin 3, .fin 1⟩]) (by decide) rfl ?_⟩
  intro i x y _ hx hy
  have hi : i < 2 := by
    obtain ⟨q, _⟩ := List.getElem?_eq_some_iff.1 hy
    simp at q; omega
  rcases (by omega : i = 0 ∨ i = 1) with rfl | rfl <;> simp at hx hy <;> subst hx hy <;> refine ⟨?_, ?_, ?_⟩ <;> rw [notAbove_iff] <;>
    intro _ _ <;> exact EReal.coe_le_coe_iff.2 (by norm_num)

end Volatility
end Traquer
