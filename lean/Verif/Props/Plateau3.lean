import Verif.Props.Plateau
/-!
# C139: the Donchian channel never turns against the bars, in every rounding
-/

namespace Traquer.Volatility
open FP
variable {ρ : Rounding}


/-- If no high and no low is below the one before (and none is missing), no line of the channel is below its value before. -/
theorem donchian_never_falls {w : ℕ} (hw : 1 ≤ w) {bars : List (Candle (FP ρ))} {out : List (FP ρ × FP ρ × FP ρ)}
    (ho : donchian (bars.map (·.high)) (bars.map (·.low)) w = some out) (hn : ∀ b ∈ bars, AtMost b.high b.high ∧ AtMost b.low b.low)
    (h : StepsBy (fun a b : Candle (FP ρ) => AtMost a.high b.high ∧ AtMost a.low b.low) 0 bars) :
    StepsBy (fun x y : FP ρ × FP ρ × FP ρ => NotAbove x.1 y.1 ∧ NotAbove x.2.1 y.2.1 ∧ NotAbove x.2.2 y.2.2) (w - 1) (out.take bars.length) :=
  steps_of_local (donchian_local hw) (fun _ _ h => donchian_mono (each_map h fun _ _ q => q.1) (each_map h fun _ _ q => q.2) w)
    (fun z hz => hn z (List.mem_of_getLast? hz)) ho h

theorem donchian_never_rises {w : ℕ} (hw : 1 ≤ w) {bars : List (Candle (FP ρ))} {out : List (FP ρ × FP ρ × FP ρ)}
    (ho : donchian (bars.map (·.high)) (bars.map (·.low)) w = some out) (hn : ∀ b ∈ bars, AtMost b.high b.high ∧ AtMost b.low b.low)
    (h : StepsBy (fun a b : Candle (FP ρ) => AtMost b.high a.high ∧ AtMost b.low a.low) 0 bars) :
    StepsBy (fun x y : FP ρ × FP ρ × FP ρ => NotAbove y.1 x.1 ∧ NotAbove y.2.1 x.2.1 ∧ NotAbove y.2.2 x.2.2) (w - 1) (out.take bars.length) :=
  steps_of_local (donchian_local hw) (fun a b h => by
    have hs := donchian_mono (each_map h.flip fun _ _ q => q.1) (each_map h.flip fun _ _ q => q.2) w
    revert hs
    cases donchian (a.map (·.high)) (a.map (·.low)) w <;> cases donchian (b.map (·.high)) (b.map (·.low)) w <;> intro hs <;> cases hs
    · exact .panic
    · rename_i q; exact .answer q.flip) (fun z hz => hn z (List.mem_of_getLast? hz)) ho h

/-- Bars that rise, then pause. -/
example : ∃ out, donchian ([.fin 3, .fin 4, .fin 4] : List F64) [.fin 1, .fin 2, .fin 2] 2 = some out ∧
    StepsBy (fun x y => NotAbove x.1 y.1 ∧ NotAbove x.2.1 y.2.1 ∧ NotAbove x.2.2 y.2.2) 1 (out.take 3) := by
  have le : ∀ a b : ℝ, a ≤ b → AtMost (.fin a : F64) (.fin b) := fun a b h => le_iff.2 ⟨by simp, by simp, EReal.coe_le_coe_iff.2 h⟩
  refine ⟨_, rfl, donchian_never_falls (w := 2) (bars := [⟨.fin 1, .fin 3, .fin 1, .fin 2, .fin 1⟩, ⟨.fin 1, .fin 4, .fin 2, .fin 3, .fin 1⟩,
    ⟨.fin 1, .fin 4, .fin 2, .fin 3, .fin 1⟩]) (by decide) rfl ?_ ?_⟩
  · intro b hb
    simp at hb
    rcases hb with rfl | rfl <;> exact ⟨le _ _ le_rfl, le _ _ le_rfl⟩
  · intro i x y _ hx hy
    have hi : i < 2 := by
      obtain ⟨q, _⟩ := List.getElem?_eq_some_iff.1 hy
      simp at q; omega
    rcases (by omega : i = 0 ∨ i = 1) with rfl | rfl <;> simp at hx hy <;> subst hx hy <;> exact ⟨le _ _ (by norm_num), le _ _ (by norm_num)⟩

end Traquer.Volatility
