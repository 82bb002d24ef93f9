import Verif.Props.SignMeasures
import Verif.Props.Range64b
/-!
# C81: bands never cross, in every rounding
-/

namespace Traquer
open FP FloatLit
variable {ρ : Rounding} {m d : FP ρ}

theorem Stored.rndX (hm : Stored m) (hn : m ≠ FP.nan) : rndX ρ m.toE = m.toE := by
  have key : ∀ r, m ⇓ r → m.toE = (r : EReal) → FP.rndX ρ m.toE = m.toE := fun r hr e => by
    obtain ⟨h1, h2⟩ := hm r hr
    rw [e, rndX_coe, rndE, h1, if_pos h2]
  cases m with
  | nan => exact absurd rfl hn
  | inf b => cases b <;> rfl
  | negz => exact key 0 is_negz rfl
  | fin r => exact key r (is_fin r) rfl

/-- A line never exceeds itself plus a non-negative distance, if it is a number of the format. -/
theorem NotAbove.add_dist (hm : Stored m) (hd : NotNegative d) : NotAbove m (m + d) := by
  refine notAbove_iff.2 fun hn hs => ?_
  have hd0 : d ≠ FP.nan := fun h => hs (h ▸ add_nan)
  rw [toE_add hs]
  have h0 := nonNeg_iff.1 (notNegative_iff.1 hd) hd0
  have h1 : m.toE ≤ m.toE + d.toE := by
    calc m.toE = m.toE + 0 := (add_zero _).symm
      _ ≤ _ := add_le_add le_rfl h0
  exact le_of_eq_of_le (hm.rndX hn).symm (rndX_mono h1)

/-- A line is never below itself minus a non-negative distance. -/
theorem NotAbove.sub_dist (hm : Stored m) (hd : NotNegative d) : NotAbove (m - d) m := by
  refine notAbove_iff.2 fun hs hn => ?_
  change m + -d ≠ FP.nan at hs
  show (m + -d).toE ≤ _
  have hd0 : d ≠ FP.nan := by rintro rfl; exact hs add_nan
  rw [toE_add hs]
  have h0 := nonNeg_iff.1 (notNegative_iff.1 hd) hd0
  have h1 : m.toE + (-d).toE ≤ m.toE := by
    rw [toE_neg]
    calc m.toE + -d.toE ≤ m.toE + 0 := add_le_add le_rfl (EReal.neg_le_zero.2 h0)
      _ = _ := add_zero _
  exact (rndX_mono h1).trans (hm.rndX hn).le

/-- The lower of two lines at the same non-negative distance from a third is not above the upper one. -/
theorem NotAbove.band (m : FP ρ) (hd : NotNegative d) : NotAbove (m - d) (m + d) := by
  have h : NotAbove (-d) d := by
    refine notAbove_iff.2 fun h1 h2 => ?_
    have h0 := nonNeg_iff.1 (notNegative_iff.1 hd) h2
    rw [toE_neg]
    exact (EReal.neg_le_zero.2 h0).trans h0
  exact (NotAbove.refl m).add h

end Traquer

namespace Traquer.Smooth
open FP FloatLit
variable {ρ : Rounding} {data : List (FP ρ)}

theorem sma_stored (window : ℕ) : Every Stored (sma data window) :=
  .bind fun _ _ => .bind fun _ _ => every_warm stored_nan <| every_map fun _ _ => stored_div

theorem ewma_stored (window : ℕ) : Every Stored (ewma data window) := by
  refine .bind fun hd e1 => .bind fun k e2 => .bind fun rest e3 => every_warm stored_nan fun y hy => ?_
  rcases List.mem_cons.1 hy with rfl | hy
  · exact stored_div
  · exact scanS_all stored_div (fun _ _ _ _ => stored_add) y hy

theorem wma_stored (window : ℕ) : Every Stored (wma data window) :=
  .bind fun _ _ => .bind fun _ _ => every_warm stored_nan <| every_map fun _ _ => stored_fsum

/-- Every average offered by `ma` is a number of the format. -/
theorem ma_stored (h : ∀ x ∈ data, Stored x) (window : ℕ) (mode : MaMode) : Every Stored (ma data window mode) := by
  cases mode
  · exact sma_stored window
  · exact ewma_stored window
  · exact .bind fun _ _ => .bind fun _ _ => .bind fun _ _ => .bind fun _ _ => every_some.2 <| every_map fun _ _ => stored_sub
  · exact .bind fun _ _ => .bind fun _ _ => .bind fun _ _ => .bind fun _ _ => .bind fun _ _ => .bind fun _ _ =>
      every_some.2 <| every_map fun _ _ => stored_add
  · exact wma_stored window
  · exact .bind fun _ _ => .bind fun _ _ => wma_stored _
  · exact .bind fun _ _ => .bind fun _ _ => every_warm stored_nan <| every_map fun _ _ => stored_add
  · exact .bind fun _ _ => .bind fun _ _ => .bind fun _ _ => every_warm stored_nan <| every_map fun _ _ => stored_fsum
  · exact .bind fun _ _ => sma_stored _
  · exact .bind fun _ _ => every_warm stored_nan fun y hy =>
      scanS_all (P := Stored) stored_zero (fun _ _ _ _ => stored_add) y (List.mem_of_mem_drop hy)
  · unfold ma vidya
    refine Every.bind fun std5 _ => .bind fun std20 _ => every_warm stored_nan fun y hy => ?_
    exact scanS_all (P := Stored) stored_zero (fun _ _ _ _ => stored_add) y hy
  · exact fun out e => stored_wilder h e
  · exact .bind fun _ _ => .bind fun _ _ => .bind fun r e => every_warm stored_nan (ewma_stored _ r e)

end Traquer.Smooth

namespace Traquer.Volatility
open FP FloatLit
variable {ρ : Rounding} (data high low close : List (FP ρ)) (window : ℕ)

theorem std_dev_notNegative (devs : Option (FP ρ)) (hd : ∀ d, devs = some d → NotNegative d) :
    Every NotNegative (std_dev data window devs) := by
  refine .bind fun r e => every_some.2 <| every_map fun x hx =>
    ((Distribution.std_dev_clear data window r e x hx).nonNeg.times ?_).notNegative
  cases devs with
  | none => exact (signClear_flt 2).nonNeg
  | some d => exact notNegative_iff.1 (hd d rfl)

/-- C81: the lower Bollinger band is never above the upper one, whatever the data, the average and the rounding. -/
theorem bbands_ordered64 (devs : Option (FP ρ)) (hd : ∀ d, devs = some d → NotNegative d) (mode : Option Smooth.MaMode) :
    Every (fun p => NotAbove p.2.2 p.1) (bbands data window devs mode) := by
  refine .bind fun m _ => .bind fun s es => every_some.2 <| every_map ?_
  rintro ⟨a, b⟩ hab
  exact .band a (std_dev_notNegative data window devs hd s es b (List.of_mem_zip hab).2)

/-- C81: and the middle line is between them. -/
theorem bbands_middle64 (hs : ∀ x ∈ data, Stored x) (devs : Option (FP ρ)) (hd : ∀ d, devs = some d → NotNegative d)
    (mode : Option Smooth.MaMode) :
    Every (fun p => NotAbove p.2.2 p.2.1 ∧ NotAbove p.2.1 p.1) (bbands data window devs mode) := by
  refine .bind fun m em => .bind fun s es => every_some.2 <| every_map ?_
  rintro ⟨a, b⟩ hab
  have h1 := std_dev_notNegative data window devs hd s es b (List.of_mem_zip hab).2
  have h2 := Smooth.ma_stored hs window _ m em a (List.of_mem_zip hab).1
  exact ⟨.sub_dist h2 h1, .add_dist h2 h1⟩

/-- C81: the Keltner channel is in order, if the closes are not NaN. -/
theorem keltner_ordered64 (hc : ∀ c ∈ close, isNaN c = false) :
    Every (fun p => NotAbove p.2.2 p.1 ∧ NotAbove p.1 p.2.1 ∧ NotAbove p.2.2 p.2.1) (keltner high low close window) := by
  refine .bind fun m em => .bind fun a ea => every_some.2 <| every_map ?_
  rintro ⟨x, y⟩ hxy
  have h1 : NotNegative (2 * y) := ((signClear_flt 2).nonNeg.times
    (notNegative_iff.1 (atr_notNegative high low close window hc a ea y (List.of_mem_zip hxy).2))).notNegative
  have h2 := Smooth.ewma_stored window m em x (List.of_mem_zip hxy).1
  exact ⟨.sub_dist h2 h1, .add_dist h2 h1, .band x h1⟩

/-- C81: the STARC bands are in order, if the closes are not NaN. -/
theorem starc_ordered64 (hc : ∀ c ∈ close, isNaN c = false) (maWindow : ℕ) (mult : Option (FP ρ))
    (hm : ∀ k, mult = some k → NotNegative k) :
    Every (fun p => NotAbove p.2 p.1) (starc high low close window maWindow mult) := by
  refine .bind fun a ea => .bind fun m em => every_some.2 <| every_map ?_
  rintro ⟨x, y⟩ hxy
  refine .band y (NonNegOrNaN.times ?_
    (notNegative_iff.1 (atr_notNegative high low close window hc a ea x (List.of_mem_zip hxy).1))).notNegative
  cases mult with
  | none => exact (signClear_mk (by show (0 : ℝ) ≤ 1.2; norm_num)).nonNeg
  | some k => exact notNegative_iff.1 (hm k rfl)

/-- C81: the Donchian channel is in order, if the lows are not above the highs. -/
theorem donchian_ordered64 (hb : ∀ p ∈ high.zip low, isNaN p.1 = false ∧ isNaN p.2 = false ∧ NotAbove p.2 p.1) :
    Every (fun p => NotAbove p.2.2 p.1) (donchian high low window) := by
  refine .bind fun k ek => .bind fun hs e1 => .bind fun ls e2 => every_some.2 fun p hp => ?_
  rcases List.mem_append.1 hp with hp | hp
  · rw [List.eq_of_mem_replicate hp]; exact .refl _
  obtain ⟨⟨h, l⟩, hm, rfl⟩ := List.mem_map.1 hp
  obtain ⟨j, hj⟩ := List.mem_iff_getElem?.1 hm
  obtain ⟨j1, j2⟩ := List.getElem?_zip_eq_some.1 hj
  have hw : 1 ≤ window := by
    by_contra h0
    rw [show window = 0 by omega] at ek
    exact absurd ek (by simp [usub])
  rw [windows_of_pos hw] at e1 e2
  cases e1; cases e2
  have l1 := (List.getElem?_eq_some_iff.1 j1).1
  have l2 := (List.getElem?_eq_some_iff.1 j2).1
  rw [windowsOf_length] at l1 l2
  rw [windowsOf_getElem? (by omega)] at j1 j2
  cases j1; cases j2
  have hb' := hb (high[j], low[j]) (List.mem_iff_getElem?.2 ⟨j, by simp [List.getElem?_zip_eq_some]⟩)
  have m1 : high[j] ∈ (high.drop j).take window := List.mem_iff_getElem?.2 ⟨0, by rw [List.getElem?_take_of_lt (by omega), List.getElem?_drop]; simp⟩
  have m2 : low[j] ∈ (low.drop j).take window := List.mem_iff_getElem?.2 ⟨0, by rw [List.getElem?_take_of_lt (by omega), List.getElem?_drop]; simp⟩
  obtain ⟨b1, b2, b3⟩ := hb'
  obtain ⟨-, g1⟩ := Momentum.foldMax_toE m1 b1
  obtain ⟨-, g2⟩ := Momentum.foldMin_toE m2 b2
  exact notAbove_iff.2 fun _ _ => g2.trans ((notAbove_iff.1 b3 (isNaN_false_iff.1 b2) (isNaN_false_iff.1 b1)).trans g1)

end Traquer.Volatility
