import Verif.Props.PoisonMore
import Verif.Props.FlatWindow
import Verif.Lemmas.Eval
import Verif.Lemmas.Witness
import Verif.Model.Momentum
/-!
# Bars that spoil, or fail to spoil, a result unexpectedly
-/

namespace Traquer
open FP FloatLit

/-- A bar without range (high, low and close equal, as on a day with one trade) makes every later value of the accumulation/distribution line
NaN, in any rounding. -/
theorem Volume.ad_flat_bar {ρ : Rounding} : PoisonedBy 0 (fun b : Candle (FP ρ) => ∃ r, b.high ⇓ r ∧ b.low ⇓ r ∧ b.close ⇓ r)
    fun l => Volume.ad (l.map (·.high)) (l.map (·.low)) (l.map (·.close)) (l.map (·.volume)) none := fun l i x _ hx hN o ho j y hj hy => by
  obtain ⟨r, hh, hl, hc⟩ := hN
  simp only [Volume.ad, Option.getD_none, Bool.not_false, if_true] at ho
  cases ho
  have hz : (zip4 (l.map (·.high)) (l.map (·.low)) (l.map (·.close)) (l.map (·.volume)))[i]? = some (x.high, x.low, x.close, x.volume) := by
    rw [zip4_eq]
    exact zip_at (by simp [hx]) (zip_at (by simp [hx]) (zip_at (by simp [hx]) (by simp [hx])))
  refine scanS_poison (P := fun s : FP ρ => Traquer.isNaN s = true) (fun s z hs => ?_) (fun s => ?_) hz _ j y hj hy
  · nanp
  · dsimp only
    have h0 := is_sub_same hh hl
    have h1 := is_sub_same (is_sub_same hc hl) (is_sub_same hh hc)
    have : Traquer.isNaN ((x.close - x.low - (x.high - x.close)) / (x.high - x.low)) = true := by
      rw [zeros_div h1 h0]; rfl
    nanp

example (a b c d : ℝ) (out : List XF) (h : Volume.ad [fin a, fin 7, fin b] [fin c, fin 7, fin d] [fin a, fin 7, fin b] [fin 5, fin 5, fin 5] none = some out) :
    ∀ j y, 1 ≤ j → out[j]? = some y → Traquer.isNaN y = true :=
  Volume.ad_flat_bar [⟨fin a, fin a, fin c, fin a, fin 5⟩, ⟨fin 7, fin 7, fin 7, fin 7, fin 5⟩, ⟨fin b, fin b, fin d, fin b, fin 5⟩] 1
    ⟨fin 7, fin 7, fin 7, fin 7, fin 5⟩ (by decide) rfl ⟨7, is_fin 7, is_fin 7, is_fin 7⟩ out h

theorem eval_nan_sub (x : XF) : FP.nan - x = (FP.nan : XF) := rfl
theorem eval_sub_nan (x : ℝ) : fin x - FP.nan = (FP.nan : XF) := rfl
theorem eval_max_nan (x : ℝ) : fmax (fin x) FP.nan = (fin x : XF) := rfl
theorem eval_max (x y : ℝ) : fmax (fin x) (fin y) = (fin (max x y) : XF) := by
  show (if Traquer.isNaN (fin x : XF) then _ else if Traquer.isNaN (fin y : XF) then _ else if fin x <. fin y then _ else _) = _
  rw [eval_lt]
  have h1 : Traquer.isNaN (fin x : XF) = false := rfl
  have h2 : Traquer.isNaN (fin y : XF) = false := rfl
  simp only [h1, h2, Bool.false_eq_true, if_false, decide_eq_true_eq]
  split
  · rw [max_eq_right (by linarith)]
  · rw [max_eq_left (by linarith)]

theorem eval_min_nan (x : ℝ) : fmin (fin x) FP.nan = (fin x : XF) := rfl
theorem eval_min (x y : ℝ) : fmin (fin x) (fin y) = (fin (min x y) : XF) := by
  show (if Traquer.isNaN (fin x : XF) then _ else if Traquer.isNaN (fin y : XF) then _ else if fin y <. fin x then _ else _) = _
  rw [eval_lt]
  have h1 : Traquer.isNaN (fin x : XF) = false := rfl
  have h2 : Traquer.isNaN (fin y : XF) = false := rfl
  simp only [h1, h2, Bool.false_eq_true, if_false, decide_eq_true_eq]
  split
  · rw [min_eq_right (by linarith)]
  · rw [min_eq_left (by linarith)]

/-- A NaN among the first nine prices does not spoil `vma`: `f64::max` ignores it. -/
theorem Smooth.vma_early_nan_ignored : ¬ PoisonedBy 0 IsNaN fun l : List XF => Smooth.vma l 1 := fun h => by
  have : ValueAt (Smooth.vma [FP.nan, fin 1, fin 2, fin 3, fin 4, fin 5, fin 6, fin 7, fin 8, fin 9] 1) 9 9 := by
    have e : Smooth.vma [FP.nan, fin 1, fin 2, fin 3, fin 4, fin 5, fin 6, fin 7, fin 8, fin 9] 1 = some (nans 9 ++ [(fin 9 : XF)]) := by
      evalx [Smooth.vma, Smooth.cmoRaw, Smooth.gainLoss, scanS, scan, pairs, windows, windowsOf, mapP, eval_nan_sub, eval_sub_nan, eval_max_nan, eval_max]
    exact ⟨_, fin 9, e, rfl, is_fin 9⟩
  obtain ⟨out, y, ho, hy, h9⟩ := this
  have := h _ 0 FP.nan (by decide) rfl rfl out ho 9 y (by decide) hy
  rw [isNaN_iff] at this
  subst this
  exact h9.1.elim

/-- Nor does a NaN price spoil the relative strength index, although it is made of Wilder's averages: the two changes next to it count as
no change. -/
theorem Momentum.rsi_nan_ignored : ¬ PoisonedBy 0 IsNaN fun l : List XF => Momentum.rsi l 2 := fun h => by
  have e : Momentum.rsi [fin 1, fin 2, FP.nan, fin 3] 2 = some (nans 2 ++ [(fin 100 : XF), fin 100]) := by
    evalx [Momentum.rsi, Momentum.gains, Momentum.losses, Smooth.wilder, scanS, scan, pairs, usub, sliceTo, sliceFrom, fsum, nans, eval_nan_sub,
      eval_sub_nan, eval_max_nan, eval_max, eval_min_nan, eval_min]
    rfl
  have := h _ 2 FP.nan (by decide) rfl rfl _ e 3 (fin 100) (by decide) rfl
  rw [isNaN_iff] at this
  cases this

end Traquer
