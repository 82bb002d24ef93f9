import Verif.Props.LiftSmooth3
import Verif.Props.LiftStats
import Verif.Props.LiftTrend
import Verif.Props.LiftCorrelation
import Verif.Props.LiftVolume
import Verif.Props.Oscillators
import Verif.Props.Composed
import Verif.Lemmas.Witness
/-!
# C82: all prices raised by the same amount, in one equation, with concrete cases and with functions that do not follow
-/

namespace Traquer
open FP FloatLit
variable {c d : ℝ}

/-- Every price raised by `c`. -/
noncomputable def raise (c : ℝ) (l : List XF) : List XF := l.map (· + fin c)

theorem raised_add {x : XF} (h : x ≠ negz) : Raised c x (x + fin c) := by
  cases x with
  | nan => exact .nan
  | inf b => exact .inf b
  | negz => exact (h rfl).elim
  | fin r => rw [eval_add]; exact .fin r

theorem raised_eq_add {x y : XF} (h : Raised c x y) : y = x + fin c := by
  rcases h with ⟨r, rfl, rfl⟩ | ⟨rfl, rfl⟩ | ⟨b, rfl, rfl⟩
  · rw [eval_add]
  · rfl
  · rfl

theorem each_raise {l : List XF} (h : negz ∉ l) : Each (Lifted c 1) l (raise c l) := by
  refine each_raised.2 ?_
  induction l with
  | nil => exact .nil
  | cons x l ih => exact .cons (raised_add fun e => h (by simp [e])) (ih fun e => h (by simp [e]))

theorem raise_of_each {l l' : List XF} (h : Each (Lifted c 1) l l') : l' = raise c l := by
  have := each_raised.1 h
  clear h
  induction this with
  | nil => rfl
  | cons h _ ih => rw [ih, raised_eq_add h]; rfl

theorem Alike.raise {o o' : Option (List XF)} (h : Alike (Each (Lifted c 1)) o o') : o' = o.map (raise c) := by
  rcases h with _ | h
  · rfl
  · rw [raise_of_each h]; rfl

theorem Alike.unmoved {o o' : Option (List XF)} (h : Alike (Each (Lifted c 0)) o o') : o' = o :=
  (Alike.eq_of (fun _ _ h => lifted_each_zero.1 h) h).symm

section
variable {data high low close : List XF} (hd : negz ∉ data) (hh : negz ∉ high) (hl : negz ∉ low) (hc : negz ∉ close) (window : ℕ)

include hd in
/-- The moving average of prices raised by `c` is the moving average raised by `c`. -/
theorem sma_raise : Smooth.sma (raise c data) window = (Smooth.sma data window).map (raise c) := (Smooth.sma_lift (each_raise hd) window).raise

include hd in
theorem ewma_raise : Smooth.ewma (raise c data) window = (Smooth.ewma data window).map (raise c) := (Smooth.ewma_lift (each_raise hd) window).raise

include hd in
/-- The relative strength index does not see the level of prices. -/
theorem rsi_raise : Momentum.rsi (raise c data) window = Momentum.rsi data window := (Momentum.rsi_lift (each_raise hd) window).unmoved

include hd in
/-- Nor does the standard deviation. -/
theorem std_dev_raise (deviations : Option XF) : Volatility.std_dev (raise c data) window deviations = Volatility.std_dev data window deviations :=
  (Volatility.std_dev_lift (each_raise hd) window deviations).unmoved

include hh hl hc in
theorem atr_raise : Volatility.atr (raise c high) (raise c low) (raise c close) window = Volatility.atr high low close window :=
  (Volatility.atr_lift (each_raise hh) (each_raise hl) (each_raise hc) window).unmoved

include hh hl in
/-- The parabolic stop moves with the prices. -/
theorem psar_raise (af afMax : Option XF) : Trend.psar (raise c high) (raise c low) af afMax = (Trend.psar high low af afMax).map (raise c) :=
  (Trend.psar_lift (each_raise hh) (each_raise hl) af afMax).raise

include hh hl in
/-- The correlation of two series does not see the level of either. -/
theorem pcc_raise : Correlation.pcc (raise c high) (raise d low) window = Correlation.pcc high low window :=
  (Correlation.pcc_lift (each_raised.1 (each_raise hh)) (each_raised.1 (each_raise hl)) window).symm

end

/-! ## Concrete cases -/

/-- prices raised by 5 -/
example : Each (Lifted 5 1) ([10, 12, 11].map fin) ([15, 17, 16].map fin) := by
  refine each_raised.2 ?_
  simp only [List.map_cons, List.map_nil]
  exact .cons (.of_fin (by norm_num)) (.cons (.of_fin (by norm_num)) (.cons (.of_fin (by norm_num)) .nil))

example : Smooth.hull (raise 5 ([10, 12, 11, 13, 9].map fin)) 4 = (Smooth.hull ([10, 12, 11, 13, 9].map fin) 4).map (raise 5) :=
  (Smooth.hull_lift (each_raise (by simp)) 4).raise

example : Alike (Each (Lifted 5 1)) (Trend.psar ([10, 12, 11].map fin) ([8, 9, 10].map fin) none none)
    (Trend.psar (raise 5 ([10, 12, 11].map fin)) (raise 5 ([8, 9, 10].map fin)) none none) := Trend.psar_lift (each_raise (by simp)) (each_raise (by simp)) none none

example : Alike (Each (Lifted 5 1)) (Volume.vwma ([10, 12, 11].map fin) ([100, 200, 50].map fin) 2) (Volume.vwma (raise 5 ([10, 12, 11].map fin)) ([100, 200, 50].map fin) 2) :=
  Volume.vwma_lift (each_raise (by simp)) _ (by
    intro v hv
    simp only [List.map_cons, List.map_nil, List.mem_cons, List.not_mem_nil, or_false] at hv
    rcases hv with rfl | rfl | rfl <;> exact ⟨_, rfl, by norm_num⟩) 2

example : Alike (Each (RaisedZ 5)) (Smooth.t3 ([10, 12, 11, 13].map fin) 2 none) (Smooth.t3 (raise 5 ([10, 12, 11, 13].map fin)) 2 none) :=
  Smooth.t3_lift (each_raise (by simp)) 2 none 0.7 (is_sci 7 true 1)

/-! ## Functions that do not follow -/

/-- A rate of change is a ratio: from 1 to 2 it is 100%, from 2 to 3 it is 50%. -/
theorem roc_not_raised : ValueAt (Momentum.roc ([1, 2].map fin) 2) 1 100 ∧ ValueAt (Momentum.roc ([2, 3].map fin) 2) 1 50 := by
  constructor
  · exact (Momentum.roc_reports _ 2 (by decide) (by decide) (by simp [Fins, FP.Finite])).quot 1 le_rfl (by decide) (by norm_num [bar, vals, FP.val])
      (by norm_num [bar, vals, FP.val])
  · exact (Momentum.roc_reports _ 2 (by decide) (by decide) (by simp [Fins, FP.Finite])).quot 1 le_rfl (by decide) (by norm_num [bar, vals, FP.val])
      (by norm_num [bar, vals, FP.val])

/-- Kaufman's average starts from 0, not from the first price: its first value is a fraction of the price, 8/9 at a price of 2 and 44/9 at a price of 11. -/
theorem kama_not_raised : ValueAt (Smooth.kama ([1, 2].map fin) 2 none none) 1 (8 / 9) ∧ ValueAt (Smooth.kama ([10, 11].map fin) 2 none none) 1 (44 / 9) := by
  constructor
  all_goals
    refine (Smooth.kama_reports _ 2 none none (by decide) (by decide) (by simp [Fins, FP.Finite]) ?_).value 1 le_rfl (by decide) ?_
    · intro i h1 h2
      obtain rfl : i = 1 := by simp at h2; omega
      norm_num [recent, vals, FP.val, changes, pairs]
    · norm_num [adaptive, recent, vals, FP.val, changes, pairs, efficiency, bar]

end Traquer
