import Verif.Props.GapStats
import Verif.Props.Quantile
import Verif.Model.Trend
/-!
# Where a NaN price is silently skipped
-/

namespace Traquer
open FP FloatLit
variable {ρ : Rounding}

/-- `y` is the greatest of the numbers (the values that are not NaN) in `l`, or NaN if there are none. -/
def GreatestNumber (y : FP ρ) (l : List (FP ρ)) : Prop :=
  (y ∈ l ∧ isNaN y = false ∧ ∀ x ∈ l, isNaN x = false → (y <. x) = false) ∨ (isNaN y = true ∧ ∀ x ∈ l, isNaN x = true)

/-- `y` is the least of the numbers in `l`, or NaN if there are none. -/
def LeastNumber (y : FP ρ) (l : List (FP ρ)) : Prop :=
  (y ∈ l ∧ isNaN y = false ∧ ∀ x ∈ l, isNaN x = false → (x <. y) = false) ∨ (isNaN y = true ∧ ∀ x ∈ l, isNaN x = true)

theorem greatestNumber_foldMax (l : List (FP ρ)) : GreatestNumber (Volatility.foldMax l) l := by
  induction l using List.reverseRecOn with
  | nil => exact Or.inr ⟨rfl, by simp⟩
  | append_singleton l x ih =>
    have e : Volatility.foldMax (l ++ [x]) = fmax (Volatility.foldMax l) x := by simp [Volatility.foldMax]
    rw [e]
    generalize Volatility.foldMax l = m at ih
    rcases hx : isNaN x with _ | _
    · rcases ih with ⟨hm, hn, hle⟩ | ⟨hn, hall⟩
      · rw [fmax_def hn hx]
        split
        · rename_i hlt
          refine Or.inl ⟨by simp, hx, fun z hz hzn => ?_⟩
          rcases List.mem_append.1 hz with hz | hz
          · have := hle z hz hzn
            rw [toE_lt hn hzn, decide_eq_false_iff_not, not_lt] at this
            rw [toE_lt hx hzn, decide_eq_false_iff_not, not_lt]
            exact this.trans hlt.le
          · rw [List.mem_singleton.1 hz, toE_lt hx hx, decide_eq_false_iff_not]
            exact lt_irrefl _
        · rename_i hlt
          refine Or.inl ⟨List.mem_append_left _ hm, hn, fun z hz hzn => ?_⟩
          rcases List.mem_append.1 hz with hz | hz
          · exact hle z hz hzn
          · rw [List.mem_singleton.1 hz, toE_lt hn hx, decide_eq_false_iff_not]
            exact hlt
      · rw [nan_of_isNaN hn, fmax_nan_left]
        refine Or.inl ⟨by simp, hx, fun z hz hzn => ?_⟩
        rcases List.mem_append.1 hz with hz | hz
        · rw [hall z hz] at hzn
          cases hzn
        · rw [List.mem_singleton.1 hz, toE_lt hx hx, decide_eq_false_iff_not]
          exact lt_irrefl _
    · rw [nan_of_isNaN hx, fmax_nan_right]
      rcases ih with ⟨hm, hn, hle⟩ | ⟨hn, hall⟩
      · refine Or.inl ⟨List.mem_append_left _ hm, hn, fun z hz hzn => ?_⟩
        rcases List.mem_append.1 hz with hz | hz
        · exact hle z hz hzn
        · rw [List.mem_singleton.1 hz] at hzn
          cases hzn
      · refine Or.inr ⟨hn, fun z hz => ?_⟩
        rcases List.mem_append.1 hz with hz | hz
        · exact hall z hz
        · rw [List.mem_singleton.1 hz]
          rfl

theorem leastNumber_foldMin (l : List (FP ρ)) : LeastNumber (Volatility.foldMin l) l := by
  induction l using List.reverseRecOn with
  | nil => exact Or.inr ⟨rfl, by simp⟩
  | append_singleton l x ih =>
    have e : Volatility.foldMin (l ++ [x]) = fmin (Volatility.foldMin l) x := by simp [Volatility.foldMin]
    rw [e]
    generalize Volatility.foldMin l = m at ih
    rcases hx : isNaN x with _ | _
    · rcases ih with ⟨hm, hn, hle⟩ | ⟨hn, hall⟩
      · rw [fmin_def hn hx]
        split
        · rename_i hlt
          refine Or.inl ⟨by simp, hx, fun z hz hzn => ?_⟩
          rcases List.mem_append.1 hz with hz | hz
          · have := hle z hz hzn
            rw [toE_lt hzn hn, decide_eq_false_iff_not, not_lt] at this
            rw [toE_lt hzn hx, decide_eq_false_iff_not, not_lt]
            exact hlt.le.trans this
          · rw [List.mem_singleton.1 hz, toE_lt hx hx, decide_eq_false_iff_not]
            exact lt_irrefl _
        · rename_i hlt
          refine Or.inl ⟨List.mem_append_left _ hm, hn, fun z hz hzn => ?_⟩
          rcases List.mem_append.1 hz with hz | hz
          · exact hle z hz hzn
          · rw [List.mem_singleton.1 hz, toE_lt hx hn, decide_eq_false_iff_not]
            exact hlt
      · rw [nan_of_isNaN hn, fmin_nan_left]
        refine Or.inl ⟨by simp, hx, fun z hz hzn => ?_⟩
        rcases List.mem_append.1 hz with hz | hz
        · rw [hall z hz] at hzn
          cases hzn
        · rw [List.mem_singleton.1 hz, toE_lt hx hx, decide_eq_false_iff_not]
          exact lt_irrefl _
    · rw [nan_of_isNaN hx, fmin_nan_right]
      rcases ih with ⟨hm, hn, hle⟩ | ⟨hn, hall⟩
      · refine Or.inl ⟨List.mem_append_left _ hm, hn, fun z hz hzn => ?_⟩
        rcases List.mem_append.1 hz with hz | hz
        · exact hle z hz hzn
        · rw [List.mem_singleton.1 hz] at hzn
          cases hzn
      · refine Or.inr ⟨hn, fun z hz => ?_⟩
        rcases List.mem_append.1 hz with hz | hz
        · exact hall z hz
        · rw [List.mem_singleton.1 hz]
          rfl

/-- The Donchian channel skips NaN bars, in every arithmetic: its lines are the greatest of the highs and the least of the lows in the window that
are numbers. -/
theorem Volatility.donchian_skips (high low : List (FP ρ)) (w : ℕ) (hl : low.length = high.length) (out : List (FP ρ × FP ρ × FP ρ))
    (ho : Volatility.donchian high low w = some out) (i : ℕ) (h1 : w ≤ i + 1) (h2 : i < high.length) :
    ∃ y, out[i]? = some y ∧ GreatestNumber y.1 (recent high w i) ∧ LeastNumber y.2.2 (recent low w i) := by
  simp only [Volatility.donchian] at ho
  unslice ho
  obtain ⟨hw, -, -, ho⟩ := ho
  cases ho
  rw [List.getElem?_append_right (by simp; omega), List.length_replicate, List.getElem?_map]
  rw [show ((windowsOf w high).zip (windowsOf w low))[i - (w - 1)]? = some (recent high w i, recent low w i) from
    List.getElem?_zip_eq_some.2 ⟨windowsOf_recent hw h1 h2, windowsOf_recent hw h1 (by omega)⟩]
  exact ⟨_, rfl, greatestNumber_foldMax _, leastNumber_foldMin _⟩

example : ∃ y : XF × XF × XF, (∃ out, Volatility.donchian [fin 1, FP.nan, fin 3] [fin 0, fin 1, fin 1] 3 = some out ∧ out[2]? = some y) ∧
    GreatestNumber y.1 [fin 1, FP.nan, fin 3] ∧ LeastNumber y.2.2 [fin 0, fin 1, fin 1] := by
  obtain ⟨y, hy, h⟩ := Volatility.donchian_skips (ρ := Rounding.exact) [fin 1, FP.nan, fin 3] [fin 0, fin 1, fin 1] 3 rfl _ rfl 2 (by decide) (by decide)
  exact ⟨y, ⟨_, rfl, hy⟩, h⟩

theorem eval_lt_nan (x : XF) : (x <. FP.nan) = false := by rcases x with _ | _ | _ | _ <;> rfl
theorem eval_nan_lt (x : XF) : (FP.nan <. x) = false := by rcases x with _ | _ | _ | _ <;> rfl

theorem Distribution.quickselect_three {T : Type} (lt : T → T → Bool) (a b c : T) (h1 : lt a c = true) (h2 : lt b c = false) :
    Distribution.quickselect lt [a, b, c] 1 = some ([a, c, b], c) := by
  have l : Distribution.lomuto lt c 2 0 0 [a, b, c] = some ([a, b, c], 1) := by
    simp [Distribution.lomuto, Distribution.swap, h1, h2]
  show Distribution.quickselectLoop lt 1 (3 + 1) 0 2 [a, b, c] = _
  rw [Distribution.quickselectLoop, if_pos (by decide)]
  show (Distribution.lomuto lt c 2 0 0 [a, b, c]).bind _ = _
  rw [l]
  rfl

/-- The median does not show a NaN price either: for 1, NaN, 3 it is 3. -/
theorem Distribution.median_nan_ignored : ¬ GapShows 3 IsNaN fun l : List XF => Distribution.median l 3 := fun h => by
  have e : Distribution.median [fin 1, FP.nan, fin 3] 3 = some (nans 2 ++ [(fin 3 : XF)]) := by
    have hp : (flt 2 * (clampLit (50 : XF) 0 100 / 100) : XF) ⇓ 1 := by
      have hc : clampLit (50 : XF) 0 100 = fin 50 := by evalx [clampLit]
      rw [hc]
      exact (is_mul (is_flt 2) (is_div (is_fin 50) (is_lit 100) (by norm_num))).congr (by norm_num)
    have hf : (fract (flt 2 * (clampLit (50 : XF) 0 100 / 100) : XF) ==. 0) = true := by
      rw [is_feq (is_fract hp (by norm_num)) is_zero]
      simp
    have hu : toUsize (flt 2 * (clampLit (50 : XF) 0 100 / 100) : XF) = 1 := by
      rw [is_toUsize hp (by norm_num)]
      simp
    have hq : Distribution.quickselect (fun x y : XF => x <. y) [fin 1, FP.nan, fin 3] 1 = some ([fin 1, fin 3, FP.nan], fin 3) := by
      exact Distribution.quickselect_three _ _ _ _ (by rw [eval_lt]; norm_num) (eval_nan_lt _)
    simp only [Distribution.median, Distribution.quantile, Distribution.quantileT, usub, windows, windowsOf, List.length_cons, List.length_nil, Option.bind_eq_bind]
    rw [if_pos (by decide), Option.bind_some, if_neg (by decide), Option.bind_some]
    show Option.bind (mapP _ [[fin 1, FP.nan, fin 3]]) _ = _
    simp only [mapP, hf, hu, hq, if_true, Option.bind_some]
    rfl
  have := h _ 1 FP.nan rfl rfl _ e 2 (fin 3) (by decide) (by decide) rfl
  rw [isNaN_iff] at this
  cases this

theorem eval_signum_nan : signum (FP.nan : XF) = FP.nan := rfl
theorem eval_nan_max (x : XF) : fmax FP.nan x = x := rfl

/-- The psychological line counts the two changes next to a NaN price as not up. -/
theorem Momentum.psych_nan_ignored : ¬ GapShows 2 IsNaN fun l : List XF => Momentum.psych l 2 := fun h => by
  have e : Momentum.psych [fin 1, FP.nan, fin 3] 2 = some (nans 2 ++ [(fin 0 : XF)]) := by
    evalx [Momentum.psych, pairs, windows, windowsOf, fsum, eval_nan_sub, eval_sub_nan, eval_signum_nan, eval_nan_max]
  have := h _ 1 FP.nan rfl rfl _ e 2 (fin 0) (by decide) (by decide) rfl
  rw [isNaN_iff] at this
  cases this

end Traquer
