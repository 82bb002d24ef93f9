import Verif.Props.PoisonSmooth
import Verif.Lemmas.Real
/-!
# A NaN price spoils the adaptive averages for good
-/

namespace Traquer.Smooth
open FloatLit
open Traquer.Distribution (stdDevRaw stdDevWin powDev winMean)
variable {F : Type} [FloatOps F]

omit [FloatOps F] in
theorem pairs_hit {l : List F} {i : Nat} {x : F} (hx : l[i]? = some x) (hl : 2 ≤ l.length) : ∃ p ∈ pairs l, p.1 = x ∨ p.2 = x := by
  have hi := (List.getElem?_eq_some_iff.1 hx).1
  rw [pairs_eq_zip]
  cases i with
  | zero =>
    refine ⟨(x, l[1]), List.mem_of_getElem? (i := 0) (zip_at hx ?_), .inl rfl⟩
    rw [← List.drop_one, List.getElem?_drop]
    exact List.getElem?_eq_getElem _
  | succ i =>
    refine ⟨(l[i], x), List.mem_of_getElem? (i := i) (zip_at (List.getElem?_eq_getElem _) ?_), .inr rfl⟩
    rw [← List.drop_one, List.getElem?_drop, ← hx, Nat.add_comm]

variable [NaNLaws F]

/-- The efficiency ratio of two or more bars with a NaN among them. -/
theorem effRatio_isNaN {l : List F} {e : F} (h : ∃ x ∈ l, isNaN x = true) (hl : 2 ≤ l.length) (he : effRatio l = some e) : isNaN e = true := by
  simp only [effRatio] at he
  obtain ⟨a, -, he⟩ := Option.bind_eq_some_iff.1 he
  obtain ⟨b, -, he⟩ := Option.bind_eq_some_iff.1 he
  cases he
  obtain ⟨x, hx, hN⟩ := h
  obtain ⟨i, hi⟩ := List.getElem?_of_mem hx
  obtain ⟨p, hp, hpx⟩ := pairs_hit hi hl
  apply NaNLaws.div_right
  refine foldl_isNaN (p := fun s : F => isNaN s = true) (q := fun p : F × F => isNaN p.1 = true ∨ isNaN p.2 = true) (fun s x h => by nanp)
    (fun s x h => ?_) (.inr ⟨p, hp, ?_⟩)
  · rcases h with h | h <;> nanp
  · rcases hpx with h | h
    · exact .inl (h ▸ hN)
    · exact .inr (h ▸ hN)

theorem kama_poisoned_by_nan (w : Nat) (short long : Option Nat) : PoisonedBy 0 IsNaN fun l : List F => kama l w short long :=
    fun l i x _ hx hN o ho j y hj hy => by
  have hi := (List.getElem?_eq_some_iff.1 hx).1
  simp only [kama] at ho
  unslice ho
  obtain ⟨hw, -, ho⟩ := ho
  obtain ⟨r, hr, ho⟩ := Option.bind_eq_some_iff.1 ho
  cases ho
  have hN : isNaN x = true := hN
  rcases Nat.lt_or_ge j (w - 1) with hk | hk
  · rw [List.getElem?_append_left (by simpa using hk)] at hy
    exact isNaN_nans hy
  have hjr := (List.getElem?_eq_some_iff.1 hy).1
  rw [List.getElem?_append_right (by simpa using hk), nans_length] at hy
  have hlen : w ≤ l.length := by
    have := scanM_length hr
    simp [this] at hjr
    omega
  have hwin : (windowsOf w l)[i - (w - 1)]? = some ((l.drop (i - (w - 1))).take w) := windowsOf_getElem? (by omega)
  have hxw : ((l.drop (i - (w - 1))).take w)[i - (i - (w - 1))]? = some x := by
    rw [List.getElem?_take_of_lt (by omega), List.getElem?_drop, ← hx]; congr 1; omega
  have hwl : ((l.drop (i - (w - 1))).take w).length = w := by simp; omega
  refine scanM_poison (P := fun s : F => isNaN s = true) (Q := fun y : F => isNaN y = true) ?_ ?_ hwin hr _ y (by omega) hy
  · intro s z s' y he hs
    obtain ⟨er, -, he⟩ := Option.bind_eq_some_iff.1 he
    obtain ⟨la, -, he⟩ := Option.bind_eq_some_iff.1 he
    cases he
    exact ⟨by nanp, by nanp⟩
  · intro s s' y he
    obtain ⟨er, h1, he⟩ := Option.bind_eq_some_iff.1 he
    obtain ⟨la, h2, he⟩ := Option.bind_eq_some_iff.1 he
    cases he
    rcases Nat.lt_or_ge w 2 with h | h
    · have : la = x := by
        obtain rfl : w = 1 := by omega
        rw [hwl] at h2
        rw [show i - (i - (1 - 1)) = 1 - 1 by omega, h2] at hxw
        exact Option.some.inj hxw
      subst this
      exact ⟨by nanp, by nanp⟩
    · have := effRatio_isNaN ⟨x, List.mem_of_getElem? hxw, hN⟩ (by omega) h1
      have := isNaN_powi (x := er * (2 / flt (short.getD 2 + 1) - 2 / flt (long.getD 30 + 1)) + 2 / flt (long.getD 30 + 1)) (by nanp)
      exact ⟨by nanp, by nanp⟩

example (a b c x y : F) (out : List F) (h : kama [a, nan, b, c, x, y] 4 none none = some out) :
    ∀ j y, 1 ≤ j → out[j]? = some y → isNaN y = true :=
  kama_poisoned_by_nan 4 none none _ 1 nan (by decide) rfl NaNLaws.nan_isNaN out h

theorem stdDevWin_isNaN {l : List F} {w : Nat} (h : ∃ x ∈ l, isNaN x = true) : isNaN (stdDevWin w l) = true := by
  obtain ⟨x, hx, hN⟩ := h
  have : isNaN (powDev l (winMean l w) 2) = true := by
    refine foldl_isNaN (p := fun s : F => isNaN s = true) (q := fun p : F => isNaN p = true) (fun s x h => by nanp) (fun s x h => ?_) (.inr ⟨x, hx, hN⟩)
    have := isNaN_powi (x := x - winMean l w) (by nanp)
    nanp
  show isNaN (sqrt _) = true
  nanp

/-- The deviation over 5 bars is averaged over 20 of its values, so the first 23 bars all enter the first reported value. -/
theorem vidya_poisoned_by_nan (w : Nat) : PoisonedBy 0 IsNaN fun l : List F => vidya l w := fun l i x _ hx hN o ho j y hj hy => by
  have hi := (List.getElem?_eq_some_iff.1 hx).1
  simp only [vidya] at ho
  obtain ⟨s5, h5, ho⟩ := Option.bind_eq_some_iff.1 ho
  obtain ⟨s20, h20, ho⟩ := Option.bind_eq_some_iff.1 ho
  simp only [stdDevRaw] at h5
  unslice h5
  obtain ⟨-, h5⟩ := h5
  cases h5
  simp only [sma] at h20
  unslice h20
  obtain ⟨-, -, h20⟩ := h20
  cases h20
  cases ho
  have hN : isNaN x = true := hN
  rcases Nat.lt_or_ge j 23 with hk | hk
  · rw [List.getElem?_append_left (by simpa using hk)] at hy
    exact isNaN_nans hy
  have hjr := (List.getElem?_eq_some_iff.1 hy).1
  rw [List.getElem?_append_right (by simpa using hk), nans_length] at hy
  have hlen : 24 ≤ l.length := by
    simp [zip3_eq] at hjr
    omega
  have keep : ∀ (s : F) (z : F × F × F), isNaN s = true → isNaN (2 / flt (w + 1) * (z.2.1 / z.1) * (z.2.2 - s) + s) = true := fun s z h => by nanp
  have get : ∀ m, m + 24 ≤ l.length → ∃ s20 s5 d, (zip3 (((nans 19 ++ (windowsOf 20 ((windowsOf 5 l).map (stdDevWin 5))).map fun w => fsum w / flt 20)).drop 19)
      (((windowsOf 5 l).map (stdDevWin 5)).drop 19) (l.drop 23))[m]? = some (s20, s5, d) ∧ l[m + 23]? = some d ∧
      s20 = fsum ((((windowsOf 5 l).map (stdDevWin 5)).drop m).take 20) / flt 20 := by
    intro m hm
    have h1 : ((nans 19 ++ (windowsOf 20 ((windowsOf 5 l).map (stdDevWin 5))).map fun w => fsum w / flt 20).drop 19)[m]?
        = some (fsum ((((windowsOf 5 l).map (stdDevWin 5)).drop m).take 20) / flt 20 : F) := by
      rw [List.getElem?_drop, List.getElem?_append_right (by simp), nans_length, show 19 + m - 19 = m by omega, List.getElem?_map,
        windowsOf_getElem? (by simp; omega)]
      rfl
    have h2 : 19 + m < ((windowsOf 5 l).map (stdDevWin 5)).length := by simp; omega
    have h3 : (((windowsOf 5 l).map (stdDevWin 5)).drop 19)[m]? = some (((windowsOf 5 l).map (stdDevWin 5))[19 + m]'h2) := by
      rw [List.getElem?_drop, List.getElem?_eq_getElem]
    have h4 : (l.drop 23)[m]? = some (l[m + 23]'(by omega)) := by
      rw [List.getElem?_drop, Nat.add_comm, List.getElem?_eq_getElem]
    exact ⟨_, _, _, by rw [zip3_eq]; exact zip_at h1 (zip_at h3 h4), List.getElem?_eq_getElem _, rfl⟩
  obtain ⟨s20, s5, d, hg, hd, h20⟩ := get (i - 23) (by omega)
  refine scanS_poison (P := fun s : F => isNaN s = true) keep (fun s => ?_) hg _ (j - 23) y (by omega) hy
  dsimp only
  rcases Nat.lt_or_ge i 23 with hiw | hiw
  · have : isNaN s20 = true := by
      rw [h20]
      apply NaNLaws.div_left
      apply fsum_isNaN
      refine ⟨stdDevWin 5 ((l.drop (i - 4)).take 5), List.mem_of_getElem? (i := i - 4) ?_, stdDevWin_isNaN ⟨x, List.mem_of_getElem? (i := i - (i - 4)) ?_, hN⟩⟩
      · rw [show i - 23 = 0 by omega, List.drop_zero, List.getElem?_take_of_lt (by omega), List.getElem?_map, windowsOf_getElem? (by omega)]
        rfl
      · rw [List.getElem?_take_of_lt (by omega), List.getElem?_drop, ← hx]; congr 1; omega
    nanp
  · rw [show i - 23 + 23 = i by omega, hx] at hd
    cases hd
    nanp

example (l : List F) (out : List F) (h : vidya (nan :: l) 5 = some out) : ∀ j y, 0 ≤ j → out[j]? = some y → isNaN y = true :=
  vidya_poisoned_by_nan 5 _ 0 nan (by decide) rfl NaNLaws.nan_isNaN out h

/-- From the tenth bar on: an earlier NaN only meets `f64::max`, which ignores it. -/
theorem vma_poisoned_by_nan (w : Nat) : PoisonedBy 9 IsNaN fun l : List F => vma l w := fun l i x h9 hx hN o ho j y hj hy => by
  have hi := (List.getElem?_eq_some_iff.1 hx).1
  simp only [vma] at ho
  obtain ⟨vi, hv, ho⟩ := Option.bind_eq_some_iff.1 ho
  cases ho
  have hN : isNaN x = true := hN
  rcases Nat.lt_or_ge j (max w 9) with hk | hk
  · rw [List.getElem?_append_left (by simpa using hk)] at hy
    exact isNaN_nans hy
  rw [List.getElem?_append_right (by simpa using hk), nans_length, List.getElem?_drop] at hy
  have hvl : vi.length = l.length - 9 := by
    simp only [cmoRaw] at hv
    unslice hv
    rw [mapP_length hv.2]
    simp [gainLoss, pairs_eq_zip]
    omega
  have hz : (vi.zip (l.drop 9))[i - 9]? = some (vi[i - 9]'(by omega), x) :=
    zip_at (List.getElem?_eq_getElem _) (by rw [List.getElem?_drop, ← hx]; congr 1; omega)
  refine scanS_poison (P := fun s : F => isNaN s = true) (fun s z h => ?_) (fun s => ?_) hz _ _ y (by omega) hy
  · nanp
  · nanp

example (l m : List F) (hl : l.length = 9) (out : List F) (h : vma (l ++ nan :: m) 5 = some out) :
    ∀ j y, 9 ≤ j → out[j]? = some y → isNaN y = true :=
  vma_poisoned_by_nan 5 _ 9 nan (by decide) (by rw [List.getElem?_append_right (by omega), hl]; rfl) NaNLaws.nan_isNaN out h

/-- From the first complete window on: the gain is computed with `f64::max` and `f64::min`, which ignore NaN. -/
theorem frama_poisoned_by_nan (w : Nat) : PoisonedBy (w - 1) IsNaN fun l : List F => (frama l w).bind Except.toOption :=
    fun l i x h9 hx hN o ho j y hj hy => by
  have hi := (List.getElem?_eq_some_iff.1 hx).1
  simp only [frama] at ho
  obtain ⟨ho, h1, h2⟩ := Option.bind_eq_some_iff.1 ho
  split at h1
  · cases h1; cases h2
  unslice h1
  obtain ⟨hw, -, h1⟩ := h1
  obtain ⟨r, hr, h1⟩ := Option.bind_eq_some_iff.1 h1
  cases h1
  cases h2
  have hN : isNaN x = true := hN
  rcases Nat.lt_or_ge j (w - 1) with hk | hk
  · omega
  rw [List.getElem?_append_right (by simpa using hk), nans_length] at hy
  have hwin : (windowsOf w l)[i - (w - 1)]? = some ((l.drop (i - (w - 1))).take w) := windowsOf_getElem? (by omega)
  have hwl : ((l.drop (i - (w - 1))).take w).length = w := by simp; omega
  have hxw : ((l.drop (i - (w - 1))).take w).getLast? = some x := by
    rw [List.getLast?_eq_getElem?, hwl, List.getElem?_take_of_lt (by omega), List.getElem?_drop, ← hx]; congr 1; omega
  refine scanM_poison (P := fun s : F => isNaN s = true) (Q := fun y : F => isNaN y = true) ?_ ?_ hwin hr _ y (by omega) hy
  · intro s z s' y he hs
    obtain ⟨la, -, he⟩ := Option.bind_eq_some_iff.1 he
    cases he
    exact ⟨by nanp, by nanp⟩
  · intro s s' y he
    obtain ⟨la, h2, he⟩ := Option.bind_eq_some_iff.1 he
    cases he
    rw [hxw] at h2
    cases h2
    exact ⟨by nanp, by nanp⟩

example (a b c x y : F) (out : List F) (h : frama [a, b, c, nan, x, y] 4 = some (.ok out)) : ∀ j y, 3 ≤ j → out[j]? = some y → isNaN y = true :=
  frama_poisoned_by_nan 4 [a, b, c, nan, x, y] 3 nan (by decide) rfl NaNLaws.nan_isNaN out (by simp only [h]; rfl)

end Traquer.Smooth
