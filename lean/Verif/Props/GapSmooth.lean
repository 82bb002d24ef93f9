import Verif.Lemmas.Gap
import Verif.Model.Momentum
/-!
# A NaN price shows in every average over a window that contains it
-/

namespace Traquer.Smooth
open FloatLit
variable {F : Type} [FloatOps F] [NaNLaws F] {i W w : Nat} {l o : List F}

theorem dot_gap {weights v : List F} (h : Has IsNaN v) (hl : v.length ≤ weights.length) : isNaN (dot weights v) = true := by
  refine has_fsum (has_map (has_zip_left h hl) fun x hx => ?_)
  have : isNaN x.1 = true := hx
  nanp

theorem sma_gap (h : Gap 0 IsNaN i W l) (hW : 1 ≤ W) (ho : sma l w = some o) : Gap 0 IsNaN i (W + (w - 1)) o := by
  simp only [sma] at ho
  unslice ho
  obtain ⟨hw, -, ho⟩ := ho
  cases ho
  exact ((h.windowsOf w hW hw).map fun v hv => by have := has_fsum hv.1; show isNaN _ = true; nanp).nans

theorem wmaWeights_len (w : Nat) : (wmaWeights w : List F).length = w := by simp [wmaWeights]

theorem wma_gap (h : Gap 0 IsNaN i W l) (hW : 1 ≤ W) (ho : wma l w = some o) : Gap 0 IsNaN i (W + (w - 1)) o := by
  simp only [wma] at ho
  unslice ho
  obtain ⟨hw, -, ho⟩ := ho
  cases ho
  refine (Gap.map (h.windowsOf w hW hw) fun v hv => ?_).nans
  exact dot_gap hv.1 (by rw [hv.2, wmaWeights_len])

theorem pascalStep_len {n i : Nat} {st st' : List Nat × Nat} (h : pascalStep n st i = some st') : st'.1.length = st.1.length := by
  simp only [pascalStep, Option.bind_eq_bind, Option.bind_eq_some_iff] at h
  obtain ⟨p, -, v, -, d, -, h⟩ := h
  cases h
  simp

theorem pascalFold_len {n : Nat} {is : List Nat} {st st' : List Nat × Nat} (h : is.foldlM (pascalStep n) st = some st') :
    st'.1.length = st.1.length := by
  induction is generalizing st with
  | nil => cases h; rfl
  | cons i is ih =>
    rw [List.foldlM_cons] at h
    obtain ⟨s, hs, h⟩ := Option.bind_eq_some_iff.1 h
    rw [ih h, pascalStep_len hs]

theorem pascalRow_len {row : List Nat} {d : Nat} (h : pascalRow w = some (row, d)) : row.length = w := by
  simp only [pascalRow, Option.bind_eq_bind] at h
  obtain ⟨s, hs, h⟩ := Option.bind_eq_some_iff.1 h
  have e := pascalFold_len hs
  rw [List.length_replicate] at e
  split at h
  · obtain ⟨d', -, h⟩ := Option.bind_eq_some_iff.1 h
    cases h
    exact e
  · cases h
    exact e

theorem pwma_gap (h : Gap 0 IsNaN i W l) (hW : 1 ≤ W) (ho : pwma l w = some o) : Gap 0 IsNaN i (W + (w - 1)) o := by
  simp only [pwma] at ho
  unslice ho
  obtain ⟨hw, ho⟩ := ho
  obtain ⟨⟨row, d⟩, hr, ho⟩ := Option.bind_eq_some_iff.1 ho
  unslice ho
  obtain ⟨-, ho⟩ := ho
  cases ho
  refine (Gap.map (h.windowsOf w hW hw) fun v hv => ?_).nans
  exact dot_gap hv.1 (by rw [hv.2, List.length_map, pascalRow_len hr])

omit [NaNLaws F] in
theorem fibScan_len (n : Nat) (a b d : F) : (fibScan n a b d).1.length = n := by
  induction n generalizing a b d with
  | zero => rfl
  | succ n ih => simp only [fibScan, List.length_cons, ih]

theorem fwma_gap (h : Gap 0 IsNaN i W l) (hW : 1 ≤ W) (ho : fwma l w = some o) : Gap 0 IsNaN i (W + (w - 1)) o := by
  simp only [fwma] at ho
  unslice ho
  obtain ⟨h2, hw, -, ho⟩ := ho
  cases ho
  refine (Gap.map (h.windowsOf w hW hw) fun v hv => ?_).nans
  refine dot_gap hv.1 ?_
  simp only [hv.2, fwmaWeights, List.length_map, List.length_cons, fibScan_len]
  omega

theorem lrfWin_gap {v : List F} (h : Has IsNaN v) (hl : v.length = w) : isNaN (lrfWin w v) = true := by
  have hz : Has (fun p : F × F => IsNaN p.2) (((List.range' 1 w).map fun x => (flt x : F)).zip v) := has_zip_right h (by simp [hl])
  have key : ∀ (a : F × F), isNaN ((((List.range' 1 w).map fun x => (flt x : F)).zip v).foldl
      (fun (st : F × F) (cv : F × F) => (st.1 + cv.2, st.2 + cv.1 * cv.2)) a).2 = true := fun a => by
    refine foldl_isNaN (p := fun s : F × F => isNaN s.2 = true) (q := fun p : F × F => IsNaN p.2) ?_ ?_ (Or.inr hz)
    · intro s x hs; nanp
    · intro s x hx
      have : isNaN x.2 = true := hx
      nanp
  have := key (0, 0)
  simp only [lrfWin]
  nanp

theorem lrf_gap (h : Gap 0 IsNaN i W l) (hW : 1 ≤ W) (ho : lrf l w = some o) : Gap 0 IsNaN i (W + (w - 1)) o := by
  simp only [lrf] at ho
  unslice ho
  obtain ⟨hw, -, ho⟩ := ho
  cases ho
  refine (Gap.map (h.windowsOf w hW hw) fun v hv => ?_).nans
  exact lrfWin_gap hv.1 hv.2

theorem alma_gap {sigma : F} {mu : Option F} (h : Gap 0 IsNaN i W l) (hW : 1 ≤ W) (ho : alma l w sigma mu = some o) :
    Gap 0 IsNaN i (W + (w - 1)) o := by
  simp only [alma] at ho
  unslice ho
  obtain ⟨hw, ho⟩ := ho
  obtain ⟨r, hr, ho⟩ := Option.bind_eq_some_iff.1 ho
  cases ho
  refine Gap.nans (k := 0) fun j y h1 h2 hy => ?_
  rw [mapP_getElem? hr] at hy
  obtain ⟨t, ht, hy⟩ := Option.bind_eq_some_iff.1 hy
  rw [List.getElem?_drop] at ht
  obtain ⟨hlt, rfl⟩ := List.getElem?_eq_some_iff.1 ht
  rw [List.length_range] at hlt
  rw [List.getElem_range] at hy
  obtain ⟨v, hv, hy⟩ := Option.bind_eq_some_iff.1 hy
  cases hy
  set ws := almaWeights w sigma (mu.getD 0.85 * flt (w - 1)) with hws
  have hlen : ws.length = w := by simp [hws, almaWeights]
  have hvl : v.length = w := by rw [mapP_length hv, List.length_range, hlen]
  have hz : Has IsNaN v := by
    have hm : max i (w + j - (w - 1)) < l.length := by omega
    refine ⟨l[max i (w + j - (w - 1))], ?_, h _ _ (by omega) (by omega) (List.getElem?_eq_getElem hm)⟩
    rw [List.mem_iff_getElem?]
    refine ⟨w + j - max i (w + j - (w - 1)), ?_⟩
    rw [mapP_getElem? hv, List.getElem?_range (by omega), Option.bind_some, usub, if_pos (by omega), Option.bind_some,
      ← List.getElem?_eq_getElem hm]
    congr 1
    omega
  have hz := has_zip_right (v := ws) hz (by omega)
  have : isNaN ((ws.zip v).foldl (fun (st : F × F) (wv : F × F) => (st.1 + wv.1 * wv.2, st.2 + wv.1)) (0, 0)).1 = true := by
    refine foldl_isNaN (p := fun s : F × F => isNaN s.1 = true) (q := fun p : F × F => IsNaN p.2) ?_ ?_ (Or.inr hz)
    · intro s x hs; nanp
    · intro s x hx
      have : isNaN x.2 = true := hx
      nanp
  show isNaN _ = true
  nanp

theorem trima_gap (h : Gap 0 IsNaN i W l) (hW : 1 ≤ W) (ho : trima l w = some o) : Gap 0 IsNaN i (W + (w - 1)) o := by
  simp only [trima, Option.bind_eq_bind] at ho
  obtain ⟨m, hm, ho⟩ := Option.bind_eq_some_iff.1 ho
  refine (sma_gap (sma_gap h hW hm) (by omega) ho).weaken ?_
  simp only [divCeil]
  split <;> omega

theorem hull_gap (h : Gap 0 IsNaN i W l) (hW : 1 ≤ W) (ho : hull l w = some o) :
    Gap 0 IsNaN i (W + (w - 1) + (toUsize (floor (sqrt (flt w : F))) - 1)) o := by
  simp only [hull, Option.bind_eq_bind] at ho
  obtain ⟨m, hm, ho⟩ := Option.bind_eq_some_iff.1 ho
  obtain ⟨m2, -, ho⟩ := Option.bind_eq_some_iff.1 ho
  refine wma_gap (Gap.map (Gap.zip_right (wma_gap h hW hm)) fun x hx => ?_) (by omega) ho
  have : isNaN x.2 = true := hx
  show isNaN _ = true
  nanp

theorem kernel_gap {sigma : F} (h : Gap 0 IsNaN i 1 l) : Gap 0 IsNaN i 255 (kernel l sigma) := fun j y h1 h2 hy => by
  rw [kernel, List.getElem?_map, Option.map_eq_some_iff] at hy
  obtain ⟨t, ht, rfl⟩ := hy
  obtain ⟨hlt, rfl⟩ := List.getElem?_eq_some_iff.1 ht
  rw [List.length_range] at hlt
  rw [List.getElem_range]
  set past := ((l.take (j + 1)).reverse).take (min ((l.take (j + 1)).reverse).length 255) with hp
  have hlen : past.length ≤ 255 := by simp [hp]
  have hz : Has IsNaN past := by
    have hm : i < l.length := by omega
    refine ⟨l[i], ?_, h _ _ (by omega) (by omega) (List.getElem?_eq_getElem hm)⟩
    rw [List.mem_iff_getElem?]
    refine ⟨j - i, ?_⟩
    rw [hp, List.getElem?_take_of_lt (by simp; omega), List.getElem?_reverse (by simp; omega), List.length_take,
      List.getElem?_take_of_lt (by omega), ← List.getElem?_eq_getElem hm]
    congr 1
    omega
  have hz := has_zip_right (v := kernelWeights sigma) hz (by simp [kernelWeights]; omega)
  have : isNaN (((kernelWeights sigma).zip past).foldl (fun (st : F × F) (wv : F × F) => (st.1 + wv.1 * wv.2, st.2 + wv.1)) (0, 0)).1 = true := by
    refine foldl_isNaN (p := fun s : F × F => isNaN s.1 = true) (q := fun p : F × F => IsNaN p.2) ?_ ?_ (Or.inr hz)
    · intro s x hs; nanp
    · intro s x hx
      have : isNaN x.2 = true := hx
      nanp
  show isNaN (kernelAt _ _) = true
  simp only [kernelAt]
  nanp

/-- The mean of a window with a NaN price in it is NaN. -/
theorem sma_gapShows (w : Nat) : GapShows w IsNaN fun l : List F => sma l w := gapShows_of fun bars i out h ho => by
  have := sma_gap h (Nat.le_refl 1) ho
  exact this.weaken (by omega)

example (a b c x : F) (out : List F) (h : (fun l : List F => sma l 2) [a, b, nan, c, x] = some out) : ∀ j y, 2 ≤ j → j < 2 + 2 → out[j]? = some y → isNaN y = true :=
  sma_gapShows 2 [a, b, nan, c, x] 2 nan rfl NaNLaws.nan_isNaN out h

theorem wma_gapShows (w : Nat) : GapShows w IsNaN fun l : List F => wma l w := gapShows_of fun bars i out h ho => by
  have := wma_gap h (Nat.le_refl 1) ho
  exact this.weaken (by omega)

example (a b c x : F) (out : List F) (h : (fun l : List F => wma l 2) [a, b, nan, c, x] = some out) : ∀ j y, 2 ≤ j → j < 2 + 2 → out[j]? = some y → isNaN y = true :=
  wma_gapShows 2 [a, b, nan, c, x] 2 nan rfl NaNLaws.nan_isNaN out h

theorem pwma_gapShows (w : Nat) : GapShows w IsNaN fun l : List F => pwma l w := gapShows_of fun bars i out h ho => by
  have := pwma_gap h (Nat.le_refl 1) ho
  exact this.weaken (by omega)

example (a b c x : F) (out : List F) (h : (fun l : List F => pwma l 2) [a, b, nan, c, x] = some out) : ∀ j y, 2 ≤ j → j < 2 + 2 → out[j]? = some y → isNaN y = true :=
  pwma_gapShows 2 [a, b, nan, c, x] 2 nan rfl NaNLaws.nan_isNaN out h

theorem fwma_gapShows (w : Nat) : GapShows w IsNaN fun l : List F => fwma l w := gapShows_of fun bars i out h ho => by
  have := fwma_gap h (Nat.le_refl 1) ho
  exact this.weaken (by omega)

example (a b c x : F) (out : List F) (h : (fun l : List F => fwma l 2) [a, b, nan, c, x] = some out) : ∀ j y, 2 ≤ j → j < 2 + 2 → out[j]? = some y → isNaN y = true :=
  fwma_gapShows 2 [a, b, nan, c, x] 2 nan rfl NaNLaws.nan_isNaN out h

/-- … and so is the regression line through it. -/
theorem lrf_gapShows (w : Nat) : GapShows w IsNaN fun l : List F => lrf l w := gapShows_of fun bars i out h ho => by
  have := lrf_gap h (Nat.le_refl 1) ho
  exact this.weaken (by omega)

example (a b c x : F) (out : List F) (h : (fun l : List F => lrf l 2) [a, b, nan, c, x] = some out) : ∀ j y, 2 ≤ j → j < 2 + 2 → out[j]? = some y → isNaN y = true :=
  lrf_gapShows 2 [a, b, nan, c, x] 2 nan rfl NaNLaws.nan_isNaN out h

theorem alma_gapShows (w : Nat) (sigma : F) (mu : Option F) : GapShows w IsNaN fun l : List F => alma l w sigma mu := gapShows_of fun bars i out h ho => by
  have := alma_gap h (Nat.le_refl 1) ho
  exact this.weaken (by omega)

example (a b c x : F) (out : List F) (h : (fun l : List F => alma l 2 6 none) [a, b, nan, c, x] = some out) : ∀ j y, 2 ≤ j → j < 2 + 2 → out[j]? = some y → isNaN y = true :=
  alma_gapShows 2 6 none [a, b, nan, c, x] 2 nan rfl NaNLaws.nan_isNaN out h

theorem trima_gapShows (w : Nat) : GapShows w IsNaN fun l : List F => trima l w := gapShows_of fun bars i out h ho => by
  have := trima_gap h (Nat.le_refl 1) ho
  exact this.weaken (by omega)

example (a b c x : F) (out : List F) (h : (fun l : List F => trima l 2) [a, b, nan, c, x] = some out) : ∀ j y, 2 ≤ j → j < 2 + 2 → out[j]? = some y → isNaN y = true :=
  trima_gapShows 2 [a, b, nan, c, x] 2 nan rfl NaNLaws.nan_isNaN out h

/-- Hull's average feels the price `⌊√w⌋ - 1` bars longer than its window. -/
theorem hull_gapShows (w : Nat) : GapShows (w + (toUsize (floor (sqrt (flt w : F))) - 1)) IsNaN fun l : List F => hull l w := gapShows_of fun bars i out h ho => by
  have := hull_gap h (Nat.le_refl 1) ho
  exact this.weaken (by omega)

example (a b c x : F) (out : List F) (h : (fun l : List F => hull l 2) [a, b, nan, c, x] = some out) : ∀ j y, 2 ≤ j → j < 2 + (2 + (toUsize (floor (sqrt (flt 2 : F))) - 1)) → out[j]? = some y → isNaN y = true :=
  hull_gapShows 2 [a, b, nan, c, x] 2 nan rfl NaNLaws.nan_isNaN out h

/-- The kernel average reads the last 255 bars. -/
theorem kernel_gapShows (sigma : F) : GapShows 255 IsNaN fun l : List F => some (kernel l sigma) := gapShows_of fun bars i out h ho => by
  cases ho
  exact kernel_gap h

example (a b c : F) : ∀ j y, 1 ≤ j → j < 1 + 255 → (kernel [a, nan, b, c] 1)[j]? = some y → isNaN y = true :=
  kernel_gapShows 1 [a, nan, b, c] 1 nan rfl NaNLaws.nan_isNaN _ rfl

end Traquer.Smooth
