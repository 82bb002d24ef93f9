import Verif.Props.Adaptive
/-!
# Running gains and losses (used by vma, vidya and cmo)
-/

namespace Traquer

/-- Sum of the rises between consecutive values. -/
noncomputable def gainsOf (l : List ℝ) : ℝ := ((pairs l).map fun p => max 0 (p.2 - p.1)).sum
/-- Sum of the falls between consecutive values. -/
noncomputable def lossesOf (l : List ℝ) : ℝ := ((pairs l).map fun p => max 0 (p.1 - p.2)).sum

theorem gainsOf_nonneg (l : List ℝ) : 0 ≤ gainsOf l := List.sum_nonneg (by
  intro x hx
  obtain ⟨p, -, rfl⟩ := List.mem_map.1 hx
  exact le_max_left _ _)

theorem lossesOf_nonneg (l : List ℝ) : 0 ≤ lossesOf l := List.sum_nonneg (by
  intro x hx
  obtain ⟨p, -, rfl⟩ := List.mem_map.1 hx
  exact le_max_left _ _)

theorem pairs_append_last {α : Type} (l : List α) (x y : α) : pairs (l ++ [x, y]) = pairs (l ++ [x]) ++ [(x, y)] := by
  induction l with
  | nil => rfl
  | cons z l ih =>
    cases l with
    | nil => rfl
    | cons u r => simpa [pairs] using ih

theorem take_two {α : Type} {l : List α} {i : ℕ} {x y : α} (hx : l[i]? = some x) (hy : l[i + 1]? = some y) :
    l.take (i + 2) = l.take i ++ [x, y] ∧ l.take (i + 1) = l.take i ++ [x] := by
  constructor
  · rw [List.take_add_one, List.take_add_one, hx, hy]; simp
  · rw [List.take_add_one, hx]; rfl

theorem gainsOf_take {l : List ℝ} {i : ℕ} {x y : ℝ} (hx : l[i]? = some x) (hy : l[i + 1]? = some y) :
    gainsOf (l.take (i + 2)) = gainsOf (l.take (i + 1)) + max 0 (y - x) ∧
    lossesOf (l.take (i + 2)) = lossesOf (l.take (i + 1)) + max 0 (x - y) := by
  obtain ⟨e1, e2⟩ := take_two hx hy
  rw [gainsOf, gainsOf, lossesOf, lossesOf, e1, e2, pairs_append_last]
  simp

theorem scanS_cons_step {σ α : Type} (f : σ → α → σ) (s : σ) (l : List α) {i : ℕ} {a : σ} {x : α}
    (h : (s :: scanS f s l)[i]? = some a) (hx : l[i]? = some x) :
    (s :: scanS f s l)[i + 1]? = some (f a x) := by
  induction l generalizing s i with
  | nil => simp at hx
  | cons y l ih =>
    cases i with
    | zero => simp at h hx ⊢; rw [h, hx]
    | succ i =>
      rw [scanS_cons] at h ⊢
      rw [List.getElem?_cons_succ] at h ⊢
      exact ih _ h (by simpa using hx)

/-- A window of the series and the change of a running total over it. -/
theorem gains_window (l : List ℝ) (i w : ℕ) (h : i + w < l.length) :
    gainsOf (l.take (i + w + 1)) - gainsOf (l.take (i + 1)) = gainsOf ((l.drop i).take (w + 1)) ∧
    lossesOf (l.take (i + w + 1)) - lossesOf (l.take (i + 1)) = lossesOf ((l.drop i).take (w + 1)) := by
  induction w with
  | zero =>
    have : ((l.drop i).take (0 + 1)).length = 1 := by simp; omega
    obtain ⟨a, ha⟩ := List.length_eq_one_iff.1 this
    rw [ha]; simp [gainsOf, lossesOf, pairs]
  | succ w ih =>
    have h' := ih (by omega)
    have ex := getElem?_of_lt (show i + w < l.length by omega)
    have ey := getElem?_of_lt (show i + w + 1 < l.length by omega)
    have g1 := gainsOf_take ex ey
    have g2 := gainsOf_take (l := l.drop i) (i := w) (x := l[i + w]) (y := l[i + w + 1])
      (by rw [List.getElem?_drop]; exact ex) (by rw [List.getElem?_drop]; exact ey)
    rw [show i + (w + 1) + 1 = i + w + 2 by omega, show w + 1 + 1 = w + 2 by omega]
    constructor
    · linarith [g1.1, g2.1, h'.1]
    · linarith [g1.2, g2.2, h'.2]

end Traquer

namespace Traquer.Smooth
open FP FloatLit

theorem gainLoss_is (data : List XF) (hd : Fins data) (i : ℕ) (hi : i < data.length) :
    ∃ p, (gainLoss data)[i]? = some p ∧ p.1 ⇓ gainsOf ((vals data).take (i + 1)) ∧
      p.2 ⇓ lossesOf ((vals data).take (i + 1)) := by
  induction i with
  | zero =>
    refine ⟨_, rfl, ?_⟩
    have : ((vals data).take (0 + 1)).length = 1 := by simp; omega
    obtain ⟨a, ha⟩ := List.length_eq_one_iff.1 this
    rw [ha]
    exact ⟨is_zero.congr (by simp [gainsOf, pairs]), is_zero.congr (by simp [lossesOf, pairs])⟩
  | succ i ih =>
    obtain ⟨p, hp, h1, h2⟩ := ih (by omega)
    have ex := getElem?_of_lt (show i < data.length by omega)
    have ey := getElem?_of_lt hi
    have hx := (hd _ (List.getElem_mem (show i < data.length by omega))).is
    have hy := (hd _ (List.getElem_mem hi)).is
    have hq : (pairs data)[i]? = some (data[i], data[i + 1]) := by
      rw [pairs_getElem?, ex, ey]
    refine ⟨_, scanS_cons_step _ _ _ hp hq, ?_⟩
    have g := gainsOf_take (l := vals data) (i := i) (x := data[i].val) (y := data[i + 1].val)
      (by rw [vals_getElem?, ex]; rfl) (by rw [vals_getElem?, ey]; rfl)
    rw [g.1, g.2]
    exact ⟨is_add h1 (is_fmax is_zero (is_sub hy hx)), is_add h2 (is_fmax is_zero (is_sub hx hy))⟩

theorem gainLoss_length (data : List XF) (h : 1 ≤ data.length) : (gainLoss data).length = data.length := by
  simp [gainLoss]; omega

/-- The ratio `(gain - loss) / (gain + loss)` of every window: numerator and denominator. -/
theorem cmoRaw_is (data : List XF) (w : ℕ) (hd : Fins data) (h1 : 1 ≤ data.length) (out : List XF)
    (ho : cmoRaw data w = some out) (i : ℕ) (hi : i + w < data.length) :
    ∃ a b, out[i]? = some (a / b) ∧
      a ⇓ gainsOf (recent (vals data) (w + 1) (i + w)) - lossesOf (recent (vals data) (w + 1) (i + w)) ∧
      b ⇓ gainsOf (recent (vals data) (w + 1) (i + w)) + lossesOf (recent (vals data) (w + 1) (i + w)) := by
  have hl := gainLoss_length data h1
  run_at ho [cmoRaw]
  have hg := mapP_getElem? ho i
  obtain ⟨p, ep, p1, p2⟩ := gainLoss_is data hd i (by omega)
  obtain ⟨q, eq, q1, q2⟩ := gainLoss_is data hd (i + w) hi
  have hw : (windowsOf (w + 1) (gainLoss data))[i]? = some (((gainLoss data).drop i).take (w + 1)) :=
    windowsOf_getElem? (by omega)
  have hlen : (((gainLoss data).drop i).take (w + 1)).length = w + 1 := by simp; omega
  have f0 : (((gainLoss data).drop i).take (w + 1))[0]? = some p := by
    rw [List.getElem?_take_of_lt (by omega), List.getElem?_drop]; exact ep
  have f1 : (((gainLoss data).drop i).take (w + 1))[w]? = some q := by
    rw [List.getElem?_take_of_lt (by omega), List.getElem?_drop]; exact eq
  rw [hw] at hg
  simp only [Option.bind_some, hlen, Nat.add_sub_cancel, f0, f1] at hg
  have gw := gains_window (vals data) i w (by simpa using hi)
  have er : recent (vals data) (w + 1) (i + w) = ((vals data).drop i).take (w + 1) := by
    rw [recent, show i + w + 1 - (w + 1) = i by omega]
  rw [er, ← gw.1, ← gw.2]
  exact ⟨_, _, hg, is_sub (is_sub q1 p1) (is_sub q2 p2), is_add (is_sub q1 p1) (is_sub q2 p2)⟩

theorem ratio_signed {x y : XF} {g l : ℝ} (hx : x ⇓ g - l) (hy : y ⇓ g + l) (hg : 0 ≤ g) (hl : 0 ≤ l) :
    InRange (-1) 1 (x / y) := by
  by_cases hb : g + l = 0
  · obtain rfl : g = 0 := by linarith
    obtain rfl : l = 0 := by linarith
    rw [sub_zero] at hx
    rw [add_zero] at hy
    left
    rcases is_iff.1 hx with rfl | ⟨rfl, -⟩ <;> rcases is_iff.1 hy with rfl | ⟨rfl, -⟩ <;> simp [div_def, FP.div, val] <;> rfl
  · have hb' : 0 < g + l := lt_of_le_of_ne (by linarith) (Ne.symm hb)
    refine inRange_of (is_div hx hy hb) ?_ ?_
    · rw [le_div_iff₀ hb']; linarith
    · rw [div_le_one hb']; linarith

theorem cmoRaw_inRange (data : List XF) (w : ℕ) (hd : Fins data) (h1 : 1 ≤ data.length) (out : List XF)
    (ho : cmoRaw data w = some out) : ∀ y ∈ out, InRange (-1) 1 y := by
  intro y hy
  obtain ⟨i, hi⟩ := List.mem_iff_getElem?.1 hy
  have hl := gainLoss_length data h1
  have hlt := (List.getElem?_eq_some_iff.1 hi).1
  have ho' := ho
  run_at ho' [cmoRaw]
  have := mapP_length ho'
  rw [windowsOf_length] at this
  obtain ⟨a, b, e, ha, hb⟩ := cmoRaw_is data w hd h1 out ho i (by omega)
  rw [hi] at e
  cases e
  exact ratio_signed ha hb (gainsOf_nonneg _) (lossesOf_nonneg _)

/-! ## C25: vma -/

theorem inRange_abs {y : XF} (h : InRange (-1) 1 y) : InRange 0 1 (fabs y) := by
  rcases h with rfl | ⟨r, hr, h0, h1⟩
  · exact inRange_nan _ _
  · exact inRange_of (is_abs hr) (abs_nonneg _) (abs_le.2 ⟨h0, h1⟩)

theorem inRange_mul01 {x y : XF} (hx : InRange 0 1 x) (hy : InRange 0 1 y) : InRange 0 1 (x * y) := by
  rcases hx with rfl | ⟨r, hr, r0, r1⟩
  · exact inRange_of_isNaN (by have : isNaN (nan : XF) = true := rfl; nanp)
  rcases hy with rfl | ⟨u, hu, u0, u1⟩
  · exact inRange_of_isNaN (by have : isNaN (nan : XF) = true := rfl; nanp)
  exact inRange_of (is_mul hr hu) (by positivity) (mul_le_one₀ r1 u0 u1)

theorem alpha_inRange (w : ℕ) (hw : 1 ≤ w) : InRange 0 1 (2 / flt (w + 1) : XF) := by
  have q : (2 / flt (w + 1) : XF) ⇓ 2 / ((w : ℝ) + 1) :=
    (is_div (is_lit 2) (is_flt (w + 1)) (by positivity)).congr (by push_cast; rfl)
  exact inRange_of q (two_div_succ_range hw).1 (two_div_succ_range hw).2

theorem Fins.inRange {lo hi : ℝ} {data : List XF} (hd : Fins data) (hb : Within lo hi (vals data)) {x : XF} (hx : x ∈ data) :
    InRange lo hi x :=
  inRange_of (hd x hx).is (hb _ (List.mem_map_of_mem hx)).1 (hb _ (List.mem_map_of_mem hx)).2

/-- C25: every value of `vma` is NaN or between any bounds of the inputs and 0 (the initial state). -/
theorem vma_inRange (data : List XF) (w : ℕ) (lo hi : ℝ) (hw : 1 ≤ w) (hn : max w 9 ≤ data.length) (hd : Fins data)
    (h0 : lo ≤ 0) (h1 : 0 ≤ hi) (hb : Within lo hi (vals data)) :
    ∃ out, vma data w = some out ∧ out.length = data.length ∧ ∀ y ∈ out, InRange lo hi y := by
  obtain ⟨out, e, l, -⟩ := vma_aligned data w hn
  refine ⟨out, e, l, ?_⟩
  simp only [vma, Option.bind_eq_bind] at e
  obtain ⟨vi, hvi, e⟩ := Option.bind_eq_some_iff.1 e
  cases e
  refine inRange_nans fun y hy => ?_
  refine scanS_invariant (I := InRange lo hi) ?_ (inRange_zero h0 h1) y (List.mem_of_mem_drop hy)
  rintro s ⟨v, d⟩ hx hI
  have hm := List.of_mem_zip hx
  exact inRange_step (inRange_mul01 (alpha_inRange w hw) (inRange_abs (cmoRaw_inRange data 9 hd (by omega) vi hvi v hm.1)))
    (Fins.inRange hd hb (List.mem_of_mem_drop hm.2)) hI

end Traquer.Smooth
