import Verif.Lemmas.Monotone
import Verif.Lemmas.Units
import Verif.Model.Smooth
/-!
# C79: averages are monotone in every rounding
-/

namespace Traquer
open FP FloatLit
variable {ρ : Rounding}

/-- The same non-negative weight on both sides. -/
def SameWeight (a b : FP ρ) : Prop := a = b ∧ NonNegOrNaN a

theorem each_sameWeight {l : List (FP ρ)} (h : ∀ x ∈ l, NonNegOrNaN x) : Each SameWeight l l := by
  induction l with
  | nil => exact .nil
  | cons x l ih => exact .cons ⟨rfl, h x (by simp)⟩ (ih fun y hy => h y (by simp [hy]))

theorem each_notAbove_refl (l : List (FP ρ)) : Each NotAbove l l := List.forall₂_same.2 fun x _ => .refl x

theorem each_notAbove_nans (n : ℕ) : Each NotAbove (nans n : List (FP ρ)) (nans n) := each_notAbove_refl _

end Traquer

namespace Traquer.Smooth
open FP FloatLit
variable {ρ : Rounding} {data data' : List (FP ρ)}

theorem dot_mono {weights w w' : List (FP ρ)} (hw : ∀ x ∈ weights, NonNegOrNaN x) (h : Each NotAbove w w') :
    NotAbove (dot weights w) (dot weights w') := by
  refine NotAbove.fsum (each_map (each_zip h (each_sameWeight hw)) ?_)
  rintro ⟨a, b⟩ ⟨a', b'⟩ ⟨h1, h2, h3⟩
  dsimp only at h1 h2 h3
  subst h2
  exact h1.mul_right h3

/-- C79: raising prices never lowers the simple average. -/
theorem sma_mono (h : Each NotAbove data data') (window : ℕ) : Alike (Each NotAbove) (sma data window) (sma data' window) := by
  unfold sma
  refine .bind (.usub rfl rfl) fun k _ e => ?_
  subst e
  refine .bind (.windows h) fun ws ws' hw => .answer (each_append (each_notAbove_nans _) (each_map hw fun x y hx => ?_))
  exact (NotAbove.fsum hx).div (signClear_flt window)

/-- The weight of the new price in the exponential average is at most one. -/
theorem alpha_notAbove_one (window : ℕ) (hw : 1 ≤ window) : NotAbove (2 / flt (window + 1) : FP ρ) 1 := by
  refine notAbove_iff.2 fun h1 _ => ?_
  have h2 : (2 : FP ρ) ⇓ 2 := isLit 2 (by norm_num)
  rw [isOne.toE]
  have hr : (2 : ℝ) ≤ ρ.rnd ((window + 1 : ℕ) : ℝ) := by
    have := ρ.mono ((2 : ℕ) : ℝ) ((window + 1 : ℕ) : ℝ) (by exact_mod_cast (by omega : 2 ≤ window + 1))
    rw [ρ.nat 2 (by norm_num)] at this
    exact_mod_cast this
  rcases (show Rounds (flt (window + 1) : FP ρ) _ from ⟨false, rfl⟩).cases with ⟨h3, h4⟩ | ⟨h3, h4⟩
  · obtain ⟨r, hr', -, r1⟩ := (rounds_div h2 h4 (by linarith)).between (n := 1) (by norm_num) (div_nonneg (by norm_num) (by linarith))
      (by rw [Nat.cast_one, div_le_one (by linarith)]; exact hr)
    rw [hr'.toE]
    exact_mod_cast r1
  · rw [h4, (div_inf h2 _).toE]
    exact_mod_cast zero_le_one

/-- The weight of the last average in the exponential average. -/
theorem one_sub_alpha_nonneg (window : ℕ) (hw : 1 ≤ window) : NonNegOrNaN (1 - 2 / flt (window + 1) : FP ρ) :=
  (alpha_notAbove_one window hw).sub_nonneg

/-- C79: raising prices never lowers the exponential average. -/
theorem ewma_mono (h : Each NotAbove data data') (window : ℕ) : Alike (Each NotAbove) (ewma data window) (ewma data' window) := by
  rcases Nat.eq_zero_or_pos window with rfl | hw
  · have e : ∀ d : List (FP ρ), ewma d 0 = none := fun d => by
      simp [ewma, sliceTo, usub]
    rw [e, e]
    exact .panic
  unfold ewma
  refine .bind (.sliceTo h rfl) fun hd hd' hh => .bind (.usub rfl rfl) fun k _ e => ?_
  subst e
  refine .bind (.sliceFrom h rfl) fun rest rest' hr => .answer ?_
  have hi : NotAbove (fsum hd / flt window) (fsum hd' / flt window) := (NotAbove.fsum hh).div (signClear_flt window)
  refine each_append (each_notAbove_nans _) (each_cons hi (each_scanS hi hr fun s s' hs x x' hx => ?_))
  refine (hx.mul_right ?_).add (hs.mul_right (one_sub_alpha_nonneg window hw))
  exact ((signClear_flt 2).div (signClear_flt (window + 1))).nonNeg

/-- C79: raising prices never lowers the linearly weighted average. -/
theorem wma_mono (h : Each NotAbove data data') (window : ℕ) : Alike (Each NotAbove) (wma data window) (wma data' window) := by
  unfold wma
  refine .bind (.usub rfl rfl) fun k _ e => ?_
  subst e
  refine .bind (.windows h) fun ws ws' hw => .answer (each_append (each_notAbove_nans _) (each_map hw fun x y hx => dot_mono ?_ hx))
  intro x hx
  obtain ⟨i, -, rfl⟩ := List.mem_map.1 hx
  exact ((signClear_flt i).div ((signClear_flt _).div (signClear_flt 2))).nonNeg

/-- C79: raising prices never lowers the Pascal weighted average. -/
theorem pwma_mono (h : Each NotAbove data data') (window : ℕ) : Alike (Each NotAbove) (pwma data window) (pwma data' window) := by
  unfold pwma
  refine .bind (.usub rfl rfl) fun k _ e => ?_
  subst e
  refine .bind .same fun r _ e => ?_
  subst e
  refine .bind (.windows h) fun ws ws' hw => .answer (each_append (each_notAbove_nans _) (each_map hw fun x y hx => dot_mono ?_ hx))
  intro x hx
  obtain ⟨i, -, rfl⟩ := List.mem_map.1 hx
  exact ((signClear_flt i).div (signClear_flt _)).nonNeg

theorem fibScan_signClear (n : ℕ) {a b d : FP ρ} (ha : SignClear a) (hb : SignClear b) (hd : SignClear d) :
    (∀ x ∈ (fibScan n a b d).1, SignClear x) ∧ SignClear (fibScan n a b d).2 := by
  induction n generalizing a b d with
  | zero => exact ⟨fun x hx => absurd hx (by simp [fibScan]), hd⟩
  | succ n ih =>
    obtain ⟨h1, h2⟩ := ih hb (ha.add hb) (hd.add (ha.add hb))
    refine ⟨fun x hx => ?_, h2⟩
    rcases List.mem_cons.1 (show x ∈ (a + b) :: (fibScan n b (a + b) (d + (a + b))).1 from hx) with rfl | hx
    · exact ha.add hb
    · exact h1 x hx

/-- C79: raising prices never lowers the Fibonacci weighted average. -/
theorem fwma_mono (h : Each NotAbove data data') (window : ℕ) : Alike (Each NotAbove) (fwma data window) (fwma data' window) := by
  unfold fwma
  refine .bind (.usub rfl rfl) fun w2 _ e => ?_
  subst e
  refine .bind (.usub rfl rfl) fun k _ e => ?_
  subst e
  refine .bind (.windows h) fun ws ws' hw => .answer (each_append (each_notAbove_nans _) (each_map hw fun x y hx => dot_mono ?_ hx))
  intro x hx
  obtain ⟨h1, h2⟩ := fibScan_signClear (ρ := ρ) w2 (signClear_flt 1) (signClear_flt 1) (signClear_flt 2)
  obtain ⟨i, hi, rfl⟩ := List.mem_map.1 hx
  refine (SignClear.div ?_ h2).nonNeg
  rcases List.mem_cons.1 hi with rfl | hi
  · exact signClear_flt 1
  rcases List.mem_cons.1 hi with rfl | hi
  · exact signClear_flt 1
  · exact h1 _ hi

/-- C79: raising prices never lowers Wilder's average. -/
theorem wilder_mono (h : Each NotAbove data data') (window : ℕ) : Alike (Each NotAbove) (wilder data window) (wilder data' window) := by
  unfold wilder
  refine .ite Iff.rfl (.answer h) ?_
  refine .bind (.usub rfl rfl) fun k _ e => ?_
  subst e
  refine .bind (.sliceTo h rfl) fun hd hd' hh => .bind (.sliceFrom h rfl) fun rest rest' hr => .answer ?_
  refine each_append (each_notAbove_nans _) (each_scanS ((NotAbove.fsum hh).div (signClear_flt k)) hr fun s s' hs x x' hx => ?_)
  exact ((hs.mul_right (signClear_flt k).nonNeg).add hx).div (signClear_flt window)

/-- C79: raising prices never lowers the triangular average. -/
theorem trima_mono (h : Each NotAbove data data') (window : ℕ) : Alike (Each NotAbove) (trima data window) (trima data' window) := by
  unfold trima
  exact .bind (sma_mono h _) fun m m' hm => sma_mono hm _

theorem signClear_exp (x : FP ρ) : SignClear (exp x) := by
  show SignClear (FP.exp x)
  cases x with
  | nan => exact .inl rfl
  | inf b => cases b <;> simp [FP.exp, SignClear]
  | negz => exact signClear_mk (Real.exp_pos _).le
  | fin r => exact signClear_mk (Real.exp_pos _).le

/-- A weighted sum and the sum of its weights. -/
theorem weighted_mono {weights v v' : List (FP ρ)} (hw : ∀ x ∈ weights, SignClear x) (h : Each NotAbove v v') :
    let r := (weights.zip v).foldl (fun (st : FP ρ × FP ρ) (wv : FP ρ × FP ρ) => (st.1 + wv.1 * wv.2, st.2 + wv.1)) (0, 0)
    let r' := (weights.zip v').foldl (fun (st : FP ρ × FP ρ) (wv : FP ρ × FP ρ) => (st.1 + wv.1 * wv.2, st.2 + wv.1)) (0, 0)
    NotAbove (r.1 / r.2) (r'.1 / r'.2) := by
  have he : Each (fun a b : FP ρ => a = b ∧ SignClear a) weights weights := List.forall₂_same.2 fun x hx => ⟨rfl, hw x hx⟩
  have := foldl_rel (X := fun s t : FP ρ × FP ρ => NotAbove s.1 t.1 ∧ s.2 = t.2 ∧ SignClear s.2)
    (f := fun (st : FP ρ × FP ρ) (wv : FP ρ × FP ρ) => (st.1 + wv.1 * wv.2, st.2 + wv.1))
    (g := fun (st : FP ρ × FP ρ) (wv : FP ρ × FP ρ) => (st.1 + wv.1 * wv.2, st.2 + wv.1)) (s := (0, 0)) (t := (0, 0))
    ⟨.refl 0, rfl, signClear_zero⟩ (each_zip he h) (by
      rintro ⟨a, b⟩ ⟨a', b'⟩ ⟨h1, h2, h3⟩ ⟨x, y⟩ ⟨x', y'⟩ ⟨⟨g1, g2⟩, g3⟩
      dsimp only at *
      subst g1 h2
      exact ⟨h1.add (g3.mul_left g2.nonNeg), rfl, h3.add g2⟩)
  obtain ⟨h1, h2, h3⟩ := this
  dsimp only
  rw [← h2]
  exact h1.div h3

/-- C79: raising prices never lowers the kernel average. -/
theorem kernel_mono (h : Each NotAbove data data') (sigma : FP ρ) : Each NotAbove (kernel data sigma) (kernel data' sigma) := by
  unfold kernel
  refine each_map (each_range h.length_eq) fun i _ e => ?_
  subst e
  have hp := each_reverse (each_take (i + 1) h)
  rw [kernelAt, kernelAt, hp.length_eq]
  refine weighted_mono (fun x hx => ?_) (each_take _ hp)
  obtain ⟨j, -, rfl⟩ := List.mem_map.1 hx
  exact signClear_exp _

/-- C79: raising prices never lowers the Arnaud Legoux average. -/
theorem alma_mono (h : Each NotAbove data data') (window : ℕ) (sigma : FP ρ) (mu : Option (FP ρ)) :
    Alike (Each NotAbove) (alma data window sigma mu) (alma data' window sigma mu) := by
  unfold alma
  refine .bind (.usub rfl rfl) fun k _ e => ?_
  subst e
  refine .bind (.mapP (each_drop _ (each_range h.length_eq)) fun i _ e => ?_) fun r r' hr => .answer (each_append (each_notAbove_nans _) hr)
  subst e
  refine .bind (P := Each NotAbove) (.mapP each_eq fun idx _ e => ?_) fun v v' hv => .answer ?_
  · subst e
    refine .bind (.usub rfl rfl) fun p _ e => ?_
    subst e
    exact .getElem? h rfl
  · refine weighted_mono (fun x hx => ?_) hv
    obtain ⟨j, -, rfl⟩ := List.mem_map.1 hx
    exact signClear_exp _

end Traquer.Smooth
