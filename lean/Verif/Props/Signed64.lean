import Verif.Lemmas.Balanced
import Verif.Model.Momentum
import Verif.Model.Volatility
import Verif.Model.Correlation
import Verif.Props.MonoSmooth
import Verif.Props.Range64b
import Verif.Props.SignMeasures
import Verif.Props.ErrorDispersion
/-!
# C111: bounds of the indicators that can be negative, under rounding
-/

namespace Traquer
open FP FloatLit
variable {ρ : Rounding}

/-! ## Running totals only grow -/

theorem pairwise_scanS {σ α : Type} {f : σ → α → σ} {R : σ → σ → Prop} {P : σ → Prop} (tr : ∀ a b c, R a b → R b c → R a c)
    (l : List α) (s : σ) (hs : P s) (hP : ∀ s, P s → ∀ x ∈ l, P (f s x)) (hR : ∀ s, P s → ∀ x ∈ l, R s (f s x)) :
    (s :: scanS f s l).Pairwise R := by
  induction l generalizing s with
  | nil => simp [scanS, scan]
  | cons x l ih =>
    rw [scanS_cons]
    have h := ih (f s x) (hP s hs x (by simp)) (fun s h y hy => hP s h y (by simp [hy])) fun s h y hy => hR s h y (by simp [hy])
    refine List.pairwise_cons.2 ⟨fun y hy => ?_, h⟩
    have h1 := hR s hs x (by simp)
    rcases List.mem_cons.1 hy with rfl | hy
    · exact h1
    · exact tr _ _ _ h1 ((List.pairwise_cons.1 h).1 y hy)

/-- A running total: a number of the format, not NaN and not negative. -/
def Total (x : FP ρ) : Prop := NonNegInf x ∧ Stored x

theorem total_zero : Total (0 : FP ρ) := ⟨.inr ⟨0, isZero, le_rfl⟩, stored_zero⟩

theorem nonNegInf_ne_nan {x : FP ρ} (h : NonNegInf x) : x ≠ FP.nan := by
  rintro rfl
  rcases h with h | ⟨a, h, -⟩
  · cases h
  · exact h.1

theorem Total.grow {x y : FP ρ} (hx : Total x) : Total (x + fmax 0 y) ∧ NotAbove x (x + fmax 0 y) :=
  ⟨⟨hx.1.add (fmax_zero_nonNegInf y).1, stored_add⟩,
    NotAbove.add_dist hx.2 (notNegative_iff.2 (.inr (fmax_zero_nonNegInf y).1))⟩

/-- Both running totals of `s` are at most those of `t`. -/
def Before (s t : FP ρ × FP ρ) : Prop := s.1.toE ≤ t.1.toE ∧ s.2.toE ≤ t.2.toE

theorem Total.toE_le {x y : FP ρ} (hx : Total x) (hy : Total y) (h : NotAbove x y) : x.toE ≤ y.toE :=
  notAbove_iff.1 h (nonNegInf_ne_nan hx.1) (nonNegInf_ne_nan hy.1)

theorem gainLoss_pairwise (data : List (FP ρ)) : (Smooth.gainLoss data).Pairwise Before := by
  refine pairwise_scanS (P := fun s => Total s.1 ∧ Total s.2) (fun a b c h g => ⟨h.1.trans g.1, h.2.trans g.2⟩) _ _
    ⟨total_zero, total_zero⟩ (fun s hs p _ => ⟨hs.1.grow.1, hs.2.grow.1⟩) fun s hs p _ => ?_
  exact ⟨hs.1.toE_le hs.1.grow.1 hs.1.grow.2, hs.2.toE_le hs.2.grow.1 hs.2.grow.2⟩

theorem windowsOf_mem_sublist {α : Type} {n : ℕ} {l w : List α} (h : w ∈ windowsOf n l) : w.Sublist l := by
  obtain ⟨i, hi⟩ := List.mem_iff_getElem?.1 h
  have hlt := (List.getElem?_eq_some_iff.1 hi).1
  rw [windowsOf_length] at hlt
  rw [windowsOf_getElem? (by omega)] at hi
  cases hi
  exact (List.take_sublist _ _).trans (List.drop_sublist _ _)

theorem cmoRaw_bounded (data : List (FP ρ)) (w : ℕ) : Every (InRange (-1) 1) (Smooth.cmoRaw data w) := by
  intro out e
  run_at e [Smooth.cmoRaw]
  refine Distribution.mapP_every e fun v hv y hy => ?_
  obtain ⟨first, e1, hy⟩ := Option.bind_eq_some_iff.1 hy
  obtain ⟨last, e2, hy⟩ := Option.bind_eq_some_iff.1 hy
  cases hy
  have pw := (gainLoss_pairwise data).sublist (windowsOf_mem_sublist hv)
  have hb : Before first last := by
    rcases Nat.eq_zero_or_pos (v.length - 1) with h | h
    · rw [h, e1] at e2
      cases e2
      exact ⟨le_rfl, le_rfl⟩
    · obtain ⟨l1, q1⟩ := List.getElem?_eq_some_iff.1 e1
      obtain ⟨l2, q2⟩ := List.getElem?_eq_some_iff.1 e2
      have := List.pairwise_iff_getElem.1 pw 0 (v.length - 1) l1 l2 h
      rwa [q1, q2] at this
  exact (Balanced.diff (NotAbove.sub_nonneg (notAbove_iff.2 fun _ _ => hb.1)) (NotAbove.sub_nonneg (notAbove_iff.2 fun _ _ => hb.2))).share

end Traquer

namespace Traquer.Momentum
open FP FloatLit Smooth
variable {ρ : Rounding}

/-- C111: whatever the prices, and in every rounding, `cmo` is NaN or between −100 and 100. -/
theorem cmo_bounded (data : List (FP ρ)) (w : ℕ) : Every (InRange (-100) 100) (cmo data w) := by
  unfold cmo
  refine Every.bind fun c hc => every_warm (.inl rfl) (every_map fun x hx => ?_)
  have h := cmoRaw_bounded data w c hc x hx
  have := InRange.mul_flt (m := 1) (n := 1) (k := 100) (x := x) (by simpa using h) (by norm_num) (by norm_num) (by norm_num)
  have e : (flt 100 : FP ρ) = 100 := rfl
  rw [e] at this
  simpa using this

/-- The hypothesis-free claim at work: infinite and missing prices. -/
example (a b : FP ρ) : Every (InRange (-100) 100) (cmo [a, FP.nan, b, inf false, fin 3, inf true] 2) := cmo_bounded _ 2

/-! ## Averages of bounded numbers -/

theorem ewma_balanced {data data' : List (FP ρ)} (h : Each Balanced data data') (window : ℕ) :
    Alike (Each Balanced) (ewma data window) (ewma data' window) := by
  rcases Nat.eq_zero_or_pos window with rfl | hw
  · have e : ∀ d : List (FP ρ), ewma d 0 = none := fun d => by simp [ewma, sliceTo, usub]
    rw [e, e]
    exact .panic
  unfold ewma
  refine .bind (.sliceTo h rfl) fun hd hd' hh => .bind (.usub rfl rfl) fun k _ e => ?_
  subst e
  refine .bind (.sliceFrom h rfl) fun rest rest' hr => .answer ?_
  have hi : Balanced (fsum hd / flt window) (fsum hd' / flt window) := (Balanced.fsum hh).div (signClear_flt window)
  refine each_append (each_balanced_nans _) (each_cons hi (each_scanS hi hr fun s s' hs x x' hx => ?_))
  exact (hx.mul_right ((signClear_flt 2).div (signClear_flt _)).nonNeg).add (hs.mul_right (one_sub_alpha_nonneg window hw))

theorem sma_balanced {data data' : List (FP ρ)} (h : Each Balanced data data') (window : ℕ) :
    Alike (Each Balanced) (sma data window) (sma data' window) := by
  unfold sma
  refine .bind (.usub rfl rfl) fun k _ e => ?_
  subst e
  refine .bind (.windows h) fun ws ws' hw => .answer (each_append (each_balanced_nans _) (each_map hw fun x y hx => ?_))
  exact (Balanced.fsum hx).div (signClear_flt window)

theorem vigorSmooth_balanced {data data' : List (FP ρ)} (h : Each Balanced data data') :
    Each Balanced (vigorSmooth data) (vigorSmooth data') := by
  refine each_map (each_windowsOf h) fun w w' hw => ?_
  have two : NonNegOrNaN (2 : FP ρ) := (signClear_flt 2).nonNeg
  rcases hw with _ | ⟨a, _ | ⟨b, _ | ⟨c, _ | ⟨d, _ | ⟨e, hw⟩⟩⟩⟩⟩
  case cons.cons.cons.cons.nil => exact ((d.add (c.mul_left two)).add (b.mul_left two) |>.add a).div (signClear_flt 6)
  all_goals exact Balanced.nan

/-! ## relative_vigor and bal_power -/

/-- Open and close lie within the range of the bar `(open, high, low, close)`; nothing is said of missing prices. -/
def InBar (b : FP ρ × FP ρ × FP ρ × FP ρ) : Prop :=
  (NotAbove b.2.2.1 b.1 ∧ NotAbove b.1 b.2.1) ∧ NotAbove b.2.2.1 b.2.2.2 ∧ NotAbove b.2.2.2 b.2.1

/-- The body of the bar is not longer than the bar. -/
theorem InBar.body {b : FP ρ × FP ρ × FP ρ × FP ρ} (h : InBar b) : Balanced (b.2.2.2 - b.1) (b.2.1 - b.2.2.1) := by
  refine ⟨h.2.2.sub h.1.1, ?_⟩
  refine NotAbove.same_left ?_ (neg_add_same b.2.2.2 (-b.1))
  rw [neg_neg']
  have := h.1.2.add h.2.1.neg
  rwa [SameNumber.add_comm'] at this

/-- C111: in every rounding `relative_vigor` is NaN or between −1 and 1, if every bar contains its open and close. -/
theorem relative_vigor_bounded (l : List (FP ρ × FP ρ × FP ρ × FP ρ)) (h : ∀ b ∈ l, InBar b) (w : ℕ) :
    Every (InRange (-1) 1) (relative_vigor (l.map (·.1)) (l.map (·.2.1)) (l.map (·.2.2.1)) (l.map (·.2.2.2)) w) := by
  intro out e
  simp only [relative_vigor, Option.bind_eq_bind, List.zip_map', List.map_map] at e
  obtain ⟨n, en, e⟩ := Option.bind_eq_some_iff.1 e
  obtain ⟨d, ed, e⟩ := Option.bind_eq_some_iff.1 e
  cases e
  have hb : Each Balanced (l.map ((fun p : FP ρ × FP ρ => p.2 - p.1) ∘ fun b => (b.1, b.2.2.2)))
      (l.map ((fun p : FP ρ × FP ρ => p.1 - p.2) ∘ fun b => (b.2.1, b.2.2.1))) := by
    change List.Forall₂ _ _ _
    rw [List.forall₂_map_left_iff, List.forall₂_map_right_iff]
    exact List.forall₂_same.2 fun b hb => (h b hb).body
  have := sma_balanced (vigorSmooth_balanced hb) w
  rw [en, ed] at this
  cases this with
  | answer hnd =>
    refine every_warm (P := InRange (-1) 1) (.inl rfl) (every_map fun p hp => ?_) _ rfl
    exact (List.forall₂_iff_zip.1 hnd).2 hp |>.share

/-- Prices in order, and a bar without any. -/
example (w : ℕ) (l : List (FP ρ × FP ρ × FP ρ × FP ρ))
    (hl : l = [(fin 2, fin 5, fin 1, fin 4), (FP.nan, FP.nan, FP.nan, FP.nan), (fin 4, fin 6, fin 2, fin 3)]) :
    Every (InRange (-1) 1) (relative_vigor (l.map (·.1)) (l.map (·.2.1)) (l.map (·.2.2.1)) (l.map (·.2.2.2)) w) := by
  subst hl
  refine relative_vigor_bounded _ (fun b hb => ?_) w
  simp only [List.mem_cons, List.not_mem_nil, or_false] at hb
  rcases hb with rfl | rfl | rfl
  · refine ⟨⟨?_, ?_⟩, ?_, ?_⟩ <;> exact notAbove_iff.2 fun _ _ => EReal.coe_le_coe_iff.2 (by norm_num)
  · exact ⟨⟨.refl _, .refl _⟩, .refl _, .refl _⟩
  · refine ⟨⟨?_, ?_⟩, ?_, ?_⟩ <;> exact notAbove_iff.2 fun _ _ => EReal.coe_le_coe_iff.2 (by norm_num)

/-! The weights of the exponential average add up to at most one in binary64. -/

theorem rnd64_one_tie : rnd64 (1 + 2⁻¹ ^ 53) = 1 := by
  have := rnd64_eq (x := 1 + 2⁻¹ ^ 53) (e := -52) (n := 2 ^ 52) (by norm_num) (by norm_num) (by norm_num) (by
    rw [show ((1 + 2⁻¹ ^ 53 : ℝ) / 2 ^ (-52 : ℤ)) = ((2 ^ 52 : ℤ) : ℝ) + 1 / 2 by norm_num]
    exact roundEven_down (by decide))
  rw [this]
  norm_num

theorem weights64 {a : ℝ} (ha : rnd64 a = a) (a0 : 0 ≤ a) (a1 : a ≤ 1) : rnd64 (a + rnd64 (1 - a)) ≤ 1 := by
  obtain ⟨m, e, -, he, hm⟩ := rnd64_repr a
  rw [ha] at hm
  have hk : (1 : ℝ) - a = ((2 ^ 1074 - m * 2 ^ (e + 1074).toNat : ℤ) : ℝ) * 2 ^ (-1074 : ℤ) := by
    push_cast
    rw [sub_mul, ← zpow_natCast, ← zpow_natCast, Int.toNat_of_nonneg (by omega), mul_assoc, ← zpow_add₀ (by norm_num), ← zpow_add₀ (by norm_num), hm]
    norm_num
  have h := rnd64_rel (k := 2 ^ 1074 - m * 2 ^ (e + 1074).toNat) (e := -1074) le_rfl
  rw [← hk] at h
  have h2 := (abs_le.1 h).2
  rw [abs_of_nonneg (by linarith : 0 ≤ 1 - a)] at h2
  have : a + rnd64 (1 - a) ≤ 1 + 2⁻¹ ^ 53 := by
    have p : (0 : ℝ) ≤ 2⁻¹ ^ 53 := by positivity
    nlinarith
  exact (rnd64_mono _ _ this).trans rnd64_one_tie.le

theorem abs_rnd64_mono {x b : ℝ} (h : |x| ≤ b) : |rnd64 x| ≤ rnd64 b := by
  obtain ⟨h1, h2⟩ := abs_le.1 h
  refine abs_le.2 ⟨?_, rnd64_mono _ _ h2⟩
  have := rnd64_mono _ _ h1
  rwa [rnd64_neg] at this

theorem abs_rnd64_le {x b : ℝ} (hb : rnd64 b = b) (h : |x| ≤ b) : |rnd64 x| ≤ b := hb ▸ abs_rnd64_mono h

theorem one_le_max64 : (1 : ℝ) ≤ max64 := le_trans (by norm_num) large_le_max64

/-- C111: in binary64 the exponential average of numbers between −1 and 1 stays there. -/
theorem ewma_unit64 {data : List F64} {w : ℕ} (hw : w + 1 ≤ 2 ^ 53) (h : ∀ x ∈ data, InRange (-1) 1 x) :
    Every (InRange (-1) 1) (ewma data w) := by
  unfold ewma
  refine Every.bind fun hd e1 => Every.bind fun k e2 => Every.bind fun rest e3 => every_warm (.inl rfl) ?_
  obtain ⟨hk, -⟩ := usub_some e2
  obtain ⟨l1, rfl⟩ := sliceTo_some e1
  have hi : InRange (-1) 1 (fsum (data.take w) / flt w : F64) := by
    have hl : (data.take w).length = w := by simp; omega
    have := InRange.fsum (m := 1) (n := 1) (l := data.take w) (fun x hx => by simpa using h x (List.mem_of_mem_take hx))
      (by rw [hl]; omega) (by rw [hl]; omega)
    rw [hl] at this
    simpa using this.div_flt (m := 1) (n := 1) hk (by omega) (by norm_num) (by norm_num)
  have h2 : (2 : F64) ⇓ 2 := isLit 2 (by norm_num)
  have hf : (flt (w + 1) : F64) ⇓ ((w + 1 : ℕ) : ℝ) := isFlt hw
  have wp : (0 : ℝ) < ((w + 1 : ℕ) : ℝ) := by positivity
  have q0 : 0 ≤ 2 / ((w + 1 : ℕ) : ℝ) := by positivity
  have q1 : 2 / ((w + 1 : ℕ) : ℝ) ≤ ((1 : ℕ) : ℝ) := by
    rw [div_le_iff₀ wp]
    push_cast
    have : (1 : ℝ) ≤ w := by exact_mod_cast hk
    linarith
  have hr := rounds_div h2 hf wp.ne'
  obtain ⟨a, ha, a0, a1⟩ := hr.between (n := 1) (by norm_num) q0 q1
  have as : rnd64 a = a := (hr.stored a ha).1
  push_cast at a1
  have hr' := rounds_sub (isOne (ρ := Rounding.binary64)) ha
  obtain ⟨b, hb, b0, -⟩ := hr'.between (n := 1) (by norm_num) (by linarith) (by push_cast; linarith)
  have bs : rnd64 b = b := (hr'.stored b hb).1
  have be : b = rnd64 (1 - a) := by
    rcases hr'.cases with ⟨-, i⟩ | ⟨-, i⟩
    · exact hb.2.symm.trans i.2
    · rw [i] at hb; exact hb.1.elim
  have hab : rnd64 (a + b) ≤ 1 := be ▸ weights64 as a0 a1
  have step : ∀ s x : F64, InRange (-1) 1 s → InRange (-1) 1 x →
      InRange (-1) 1 (x * (2 / flt (w + 1)) + s * (1 - 2 / flt (w + 1))) := by
    intro s x hs hx
    rcases hx with rfl | ⟨r, hxr, r0, r1⟩
    · exact .inl rfl
    rcases hs with rfl | ⟨t, hst, t0, t1⟩
    · exact .inl FP.add_nan
    have k1 : |rnd64 (r * a)| ≤ a := abs_rnd64_le as (by
      rw [abs_mul, abs_of_nonneg a0]
      exact mul_le_of_le_one_left a0 (abs_le.2 ⟨r0, r1⟩))
    have k2 : |rnd64 (t * b)| ≤ b := abs_rnd64_le bs (by
      rw [abs_mul, abs_of_nonneg b0]
      exact mul_le_of_le_one_left b0 (abs_le.2 ⟨t0, t1⟩))
    have b1 : b ≤ 1 := by
      rw [be]
      have := rnd64_mono (1 - a) 1 (by linarith)
      rwa [show rnd64 1 = 1 from rnd_one (ρ := Rounding.binary64)] at this
    have i1 := is64 (rounds_mul hxr ha) rfl (k1.trans (a1.trans one_le_max64))
    have i2 := is64 (rounds_mul hst hb) rfl (k2.trans (b1.trans one_le_max64))
    have k3 : |rnd64 (rnd64 (r * a) + rnd64 (t * b))| ≤ rnd64 (a + b) :=
      abs_rnd64_mono ((abs_add_le _ _).trans (add_le_add k1 k2))
    have k5 := k3.trans hab
    exact .inr ⟨_, is64 (rounds_add i1 i2) rfl (k5.trans one_le_max64), (abs_le.1 k5).1, (abs_le.1 k5).2⟩
  intro y hy
  rcases List.mem_cons.1 hy with rfl | hy
  · exact hi
  · refine scanS_invariant (I := fun s => InRange (-1) 1 s) (fun s x hx hs => ?_) hi y hy
    exact step s x hs (h x (mem_of_sliceFrom e3 hx))

theorem zip4_unzip {α β γ δ : Type} (l : List (α × β × γ × δ)) :
    zip4 (l.map (·.1)) (l.map (·.2.1)) (l.map (·.2.2.1)) (l.map (·.2.2.2)) = l := by
  induction l with
  | nil => rfl
  | cons b l ih => simp [zip4, ih]

/-- C111: in binary64 `bal_power` is NaN or between −1 and 1, if every bar contains its open and close. -/
theorem bal_power_bounded (l : List (F64 × F64 × F64 × F64)) (h : ∀ b ∈ l, InBar b) {w : ℕ} (hw : w + 1 ≤ 2 ^ 53) :
    Every (InRange (-1) 1) (bal_power (l.map (·.1)) (l.map (·.2.1)) (l.map (·.2.2.1)) (l.map (·.2.2.2)) w) := by
  refine ewma_unit64 hw fun x hx => ?_
  rw [zip4_unzip] at hx
  obtain ⟨b, hb, rfl⟩ := List.mem_map.1 hx
  exact (h b hb).body.share

/-- A bar that closes where it opened, at its low, and a bar that closes at its high. -/
example (l : List (F64 × F64 × F64 × F64)) (hl : l = [(fin 1, fin 5, fin 1, fin 1), (fin 4, fin 6, fin 2, fin 6)]) :
    Every (InRange (-1) 1) (bal_power (l.map (·.1)) (l.map (·.2.1)) (l.map (·.2.2.1)) (l.map (·.2.2.2)) 2) := by
  subst hl
  refine bal_power_bounded _ (fun b hb => ?_) (by norm_num)
  simp only [List.mem_cons, List.not_mem_nil, or_false] at hb
  rcases hb with rfl | rfl
  · refine ⟨⟨?_, ?_⟩, ?_, ?_⟩ <;> exact notAbove_iff.2 fun _ _ => EReal.coe_le_coe_iff.2 (by norm_num)
  · refine ⟨⟨?_, ?_⟩, ?_, ?_⟩ <;> exact notAbove_iff.2 fun _ _ => EReal.coe_le_coe_iff.2 (by norm_num)

/-! ## tsi -/

/-- NaN, infinite because the numerator overflowed, or at most `hi` in magnitude. -/
def UpToSigned (hi : ℝ) (x : F64) : Prop := (∃ s, x = inf s) ∨ InRange (-hi) hi x

theorem UpTo.signed {hi : ℝ} {x : F64} (h0 : 0 ≤ hi) (h : UpTo hi x) : UpToSigned hi x := by
  rcases h with h | h | ⟨r, hr, r0, r1⟩
  · exact .inl ⟨_, h⟩
  · exact .inr (.inl h)
  · exact .inr (.inr ⟨r, hr, by linarith, r1⟩)

theorem UpToSigned.neg {hi : ℝ} {x : F64} (h : UpToSigned hi x) : UpToSigned hi (-x) := by
  rcases h with ⟨s, rfl⟩ | rfl | ⟨r, hr, r0, r1⟩
  · exact .inl ⟨_, rfl⟩
  · exact .inr (.inl rfl)
  · exact .inr (.inr ⟨-r, is_neg hr, by linarith, by linarith⟩)

theorem UpToSigned.same {hi : ℝ} {x y : F64} (h : UpToSigned hi y) (e : SameNumber x y) : UpToSigned hi x := by
  rcases sameNumber_iff.1 e with rfl | ⟨h1, h2⟩
  · exact h
  · have x0 : x ⇓ 0 := by rcases h1 with rfl | rfl <;> first | exact is_negz | exact is_fin 0
    have y0 : y ⇓ 0 := by rcases h2 with rfl | rfl <;> first | exact is_negz | exact is_fin 0
    rcases h with ⟨s, rfl⟩ | rfl | ⟨r, hr, r0, r1⟩
    · exact y0.1.elim
    · exact y0.1.elim
    · have : r = 0 := hr.2.symm.trans y0.2
      subst this
      exact .inr (.inr ⟨0, x0, r0, r1⟩)

theorem Balanced.percent {x y : F64} (h : Balanced x y) (hs : Stored x) : UpToSigned (100 + 2 ^ (-46 : ℤ)) (100 * x / y) := by
  have p0 : (0 : ℝ) ≤ 100 + 2 ^ (-46 : ℤ) := by positivity
  by_cases ny : y = FP.nan
  · subst ny; exact .inr (.inl div_nan)
  have dom : ∀ {z : F64} {a : ℝ}, Balanced z y → Stored z → z ⇓ a → 0 ≤ a → UpToSigned (100 + 2 ^ (-46 : ℤ)) (100 * z / y) := by
    intro z a hz sz za a0
    refine UpTo.signed p0 (Dominated.upTo ?_ sz)
    cases y with
    | nan => exact absurd rfl ny
    | inf s =>
      cases s
      · exact .inr (.inl ⟨.inr ⟨a, za, a0⟩, rfl⟩)
      · have := notAbove_iff.1 hz.1 (by rintro rfl; exact za.1) (by simp)
        rw [za.toE] at this
        simp [toE] at this
    | negz => exact .inr (.inr ⟨a, 0, za, is_negz, a0, (hz.is za is_negz).2⟩)
    | fin r => exact .inr (.inr ⟨a, r, za, is_fin r, a0, (hz.is za (is_fin r)).2⟩)
  by_cases hx : ∃ a, x ⇓ a
  · obtain ⟨a, ha⟩ := hx
    rcases le_total 0 a with a0 | a0
    · exact dom h hs ha a0
    · have ss : Stored (-x) := fun r hr => by
        have := hs (-r) (by have := is_neg hr; rwa [neg_neg'] at this)
        rw [Rounding.odd] at this
        exact ⟨neg_injective this.1, Rounding.binary64.fits_mono r (-r) (abs_neg r).ge this.2⟩
      rw [← neg_neg' (100 * x / y)]
      refine UpToSigned.neg ?_
      refine UpToSigned.same (y := 100 * -x / y) (dom h.neg ss (is_neg ha) (by linarith)) ?_
      refine (neg_div_same _ _).trans (SameNumber.div_left ?_ y)
      rw [times_comm 100 x, times_comm 100 (-x)]
      exact neg_mul_same x 100
  · cases x with
    | nan => exact .inr (.inl (by rw [Traquer.mul_nan]; rfl))
    | negz => exact absurd ⟨0, is_negz⟩ hx
    | fin r => exact absurd ⟨r, is_fin r⟩ hx
    | inf s =>
      have h1 := notAbove_iff.1 h.1 (by simp) ny
      have h2 := notAbove_iff.1 h.2 (by cases s <;> simp [neg_def, FP.neg]) ny
      rw [toE_neg] at h2
      have : y = inf false := by
        cases y with
        | nan => exact absurd rfl ny
        | inf t => cases s <;> cases t <;> simp [toE] at h1 h2 <;> rfl
        | negz => cases s <;> simp [toE] at h1 h2
        | fin r => cases s <;> simp [toE] at h1 h2
      subst this
      have : ∃ t, (100 : F64) * inf s = inf t := by
        rcases is_iff.1 (isLit (ρ := Rounding.binary64) 100 (by norm_num)) with h | ⟨-, h⟩
        · rw [h, mul_def, FP.mul, if_neg (by simp)]
          · exact ⟨_, rfl⟩
          · simp
          · simp
        · norm_num at h
      obtain ⟨t, e⟩ := this
      rw [e]
      exact .inr (.inl rfl)

/-- C111: in binary64 `tsi` is NaN, infinite (100 times the averaged change overflowed) or at most the number after 100 in
magnitude, whatever the prices. -/
theorem tsi_bounded (data : List F64) (short long : ℕ) : Every (UpToSigned (100 + 2 ^ (-46 : ℤ))) (tsi data short long) := by
  unfold tsi
  refine Every.bind fun k _ => Every.bind fun l1 e1 => Every.bind fun p e2 => Every.bind fun l2 e3 => Every.bind fun q e4 =>
    every_warm (.inr (.inl rfl)) (every_map fun z hz => ?_)
  have hb : Each Balanced ((pairs data).map fun p : F64 × F64 => p.2 - p.1) (((pairs data).map fun p : F64 × F64 => p.2 - p.1).map fabs) := by
    change List.Forall₂ _ _ _
    rw [List.forall₂_map_right_iff]
    exact List.forall₂_same.2 fun x _ => Balanced.abs x
  have h1 := ewma_balanced hb long
  rw [e1, e3] at h1
  cases h1 with
  | answer h1 =>
    have h2 := ewma_balanced (each_drop k h1) short
    rw [e2, e4] at h2
    cases h2 with
    | answer h2 =>
      exact Balanced.percent ((List.forall₂_iff_zip.1 h2).2 hz) (ewma_stored short p e2 _ (List.of_mem_zip hz).1)

end Traquer.Momentum

namespace Traquer
open FP FloatLit

/-! ## Where rounding breaks the bound -/

theorem le_max64_of {a : ℝ} (h : |a| ≤ 2 ^ 60) : |a| ≤ max64 := by
  have h1 : (1 : ℝ) ≤ 2 ^ 911 := one_le_pow₀ (by norm_num)
  have e : (2 : ℝ) ^ 971 = 2 ^ 60 * 2 ^ 911 := by rw [← pow_add]
  rw [max64, e]
  refine h.trans ?_
  have : (2 : ℝ) ^ 60 ≤ 2 ^ 60 * 2 ^ 911 := le_mul_of_one_le_right (by norm_num) h1
  refine this.trans (le_mul_of_one_le_left (by positivity) (by norm_num))

/-- Integers are computed exactly. -/
theorem int64 {x : F64} {a : ℝ} (h : Rounds x a) {m : ℤ} (ha : a = m) (hm : |m| ≤ 2 ^ 53) : x ⇓ m := by
  subst ha
  have : |(m : ℝ)| ≤ 2 ^ 53 := by exact_mod_cast hm
  exact exact64 h (m := m) (e := 0) (by simp) hm (by norm_num) (le_max64_of (this.trans (by norm_num)))

theorem sqrt_six : rnd64 (Real.sqrt 6) = 5515760546423086 * 2 ^ (-51 : ℤ) := by
  have lo : (5515760546423086 - 1 / 2 : ℝ) * 2 ^ (-51 : ℤ) < Real.sqrt 6 := by
    rw [Real.lt_sqrt (by norm_num)]; norm_num
  have hi : Real.sqrt 6 < (5515760546423086 + 1 / 2 : ℝ) * 2 ^ (-51 : ℤ) := by
    rw [Real.sqrt_lt' (by norm_num)]; norm_num
  have p : (0 : ℝ) < 2 ^ (-51 : ℤ) := by positivity
  have := rnd64_eq (x := Real.sqrt 6) (e := -51) (n := 5515760546423086) (le_trans (by norm_num) lo.le) (hi.trans_le (by norm_num)) (by norm_num)
    (roundEven_eq (by rw [lt_div_iff₀ p]; push_cast; exact lo) (by rw [div_lt_iff₀ p]; push_cast; exact hi))
  rw [this]
  norm_num

theorem six_again : rnd64 (5515760546423086 * 2 ^ (-51 : ℤ) * (5515760546423086 * 2 ^ (-51 : ℤ))) = 6 - 2 ^ (-50 : ℤ) := by
  have := rnd64_eq (x := 5515760546423086 * 2 ^ (-51 : ℤ) * (5515760546423086 * 2 ^ (-51 : ℤ))) (e := -50) (n := 6755399441055743)
    (by norm_num) (by norm_num) (by norm_num) (roundEven_eq (by norm_num) (by norm_num))
  rw [this]
  norm_num

theorem above_one : rnd64 (6 / (6 - 2 ^ (-50 : ℤ))) = 1 + 2 ^ (-52 : ℤ) := by
  have := rnd64_eq (x := 6 / (6 - 2 ^ (-50 : ℤ))) (e := -52) (n := 2 ^ 52 + 1)
    (by norm_num) (by norm_num) (by norm_num) (roundEven_eq (by norm_num) (by norm_num))
  rw [this]
  norm_num

namespace Correlation

/-- C111: in binary64 the correlation of the prices 1, 2, 3 with themselves is the number after 1. -/
theorem pcc_above_one : ∃ y : F64, pcc [1, 2, 3] [1, 2, 3] 3 = some [FP.nan, FP.nan, y] ∧ y ⇓ 1 + 2 ^ (-52 : ℤ) := by
  refine ⟨_, rfl, ?_⟩
  have o : (1 : F64) ⇓ ((1 : ℤ) : ℝ) := by simpa using isOne
  have t : (2 : F64) ⇓ ((2 : ℤ) : ℝ) := by simpa using isLit 2 (by norm_num)
  have r : (3 : F64) ⇓ ((3 : ℤ) : ℝ) := by simpa using isLit 3 (by norm_num)
  have z : (0 : F64) ⇓ ((0 : ℤ) : ℝ) := by simpa using isZero
  have f : (flt 3 : F64) ⇓ ((3 : ℤ) : ℝ) := r
  have add : ∀ {x y : F64} {a b : ℤ}, x ⇓ (a : ℝ) → y ⇓ (b : ℝ) → |a + b| ≤ 2 ^ 53 → x + y ⇓ ((a + b : ℤ) : ℝ) :=
    fun hx hy h => int64 (rounds_add hx hy) (by push_cast; ring) h
  have sub : ∀ {x y : F64} {a b : ℤ}, x ⇓ (a : ℝ) → y ⇓ (b : ℝ) → |a - b| ≤ 2 ^ 53 → x - y ⇓ ((a - b : ℤ) : ℝ) :=
    fun hx hy h => int64 (rounds_sub hx hy) (by push_cast; ring) h
  have mul : ∀ {x y : F64} {a b : ℤ}, x ⇓ (a : ℝ) → y ⇓ (b : ℝ) → |a * b| ≤ 2 ^ 53 → x * y ⇓ ((a * b : ℤ) : ℝ) :=
    fun hx hy h => int64 (rounds_mul hx hy) (by push_cast; ring) h
  have s1 : (0 + 1 * 1 + 2 * 2 + 3 * 3 : F64) ⇓ ((14 : ℤ) : ℝ) :=
    add (add (add z (mul o o (by norm_num)) (by norm_num)) (mul t t (by norm_num)) (by norm_num)) (mul r r (by norm_num)) (by norm_num)
  have s2 : (0 + 1 + 2 + 3 : F64) ⇓ ((6 : ℤ) : ℝ) := add (add (add z o (by norm_num)) t (by norm_num)) r (by norm_num)
  have six : (flt 3 * (0 + 1 * 1 + 2 * 2 + 3 * 3) - (0 + 1 + 2 + 3) * (0 + 1 + 2 + 3) : F64) ⇓ ((6 : ℤ) : ℝ) :=
    sub (mul f s1 (by norm_num)) (mul s2 s2 (by norm_num)) (by norm_num)
  have six : (flt 3 * (0 + 1 * 1 + 2 * 2 + 3 * 3) - (0 + 1 + 2 + 3) * (0 + 1 + 2 + 3) : F64) ⇓ 6 := by simpa using six
  have root := is64 (rounds_sqrt six (by norm_num)) sqrt_six (le_max64_of (by norm_num [abs_of_pos]))
  have den := is64 (rounds_mul root root) six_again (le_max64_of (by norm_num [abs_of_pos]))
  exact is64 (rounds_div six den (by norm_num)) above_one (le_max64_of (by norm_num [abs_of_pos]))

end Correlation

namespace Volume

/-- C111: in binary64 `cmf` of one bar that closes at its high can exceed 1: volume times range is rounded up, and dividing by
the range does not give the volume back. -/
theorem cmf_above_one :
    ∃ y : F64, cmf [fin 3] [fin 0] [fin 3] [fin 6004799503160666] 1 = some [y] ∧ y ⇓ 1 + 2 ^ (-52 : ℤ) := by
  refine ⟨_, rfl, ?_⟩
  have r : (fin 3 : F64) ⇓ 3 := is_fin 3
  have z : (fin 0 : F64) ⇓ 0 := is_fin 0
  have v : (fin 6004799503160666 : F64) ⇓ 6004799503160666 := is_fin _
  have e1 : (fin 3 - fin 0 : F64) ⇓ 3 := by simpa using int64 (rounds_sub r z) (m := 3) (by norm_num) (by norm_num)
  have e2 : (fin 3 - fin 3 : F64) ⇓ 0 := by simpa using int64 (rounds_sub r r) (m := 0) (by norm_num) (by norm_num)
  have e3 : (fin 3 - fin 0 - (fin 3 - fin 3) : F64) ⇓ 3 := by simpa using int64 (rounds_sub e1 e2) (m := 3) (by norm_num) (by norm_num)
  have r1 : rnd64 (6004799503160666 * 3) = 18014398509482000 := by
    have := rnd64_eq (x := 6004799503160666 * 3) (e := 2) (n := 4503599627370499 + 1) (by norm_num) (by norm_num) (by norm_num) (by
      rw [show (6004799503160666 * 3 / 2 ^ (2 : ℤ) : ℝ) = ((4503599627370499 : ℤ) : ℝ) + 1 / 2 by norm_num]
      exact roundEven_up (by decide))
    rw [this]
    norm_num
  have r2 : rnd64 (18014398509482000 / 3) = 6004799503160667 := by
    have := rnd64_eq (x := 18014398509482000 / 3) (e := 0) (n := 6004799503160667) (by norm_num) (by norm_num) (by norm_num)
      (roundEven_eq (by norm_num) (by norm_num))
    rw [this]
    norm_num
  have r3 : rnd64 (6004799503160667 / 6004799503160666) = 1 + 2 ^ (-52 : ℤ) := by
    have := rnd64_eq (x := 6004799503160667 / 6004799503160666) (e := -52) (n := 2 ^ 52 + 1) (by norm_num) (by norm_num) (by norm_num)
      (roundEven_eq (by norm_num) (by norm_num))
    rw [this]
    norm_num
  have p := is64 (rounds_mul v e3) r1 (le_max64_of (by norm_num [abs_of_pos]))
  have q := is64 (rounds_div p e1 (by norm_num)) r2 (le_max64_of (by norm_num [abs_of_pos]))
  have n1 := int64 (rounds_add (isZero (ρ := Rounding.binary64)) q) (m := 6004799503160667) (by norm_num) (by norm_num)
  have n2 := int64 (rounds_add (isZero (ρ := Rounding.binary64)) v) (m := 6004799503160666) (by norm_num) (by norm_num)
  have n3 := rounds_div n1 n2 (by norm_num)
  push_cast at n3
  exact is64 n3 r3 (le_max64_of (by norm_num [abs_of_pos]))

end Volume

end Traquer
