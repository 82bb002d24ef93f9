import Verif.Props.SignAverages
import Verif.Lemmas.Items
import Verif.Model.Correlation
import Verif.Model.Trend
/-!
# C81: measures that are never negative, for every input and in every rounding
-/

namespace Traquer
open FP FloatLit
variable {ρ : Rounding} {x y : FP ρ}

/-- A square root is never negative: of a negative number it is NaN. -/
theorem sqrt_nonNeg (x : FP ρ) : NonNegOrNaN (sqrt x) := by
  show NonNegOrNaN (FP.sqrt x)
  cases x with
  | nan => exact .inl rfl
  | inf b => cases b; exacts [.inr (.inl rfl), .inl rfl]
  | negz => exact .inr (.inr ⟨0, is_iff.2 (.inr ⟨rfl, rfl⟩), le_rfl⟩)
  | fin r =>
    simp only [FP.sqrt]
    split
    · exact .inl rfl
    · exact (signClear_mk (Real.sqrt_nonneg r)).nonNeg

theorem NonNegOrNaN.negz_or (h : NonNegOrNaN x) : x = negz ∨ SignClear x := by
  rcases h with h | h | ⟨a, ha, h0⟩
  · exact .inr (.inl h)
  · exact .inr (.inr (.inl h))
  · rcases is_iff.1 ha with h | ⟨h, -⟩
    · exact .inr (.inr (.inr ⟨a, h0, h⟩))
    · exact .inl h

theorem nonNeg_negz : NonNegOrNaN (negz : FP ρ) := .inr (.inr ⟨0, is_negz, le_rfl⟩)

theorem nonNeg_mk_zero (s : Bool) : NonNegOrNaN (mk s 0 : FP ρ) := by
  cases s
  · exact (signClear_mk le_rfl).nonNeg
  · rw [show (mk true 0 : FP ρ) = negz by simp [mk, rnd_zero]]
    exact nonNeg_negz

/-- A non-negative number divided by one without sign bit. -/
theorem NonNegOrNaN.over (h : NonNegOrNaN x) (hy : SignClear y) : NonNegOrNaN (x / y) := by
  rcases h.negz_or with rfl | h
  · show NonNegOrNaN (FP.div negz y)
    cases y with
    | nan => exact .inl rfl
    | inf b =>
      simp only [FP.div]
      split
      · exact nonNeg_negz
      · exact (show SignClear _ from .inr (.inr ⟨0, le_rfl, rfl⟩)).nonNeg
    | negz => exact .inl (by simp [FP.div, val]; rfl)
    | fin r =>
      simp only [FP.div, val, zero_div]
      split
      · exact .inl rfl
      · exact nonNeg_mk_zero _
  · exact (h.div hy).nonNeg

/-- The product of two non-negative numbers. -/
theorem NonNegOrNaN.times (h : NonNegOrNaN x) (hy : NonNegOrNaN y) : NonNegOrNaN (x * y) := by
  have key : ∀ y : FP ρ, NonNegOrNaN (negz * y) := by
    intro y
    show NonNegOrNaN (FP.mul negz y)
    cases y with
    | nan => exact .inl rfl
    | inf b => exact .inl (by simp [FP.mul]; rfl)
    | negz => simp only [FP.mul, val, zero_mul]; exact nonNeg_mk_zero _
    | fin r => simp only [FP.mul, val, zero_mul]; exact nonNeg_mk_zero _
  rcases h.negz_or with rfl | h
  · exact key y
  rcases hy.negz_or with rfl | hy
  · rw [times_comm]; exact key x
  · exact (h.mul hy).nonNeg

theorem nonNegInf_toE : NonNegInf x ↔ x ≠ FP.nan ∧ 0 ≤ x.toE := by
  constructor
  · intro h
    have hn : x ≠ FP.nan := by
      rintro rfl
      rcases h with h | ⟨a, ha, -⟩
      · cases h
      · exact ha.1.elim
    exact ⟨hn, nonNeg_iff.1 (.inr h) hn⟩
  · rintro ⟨hn, h⟩
    rcases nonNeg_iff.2 (fun _ => h) with h | h
    · exact absurd h hn
    · exact h

theorem isNaN_false_iff : isNaN x = false ↔ x ≠ FP.nan := by
  cases x <;> simp [Traquer.isNaN, FloatOps.isNaN, FP.isNaN]

/-- The larger of a non-negative number and anything. -/
theorem NonNegInf.fmax_left (hx : NonNegInf x) (y : FP ρ) : NonNegInf (fmax x y) := by
  obtain ⟨h1, h2⟩ := nonNegInf_toE.1 hx
  unfold fmax
  rw [isNaN_false_iff.2 h1]
  by_cases hy : y = FP.nan
  · subst hy; exact hx
  rw [isNaN_false_iff.2 hy]
  simp only [Bool.false_eq_true, if_false]
  split
  · rename_i h
    refine nonNegInf_toE.2 ⟨hy, ?_⟩
    by_contra hc
    have : NotAbove y x := notAbove_iff.2 fun _ _ => (not_le.1 hc).le.trans h2
    rw [this] at h
    exact absurd h (by simp)
  · exact hx

/-- The larger of anything and a non-negative number. -/
theorem NonNegInf.fmax_right (x : FP ρ) (hy : NonNegInf y) : NonNegInf (fmax x y) := by
  obtain ⟨h1, h2⟩ := nonNegInf_toE.1 hy
  unfold fmax
  rw [isNaN_false_iff.2 h1]
  by_cases hx : x = FP.nan
  · subst hx; exact hy
  rw [isNaN_false_iff.2 hx]
  simp only [Bool.false_eq_true, if_false]
  split
  · exact hy
  · rename_i h
    refine nonNegInf_toE.2 ⟨hx, h2.trans ?_⟩
    exact notAbove_iff.1 (show NotAbove y x from Bool.eq_false_iff.2 h) h1 hx

/-- The larger of `+0` and anything has no sign bit. -/
theorem SignClear.zero_fmax (x : FP ρ) : SignClear (Traquer.fmax 0 x) := by
  have h := (NonNegInf.fmax_left (x := (0 : FP ρ)) (.inr ⟨0, isZero, le_rfl⟩) x)
  rcases NonNegOrNaN.negz_or (.inr h) with e | e
  · rcases fmax_cases 0 x with e' | e'
    · rw [e', zero_lit] at e; cases e
    · rw [e'] at e
      subst e
      have : (0 : FP ρ) = fin 0 := zero_lit
      rw [this] at e'
      unfold Traquer.fmax at e'
      have l : ((fin 0 : FP ρ) <. negz) = false := by show FP.lt _ _ = false; simp [FP.lt, toE]
      rw [l] at e'
      cases e'
  · exact e

end Traquer

namespace Traquer.Distribution
open FP FloatLit
variable {ρ : Rounding} (data : List (FP ρ)) (window : ℕ)

theorem powDev_clear (w : List (FP ρ)) (m : FP ρ) : SignClear (powDev w m 2) :=
  SignClear.foldl (fun _ _ => signClear_sq _) signClear_zero

/-- C81: the variance is never negative, whatever the data and the rounding. -/
theorem variance_clear : Every SignClear (variance data window) :=
  .bind fun _ _ => .bind fun _ _ => every_warm signClear_nan <| every_map fun w _ => (powDev_clear w _).div (signClear_flt _)

theorem stdDevRaw_clear : Every SignClear (stdDevRaw data window) :=
  .bind fun _ _ => every_some.2 <| every_map fun w _ => ((powDev_clear w _).div (signClear_flt _)).sqrt

/-- C81: the standard deviation is never negative. -/
theorem std_dev_clear : Every SignClear (std_dev data window) :=
  .bind fun _ _ => .bind fun r e => every_warm signClear_nan (stdDevRaw_clear data window r e)

/-- C81: the mean absolute deviation is never negative. -/
theorem mad_clear : Every SignClear (mad data window) :=
  .bind fun _ _ => .bind fun _ _ => every_warm signClear_nan <| every_map fun w _ =>
    (SignClear.foldl (fun _ _ => signClear_abs _) signClear_zero).div (signClear_flt _)

/-- C81: the coefficient of variation of non-negative prices is never negative. -/
theorem cv_clear (h : ∀ x ∈ data, SignClear x) : Every SignClear (cv data window) :=
  .bind fun _ _ => .bind fun _ e => every_warm signClear_nan <| every_map fun w hw =>
    ((powDev_clear w _).div (signClear_flt _)).sqrt.div ((SignClear.fsum fun _ hx => h _ (mem_of_windows e hw hx)).div (signClear_flt _))

theorem mapP_every {α β : Type} {f : α → Option β} {P : β → Prop} {l : List α} {r : List β} (e : mapP f l = some r)
    (h : ∀ a ∈ l, ∀ b, f a = some b → P b) : ∀ b ∈ r, P b := by
  intro b hb
  obtain ⟨a, ha, hf⟩ := mapP_mem e hb
  exact h a ha b hf

/-- C81: approximate entropy is never negative. -/
theorem approx_entropy_clear (m : Option ℕ) (tol : Option (FP ρ)) : Every SignClear (approx_entropy data window m tol) := by
  refine .bind fun t _ => .bind fun _ _ => .bind fun _ _ => .bind fun r e => every_warm signClear_nan (mapP_every e fun w _ b hb => ?_)
  obtain ⟨p, -, hb⟩ := Option.bind_eq_some_iff.1 hb
  obtain ⟨q, -, hb⟩ := Option.bind_eq_some_iff.1 hb
  cases hb
  exact signClear_abs _

end Traquer.Distribution

namespace Traquer.Correlation
open FP FloatLit
variable {ρ : Rounding} (a b : List (FP ρ)) (window : ℕ)

/-- C81: R squared is never negative. -/
theorem rsq_clear : Every SignClear (rsq a b window) :=
  .bind fun _ _ => every_some.2 <| every_map fun x _ => signClear_mul_self x

/-- C81: the distance correlation is never negative. -/
theorem dcor_notNegative : Every NotNegative (dcor a b window) := by
  refine .bind fun _ _ => .bind fun _ _ => .bind fun _ _ => every_warm signClear_nan.notNegative <| every_map ?_
  rintro ⟨x, y⟩ -
  have h1 : ∀ c : List (FP ρ), SignClear (sqrt (fsum (c.map fun a => a * a) / flt (window ^ 2))) := fun c =>
    ((SignClear.fsum (every_map fun a _ => signClear_mul_self a)).div (signClear_flt _)).sqrt
  exact (NonNegOrNaN.over (sqrt_nonNeg _) ((h1 _).mul (h1 _)).sqrt).notNegative

end Traquer.Correlation

namespace Traquer.Smooth
open FP FloatLit
variable {ρ : Rounding} {data : List (FP ρ)}

/-- Wilder's average of non-negative values. -/
theorem wilder_notNegative (h : ∀ x ∈ data, NotNegative x) (window : ℕ) : Every NotNegative (wilder data window) := by
  unfold wilder
  split
  · exact every_some.2 h
  · refine .bind fun k _ => .bind fun hd e1 => .bind fun rest e2 => every_warm signClear_nan.notNegative ?_
    refine scanS_all ?_ fun s hs x hx => ?_
    · exact ((SignClear.fsum_nonNeg fun x hx => notNegative_iff.1 (h x (mem_of_sliceTo e1 hx))).div (signClear_flt _)).notNegative
    · rw [notNegative_iff] at hs ⊢
      exact NonNegOrNaN.over ((hs.times (signClear_flt k).nonNeg).add (notNegative_iff.1 (h x (mem_of_sliceFrom e2 hx)))) (signClear_flt _)

end Traquer.Smooth

namespace Traquer.Volatility
open FP FloatLit
open Traquer.Distribution (mapP_every)
variable {ρ : Rounding} (data high low close : List (FP ρ)) (window : ℕ)

theorem abs_sub_nan {x c : FP ρ} (h : ¬ isNaN (fabs (x - c)) = false) (hc : isNaN c = false) : x = FP.nan ∨ ∃ b, x = inf b ∧ c = inf b := by
  have e : isNaN (fabs (x - c)) = FP.isNaN (FP.abs (FP.add x (FP.neg c))) := rfl
  have hk : ∀ s a, FP.isNaN (FP.abs (mk s a : FP ρ)) = false := fun s a => by
    rw [mk]
    split
    · split <;> rfl
    · split <;> rfl
  cases x with
  | nan => exact .inl rfl
  | inf b =>
    cases c with
    | nan => cases hc
    | inf d =>
      refine .inr ⟨b, rfl, ?_⟩
      by_contra hd
      apply h
      rw [e, FP.neg, FP.add, if_pos (by cases b <;> cases d <;> simp_all)]
      rfl
    | negz => exact absurd rfl h
    | fin r =>
      refine absurd ?_ h
      rw [e, FP.neg]
      split <;> rfl
  | negz =>
    refine absurd ?_ h
    cases c with
    | nan => cases hc
    | inf d => rfl
    | negz => exact hk _ _
    | fin r =>
      rw [e, FP.neg]
      split
      · rfl
      · exact hk _ _
  | fin s =>
    refine absurd ?_ h
    cases c with
    | nan => cases hc
    | inf d => rfl
    | negz => exact hk _ _
    | fin r =>
      rw [e, FP.neg]
      split
      · exact hk _ _
      · exact hk _ _

/-- The true range of one bar, if the close is not NaN. -/
theorem trTerm_nonNeg (h l c : FP ρ) (hc : isNaN c = false) :
    NonNegOrNaN (fmax (fmax (h - l) (fabs (h - c))) (fabs (l - c))) := by
  by_cases h1 : isNaN (fabs (l - c)) = false
  · refine .inr (.fmax_right _ ?_)
    rcases signClear_abs (l - c) |>.nonNeg with e | e
    · rw [e] at h1; cases h1
    · exact e
  by_cases h2 : isNaN (fabs (h - c)) = false
  · refine .inr (.fmax_left (.fmax_right _ ?_) _)
    rcases signClear_abs (h - c) |>.nonNeg with e | e
    · rw [e] at h2; cases h2
    · exact e
  have e : h - l = FP.nan := by
    rcases abs_sub_nan h2 hc with rfl | ⟨b, rfl, rfl⟩
    · rfl
    rcases abs_sub_nan h1 hc with rfl | ⟨d, rfl, hd⟩
    · rfl
    · cases hd
      show FP.sub (inf b) (inf b) = FP.nan
      simp [FP.sub, FP.neg, FP.add]
  refine .inl ?_
  have n1 := Bool.eq_true_of_not_eq_false h1
  have n2 := Bool.eq_true_of_not_eq_false h2
  have hn : ∀ x : FP ρ, isNaN x = true → x = FP.nan := fun x hx => by
    by_contra hc
    rw [isNaN_false_iff.2 hc] at hx
    cases hx
  rw [e, hn _ n1, hn _ n2]
  rfl

/-- The true range of one bar, if the low is not above the high. -/
theorem trTerm_nonNeg' (h l c : FP ρ) (hl : NotAbove l h) :
    NonNegOrNaN (fmax (fmax (h - l) (fabs (h - c))) (fabs (l - c))) := by
  have h1 := hl.sub_nonneg
  have hf : ∀ x y : FP ρ, NonNegOrNaN x → NonNegOrNaN y → NonNegOrNaN (fmax x y) := fun x y hx hy => by
    rcases fmax_cases x y with h | h <;> rw [h] <;> assumption
  exact hf _ _ (hf _ _ h1 (signClear_abs _).nonNeg) (signClear_abs _).nonNeg

theorem trueRange_notNegative (hc : ∀ c ∈ close, isNaN c = false) : Every NotNegative (trueRange high low close) := by
  refine .bind fun h1 _ => .bind fun l1 _ => .bind fun n _ => .bind fun pc e => every_some.2 <| every_map ?_
  rintro ⟨h, l, c⟩ hm
  refine (trTerm_nonNeg h l c (hc c (mem_of_sliceTo e ?_))).notNegative
  exact (mem_zip3 hm).2

theorem trueRange_notNegative' (hb : ∀ p ∈ high.zip low, NotAbove p.2 p.1) : Every NotNegative (trueRange high low close) := by
  refine .bind fun h1 e1 => .bind fun l1 e2 => .bind fun n _ => .bind fun pc e => every_some.2 <| every_map ?_
  obtain ⟨-, rfl⟩ := sliceFrom_some e1
  obtain ⟨-, rfl⟩ := sliceFrom_some e2
  rintro ⟨h, l, c⟩ hm
  refine (trTerm_nonNeg' h l c (hb (h, l) ?_)).notNegative
  exact mem_zip_drop (mem_zip3 hm).1

/-- C81: the true range is never negative, if the closes are not NaN, even if the lows are above the highs. -/
theorem tr_notNegative (hc : ∀ c ∈ close, isNaN c = false) : Every NotNegative (tr high low close) :=
  .bind fun t e => every_warm (n := 1) signClear_nan.notNegative (trueRange_notNegative high low close hc t e)

/-- C81: the true range is never negative, if the lows are not above the highs, even if the closes are NaN. -/
theorem tr_notNegative_of_bars (hb : ∀ p ∈ high.zip low, NotAbove p.2 p.1) : Every NotNegative (tr high low close) :=
  .bind fun t e => every_warm (n := 1) signClear_nan.notNegative (trueRange_notNegative' high low close hb t e)

/-- C81: the average true range is never negative. -/
theorem atr_notNegative (hc : ∀ c ∈ close, isNaN c = false) : Every NotNegative (atr high low close window) :=
  .bind fun t e => .bind fun w e2 => every_warm (n := 1) signClear_nan.notNegative
    (Smooth.wilder_notNegative (trueRange_notNegative high low close hc t e) window w e2)

/-- C81: the average true range is never negative. -/
theorem atr_notNegative_of_bars (hb : ∀ p ∈ high.zip low, NotAbove p.2 p.1) : Every NotNegative (atr high low close window) :=
  .bind fun t e => .bind fun w e2 => every_warm (n := 1) signClear_nan.notNegative
    (Smooth.wilder_notNegative (trueRange_notNegative' high low close hb t e) window w e2)

/-- C81: the standard deviation line is never negative, if the multiple is not. -/
theorem std_dev_clear (devs : Option (FP ρ)) (hd : ∀ d, devs = some d → SignClear d) : Every SignClear (std_dev data window devs) := by
  refine .bind fun r e => every_some.2 <| every_map fun x hx => (Distribution.std_dev_clear data window r e x hx).mul ?_
  cases devs with
  | none => exact signClear_flt 2
  | some d => exact hd d rfl

/-- C81: historical volatility is never negative. -/
theorem hv_notNegative (devs : Option (FP ρ)) : Every NotNegative (hv data window devs) :=
  .bind fun _ _ => every_warm signClear_nan.notNegative <| every_map fun _ _ => (sqrt_nonNeg _).notNegative

/-- C81: close to close volatility is never negative. -/
theorem cc_hv_notNegative : Every NotNegative (cc_hv data window) :=
  .bind fun _ _ => every_warm signClear_nan.notNegative <| every_map fun _ _ => (sqrt_nonNeg _).notNegative

/-- C81: Garman-Klass-Yang-Zhang volatility is never negative. -/
theorem gkyz_hv_notNegative (openp : List (FP ρ)) : Every NotNegative (gkyz_hv openp high low close window) :=
  .bind fun _ _ => .bind fun _ _ => .bind fun _ _ => .bind fun _ _ => .bind fun _ _ =>
    every_warm signClear_nan.notNegative <| every_map fun _ _ => (sqrt_nonNeg _).notNegative

/-- C81: the relative volatility index is never negative. -/
theorem relative_vol_clear (smoothing : ℕ) : Every SignClear (relative_vol close window smoothing) := by
  refine .bind fun sd e1 => .bind fun _ _ => .bind fun _ _ => .bind fun _ _ => .bind fun _ _ => .bind fun _ _ => .bind fun _ _ =>
    .bind fun g eg => .bind fun l el => every_warm signClear_nan <| every_map ?_
  rintro ⟨a, b⟩ hab
  have key : ∀ u : FP ρ, SignClear (fmax 0 (signum u)) := fun u => .zero_fmax _
  have hs : ∀ x ∈ sd, SignClear x := Distribution.stdDevRaw_clear close window sd e1
  have hg : ∀ x ∈ g, SignClear x := by
    refine Smooth.wilder_clear (every_map (every_map ?_)) _ g eg
    rintro ⟨x, y, z⟩ hm
    exact (key _).mul (hs _ (List.of_mem_zip (mem_zip3 hm).1).1)
  have hl : ∀ x ∈ l, SignClear x := by
    refine Smooth.wilder_clear (every_map (every_map ?_)) _ l el
    rintro ⟨x, y, z⟩ hm
    exact (key _).mul (hs _ (List.of_mem_zip (mem_zip3 hm).1).1)
  have ha := hg a (List.of_mem_zip hab).1
  exact ((signClear_flt 100).mul ha).div (ha.add (hl b (List.of_mem_zip hab).2))

end Traquer.Volatility

namespace Traquer.Trend
open FP FloatLit
open Traquer.Distribution (mapP_every)
variable {ρ : Rounding} (data high low close : List (FP ρ)) (window : ℕ)

/-- C81: the ulcer index is never negative. -/
theorem ulcer_clear : Every SignClear (ulcer data window) := by
  refine .bind fun ws _ => .bind fun k _ => .bind fun m e => every_warm signClear_nan <| every_map fun x hx => ?_
  refine (Smooth.sma_clear (every_map ?_) window m e x hx).sqrt
  rintro ⟨a, b⟩ -
  exact signClear_sq _

theorem rwiStep_nonNegInf {h l t : List (FP ρ)} {s s' : FP ρ × FP ρ × FP ρ} {i : ℕ} (e : rwiStep window h l t s i = some s')
    (hs : NonNegInf s.1 ∧ NonNegInf s.2.1) : NonNegInf s'.1 ∧ NonNegInf s'.2.1 := by
  obtain ⟨p, -, e⟩ := Option.bind_eq_some_iff.1 e
  obtain ⟨t, -, e⟩ := Option.bind_eq_some_iff.1 e
  obtain ⟨hl, -, e⟩ := Option.bind_eq_some_iff.1 e
  obtain ⟨lp, -, e⟩ := Option.bind_eq_some_iff.1 e
  obtain ⟨hp, -, e⟩ := Option.bind_eq_some_iff.1 e
  obtain ⟨ll, -, e⟩ := Option.bind_eq_some_iff.1 e
  cases e
  exact ⟨hs.1.fmax_left _, hs.2.fmax_left _⟩

/-- C81: after the warm-up the random walk indices are numbers and never negative, whatever the prices. -/
theorem rwi_notNegative : Every (fun p => NotNegative p.1 ∧ NotNegative p.2) (rwi high low close window) := by
  refine .bind fun _ _ => .bind fun _ _ => .bind fun _ _ => .bind fun _ _ => .bind fun _ _ => .bind fun _ _ => .bind fun r e =>
    every_some.2 fun p hp => ?_
  rcases List.mem_append.1 hp with hp | hp
  · rw [List.eq_of_mem_replicate hp]
    exact ⟨signClear_nan.notNegative, signClear_nan.notNegative⟩
  obtain ⟨⟨h, l, t⟩, -, hf⟩ := mapP_mem e hp
  obtain ⟨⟨a, b, c⟩, hg, hp⟩ := Option.bind_eq_some_iff.1 hf
  cases hp
  have key : ∀ (is : List ℕ) (s s' : FP ρ × FP ρ × FP ρ), is.foldlM (rwiStep window h l t) s = some s' →
      NonNegInf s.1 ∧ NonNegInf s.2.1 → NonNegInf s'.1 ∧ NonNegInf s'.2.1 := by
    intro is
    induction is with
    | nil => rintro s s' ⟨⟩ hs; exact hs
    | cons i is ih =>
      intro s s' e hs
      rw [List.foldlM_cons] at e
      obtain ⟨u, hu, e⟩ := Option.bind_eq_some_iff.1 e
      exact ih u s' e (rwiStep_nonNegInf window hu hs)
  have h0 : NonNegInf (0 : FP ρ) := .inr ⟨0, isZero, le_rfl⟩
  obtain ⟨h1, h2⟩ := key _ (0, 0, 0) (a, b, c) hg ⟨h0, h0⟩
  exact ⟨NonNegOrNaN.notNegative (.inr h1), NonNegOrNaN.notNegative (.inr h2)⟩

end Traquer.Trend

namespace Traquer.Momentum
open FP FloatLit
open Traquer.Distribution (mapP_every)
variable {ρ : Rounding} (data high low close : List (FP ρ)) (window : ℕ)

/-- C81: the gator oscillator's two bars are never negative. -/
theorem gator_clear (jw jo tw tf lw lo : ℕ) : Every (fun p => SignClear p.1 ∧ SignClear p.2) (gator data jw jo tw tf lw lo) :=
  .bind fun _ _ => every_some.2 <| every_map fun _ _ => ⟨signClear_abs _, signClear_abs _⟩

/-- C81: the relative strength index is never negative, whatever the data and the window. -/
theorem rsi_clear : Every SignClear (rsi data window) := by
  refine .bind fun g eg => .bind fun l el => every_warm (n := 1) signClear_nan <| every_map ?_
  have hg := Smooth.wilder_clear (data := gains data) (every_map fun _ _ => .zero_fmax _) window g eg
  have hl := Smooth.wilder_clear (data := losses data) (every_map fun _ _ => signClear_abs _) window l el
  rintro ⟨a, b⟩ hab
  have ha := hg a (List.of_mem_zip hab).1
  exact ((signClear_flt 100).mul ha).div (ha.add (hl b (List.of_mem_zip hab).2))

/-- C81: the trend intensity index is never negative. -/
theorem tii_clear : Every SignClear (tii data window) := by
  refine .bind fun _ _ => .bind fun m _ => .bind fun ws e => every_warm signClear_nan <| every_map fun w hw => ?_
  have key : ∀ (l : List (FP ρ × FP ρ)) (s : FP ρ × FP ρ), SignClear s.1 ∧ SignClear s.2 → (∀ p ∈ l, NonNegOrNaN p.1 ∧ SignClear p.2) →
      SignClear (l.foldl (fun acc p => (acc.1 + p.1, acc.2 + p.2)) s).1 ∧
        SignClear (l.foldl (fun acc p => (acc.1 + p.1, acc.2 + p.2)) s).2 := by
    intro l
    induction l with
    | nil => exact fun s hs _ => hs
    | cons p l ih =>
      exact fun s hs hl => ih _ ⟨Volume.SignClear.add_nonNeg hs.1 (hl p (by simp)).1, hs.2.add (hl p (by simp)).2⟩ fun q hq => hl q (by simp [hq])
  obtain ⟨h1, h2⟩ := key w (0, 0) ⟨signClear_zero, signClear_zero⟩ fun p hp => by
    obtain ⟨⟨a, b⟩, -, rfl⟩ := List.mem_map.1 (mem_of_windows e hw hp)
    exact ⟨.inr (.fmax_right _ (.inr ⟨0, isZero, le_rfl⟩)), signClear_abs _⟩
  exact ((signClear_flt 100).mul h1).div (h1.add h2)

end Traquer.Momentum
