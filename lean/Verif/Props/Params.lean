import Verif.Props.MonoBars
import Verif.Props.BandOrder
import Verif.Props.Quantile
import Verif.Props.Bands
import Verif.Props.MomentumFormulas
import Verif.Props.TrendFormulas
import Verif.Lemmas.AverageOrder
/-!
# C102: parameters act in the documented direction

A larger multiplier never narrows a band, a longer channel window never narrows the channel, a higher quantile is never lower.
-/

namespace Traquer
open FP FloatLit
variable {ρ : Rounding}

theorem each_maps {α β : Type} {R : β → β → Prop} {f g : α → β} {l : List α} (h : ∀ x ∈ l, R (f x) (g x)) : Each R (l.map f) (l.map g) := by
  induction l with
  | nil => exact .nil
  | cons x l ih => exact .cons (h x List.mem_cons_self) (ih fun y hy => h y (List.mem_cons_of_mem _ hy))

/-- The same answer, with another use of it: both panic or both answer, and the answers are related. -/
theorem alike_bind_same {α β : Type} {R : β → β → Prop} {a : Option α} {f g : α → Option β} (h : ∀ x, a = some x → Alike R (f x) (g x)) :
    Alike R (a.bind f) (a.bind g) := by
  cases a with
  | none => exact .panic
  | some x => exact h x rfl

theorem NotAbove.sqrt {x y : FP ρ} (h : NotAbove x y) : NotAbove (sqrt x) (Traquer.sqrt y) := by
  have e : ∀ z : FP ρ, Traquer.sqrt z ≠ FP.nan → z ≠ FP.nan ∧ 0 ≤ z.toE ∧ (Traquer.sqrt z).toE = if z.toE = ⊤ then ⊤ else rndX ρ (Real.sqrt z.toE.toReal : ℝ) := by
    intro z hz
    cases z with
    | nan => exact absurd rfl hz
    | inf b =>
      cases b
      · exact ⟨by simp, le_top, by simp [FP.toE]; rfl⟩
      · exact absurd rfl hz
    | negz =>
      refine ⟨by simp, le_rfl, ?_⟩
      have h0 := congrArg FP.toE (sqrt_zero' (ρ := ρ))
      simp only [sqrt_def, FP.sqrt, lt_irrefl, if_false, toE_mk] at h0
      rw [if_neg (by simp [FP.toE])]
      show (0 : EReal) = rndX ρ ((Real.sqrt (0 : EReal).toReal : ℝ) : EReal)
      rw [EReal.toReal_zero, rndX_coe, h0]; rfl
    | fin r =>
      by_cases hr : r < 0
      · exact absurd (by simp [sqrt_def, FP.sqrt, hr]) hz
      · refine ⟨by simp, EReal.coe_nonneg.2 (not_lt.1 hr), ?_⟩
        rw [if_neg (by simp [FP.toE])]
        simp only [sqrt_def, FP.sqrt, if_neg hr, toE_mk]
        rfl
  rw [notAbove_iff] at *
  intro h1 h2
  obtain ⟨a1, a2, a3⟩ := e x h1
  obtain ⟨b1, b2, b3⟩ := e y h2
  have hxy := h a1 b1
  rw [a3, b3]
  split
  · rename_i ht
    rw [if_pos (top_le_iff.1 (ht ▸ hxy))]
  · split
    · exact le_top
    · rename_i n1 n2
      exact rndX_mono (EReal.coe_le_coe_iff.2 (Real.sqrt_le_sqrt (EReal.toReal_le_toReal hxy (ne_of_gt (lt_of_lt_of_le EReal.bot_lt_zero a2)) n2)))

end Traquer

namespace Traquer.Volatility
open FP FloatLit
variable {ρ : Rounding} (data high low close : List (FP ρ)) (window : ℕ) {d d' : FP ρ} (hd : NotAbove d d')
include hd

/-- C102: more deviations never lower `std_dev`. -/
theorem std_dev_deviations : Alike (Each NotAbove) (std_dev data window (some d)) (std_dev data window (some d')) :=
  alike_bind_same fun r e => .answer <| each_maps fun x hx => hd.mul_left (Distribution.std_dev_clear data window r e x hx).nonNeg

/-- C102: more deviations never narrow the Bollinger bands, whatever the average: the upper band does not fall, the lower one does not rise and
the middle line stays. -/
theorem bbands_deviations (mode : Option Smooth.MaMode) : Alike (Each fun p q => NotAbove p.1 q.1 ∧ p.2.1 = q.2.1 ∧ NotAbove q.2.2 p.2.2)
    (bbands data window (some d) mode) (bbands data window (some d') mode) := by
  refine alike_bind_same fun m _ => ?_
  show Alike _ ((std_dev data window (some d)).bind _) ((std_dev data window (some d')).bind _)
  have h := std_dev_deviations data window hd
  revert h
  generalize std_dev data window (some d) = s
  generalize std_dev data window (some d') = s'
  intro h
  cases h with
  | panic => exact .panic
  | answer h =>
    refine .answer (each_map (each_zip (P := Eq) (List.forall₂_same.2 fun _ _ => rfl) h) ?_)
    rintro ⟨a, b⟩ ⟨a', b'⟩ ⟨h1, h2⟩
    cases h1
    exact ⟨(NotAbove.refl a).add h2, rfl, (NotAbove.refl a).sub h2⟩

/-- C102: a larger multiplier never narrows the STARC bands (closes that are not NaN). -/
theorem starc_multiplier (hc : ∀ c ∈ close, isNaN c = false) (maWindow : ℕ) : Alike (Each fun p q => NotAbove p.1 q.1 ∧ NotAbove q.2 p.2)
    (starc high low close window maWindow (some d)) (starc high low close window maWindow (some d')) := by
  refine alike_bind_same fun a ea => alike_bind_same fun m _ => .answer <| each_maps ?_
  rintro ⟨x, y⟩ hxy
  have h0 := notNegative_iff.1 (atr_notNegative high low close window hc a ea x (List.of_mem_zip hxy).1)
  have h := hd.mul_right h0
  exact ⟨(NotAbove.refl y).add h, (NotAbove.refl y).sub h⟩

/-- C102: more deviations never lower `hv`. -/
theorem hv_deviations : Alike (Each NotAbove) (hv data window (some d)) (hv data window (some d')) := by
  refine alike_bind_same fun ws _ => .answer <| each_append (each_notAbove_nans _) <| each_maps fun w _ => ?_
  exact (((hd.mul_left (signClear_flt 252).nonNeg).mul_left
    (SignClear.fsum fun x hx => by obtain ⟨z, -, rfl⟩ := List.mem_map.1 hx; exact signClear_sq _).nonNeg).div (signClear_flt window)).sqrt

end Traquer.Volatility

namespace Traquer.Trend
open FP FloatLit
variable {ρ : Rounding} (high low close : List (FP ρ)) (window : ℕ) {d d' : FP ρ}

/-- C102: a larger multiplier never tightens the chandelier exits: the long exit does not rise, the short exit does not fall. -/
theorem chandelier_multiplier (hd : NotAbove d d') (hc : ∀ c ∈ close, isNaN c = false) :
    Alike (Each fun p q => NotAbove q.1 p.1 ∧ NotAbove p.2 q.2) (chandelier high low close window (some d))
      (chandelier high low close window (some d')) := by
  refine alike_bind_same fun hs _ => alike_bind_same fun ls _ => alike_bind_same fun a ea => .answer <|
    each_append (each_replicate _ ⟨.refl _, .refl _⟩) <| each_maps ?_
  rintro ⟨h, l, x⟩ hx
  have hm : x ∈ a := List.mem_of_mem_drop (mem_zip3 hx).2
  have h := hd.mul_right (notNegative_iff.1 (Volatility.atr_notNegative high low close window hc a ea x hm))
  exact ⟨(NotAbove.refl _).sub h, (NotAbove.refl _).add h⟩

end Traquer.Trend

namespace Traquer
variable {l : List ℝ}

theorem quantileOf_mono {p p' : ℝ} (h0 : 0 ≤ p) (h : p ≤ p') (h1 : p' ≤ ((l.length - 1 : ℕ) : ℝ)) (hl : l ≠ []) : quantileOf l p ≤ quantileOf l p' := by
  have hn : 0 < l.length := List.length_pos_iff.2 hl
  have fr : ∀ x : ℝ, 0 ≤ x → (⌊x⌋₊ : ℝ) + Int.fract x = x := fun x hx => by
    rw [natCast_floor_eq_intCast_floor hx]; exact Int.floor_add_fract x
  have step : ∀ x : ℝ, 0 ≤ x → x ≤ ((l.length - 1 : ℕ) : ℝ) → Int.fract x ≠ 0 → ⌊x⌋₊ + 1 < l.length := fun x hx hx1 hf => by
    have : (⌊x⌋₊ : ℝ) < ((l.length - 1 : ℕ) : ℝ) := by
      have := fr x hx
      have := lt_of_le_of_ne (Int.fract_nonneg x) (Ne.symm hf)
      linarith
    have := Nat.cast_lt.1 this
    omega
  have up : ∀ x : ℝ, 0 ≤ x → x ≤ ((l.length - 1 : ℕ) : ℝ) → ∀ k, ⌊x⌋₊ < k → k < l.length → quantileOf l x ≤ orderStat l k := fun x hx hx1 k hk hkl => by
    have a1 := orderStat_mono (l := l) (j := ⌊x⌋₊) (k := k) (by omega) hkl
    have a2 := orderStat_mono (l := l) (j := ⌊x⌋₊ + 1) (k := k) (by omega) hkl
    have f0 := Int.fract_nonneg x
    have f1 := (Int.fract_lt_one x).le
    rw [quantileOf]
    nlinarith
  have dn : ∀ x : ℝ, 0 ≤ x → x ≤ ((l.length - 1 : ℕ) : ℝ) → orderStat l ⌊x⌋₊ ≤ quantileOf l x := fun x hx hx1 => by
    rw [quantileOf]
    by_cases hf : Int.fract x = 0
    · rw [hf]; simp
    · have := orderStat_mono (l := l) (j := ⌊x⌋₊) (k := ⌊x⌋₊ + 1) (by omega) (step x hx hx1 hf)
      have f0 := Int.fract_nonneg x
      nlinarith
  have hp' := h0.trans h
  have hf : ⌊p⌋₊ ≤ ⌊p'⌋₊ := Nat.floor_mono h
  rcases Nat.lt_or_ge ⌊p⌋₊ ⌊p'⌋₊ with hlt | hge
  · have hl' : ⌊p'⌋₊ < l.length := by
      have : (⌊p'⌋₊ : ℝ) ≤ ((l.length - 1 : ℕ) : ℝ) := (Nat.floor_le hp').trans h1
      have := Nat.cast_le.1 this
      omega
    exact (up p h0 (h.trans h1) _ hlt hl').trans (dn p' hp' h1)
  · have e : ⌊p⌋₊ = ⌊p'⌋₊ := le_antisymm hf hge
    have hfr : Int.fract p ≤ Int.fract p' := by
      have := fr p h0; have := fr p' hp'; rw [e] at *; linarith
    rw [quantileOf, quantileOf, e]
    by_cases hz : Int.fract p' = 0
    · have : Int.fract p = 0 := le_antisymm (hz ▸ hfr) (Int.fract_nonneg p)
      rw [hz, this]
    · have := orderStat_mono (l := l) (j := ⌊p'⌋₊) (k := ⌊p'⌋₊ + 1) (by omega) (step p' hp' h1 hz)
      nlinarith

end Traquer

namespace Traquer.Distribution
open FP

/-- C102: a higher quantile is never lower. -/
theorem quantile_mono (data : List XF) {w : ℕ} {q q' : XF} {r r' : ℝ} (hq : q ⇓ r) (hq' : q' ⇓ r') (h : r ≤ r') (hw : 1 ≤ w) (hw' : w ≤ 2 ^ 53)
    (hn : w ≤ data.length + 1) (hd : Fins data) : ∃ out out', quantile data w q = some out ∧ quantile data w q' = some out' ∧
      ∀ (i : ℕ) y y', w ≤ i + 1 → out[i]? = some y → out'[i]? = some y' → ∃ v v', y ⇓ v ∧ y' ⇓ v' ∧ v ≤ v' := by
  obtain ⟨o, e, l, -, f⟩ := quantile_reports data w q r hq hw hw' hn hd
  obtain ⟨o', e', l', -, f'⟩ := quantile_reports data w q' r' hq' hw hw' hn hd
  refine ⟨o, o', e, e', fun i y y' hi hy hy' => ?_⟩
  have hb : i < data.length := l ▸ (List.getElem?_eq_some_iff.1 hy).1
  obtain ⟨z, hz, iz⟩ := f i (by omega) hb
  obtain ⟨z', hz', iz'⟩ := f' i (by omega) hb
  cases hy.symm.trans hz; cases hy'.symm.trans hz'
  refine ⟨_, _, iz, iz', ?_⟩
  have hl : (recent (vals data) w i).length = w := recent_length hi (by simpa using hb)
  have c0 : 0 ≤ max 0 (min r 100) / 100 := by positivity
  have c1 : max 0 (min r 100) / 100 ≤ max 0 (min r' 100) / 100 := by gcongr
  have c2 : max 0 (min r' 100) / 100 ≤ 1 := by
    rw [div_le_one (by norm_num)]; exact max_le (by norm_num) (min_le_right _ _)
  have w0 : (0 : ℝ) ≤ ((w - 1 : ℕ) : ℝ) := Nat.cast_nonneg _
  refine quantileOf_mono (mul_nonneg w0 c0) (mul_le_mul_of_nonneg_left c1 w0) ?_ (by intro h; rw [h] at hl; simp at hl; omega)
  rw [hl]
  exact mul_le_of_le_one_right w0 c2

end Traquer.Distribution

namespace Traquer.Volatility
open FP

/-- C102: a longer window never narrows the Donchian channel, in every rounding. -/
theorem donchian_window {ρ : Rounding} (high low : List (FP ρ)) {w w' : ℕ} (hl : low.length = high.length) (hw : 1 ≤ w) (h : w ≤ w')
    (hn : w' ≤ high.length + 1) (fh : Fins high) (fl : Fins low) : ∃ out out', donchian high low w = some out ∧ donchian high low w' = some out' ∧
      ∀ (i : ℕ) p q, w' ≤ i + 1 → out[i]? = some p → out'[i]? = some q → NotAbove p.1 q.1 ∧ NotAbove q.2.2 p.2.2 := by
  obtain ⟨o, e, l, f⟩ := donchian_attained high low w hl hw (by omega) fh fl
  obtain ⟨o', e', l', f'⟩ := donchian_attained high low w' hl (by omega) hn fh fl
  refine ⟨o, o', e, e', fun i p q hi hp hq => ?_⟩
  have hb : i < high.length := l ▸ (List.getElem?_eq_some_iff.1 hp).1
  obtain ⟨a1, a2⟩ := f i p (by omega) hp
  obtain ⟨b1, b2⟩ := f' i q (by omega) hq
  have sub : ∀ (s : List ℝ) x, x ∈ recent s w i → x ∈ recent s w' i := fun s x hx => by
    obtain ⟨d, rfl⟩ := Nat.exists_eq_add_of_le h
    rw [recent] at hx ⊢
    have : (s.drop (i + 1 - (w + d))).take (w + d) = (s.drop (i + 1 - (w + d))).take d ++ (s.drop (i + 1 - w)).take w := by
      rw [Nat.add_comm w d, List.take_add, List.drop_drop, show i + 1 - (d + w) + d = i + 1 - w by omega]
    rw [this]
    exact List.mem_append_right _ hx
  have ne : ∀ s : List (FP ρ), s.length = high.length → recent (vals s) w i ≠ [] := fun s hs => recent_ne_nil hw (by omega) (by simp; omega)
  have ne' : ∀ s : List (FP ρ), s.length = high.length → recent (vals s) w' i ≠ [] := fun s hs => recent_ne_nil (by omega) hi (by simp; omega)
  refine ⟨notAbove_iff.2 fun _ _ => ?_, notAbove_iff.2 fun _ _ => ?_⟩
  · rw [a1.toE, b1.toE]
    exact EReal.coe_le_coe_iff.2 (le_maxOf (sub _ _ (maxOf_mem (ne high rfl))))
  · rw [a2.toE, b2.toE]
    exact EReal.coe_le_coe_iff.2 (minOf_le (sub _ _ (minOf_mem (ne low hl))))

end Traquer.Volatility

namespace Traquer.Momentum
open FP

/-- C102: the swing index is inversely proportional to the limit move. -/
theorem si_limit (openp high low close : List XF) {limit limit' : XF} {L L' : ℝ} (ho : openp.length = high.length) (hl : low.length = high.length)
    (hc : close.length = high.length) (hn : 1 ≤ high.length) (fo : Fins openp) (fh : Fins high) (fl : Fins low) (fc : Fins close)
    (hL : limit ⇓ L) (L0 : L ≠ 0) (hL' : limit' ⇓ L') (L0' : L' ≠ 0) : ∃ out out', si openp high low close limit = some out ∧
      si openp high low close limit' = some out' ∧ ∀ (i : ℕ) y y', out[i]? = some y → out'[i]? = some y' →
        (y = FP.nan ∧ y' = FP.nan) ∨ ∃ v v', y ⇓ v ∧ y' ⇓ v' ∧ v * L = v' * L' := by
  obtain ⟨o, e, l, a, f⟩ := si_reports openp high low close limit ho hl hc hn fo fh fl fc hL L0
  obtain ⟨o', e', l', a', f'⟩ := si_reports openp high low close limit' ho hl hc hn fo fh fl fc hL' L0'
  refine ⟨o, o', e, e', fun i y y' hy hy' => ?_⟩
  have hb : i < high.length := l ▸ (List.getElem?_eq_some_iff.1 hy).1
  rcases Nat.lt_or_ge i 1 with h1 | h1
  · exact .inl ⟨Option.some.inj (hy.symm.trans (a i h1 hb)), Option.some.inj (hy'.symm.trans (a' i h1 hb))⟩
  obtain ⟨z, hz, z1, z2⟩ := f i h1 hb
  obtain ⟨z', hz', z1', z2'⟩ := f' i h1 hb
  cases hy.symm.trans hz; cases hy'.symm.trans hz'
  by_cases hr : swingR |bar (vals high) i - bar (vals close) (i - 1)| |bar (vals low) i - bar (vals close) (i - 1)|
        (bar (vals high) i - bar (vals low) i) (|bar (vals close) (i - 1) - bar (vals openp) (i - 1)| / 4) = 0
  · exact .inl ⟨z2 hr, z2' hr⟩
  · refine .inr ⟨_, _, z1 hr, z1' hr, ?_⟩
    rw [swingOf, swingOf]
    field_simp

end Traquer.Momentum

namespace Traquer.Trend
open FP FloatLit

/-- C102: a larger multiplier never tightens the Chande Kroll stops. -/
theorem cks_multiplier (high low close : List XF) {w v : ℕ} {m m' : XF} {c c' : ℝ} (hm : m ⇓ c) (hm' : m' ⇓ c') (h : c ≤ c')
    (hl : low.length = high.length) (hc : close.length = high.length) (hw : 1 ≤ w) (hv : 1 ≤ v) (hn : w + v ≤ high.length) (fh : Fins high)
    (fl : Fins low) (fc : Fins close) : ∃ out out', cks high low close w v (some m) = some out ∧ cks high low close w v (some m') = some out' ∧
      ∀ (i : ℕ) p q, w + (v - 1) ≤ i → out[i]? = some p → out'[i]? = some q → NotAbove q.1 p.1 ∧ NotAbove p.2 q.2 := by
  obtain ⟨o, e, l, f⟩ := cks_reports high low close w v (some m) hl hc hw hv hn fh fl fc hm
  obtain ⟨o', e', l', f'⟩ := cks_reports high low close w v (some m') hl hc hw hv hn fh fl fc hm'
  refine ⟨o, o', e, e', fun i p q hi hp hq => ?_⟩
  have hb : i < high.length := l ▸ (List.getElem?_eq_some_iff.1 hp).1
  obtain ⟨a1, a2⟩ := f i p hi hp
  obtain ⟨b1, b2⟩ := f' i q hi hq
  have t0 : ∀ j, w ≤ j → j ≤ i → 0 ≤ wilderFrom 1 w (trAt (vals high) (vals low) (vals close)) j := fun j h1 h2 =>
    wilderFrom_nonneg (n := high.length) hw (fun j _ _ => by
      rw [trAt, trueRangeOf]; exact le_max_of_le_right (le_max_of_le_left (abs_nonneg _))) j (by omega) (by omega)
  have mx : ∀ (f g : ℕ → ℝ) (L : List ℕ) (s t : ℝ), s ≤ t → (∀ j ∈ L, f j ≤ g j) → (L.map f).foldl max s ≤ (L.map g).foldl max t := by
    intro f g L
    induction L with
    | nil => intro s t hst _; exact hst
    | cons j L ih => intro s t hst hL; exact ih _ _ (max_le_max hst (hL j List.mem_cons_self)) fun k hk => hL k (List.mem_cons_of_mem _ hk)
  have mn : ∀ (f g : ℕ → ℝ) (L : List ℕ) (s t : ℝ), s ≤ t → (∀ j ∈ L, f j ≤ g j) → (L.map f).foldl min s ≤ (L.map g).foldl min t := by
    intro f g L
    induction L with
    | nil => intro s t hst _; exact hst
    | cons j L ih => intro s t hst hL; exact ih _ _ (min_le_min hst (hL j List.mem_cons_self)) fun k hk => hL k (List.mem_cons_of_mem _ hk)
  refine ⟨notAbove_iff.2 fun _ _ => ?_, notAbove_iff.2 fun _ _ => ?_⟩
  · rw [a1.toE, b1.toE]
    refine EReal.coe_le_coe_iff.2 (mx _ _ _ _ _ le_rfl fun j hj => ?_)
    have hj := List.mem_range.1 hj
    rw [exitLong, exitLong]
    have := mul_le_mul_of_nonneg_right h (t0 (i + 1 - v + j) (by omega) (by omega))
    linarith
  · rw [a2.toE, b2.toE]
    refine EReal.coe_le_coe_iff.2 (mn _ _ _ _ _ le_rfl fun j hj => ?_)
    have hj := List.mem_range.1 hj
    rw [exitShort, exitShort]
    have := mul_le_mul_of_nonneg_right h (t0 (i + 1 - v + j) (by omega) (by omega))
    linarith

end Traquer.Trend

/-! ## Concrete cases -/

namespace Traquer
open FP FloatLit

private theorem exLe {ρ : Rounding} {a b : ℝ} (h : a ≤ b) : NotAbove (fin a : FP ρ) (fin b) :=
  notAbove_iff.2 fun _ _ => EReal.coe_le_coe_iff.2 h

example : Alike (Each NotAbove) (Volatility.std_dev [fin 1, fin 2, fin 4] 2 (some (fin 1 : F64))) (Volatility.std_dev [fin 1, fin 2, fin 4] 2 (some (fin 2))) :=
  Volatility.std_dev_deviations _ 2 (exLe (by norm_num))
example := Volatility.bbands_deviations ([1, 2, 4].map (fin (ρ := Rounding.binary64))) 2 (exLe (show (1 : ℝ) ≤ 2 by norm_num)) (some .SMA)
example := Volatility.starc_multiplier ([5, 6, 8].map (fin (ρ := Rounding.binary64))) ([0, 1, 3].map fin) ([1, 2, 4].map fin) 2
  (exLe (show (1 : ℝ) ≤ 2 by norm_num)) (by simp [isNaN_def, FP.isNaN]) 2
example := Volatility.hv_deviations ([1, 2, 4].map (fin (ρ := Rounding.binary64))) 2 (exLe (show (1 : ℝ) ≤ 2 by norm_num))
example := Trend.chandelier_multiplier ([5, 6, 8].map (fin (ρ := Rounding.binary64))) ([0, 1, 3].map fin) ([1, 2, 4].map fin) 2
  (exLe (show (1 : ℝ) ≤ 2 by norm_num)) (by simp [isNaN_def, FP.isNaN])
example := Distribution.quantile_mono ([5, 1, 8, 2].map (fin (ρ := Rounding.exact))) (w := 3) (is_fin 30) (is_fin 80) (by norm_num) (by decide) (by decide)
  (by simp) (fins_map_fin _)
example := Volatility.donchian_window ([5, 6, 8, 7].map (fin (ρ := Rounding.binary64))) ([0, 1, 3, 2].map fin) (w := 2) (w' := 3) (by simp) (by decide)
  (by decide) (by simp) (fins_map_fin _) (fins_map_fin _)
example := Momentum.si_limit ([4, 5].map (fin (ρ := Rounding.exact))) ([6, 7].map fin) ([3, 4].map fin) ([5, 6].map fin) (by simp) (by simp) (by simp)
  (by simp) (fins_map_fin _) (fins_map_fin _) (fins_map_fin _) (fins_map_fin _) (is_fin 3) (by norm_num) (is_fin 5) (by norm_num)
example := Trend.cks_multiplier ([5, 6, 8, 9].map (fin (ρ := Rounding.exact))) ([0, 1, 3, 4].map fin) ([1, 2, 4, 6].map fin) (w := 2) (v := 2)
  (is_fin 1) (is_fin 2) (by norm_num) (by simp) (by simp) (by decide) (by decide) (by simp) (fins_map_fin _) (fins_map_fin _) (fins_map_fin _)

end Traquer
