import Verif.Spec.Stops
import Verif.Lemmas.Order
import Verif.Lemmas.Indexed
import Verif.Lemmas.Real
import Verif.Props.ShapeTrend
/-!
# C54: parabolic SAR
-/

namespace Traquer.Trend
open FP FloatLit

section anyF
variable {F : Type} [FloatOps F]

/-- The variables of `psar` after bar `i`. -/
def sarState (high low : List F) (inc mx : F) : ℕ → SarState F
  | 0 => { af := inc, fall := true, sar := high.getD 0 nan, ep := low.getD 0 nan }
  | i + 1 => psarStep inc mx (sarState high low inc mx i) (high.getD (max i 1 - 1) nan) (low.getD (max i 1 - 1) nan)
      (high.getD (i + 1) nan) (low.getD (i + 1) nan)

theorem scanM_range {σ β : Type} {f : σ → ℕ → Option (σ × β)} {S : ℕ → σ} {g : ℕ → β} {n : ℕ}
    (h : ∀ i, i < n → f (S i) i = some (S (i + 1), g i)) : scanM f (S 0) (List.range n) = some ((List.range n).map g) := by
  obtain ⟨o, ho, hp⟩ := scanM_idx_some (f := f) (I := fun i s => s = S i) (P := fun i y => y = g i) (l := List.range n) (s := S 0) (by
    intro i s x hx hs
    have hi := (List.getElem?_eq_some_iff.1 hx).1
    simp at hi
    rw [List.getElem?_range hi] at hx
    cases hx
    subst hs
    exact ⟨_, _, h i hi, rfl, rfl⟩) rfl
  rw [ho]
  congr 1
  have hl := scanM_length ho
  apply List.ext_getElem?
  intro i
  by_cases hi : i < n
  · rw [List.getElem?_eq_getElem (by simpa [hl] using hi), List.getElem?_map, List.getElem?_range hi]
    rw [hp i _ (List.getElem?_eq_getElem (by simpa [hl] using hi))]; rfl
  · rw [List.getElem?_eq_none (by simpa [hl] using hi), List.getElem?_eq_none (by simpa using hi)]

/-- `psar` reports the variable `sar` of every bar but the first. -/
theorem psar_states (high low : List F) (af mx : Option F) (hl : low.length = high.length) (hn : 1 ≤ high.length) :
    psar high low af mx = some (nan :: (List.range (high.length - 1)).map fun i =>
      (sarState high low (af.getD 0.02) (mx.getD 0.2) (i + 1)).sar) := by
  have e : ∀ (l : List F) i, i < l.length → l[i]? = some (l.getD i nan) := fun l i hi => by
    rw [List.getElem?_eq_getElem hi]; simp [hi]
  have := scanM_range (S := sarState high low (af.getD 0.02) (mx.getD 0.2))
    (g := fun i => (sarState high low (af.getD 0.02) (mx.getD 0.2) (i + 1)).sar) (n := high.length - 1)
    (f := fun s i => do
      let h ← high[i + 1]?
      let l ← low[i + 1]?
      let hp ← high[max i 1 - 1]?
      let lp ← low[max i 1 - 1]?
      let s := psarStep (af.getD 0.02) (mx.getD 0.2) s hp lp h l
      some (s, s.sar)) (by
      intro i hi
      rw [e high (i + 1) (by omega), e low (i + 1) (by omega), e high (max i 1 - 1) (by omega), e low (max i 1 - 1) (by omega)]
      rfl)
  simp only [psar, e high 0 (by omega), e low 0 (by omega), usub_of_le hn, Option.bind_eq_bind, Option.bind_some] at this ⊢
  rw [show ({ af := af.getD 0.02, fall := true, sar := high.getD 0 nan, ep := low.getD 0 nan } : SarState F) =
    sarState high low (af.getD 0.02) (mx.getD 0.2) 0 from rfl, this]
  rfl

end anyF

section
variable {ρ : Rounding}

/-- One bar: falling, the SAR is at or above the high and the extreme at or below the low; rising, the other way round. -/
theorem psarStep_outside {inc mx hp lp h l : FP ρ} {s : SarState (FP ρ)} (hh : h ≠ FP.nan) (hl : l ≠ FP.nan) (he : s.ep ≠ FP.nan) :
    let s' := psarStep inc mx s hp lp h l
    s'.ep ≠ FP.nan ∧ (if s'.fall then (h <=. s'.sar) = true else (s'.sar <=. l) = true) := by
  have e1 : (if (l <. s.ep) = true then l else s.ep) ≠ FP.nan ∧ ((if (l <. s.ep) = true then l else s.ep) <=. l) = true := by
    split
    · exact ⟨hl, le_rfl' hl⟩
    · rename_i h; exact ⟨he, le_of_not_lt hl he (by simpa using h)⟩
  have e2 : (if (s.ep <. h) = true then h else s.ep) ≠ FP.nan ∧ (h <=. (if (s.ep <. h) = true then h else s.ep)) = true := by
    split
    · exact ⟨hh, le_rfl' hh⟩
    · rename_i h'; exact ⟨he, le_of_not_lt he hh (by simpa using h')⟩
  have m1 : ∀ x, (h <=. fmax (fmax hp h) x) = true := fun x =>
    le_trans' (fmax_spec_right hh).1 (fmax_spec (fmax_spec_right hh).2).1
  have m2 : ∀ x, (fmin (fmin lp l) x <=. l) = true := fun x =>
    le_trans' (fmin_spec (fmin_spec_right hl).2).1 (fmin_spec_right hl).1
  cases hf : s.fall
  · by_cases hflip : (l <. (s.sar + s.af * (s.ep - s.sar))) = true
    · by_cases hep : (s.ep <. h) = true
      · simp [psarStep, psarMove, hf, hflip, hep, hl, le_rfl' hh]
      · simp only [if_neg hep] at e2
        simp [psarStep, psarMove, hf, hflip, hep, hl, e2.2]
    · by_cases hep : (s.ep <. h) = true
      · simp [psarStep, psarMove, hf, hflip, hep, hh, m2]
      · simp [psarStep, psarMove, hf, hflip, hep, he, m2]
  · by_cases hflip : ((s.sar + s.af * (s.ep - s.sar)) <. h) = true
    · by_cases hep : (l <. s.ep) = true
      · simp [psarStep, psarMove, hf, hflip, hep, hh, le_rfl' hl]
      · simp only [if_neg hep] at e1
        simp [psarStep, psarMove, hf, hflip, hep, hh, e1.2]
    · by_cases hep : (l <. s.ep) = true
      · simp [psarStep, psarMove, hf, hflip, hep, hl, m1]
      · simp [psarStep, psarMove, hf, hflip, hep, he, m1]

theorem getD_of_lt {α : Type} {l : List α} {d : α} {i : ℕ} (hi : i < l.length) : l.getD i d = l[i] := by simp [hi]

theorem getD_ne_nan {l : List (FP ρ)} (h : ∀ x ∈ l, x ≠ FP.nan) {i : ℕ} (hi : i < l.length) : l.getD i FP.nan ≠ FP.nan := by
  rw [getD_of_lt hi]; exact h _ (List.getElem_mem hi)

section
variable (high low : List (FP ρ)) (hl : low.length = high.length) (hh' : ∀ x ∈ high, x ≠ FP.nan) (hl' : ∀ x ∈ low, x ≠ FP.nan)
include hl hh' hl'

theorem sarState_outside (inc mx : FP ρ) (i : ℕ) (hi : i < high.length) :
    (sarState high low inc mx i).ep ≠ FP.nan ∧
      (if (sarState high low inc mx i).fall then (high.getD i FP.nan <=. (sarState high low inc mx i).sar) = true
        else ((sarState high low inc mx i).sar <=. low.getD i FP.nan) = true) := by
  induction i with
  | zero => exact ⟨getD_ne_nan hl' (by omega), le_rfl' (getD_ne_nan hh' hi)⟩
  | succ i ih =>
    exact psarStep_outside (getD_ne_nan hh' hi) (getD_ne_nan hl' (by omega)) (ih (by omega)).1

/-- C54, in every rounding: from the second bar on the reported value is at or above the bar's high, or at or below its low, whatever
the acceleration parameters. -/
theorem psar_outside (af mx : Option (FP ρ)) (hn : 1 ≤ high.length) :
    ∃ out, psar high low af mx = some out ∧ out.length = high.length ∧ out[0]? = some FP.nan ∧
      ∀ i, 1 ≤ i → i < high.length → ∃ y h l, out[i]? = some y ∧ high[i]? = some h ∧ low[i]? = some l ∧
        ((h <=. y) = true ∨ (y <=. l) = true) := by
  refine ⟨_, psar_states high low af mx hl hn, by simp; omega, rfl, fun i h1 h2 => ?_⟩
  obtain ⟨j, rfl⟩ := Nat.exists_eq_add_of_le' h1
  have := (sarState_outside high low hl hh' hl' (af.getD 0.02) (mx.getD 0.2) (j + 1) h2).2
  refine ⟨(sarState high low (af.getD 0.02) (mx.getD 0.2) (j + 1)).sar, _, _, ?_, List.getElem?_eq_getElem h2,
    List.getElem?_eq_getElem (by omega), ?_⟩
  · rw [List.getElem?_cons_succ, List.getElem?_map, List.getElem?_range (by omega)]; rfl
  · rw [getD_of_lt h2, getD_of_lt (show j + 1 < low.length by omega)] at this
    split at this
    · exact .inl this
    · exact .inr this

end

/-- One bar keeps the acceleration factor between its start value and its maximum. -/
theorem psarStep_af {inc mx hp lp h l : FP ρ} {s : SarState (FP ρ)} {a m : ℝ} (hi : inc ⇓ a) (hm : mx ⇓ m) (h0 : 0 ≤ a)
    (ham : a ≤ m) (ha : ρ.rnd a = a) (hs : ∃ r, s.af ⇓ r ∧ a ≤ r ∧ r ≤ m) :
    ∃ r, (psarStep inc mx s hp lp h l).af ⇓ r ∧ a ≤ r ∧ r ≤ m := by
  have hinc : ∃ r, inc ⇓ r ∧ a ≤ r ∧ r ≤ m := ⟨a, hi, le_rfl, ham⟩
  have hup : ∃ r, fmin (s.af + inc) mx ⇓ r ∧ a ≤ r ∧ r ≤ m := by
    obtain ⟨r, hs, h1, h2⟩ := hs
    rcases (rounds_add hs hi).cases with ⟨_, hr⟩ | ⟨_, hr⟩
    · refine ⟨_, is_fmin hr hm, le_min ?_ ham, min_le_right _ _⟩
      conv_lhs => rw [← ha]
      exact ρ.mono _ _ (by linarith)
    · rw [hr, show decide (r + a < 0) = false by simp; linarith]
      rcases fmin_inf hm.ne_nan with e | e
      · rw [e]; exact ⟨m, hm, ham, le_rfl⟩
      · rw [e] at hm; exact hm.finite.elim
  cases hf : s.fall
  · by_cases hflip : (l <. (s.sar + s.af * (s.ep - s.sar))) = true
    · simpa [psarStep, psarMove, hf, hflip] using hinc
    · by_cases hep : (s.ep <. h) = true
      · simpa [psarStep, psarMove, hf, hflip, hep] using hup
      · simpa [psarStep, psarMove, hf, hflip, hep] using hs
  · by_cases hflip : ((s.sar + s.af * (s.ep - s.sar)) <. h) = true
    · simpa [psarStep, psarMove, hf, hflip] using hinc
    · by_cases hep : (l <. s.ep) = true
      · simpa [psarStep, psarMove, hf, hflip, hep] using hup
      · simpa [psarStep, psarMove, hf, hflip, hep] using hs

/-- C54, in every rounding: the acceleration factor is never below its increment nor above its maximum. `ha` says that the increment is
a float. -/
theorem psar_acceleration (high low : List (FP ρ)) {inc mx : FP ρ} {a m : ℝ} (hi : inc ⇓ a) (hm : mx ⇓ m) (h0 : 0 ≤ a)
    (ham : a ≤ m) (ha : ρ.rnd a = a) (i : ℕ) :
    ∃ r, (sarState high low inc mx i).af ⇓ r ∧ a ≤ r ∧ r ≤ m := by
  induction i with
  | zero => exact ⟨a, hi, le_rfl, ham⟩
  | succ i ih => exact psarStep_af hi hm h0 ham ha ih

end

/-! ## In exact arithmetic -/

/-- The variables of the code hold the values of the specification. -/
def SarIs (s : SarState XF) (r : Sar) : Prop := s.af ⇓ r.factor ∧ s.sar ⇓ r.stop ∧ s.ep ⇓ r.best ∧ s.fall = r.falling

/-- One bar in exact arithmetic. -/
theorem psarStep_is {inc mx hp lp h l : XF} {a m hp' lp' h' l' : ℝ} {s : SarState XF} {r : Sar} (hi : inc ⇓ a) (hm : mx ⇓ m)
    (h1 : hp ⇓ hp') (h2 : lp ⇓ lp') (h3 : h ⇓ h') (h4 : l ⇓ l') (hs : SarIs s r) :
    SarIs (psarStep inc mx s hp lp h l) (r.next a m hp' lp' h' l') := by
  obtain ⟨ha, hsr, he, hf⟩ := hs
  have hup := is_fmin (is_add ha hi) hm
  have hsar := is_add hsr (is_mul ha (is_sub he hsr))
  have m1 := is_fmax (is_fmax h1 h3) hsar
  have m2 := is_fmin (is_fmin h2 h4) hsar
  have b1 := is_lt hsar h3
  have b2 := is_lt h4 he
  have b3 := is_lt h4 hsar
  have b4 := is_lt he h3
  cases hr : r.falling <;> rw [hr] at hf
  · by_cases hflip : l' < r.stop + r.factor * (r.best - r.stop) <;> by_cases hep : r.best < h' <;>
      simp only [psarStep, psarMove, Sar.next, SarIs, b3, b4, hf, hr, hflip, hep, decide_true, decide_false, if_true, if_false,
        Bool.not_false, Bool.false_eq_true]
    · exact ⟨hi, h3.congr (by rw [max_eq_right hep.le]), h4, trivial⟩
    · exact ⟨hi, he.congr (by rw [max_eq_left (not_lt.1 hep)]), h4, trivial⟩
    · exact ⟨hup, m2, h3.congr (by rw [max_eq_right hep.le]), trivial⟩
    · exact ⟨ha, m2, he.congr (by rw [max_eq_left (not_lt.1 hep)]), trivial⟩
  · by_cases hflip : r.stop + r.factor * (r.best - r.stop) < h' <;> by_cases hep : l' < r.best <;>
      simp only [psarStep, psarMove, Sar.next, SarIs, b1, b2, hf, hr, hflip, hep, decide_true, decide_false, if_true, if_false,
        Bool.not_true, Bool.false_eq_true]
    · exact ⟨hi, h4.congr (by rw [min_eq_right hep.le]), h3, trivial⟩
    · exact ⟨hi, he.congr (by rw [min_eq_left (not_lt.1 hep)]), h3, trivial⟩
    · exact ⟨hup, m1, h4.congr (by rw [min_eq_right hep.le]), trivial⟩
    · exact ⟨ha, m1, he.congr (by rw [min_eq_left (not_lt.1 hep)]), trivial⟩

theorem getD_bar {l : List XF} (hf : Fins l) {i : ℕ} (hi : i < l.length) : l.getD i FP.nan ⇓ bar (vals l) i := by
  rw [getD_of_lt hi]
  exact (hf _ (List.getElem_mem hi)).is.congr (by simp [bar, vals, hi])

theorem sarState_is (high low : List XF) {inc mx : XF} {a m : ℝ} (hi : inc ⇓ a) (hm : mx ⇓ m) (hl : low.length = high.length)
    (hfh : Fins high) (hfl : Fins low) : ∀ i, i < high.length → SarIs (sarState high low inc mx i) (sarAt (vals high) (vals low) a m i)
  | 0, h => ⟨hi, getD_bar hfh h, getD_bar hfl (by omega), rfl⟩
  | i + 1, h => psarStep_is hi hm (by rw [show max i 1 - 1 = i - 1 by omega]; exact getD_bar hfh (by omega))
      (by rw [show max i 1 - 1 = i - 1 by omega]; exact getD_bar hfl (by omega)) (getD_bar hfh h)
      (getD_bar hfl (by omega)) (sarState_is high low hi hm hl hfh hfl i (by omega))

/-- C54 in exact arithmetic: for finite prices the value of each bar from the second on is the stop of the stop and reverse system. -/
theorem psar_reports (high low : List XF) (af mx : Option XF) {a m : ℝ} (ha : af.getD 0.02 ⇓ a) (hm : mx.getD 0.2 ⇓ m)
    (hl : low.length = high.length) (hn : 1 ≤ high.length) (hfh : Fins high) (hfl : Fins low) :
    Reports high.length 1 (fun i => (sarAt (vals high) (vals low) a m i).stop) (psar high low af mx) := by
  refine ⟨_, psar_states high low af mx hl hn, by simp; omega, fun i h1 h2 => ?_, fun i h1 h2 => ?_⟩
  · obtain rfl : i = 0 := by omega
    rfl
  · obtain ⟨j, rfl⟩ := Nat.exists_eq_add_of_le' h1
    refine ⟨(sarState high low (af.getD 0.02) (mx.getD 0.2) (j + 1)).sar, ?_, (sarState_is high low ha hm hl hfh hfl (j + 1) h2).2.1⟩
    rw [List.getElem?_cons_succ, List.getElem?_map, List.getElem?_range (by omega)]; rfl

/-- The stop is at or above the high in a falling trade, at or below the low in a rising one. -/
theorem sarAt_outside (high low : List ℝ) (inc cap : ℝ) (i : ℕ) :
    if (sarAt high low inc cap i).falling then bar high i ≤ (sarAt high low inc cap i).stop
    else (sarAt high low inc cap i).stop ≤ bar low i := by
  induction i with
  | zero => simp [sarAt]
  | succ i ih => simp only [sarAt, Sar.next]; split_ifs <;> simp_all

/-! ## Examples -/

/-- The default parameters are read as 0.02 and 0.2. The second bar breaks through the stop at 3, so its value is the lowest low. -/
example : Reports 3 1 (fun i => (sarAt [3, 5, 4] [1, 2, 2] 0.02 0.2 i).stop)
    (psar [fin 3, fin 5, fin 4] [fin 1, fin 2, (fin 2 : XF)] none none) := by
  have := psar_reports [fin 3, fin 5, fin 4] [fin 1, fin 2, (fin 2 : XF)] none none (is_sci 2 true 2) (is_sci 2 true 1) rfl (by norm_num)
    (by simp [Fins, FP.Finite]) (by simp [Fins, FP.Finite])
  simpa [vals, FP.val] using this

example : (sarAt [3, 5, 4] [1, 2, 2] 0.02 0.2 1).stop = 1 := by norm_num [sarAt, Sar.next, bar]

example (i : ℕ) : ∃ r, (sarState [fin 3, fin 5, fin 4] [fin 1, fin 2, (fin 2 : XF)] (fin 0.02) (fin 0.2) i).af ⇓ r ∧ 0.02 ≤ r ∧ r ≤ 0.2 :=
  psar_acceleration _ _ (is_fin _) (is_fin _) (by norm_num) (by norm_num) rfl i

/-- Prices that are neither finite nor NaN are covered too. -/
example : ∃ out, psar [fin 3, inf false] [fin 1, (fin 2 : XF)] none none = some out ∧ out.length = 2 ∧ out[0]? = some FP.nan ∧
    ∀ i, 1 ≤ i → i < 2 → ∃ y h l, out[i]? = some y ∧ [fin 3, inf false][i]? = some h ∧ [fin 1, fin 2][i]? = some l ∧
      ((h <=. y) = true ∨ (y <=. l) = true) :=
  psar_outside [fin 3, inf false] [fin 1, fin 2] rfl (by simp) (by simp) none none (by norm_num)

end Traquer.Trend
