import Verif.Props.MonoBars
/-!
# C79: Heikin-Ashi candles and decay are monotone in every rounding
-/

namespace Traquer
open FP FloatLit
variable {ρ : Rounding} {x y x' y' c : FP ρ}

/-- `0 ≤ x ≤ y` (possibly infinite, neither is NaN). -/
def Rise (x y : FP ρ) : Prop := AtMost 0 x ∧ AtMost x y

theorem nonNegInf_iff : NonNegInf x ↔ AtMost 0 x := by
  rw [AtMost, le_iff]
  have h : NonNegInf x ↔ x ≠ nan ∧ NonNegOrNaN x := by
    constructor
    · intro h
      refine ⟨?_, .inr h⟩
      rcases h with rfl | ⟨a, h, -⟩
      · simp
      · rintro rfl; exact h.finite
    · rintro ⟨h, rfl | h'⟩
      · exact absurd rfl h
      · exact h'
  rw [h, nonNeg_iff, zero_lit]
  constructor
  · rintro ⟨h1, h2⟩
    exact ⟨by simp, h1, h2 h1⟩
  · rintro ⟨-, h1, h2⟩
    exact ⟨h1, fun _ => h2⟩

theorem atMost_iff : AtMost x y ↔ x ≠ nan ∧ y ≠ nan ∧ NotAbove x y := by
  rw [AtMost, le_iff, notAbove_iff]
  exact ⟨fun ⟨h1, h2, h3⟩ => ⟨h1, h2, fun _ _ => h3⟩, fun ⟨h1, h2, h3⟩ => ⟨h1, h2, h3 h1 h2⟩⟩

namespace Rise

theorem iff : Rise x y ↔ NonNegInf x ∧ NonNegInf y ∧ NotAbove x y := by
  constructor
  · rintro ⟨h1, h2⟩
    exact ⟨nonNegInf_iff.2 h1, nonNegInf_iff.2 (le_trans' h1 h2), h2.notAbove⟩
  · rintro ⟨h1, h2, h3⟩
    have h1 := nonNegInf_iff.1 h1
    have h2 := nonNegInf_iff.1 h2
    exact ⟨h1, atMost_iff.2 ⟨(le_iff.1 h1).2.1, (le_iff.1 h2).2.1, h3⟩⟩

theorem add (h : Rise x x') (g : Rise y y') : Rise (x + y) (x' + y') := by
  rw [iff] at *
  exact ⟨h.1.add g.1, h.2.1.add g.2.1, h.2.2.add g.2.2⟩

theorem div {k : ℝ} (h : Rise x y) (hc : c ⇓ k) (hk : 0 < k) (hs : SignClear c) : Rise (x / c) (y / c) := by
  rw [iff] at *
  exact ⟨h.1.div hc hk, h.2.1.div hc hk, h.2.2.div hs⟩

theorem div_lit (n : ℕ) [n.AtLeastTwo] (hn : n ≤ 2 ^ 53) (h : Rise x y) : Rise (x / OfNat.ofNat n) (y / OfNat.ofNat n) :=
  h.div (isLit n hn) Nat.ofNat_pos (signClear_flt n)

theorem fmax (h : Rise x x') (g : Rise y y') : Rise (fmax x y) (Traquer.fmax x' y') := by
  have h1 := (le_iff.1 h.2)
  refine ⟨?_, h.2.fmax g.2⟩
  exact le_trans' h.1 (fmax_spec h1.1).1

theorem fmin (h : Rise x x') (g : Rise y y') : Rise (fmin x y) (Traquer.fmin x' y') := by
  refine ⟨?_, h.2.fmin g.2⟩
  unfold Traquer.fmin
  split
  · exact g.1
  · split
    · exact h.1
    · split
      · exact g.1
      · exact h.1

theorem notAbove (h : Rise x y) : NotAbove x y := h.2.notAbove

end Rise
end Traquer

namespace Traquer.Volatility
open FP FloatLit
variable {ρ : Rounding} {openp openp' high high' low low' close close' : List (FP ρ)}

/-- The four prices of a candle. -/
def CandleRise : FP ρ × FP ρ × FP ρ × FP ρ → FP ρ × FP ρ × FP ρ × FP ρ → Prop := Both Rise (Both Rise (Both Rise Rise))

theorem ohlc_rise {o h l c o' h' l' c' : FP ρ} (ho : Rise o o') (hh : Rise h h') (hl : Rise l l') (hc : Rise c c') :
    Rise ((o + h + l + c) / 4) ((o' + h' + l' + c') / 4) := (((ho.add hh).add hl).add hc).div_lit 4 (by norm_num)

/-- C79: raising prices never lowers a price of a Heikin-Ashi candle. -/
theorem heikin_ashi_mono (ho : Each Rise openp openp') (hh : Each Rise high high') (hl : Each Rise low low') (hc : Each Rise close close') :
    Alike (Each CandleRise) (heikin_ashi openp high low close) (heikin_ashi openp' high' low' close') := by
  unfold heikin_ashi
  refine .bind (.getElem? ho rfl) fun o o' h1 => .bind (.getElem? hh rfl) fun h h' h2 => .bind (.getElem? hl rfl) fun l l' h3 =>
    .bind (.getElem? hc rfl) fun c c' h4 => ?_
  dsimp only
  refine .bind (.sliceFrom ho rfl) fun os os' g1 => .bind (.sliceFrom hh rfl) fun hs hs' g2 => .bind (.sliceFrom hl rfl) fun ls ls' g3 =>
    .bind (.sliceFrom hc rfl) fun cs cs' g4 => .answer ?_
  have e1 : Rise ((o + c) / 2) ((o' + c') / 2) := (h1.add h4).div_lit 2 (by norm_num)
  have e2 := ohlc_rise h1 h2 h3 h4
  refine each_cons ⟨e1, h2, h3, e2⟩ (each_scan (X := Both Rise Rise) ⟨e1, e2⟩ (each_zip4 g1 g2 g3 g4) ?_)
  rintro ⟨s, t⟩ ⟨s', t'⟩ ⟨hs, ht⟩ ⟨a, b, d, e⟩ ⟨a', b', d', e'⟩ ⟨k1, k2, k3, k4⟩
  dsimp only at *
  have m1 : Rise ((s + t) / 2) ((s' + t') / 2) := (hs.add ht).div_lit 2 (by norm_num)
  have m2 := ohlc_rise k1 k2 k3 k4
  exact ⟨⟨m1, m2⟩, ⟨m1, (k2.fmax m1).fmax m2, (k3.fmin m1).fmin m2, m2⟩⟩

end Traquer.Volatility

namespace Traquer.Trend
open FP FloatLit
variable {ρ : Rounding} {data data' : List (FP ρ)}

theorem add_finite_ne_nan {x c : FP ρ} (hx : x ≠ nan) (hc : c.Finite) : x + c ≠ nan := by
  show FP.add x c ≠ nan
  cases x with
  | nan => exact absurd rfl hx
  | inf a => cases c <;> first | exact absurd hc id | simp [FP.add]
  | negz => cases c <;> first | exact absurd hc id | exact mk_ne_nan _ _ | simp [FP.add]
  | fin a => cases c <;> first | exact absurd hc id | exact mk_ne_nan _ _ | simp [FP.add]

theorem recip_finite (window : ℕ) (hw : 1 ≤ window) : (-(1 / flt window : FP ρ)).Finite := by
  have hr : (1 : ℝ) ≤ ρ.rnd (window : ℝ) := by
    have := ρ.mono ((1 : ℕ) : ℝ) (window : ℝ) (by exact_mod_cast hw)
    rwa [ρ.nat 1 (by norm_num), Nat.cast_one] at this
  have : ∃ r, (1 / flt window : FP ρ) ⇓ r := by
    rcases (show Rounds (flt window : FP ρ) _ from ⟨false, rfl⟩).cases with ⟨h3, h4⟩ | ⟨h3, h4⟩
    · obtain ⟨r, hr', -, -⟩ := (rounds_div isOne h4 (by linarith)).between (n := 1) (by norm_num) (div_nonneg (by norm_num) (by linarith))
        (by rw [Nat.cast_one, div_le_one (by linarith)]; exact hr)
      exact ⟨r, hr'⟩
    · rw [h4]; exact ⟨0, div_inf isOne _⟩
  obtain ⟨r, h⟩ := this
  exact (is_neg h).finite

/-- C79: raising prices never lowers the decaying maximum. -/
theorem decay_mono (h : Each AtMost data data') (window : ℕ) (hw : 1 ≤ window) : Each AtMost (decay data window) (decay data' window) := by
  refine each_scanS (X := AtMost) (atMost_iff.2 ?_) h fun s s' hs x x' hx => ?_
  · rw [zero_lit]; exact ⟨by simp, by simp, .refl _⟩
  · have h0 : AtMost (0 : FP ρ) 0 := by rw [zero_lit]; exact atMost_iff.2 ⟨by simp, by simp, .refl _⟩
    refine AtMost.fmax (AtMost.fmax (atMost_iff.2 ?_) hx) h0
    obtain ⟨h1, h2, h3⟩ := atMost_iff.1 hs
    exact ⟨add_finite_ne_nan h1 (recip_finite window hw), add_finite_ne_nan h2 (recip_finite window hw), h3.sub (.refl _)⟩

end Traquer.Trend
