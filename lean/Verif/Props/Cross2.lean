import Verif.Props.Cross
import Verif.Props.Saturate
/-!
# C129, continued: macd, apo, ppo and tsi

The difference of a fast and a slow exponential average is an exponential average of the moves of the slow one, up to a positive factor. So
`macd` changes sign at most once more often than the price turns.
-/

namespace Traquer.Momentum
open FP FloatLit
open Traquer.Smooth (ema1)

/-- The difference of two exponential averages of the same series, one bar on. -/
theorem spread_step {s l : ℕ} (hs : 1 ≤ s) (hl : s ≤ l) (x : ℕ → ℝ) (i : ℕ) (hi : l - 1 ≤ i) :
    ema1 s x (i + 1) - ema1 l x (i + 1) = (1 - 2 / ((s : ℝ) + 1)) * (ema1 s x i - ema1 l x i) +
      (((l : ℝ) + 1) / (s + 1) - 1) * (ema1 l x (i + 1) - ema1 l x i) := by
  have e1 := ewmaFrom_pull (lo := 0) hs x i (by omega)
  have e2 := ewmaFrom_pull (lo := 0) (by omega : 1 ≤ l) x i (by omega)
  unfold ema1
  rw [e1, e2]
  have : (0 : ℝ) < (s : ℝ) + 1 := by positivity
  have : (0 : ℝ) < (l : ℝ) + 1 := by positivity
  field_simp
  ring

theorem spread_crosses {s l n m : ℕ} (hs : 1 ≤ s) (hl : s ≤ l) (x : ℕ → ℝ) (h : Crosses (fun i => ema1 s x i - ema1 l x i) 0 (l - 1) n (m + 1)) :
    Turns x 0 n m := by
  have h1 : Turns (ema1 l x) (0 + (l - 1)) n m := by
    rw [Nat.zero_add]
    refine onceMore_of (fun σ i g1 g2 ha hb => ?_) h
    simp only [sub_zero, Nat.add_sub_cancel] at ha hb ⊢
    rw [spread_step hs hl x i g1]
    have sR : (1 : ℝ) ≤ s := by exact_mod_cast hs
    have lR : (s : ℝ) ≤ l := by exact_mod_cast hl
    have c1 : 0 ≤ 1 - 2 / ((s : ℝ) + 1) := by
      rw [sub_nonneg, div_le_one (by positivity)]
      linarith
    have c2 : 0 ≤ ((l : ℝ) + 1) / (s + 1) - 1 := by
      rw [sub_nonneg, one_le_div (by positivity)]
      linarith
    have a := mul_nonpos_of_nonneg_of_nonpos c1 ha
    have b := mul_nonpos_of_nonneg_of_nonpos c2 hb
    linarith
  exact ewmaFrom_turns (by omega) h1

/-- C129: `macd` changes sign at most once more often than the price turns. -/
theorem macd_signals (close : List XF) (short long : ℕ) (hs : 1 ≤ short) (hl : short ≤ long) (hn : long ≤ close.length) (hd : Fins close) :
    SignalsOnceMore close.length (long - 1) (bar (vals close)) (macd close short long) := by
  have h := macd_reports close short long hs (by omega) (by omega) hd
  rw [show max short long - 1 = long - 1 by omega] at h
  exact ⟨_, h, fun m => spread_crosses hs hl _⟩

/-- C129: `apo` likewise. -/
theorem apo_signals (data : List XF) (short long : ℕ) (hs : 1 ≤ short) (hl : short ≤ long) (hn : long ≤ data.length) (hd : Fins data) :
    SignalsOnceMore data.length (long - 1) (bar (vals data)) (apo data short long) := macd_signals data short long hs hl hn hd

/-- C129: `ppo` of positive prices likewise. -/
theorem ppo_signals (data : List XF) (short long : ℕ) (hs : 1 ≤ short) (hl : short ≤ long) (hn : long ≤ data.length) (hd : Fins data)
    (hp : Positive (vals data)) : SignalsOnceMore data.length (long - 1) (bar (vals data)) (ppo data short long) := by
  have h := ppo_reports data short long hs (by omega) (by omega) hd
  rw [show max short long - 1 = long - 1 by omega] at h
  have p1 : ∀ i, long - 1 ≤ i → i < data.length → 0 < ema1 long (bar (vals data)) i := fun i h1 h2 =>
    ewmaFrom_pos (by omega) (fun j _ hj => hp.bar (by simpa using hj)) i (by omega) h2
  refine ⟨_, h.mono fun i y h1 h2 g => g.1 (p1 i h1 h2).ne', fun m hc => spread_crosses hs hl _ (hc.congr fun σ i h1 h2 hq => ?_)⟩
  have pos := p1 i h1 h2
  rw [sub_zero] at hq ⊢
  rw [show σ * (100 * (ema1 short (bar (vals data)) i - ema1 long (bar (vals data)) i) / ema1 long (bar (vals data)) i) =
      (σ * (ema1 short (bar (vals data)) i - ema1 long (bar (vals data)) i)) * (100 / ema1 long (bar (vals data)) i) by ring] at hq
  exact pos_of_mul_pos_left hq (by positivity)

/-- C129: `tsi` changes sign no more often than the price turns, for a price that moves at every bar. -/
theorem tsi_signals (data : List XF) (short long : ℕ) (hs : 1 ≤ short) (hl : 1 ≤ long) (hn : long + short ≤ data.length) (hd : Fins data)
    (hm : ∀ c ∈ changes (vals data), c ≠ 0) :
    SignalsNoMore data.length (long + short - 1) (bar (vals data)) (tsi data short long) := by
  have hlen : (changes (vals data)).length = data.length - 1 := by simp [changes]
  have e1 : ∀ i, i < data.length - 1 → (changes (vals data))[i]? = some ((fun j => bar (vals data) j - bar (vals data) (j - 1)) (1 + i)) :=
    fun i hi => by
      have g1 : (vals data)[i]? = some (bar (vals data) i) := by
        rw [bar, List.getD, List.getElem?_eq_getElem (by simp; omega)]; rfl
      have g2 : (vals data)[i + 1]? = some (bar (vals data) (i + 1)) := by
        rw [bar, List.getD, List.getElem?_eq_getElem (by simp; omega)]; rfl
      rw [changes, List.getElem?_map, pairs_getElem?, g1, g2]
      simp [add_comm]
  have e2 : ∀ j, j < data.length - long → (ewmaSeries long (changes (vals data)))[j]? =
      some (ewmaFrom 1 long (fun j => bar (vals data) j - bar (vals data) (j - 1)) (long + j)) := fun j hj => by
    have g := ewmaOf_eq (k := 1) (n := data.length - 1) (v := fun j => bar (vals data) j - bar (vals data) (j - 1)) hl e1 (by omega) (long - 1 + j) (by omega) (by omega)
    rw [show 1 + (long - 1 + j) = long + j by omega] at g
    rw [ewmaSeries, List.getElem?_map, List.getElem?_range (by rw [hlen]; omega), Option.map_some, g]
  have e3 := ewmaOf_eq (k := long) (v := ewmaFrom 1 long fun j => bar (vals data) j - bar (vals data) (j - 1)) hs e2 (by omega)
  have pos : ∀ i, long + short - 1 ≤ i → i < data.length →
      0 < ewmaOf short (ewmaSeries long ((changes (vals data)).map fun x => |x|)) (i - long) := fun i h1 h2 =>
    ewmaOf_pos (w := short) (i := i - long) hs (by omega) (by simp [ewmaSeries, hlen]; omega) (ewmaSeries_pos (w := long) hl fun x hx => by
      obtain ⟨c, hc, rfl⟩ := List.mem_map.1 hx
      exact abs_pos.2 (hm c hc))
  refine ⟨_, (tsi_reports data short long hs hl hn hd).mono fun i y h1 h2 g => g.1 (pos i h1 h2).ne', fun m hc => ?_⟩
  have c1 : Crosses (ewmaFrom long short (ewmaFrom 1 long fun j => bar (vals data) j - bar (vals data) (j - 1))) 0 (long + (short - 1))
      data.length m := by
    rw [show long + (short - 1) = long + short - 1 by omega]
    refine hc.congr fun σ i h1 h2 hq => ?_
    have p := pos i h1 h2
    have e := e3 (i - long) (by omega) (by omega)
    rw [show long + (i - long) = i by omega] at e
    rw [sub_zero] at hq ⊢
    rw [← e]
    rw [show ∀ a b : ℝ, σ * (100 * a / b) = (σ * a) * (100 / b) by intros; ring] at hq
    exact pos_of_mul_pos_left hq (by positivity)
  have c2 := ewmaFrom_crosses hs c1
  exact ewmaFrom_crosses (lo := 1) hl (by rwa [show 1 + (long - 1) = long by omega])

example := macd_signals ([1, 5, 2, 9, 4].map fin) 2 3 (by decide) (by decide) (by simp) (fins_map_fin _)
example := ppo_signals ([1, 5, 2, 9, 4].map fin) 2 3 (by decide) (by decide) (by simp) (fins_map_fin _) (by
  rw [vals_map_fin]; intro x hx; fin_cases hx <;> norm_num)
example := tsi_signals ([1, 5, 2, 9, 4].map fin) 2 2 (by decide) (by decide) (by simp) (fins_map_fin _) (by
  rw [vals_map_fin]; intro x hx; simp [changes, pairs] at hx; rcases hx with rfl | rfl | rfl | rfl <;> norm_num)

/-- The price 1, 5, 2, 9, 4 turns three times. -/
example : Turns (bar [1, 5, 2, 9, 4]) 0 5 3 := by
  refine ⟨1, fun j => j + 1, .inl rfl, fun j _ => by beta_reduce; omega, fun j hj => ⟨by beta_reduce; omega, by beta_reduce; omega, ?_⟩⟩
  interval_cases j <;> simp [bar] <;> norm_num

end Traquer.Momentum
