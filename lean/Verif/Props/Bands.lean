import Verif.Props.Rsi
import Verif.Props.Dispersion
import Verif.Props.TrueRange
import Verif.Props.Stochastic
import Verif.Props.SmoothWeights
import Verif.Lemmas.Indexed
/-!
# C37: bands
-/

namespace Traquer
variable {ρ : Rounding}

/-- Bar `j` is above the two bars before it and not below the two bars after it. -/
def IsPeak (l : List ℝ) (j : ℕ) : Prop :=
  2 ≤ j ∧ ∃ a b c d e, l[j - 2]? = some a ∧ l[j - 1]? = some b ∧ l[j]? = some c ∧ l[j + 1]? = some d ∧ l[j + 2]? = some e ∧
    a < c ∧ b < c ∧ d ≤ c ∧ e ≤ c

/-- Bar `j` is below the two bars before it and not above the two bars after it. -/
def IsTrough (l : List ℝ) (j : ℕ) : Prop :=
  2 ≤ j ∧ ∃ a b c d e, l[j - 2]? = some a ∧ l[j - 1]? = some b ∧ l[j]? = some c ∧ l[j + 1]? = some d ∧ l[j + 2]? = some e ∧
    c < a ∧ c < b ∧ c ≤ d ∧ c ≤ e

/-- `v` is the value of the series at the latest bar up to `m` that satisfies `Q`, and 0 if no bar does. -/
def LatestAt (Q : ℕ → Prop) (l : List ℝ) (m : ℕ) (v : ℝ) : Prop :=
  (∃ j, j ≤ m ∧ Q j ∧ (∀ k, j < k → k ≤ m → ¬ Q k) ∧ l[j]? = some v) ∨ ((∀ k, k ≤ m → ¬ Q k) ∧ v = 0)

theorem take_drop_five {α : Type} {l : List α} {j : ℕ} (hj : j + 4 < l.length) :
    ∃ a b c d e, (l.drop j).take 5 = [a, b, c, d, e] ∧ l[j]? = some a ∧ l[j + 1]? = some b ∧ l[j + 2]? = some c ∧
      l[j + 3]? = some d ∧ l[j + 4]? = some e := by
  refine ⟨l[j], l[j + 1], l[j + 2], l[j + 3], l[j + 4], ?_, by simp, by simp, by simp, by simp, by simp⟩
  rw [List.drop_eq_getElem_cons (by omega), List.drop_eq_getElem_cons (by omega), List.drop_eq_getElem_cons (by omega),
    List.drop_eq_getElem_cons (by omega), List.drop_eq_getElem_cons (by omega)]
  rfl

theorem LatestAt.step_yes {Q : ℕ → Prop} {l : List ℝ} {m : ℕ} {v : ℝ} (h : Q m) (hv : l[m]? = some v) : LatestAt Q l m v :=
  .inl ⟨m, le_rfl, h, fun k h1 h2 => by omega, hv⟩

theorem LatestAt.step_no {Q : ℕ → Prop} {l : List ℝ} {m : ℕ} {v : ℝ} (h : ¬ Q (m + 1)) (hv : LatestAt Q l m v) :
    LatestAt Q l (m + 1) v := by
  rcases hv with ⟨j, h1, h2, h3, h4⟩ | ⟨h1, h2⟩
  · refine .inl ⟨j, by omega, h2, fun k hk hk2 => ?_, h4⟩
    rcases Nat.lt_or_ge m k with hm | hm
    · rw [show k = m + 1 by omega]; exact h
    · exact h3 k hk hm
  · refine .inr ⟨fun k hk => ?_, h2⟩
    rcases Nat.lt_or_ge m k with hm | hm
    · rw [show k = m + 1 by omega]; exact h
    · exact h1 k hm

end Traquer

namespace Traquer.Volatility
open FP FloatLit
variable {ρ : Rounding}

/-! ## donchian -/

/-- C37, in every rounding: donchian's upper band is the largest high and its lower band the smallest low of the window. -/
theorem donchian_attained (high low : List (FP ρ)) (w : ℕ) (hl : low.length = high.length) (hw : 1 ≤ w)
    (hn : w ≤ high.length + 1) (fh : Fins high) (fl : Fins low) :
    Items high.length (w - 1) (fun i p => p.1 ⇓ maxOf (recent (vals high) w i) ∧ p.2.2 ⇓ minOf (recent (vals low) w i))
      (donchian high low w) := by
  run_model [donchian]
  refine items_windows2_map hw hl hn fun i h1 h2 => ?_
  have i1 := foldMax_is (fh.recent w i) (recent_ne_nil hw h1 h2)
  have i2 := foldMin_is (fl.recent w i) (recent_ne_nil hw h1 (by omega))
  rw [recent_vals] at i1 i2
  exact ⟨i1, i2⟩

/-- C37: donchian's bands contain every bar of the window, each band is attained by a bar of the window, and the middle is their midpoint. -/
theorem donchian_contains (high low : List XF) (w : ℕ) (hl : low.length = high.length) (hw : 1 ≤ w)
    (hn : w ≤ high.length + 1) (fh : Fins high) (fl : Fins low) :
    Items high.length (w - 1) (fun i p => ∃ u m d, p.1 ⇓ u ∧ p.2.1 ⇓ m ∧ p.2.2 ⇓ d ∧
      (∀ h ∈ recent (vals high) w i, h ≤ u) ∧ u ∈ recent (vals high) w i ∧
      (∀ l ∈ recent (vals low) w i, d ≤ l) ∧ d ∈ recent (vals low) w i ∧ m = (u + d) / 2) (donchian high low w) := by
  run_model [donchian]
  refine items_windows2_map hw hl hn fun i h1 h2 => ?_
  have i1 := foldMax_is (fh.recent w i) (recent_ne_nil hw h1 h2)
  have i2 := foldMin_is (fl.recent w i) (recent_ne_nil hw h1 (by omega))
  rw [recent_vals] at i1 i2
  exact ⟨_, _, _, i1, is_div (is_add i1 i2) (is_lit 2) (by norm_num), i2, fun h hh => le_maxOf hh,
    maxOf_mem (recent_ne_nil hw h1 (by simpa using h2)), fun l hl => minOf_le hl,
    minOf_mem (recent_ne_nil hw h1 (by simp; omega)), rfl⟩

/-- C37: with no low above its high, donchian's bands are in order. -/
theorem donchian_ordered (high low : List XF) (w : ℕ) (hl : low.length = high.length) (hw : 1 ≤ w)
    (hn : w ≤ high.length + 1) (fh : Fins high) (fl : Fins low)
    (hs : ∀ (j : ℕ) (h l : ℝ), (vals high)[j]? = some h → (vals low)[j]? = some l → l ≤ h) :
    Items high.length (w - 1) (fun _ p => ∃ u m d, p.1 ⇓ u ∧ p.2.1 ⇓ m ∧ p.2.2 ⇓ d ∧ d ≤ m ∧ m ≤ u) (donchian high low w) := by
  obtain ⟨o, e, lo, h⟩ := donchian_contains high low w hl hw hn fh fl
  refine ⟨o, e, lo, fun i p hi hp => ?_⟩
  obtain ⟨u, m, d, i1, i2, i3, h1, -, h3, -, rfl⟩ := h i p hi hp
  have h2 := (List.getElem?_eq_some_iff.1 hp).1
  have hx : ∃ x, (vals high)[i]? = some x := ⟨_, List.getElem?_eq_getElem (by simp; omega)⟩
  have hy : ∃ x, (vals low)[i]? = some x := ⟨_, List.getElem?_eq_getElem (by simp; omega)⟩
  obtain ⟨x, hx⟩ := hx
  obtain ⟨y, hy⟩ := hy
  have e1 := h1 x (Smooth.mem_recent.2 ⟨i, by omega, by omega, hx⟩)
  have e2 := h3 y (Smooth.mem_recent.2 ⟨i, by omega, by omega, hy⟩)
  have e3 := hs i x y hx hy
  exact ⟨_, _, _, i1, i2, i3, by linarith, by linarith⟩

example : Items 4 1 (fun _ p => ∃ u m d, p.1 ⇓ u ∧ p.2.1 ⇓ m ∧ p.2.2 ⇓ d ∧ d ≤ m ∧ m ≤ u)
    (donchian ([3, 5, 4, 6].map (fin : ℝ → XF)) ([1, 2, 4, 3].map fin) 2) :=
  donchian_ordered _ _ 2 rfl (by decide) (by simp) (fins_map_fin _) (fins_map_fin _) fun j h l e1 e2 => by
    simp only [vals_map_fin] at e1 e2
    rcases j with _ | _ | _ | _ | j <;> simp at e1 e2 <;> subst e1 <;> subst e2 <;> norm_num

/-! ## keltner, starc and bbands -/

/-- The average true range is not negative. -/
theorem wilder_trueRanges_nonneg {high low close : List ℝ} {w i : ℕ} (hl : low.length = high.length)
    (hc : close.length = high.length) (hw : 1 ≤ w) (h1 : w ≤ i) (h2 : i < high.length) :
    0 ≤ wilderOf w (trueRanges high low close) (i - 1) :=
  Momentum.wilderOf_nonneg hw (by omega) (by simp [trueRanges]; omega) fun x hx => by
    obtain ⟨p, -, rfl⟩ := List.mem_map.1 hx
    exact (abs_nonneg _).trans ((le_max_left _ _).trans (le_max_right _ _))

/-- C37: keltner's middle is the exponential average of the close, its bands two average true ranges above and below. -/
theorem keltner_bands (high low close : List XF) (w : ℕ) (hl : low.length = high.length) (hc : close.length = high.length)
    (hw : 1 ≤ w) (hn : w + 1 ≤ high.length) (fh : Fins high) (fl : Fins low) (fc : Fins close) :
    Items high.length w (fun i p => ∃ m a, p.1 ⇓ m ∧ p.2.1 ⇓ m + 2 * a ∧ p.2.2 ⇓ m - 2 * a ∧ 0 ≤ a ∧
      m = ewmaOf w (vals close) i ∧ a = wilderOf w (trueRanges (vals high) (vals low) (vals close)) (i - 1))
      (keltner high low close w) := by
  obtain ⟨m, em, rm, lm⟩ := (ewma_is close w hw (by omega) fc).some
  obtain ⟨a, ea, ra, la⟩ := (atr_reports high low close w hl hc hw hn fh fl fc).some
  refine ⟨_, by run_model [keltner, em, ea]; rfl, by simp; omega, fun i p hi hp => ?_⟩
  rw [List.getElem?_map] at hp
  obtain ⟨⟨x, y⟩, hz, rfl⟩ := Option.map_eq_some_iff.1 hp
  obtain ⟨z1, z2⟩ := List.getElem?_zip_eq_some.1 hz
  have b := (List.getElem?_eq_some_iff.1 z2).1
  have i1 := rm.at z1 (by omega)
  have i2 := ra.at z2 hi
  exact ⟨_, _, i1, is_add i1 (is_mul (is_lit 2) i2), is_sub i1 (is_mul (is_lit 2) i2),
    wilder_trueRanges_nonneg (by simpa) (by simpa) hw hi (by simp; omega), rfl, rfl⟩

/-- C37: keltner's bands are in order. -/
theorem keltner_ordered (high low close : List XF) (w : ℕ) (hl : low.length = high.length) (hc : close.length = high.length)
    (hw : 1 ≤ w) (hn : w + 1 ≤ high.length) (fh : Fins high) (fl : Fins low) (fc : Fins close) :
    Items high.length w (fun _ p => ∃ m u d, p.1 ⇓ m ∧ p.2.1 ⇓ u ∧ p.2.2 ⇓ d ∧ d ≤ m ∧ m ≤ u) (keltner high low close w) :=
  (keltner_bands high low close w hl hc hw hn fh fl fc).mono fun i p _ _ ⟨m, a, i1, i2, i3, h, _⟩ =>
    ⟨_, _, _, i1, i2, i3, by linarith, by linarith⟩

example : Items 4 2 (fun _ p => ∃ m u d, p.1 ⇓ m ∧ p.2.1 ⇓ u ∧ p.2.2 ⇓ d ∧ d ≤ m ∧ m ≤ u)
    (keltner ([3, 5, 4, 6].map (fin : ℝ → XF)) ([1, 2, 4, 3].map fin) ([2, 5, 4, 4].map fin) 2) :=
  keltner_ordered _ _ _ 2 rfl rfl (by decide) (by simp) (fins_map_fin _) (fins_map_fin _) (fins_map_fin _)

/-- C37: starc's bands lie `k` average true ranges above and below the mean of the last `m` closes, `k` being the
multiplier (1.2 if none is given). -/
theorem starc_bands (high low close : List XF) (w m : ℕ) (mult : Option XF) (k : ℝ) (hl : low.length = high.length)
    (hc : close.length = high.length) (hw : 1 ≤ w) (hm : 1 ≤ m) (hn : w + 1 ≤ high.length) (hn2 : m ≤ high.length + 1)
    (fh : Fins high) (fl : Fins low) (fc : Fins close) (hk : ∀ x, mult = some x → x ⇓ k) (hk' : mult = none → k = 1.2) :
    Items high.length (max w (m - 1)) (fun i p => ∃ a, p.1 ⇓ mean (recent (vals close) m i) + k * a ∧
      p.2 ⇓ mean (recent (vals close) m i) - k * a ∧ 0 ≤ a ∧
      a = wilderOf w (trueRanges (vals high) (vals low) (vals close)) (i - 1)) (starc high low close w m mult) := by
  obtain ⟨s, es, rs, ls⟩ := (Smooth.sma_reports close m hm (by omega) fc).some
  obtain ⟨a, ea, ra, la⟩ := (atr_reports high low close w hl hc hw hn fh fl fc).some
  have hk2 : (mult.getD 1.2 : XF) ⇓ k := by
    cases mult with
    | none => exact (is_sci 12 true 1).congr (hk' rfl).symm
    | some x => exact hk x rfl
  refine ⟨_, by run_model [starc, es, ea]; rfl, by simp; omega, fun i p hi hp => ?_⟩
  rw [List.getElem?_map] at hp
  obtain ⟨⟨x, y⟩, hz, rfl⟩ := Option.map_eq_some_iff.1 hp
  obtain ⟨z1, z2⟩ := List.getElem?_zip_eq_some.1 hz
  have b := (List.getElem?_eq_some_iff.1 z2).1
  have i1 := rs.at z2 (by omega)
  have i2 := ra.at z1 (by omega)
  exact ⟨_, is_add i1 (is_mul hk2 i2), is_sub i1 (is_mul hk2 i2),
    wilder_trueRanges_nonneg (by simpa) (by simpa) hw (by omega) (by simp; omega), rfl⟩

/-- C37: for a multiplier that is not negative starc's bands are in order around the mean of the last `m` closes. -/
theorem starc_ordered (high low close : List XF) (w m : ℕ) (mult : Option XF) (k : ℝ) (hl : low.length = high.length)
    (hc : close.length = high.length) (hw : 1 ≤ w) (hm : 1 ≤ m) (hn : w + 1 ≤ high.length) (hn2 : m ≤ high.length + 1)
    (fh : Fins high) (fl : Fins low) (fc : Fins close) (hk : ∀ x, mult = some x → x ⇓ k) (hk' : mult = none → k = 1.2)
    (h0 : 0 ≤ k) :
    Items high.length (max w (m - 1)) (fun i p => ∃ u d, p.1 ⇓ u ∧ p.2 ⇓ d ∧ d ≤ mean (recent (vals close) m i) ∧
      mean (recent (vals close) m i) ≤ u) (starc high low close w m mult) :=
  (starc_bands high low close w m mult k hl hc hw hm hn hn2 fh fl fc hk hk').mono fun i p _ _ ⟨a, i1, i2, h, _⟩ =>
    ⟨_, _, i1, i2, by have := mul_nonneg h0 h; linarith, by have := mul_nonneg h0 h; linarith⟩

example : Items 4 2 (fun i p => ∃ u d, p.1 ⇓ u ∧ p.2 ⇓ d ∧ d ≤ mean (recent [2, 5, 4, 4] 3 i) ∧ mean (recent [2, 5, 4, 4] 3 i) ≤ u)
    (starc ([3, 5, 4, 6].map (fin : ℝ → XF)) ([1, 2, 4, 3].map fin) ([2, 5, 4, 4].map fin) 2 3 none) := by
  have := starc_ordered ([3, 5, 4, 6].map (fin : ℝ → XF)) ([1, 2, 4, 3].map fin) ([2, 5, 4, 4].map fin) 2 3 none 1.2 rfl rfl
    (by decide) (by decide) (by simp) (by simp) (fins_map_fin _) (fins_map_fin _) (fins_map_fin _) (by simp) (fun _ => rfl) (by norm_num)
  rwa [vals_map_fin] at this

/-- C37: whatever the moving average, where the middle of bbands is a number the bands lie `k` standard deviations of
the window above and below it, `k` being the number of deviations (2 if none is given). -/
theorem bbands_around (data : List XF) (w : ℕ) (devs : Option XF) (mode : Option Smooth.MaMode) (k : ℝ) (hw : 1 ≤ w)
    (hn : w ≤ data.length + 1) (hd : Fins data) (hk : ∀ x, devs = some x → x ⇓ k) (hk' : devs = none → k = 2)
    {out : List (XF × XF × XF)} (e : bbands data w devs mode = some out) {i : ℕ} {u m d : XF} {c : ℝ} (hi : w ≤ i + 1)
    (ho : out[i]? = some (u, m, d)) (hm : m ⇓ c) :
    u ⇓ c + stdDev (recent (vals data) w i) * k ∧ d ⇓ c - stdDev (recent (vals data) w i) * k := by
  obtain ⟨s, es, rs, ls⟩ := (Distribution.std_dev_reports data w hw hn hd).some
  have hk2 : (devs.getD 2 : XF) ⇓ k := by
    cases devs with
    | none => exact (is_lit 2).congr (hk' rfl).symm
    | some x => exact hk x rfl
  obtain ⟨ma, -, e⟩ := Option.bind_eq_some_iff.1 e
  simp only [std_dev, es, Option.bind_some, Option.some.injEq, Option.bind_eq_bind] at e
  subst e
  rw [List.getElem?_map] at ho
  obtain ⟨⟨x, y⟩, hz, ho⟩ := Option.map_eq_some_iff.1 ho
  obtain ⟨z1, z2⟩ := List.getElem?_zip_eq_some.1 hz
  rw [List.getElem?_map] at z2
  obtain ⟨y', z3, rfl⟩ := Option.map_eq_some_iff.1 z2
  cases ho
  have i2 := is_mul (rs.at z3 (show w - 1 ≤ i by omega)) hk2
  exact ⟨is_add hm i2, is_sub hm i2⟩

/-- C37: hence bbands are in order for a number of deviations that is not negative. -/
theorem bbands_ordered (data : List XF) (w : ℕ) (devs : Option XF) (mode : Option Smooth.MaMode) (k : ℝ) (hw : 1 ≤ w)
    (hn : w ≤ data.length + 1) (hd : Fins data) (hk : ∀ x, devs = some x → x ⇓ k) (hk' : devs = none → k = 2) (h0 : 0 ≤ k)
    {out : List (XF × XF × XF)} (e : bbands data w devs mode = some out) {i : ℕ} {u m d : XF} {c : ℝ} (hi : w ≤ i + 1)
    (ho : out[i]? = some (u, m, d)) (hm : m ⇓ c) : ∃ a b, u ⇓ a ∧ d ⇓ b ∧ b ≤ c ∧ c ≤ a := by
  obtain ⟨h1, h2⟩ := bbands_around data w devs mode k hw hn hd hk hk' e hi ho hm
  have := mul_nonneg (Real.sqrt_nonneg (moment 2 (recent (vals data) w i))) h0
  exact ⟨_, _, h1, h2, by simp only [stdDev]; linarith, by simp only [stdDev]; linarith⟩

/-- C37: with the default moving average bbands report, at every bar, numbers around the exponential average. -/
theorem bbands_default (data : List XF) (w : ℕ) (hw : 1 ≤ w) (hn : w ≤ data.length) (hd : Fins data) :
    Items data.length (w - 1) (fun i p => p.2.1 ⇓ ewmaOf w (vals data) i ∧
      p.1 ⇓ ewmaOf w (vals data) i + stdDev (recent (vals data) w i) * 2 ∧
      p.2.2 ⇓ ewmaOf w (vals data) i - stdDev (recent (vals data) w i) * 2) (bbands data w none none) := by
  obtain ⟨m, em, rm, lm⟩ := (ewma_is data w hw (by omega) hd).some
  obtain ⟨s, es, rs, ls⟩ := (Distribution.std_dev_reports data w hw (by omega) hd).some
  have e : bbands data w none none = some ((m.zip (s.map fun x => x * 2)).map fun p => (p.1 + p.2, p.1, p.1 - p.2)) := by
    run_model [bbands, std_dev, es, Smooth.ma, em]
    rfl
  refine ⟨_, e, by simp; omega, fun i p hi hp => ?_⟩
  have hp' := hp
  rw [List.getElem?_map] at hp
  obtain ⟨⟨x, y⟩, hz, rfl⟩ := Option.map_eq_some_iff.1 hp
  obtain ⟨z1, z2⟩ := List.getElem?_zip_eq_some.1 hz
  have i1 := rm.at z1 hi
  exact ⟨i1, bbands_around data w none none 2 hw (by omega) hd (by simp) (fun _ => rfl) e (by omega) hp' i1⟩

example : Items 4 1 (fun i p => p.2.1 ⇓ ewmaOf 2 [3, 5, 4, 6] i ∧ p.1 ⇓ ewmaOf 2 [3, 5, 4, 6] i + stdDev (recent [3, 5, 4, 6] 2 i) * 2 ∧
    p.2.2 ⇓ ewmaOf 2 [3, 5, 4, 6] i - stdDev (recent [3, 5, 4, 6] 2 i) * 2) (bbands ([3, 5, 4, 6].map (fin : ℝ → XF)) 2 none none) := by
  have := bbands_default ([3, 5, 4, 6].map (fin : ℝ → XF)) 2 (by decide) (by simp) (fins_map_fin _)
  rwa [vals_map_fin] at this

/-! ## fbands -/

/-- `argBest` returns the first position at which `g` is largest. -/
theorem argBest_first {g : FP ρ → ℝ} {better : FP ρ → FP ρ → Bool} {l : List (FP ρ)}
    (hb : ∀ x y, x.Finite → y.Finite → better x y = decide (g y < g x)) (fl : Fins l) (hl : l ≠ []) :
    ∃ j m, argBest better l = some j ∧ l[j]? = some m ∧ (∀ (k : ℕ) x, k < j → l[k]? = some x → g x < g m) ∧
      ∀ (k : ℕ) x, l[k]? = some x → g x ≤ g m := by
  have key : ∀ (t pre : List (FP ρ)) (st : ℕ × FP ρ), Fins pre → Fins t → (st.2).Finite → pre[st.1]? = some st.2 →
      (∀ (k : ℕ) x, k < st.1 → pre[k]? = some x → g x < g st.2) → (∀ (k : ℕ) x, pre[k]? = some x → g x ≤ g st.2) →
      ∃ j m, ((List.range' pre.length t.length).zip t).foldl
        (fun (st : ℕ × FP ρ) (p : ℕ × FP ρ) => if better p.2 st.2 then (p.1, p.2) else st) st = (j, m) ∧ (pre ++ t)[j]? = some m ∧
        (∀ (k : ℕ) x, k < j → (pre ++ t)[k]? = some x → g x < g m) ∧ ∀ (k : ℕ) x, (pre ++ t)[k]? = some x → g x ≤ g m := by
    intro t
    induction t with
    | nil =>
      intro pre st _ _ _ h1 h2 h3
      refine ⟨st.1, st.2, rfl, ?_, ?_, ?_⟩ <;> rw [List.append_nil] <;> assumption
    | cons x t ih =>
      intro pre st fp ft fs h1 h2 h3
      have fx : x.Finite := ft x (List.mem_cons_self ..)
      have fp' : Fins (pre ++ [x]) := fun y hy => by
        rcases List.mem_append.1 hy with h | h
        · exact fp y h
        · rw [List.mem_singleton.1 h]; exact fx
      have ft' : Fins t := fun y hy => ft y (List.mem_cons_of_mem _ hy)
      have app : ∀ (k : ℕ) y, (pre ++ [x])[k]? = some y → pre[k]? = some y ∨ (k = pre.length ∧ y = x) := by
        intro k y hk
        rcases Nat.lt_or_ge k pre.length with h | h
        · left; rwa [List.getElem?_append_left h] at hk
        · rw [List.getElem?_append_right h] at hk
          have := (List.getElem?_eq_some_iff.1 hk).1
          simp at this
          have e : k = pre.length := by omega
          subst e
          simp at hk
          exact .inr ⟨rfl, hk.symm⟩
      have := ih (pre ++ [x]) (if better x st.2 then (pre.length, x) else st) fp' ft'
      rw [List.append_assoc, List.singleton_append, List.length_append, List.length_singleton] at this
      rw [List.length_cons, List.range'_succ, List.zip_cons_cons, List.foldl_cons]
      refine this ?_ ?_ ?_ ?_
      · split <;> assumption
      · split
        · simp
        · have := (List.getElem?_eq_some_iff.1 h1).1
          rw [List.getElem?_append_left this]; exact h1
      · intro k y hk hy
        by_cases hc : g st.2 < g x
        · have : better x st.2 = true := by rw [hb _ _ fx fs]; exact decide_eq_true hc
          rw [if_pos this] at hk ⊢
          rcases app k y hy with h | ⟨h, -⟩
          · exact (h3 k y h).trans_lt hc
          · simp at hk; omega
        · have : ¬ better x st.2 = true := by rw [hb _ _ fx fs]; simpa using hc
          rw [if_neg this] at hk ⊢
          have hlt := (List.getElem?_eq_some_iff.1 h1).1
          rcases app k y hy with h | ⟨h, -⟩
          · exact h2 k y hk h
          · omega
      · intro k y hy
        by_cases hc : g st.2 < g x
        · have : better x st.2 = true := by rw [hb _ _ fx fs]; exact decide_eq_true hc
          rw [if_pos this]
          rcases app k y hy with h | ⟨-, rfl⟩
          · exact (h3 k y h).trans hc.le
          · exact le_rfl
        · have : ¬ better x st.2 = true := by rw [hb _ _ fx fs]; simpa using hc
          rw [if_neg this]
          rcases app k y hy with h | ⟨-, rfl⟩
          · exact h3 k y h
          · exact not_lt.1 hc
  obtain ⟨x, t, rfl⟩ := List.exists_cons_of_ne_nil hl
  have fx : x.Finite := fl x (List.mem_cons_self ..)
  have one : ∀ (k : ℕ) y, [x][k]? = some y → y = x := fun k y h => by
    have := List.mem_of_getElem? h
    simpa using this
  obtain ⟨j, m, e, h1, h2, h3⟩ := key t [x] (0, x) (fun y hy => by rw [List.mem_singleton.1 hy]; exact fx)
    (fun y hy => fl y (List.mem_cons_of_mem _ hy)) fx rfl (fun k y h => by simp at h) (fun k y h => by rw [one k y h])
  refine ⟨j, m, ?_, h1, h2, h3⟩
  have hn : ¬ better x x = true := by rw [hb _ _ fx fx]; simp
  simp only [argBest, List.getElem?_cons_zero, Option.bind_eq_bind, Option.bind_some, List.range_eq_range', List.length_cons,
    List.range'_succ, List.zip_cons_cons, List.foldl_cons, if_neg hn]
  rw [List.length_singleton] at e
  rw [e]

theorem argBest_two {g : FP ρ → ℝ} {better : FP ρ → FP ρ → Bool} {a b c d e : FP ρ}
    (hb : ∀ x y, x.Finite → y.Finite → better x y = decide (g y < g x)) (fl : Fins [a, b, c, d, e]) :
    ∃ j, argBest better [a, b, c, d, e] = some j ∧ (j = 2 ↔ g a < g c ∧ g b < g c ∧ g d ≤ g c ∧ g e ≤ g c) := by
  obtain ⟨j, m, e1, h1, h2, h3⟩ := argBest_first hb fl (by simp)
  refine ⟨j, e1, fun h => ?_, fun ⟨q1, q2, q3, q4⟩ => ?_⟩
  · subst h
    cases h1
    exact ⟨h2 0 a (by omega) rfl, h2 1 b (by omega) rfl, h3 3 d rfl, h3 4 e rfl⟩
  · rcases Nat.lt_trichotomy j 2 with h | h | h
    · have := h3 2 c rfl
      have hj : j = 0 ∨ j = 1 := by omega
      rcases hj with rfl | rfl <;> cases h1 <;> linarith
    · exact h
    · have := h2 2 c h rfl
      have hj := (List.getElem?_eq_some_iff.1 h1).1
      have hj : j = 3 ∨ j = 4 := by simp at hj; omega
      rcases hj with rfl | rfl <;> cases h1 <;> linarith

theorem argBest_peak {l : List (FP ρ)} (fl : Fins l) {j : ℕ} (hj : j + 4 < l.length) :
    ∃ k, argBest (fun x y => x >. y) ((l.drop j).take 5) = some k ∧ (k = 2 ↔ IsPeak (vals l) (j + 2)) := by
  have hb : ∀ x y : FP ρ, x.Finite → y.Finite → (x >. y) = decide (val y < val x) := fun x y hx hy => is_lt hy.is hx.is
  obtain ⟨a, b, c, d, e, h⟩ := take_drop_five hj
  have f5 : Fins [a, b, c, d, e] := h.1 ▸ (fl.drop j).take 5
  obtain ⟨k, e1, h1⟩ := argBest_two (g := val) hb f5
  refine ⟨k, by rw [h.1]; exact e1, h1.trans ?_⟩
  obtain ⟨-, q1, q2, q3, q4, q5⟩ := h
  constructor
  · rintro ⟨p1, p2, p3, p4⟩
    refine ⟨by omega, val a, val b, val c, val d, val e, ?_, ?_, ?_, ?_, ?_, p1, p2, p3, p4⟩ <;> rw [vals_getElem?]
    · rw [show j + 2 - 2 = j by omega, q1]; rfl
    · rw [show j + 2 - 1 = j + 1 by omega, q2]; rfl
    · rw [q3]; rfl
    · rw [show j + 2 + 1 = j + 3 by omega, q4]; rfl
    · rw [show j + 2 + 2 = j + 4 by omega, q5]; rfl
  · rintro ⟨-, a', b', c', d', e', r1, r2, r3, r4, r5, p⟩
    rw [vals_getElem?] at r1 r2 r3 r4 r5
    rw [show j + 2 - 2 = j by omega, q1] at r1
    rw [show j + 2 - 1 = j + 1 by omega, q2] at r2
    rw [q3] at r3
    rw [show j + 2 + 1 = j + 3 by omega, q4] at r4
    rw [show j + 2 + 2 = j + 4 by omega, q5] at r5
    cases r1; cases r2; cases r3; cases r4; cases r5
    exact p

theorem argBest_trough {l : List (FP ρ)} (fl : Fins l) {j : ℕ} (hj : j + 4 < l.length) :
    ∃ k, argBest (fun x y => x <. y) ((l.drop j).take 5) = some k ∧ (k = 2 ↔ IsTrough (vals l) (j + 2)) := by
  have hb : ∀ x y : FP ρ, x.Finite → y.Finite → (x <. y) = decide (-val y < -val x) :=
    fun x y hx hy => by rw [is_lt hx.is hy.is]; simp only [neg_lt_neg_iff]
  obtain ⟨a, b, c, d, e, h⟩ := take_drop_five hj
  have f5 : Fins [a, b, c, d, e] := h.1 ▸ (fl.drop j).take 5
  obtain ⟨k, e1, h1⟩ := argBest_two (g := fun x => -val x) hb f5
  simp only [neg_lt_neg_iff, neg_le_neg_iff] at h1
  refine ⟨k, by rw [h.1]; exact e1, h1.trans ?_⟩
  obtain ⟨-, q1, q2, q3, q4, q5⟩ := h
  constructor
  · rintro ⟨p1, p2, p3, p4⟩
    refine ⟨by omega, val a, val b, val c, val d, val e, ?_, ?_, ?_, ?_, ?_, p1, p2, p3, p4⟩ <;> rw [vals_getElem?]
    · rw [show j + 2 - 2 = j by omega, q1]; rfl
    · rw [show j + 2 - 1 = j + 1 by omega, q2]; rfl
    · rw [q3]; rfl
    · rw [show j + 2 + 1 = j + 3 by omega, q4]; rfl
    · rw [show j + 2 + 2 = j + 4 by omega, q5]; rfl
  · rintro ⟨-, a', b', c', d', e', r1, r2, r3, r4, r5, p⟩
    rw [vals_getElem?] at r1 r2 r3 r4 r5
    rw [show j + 2 - 2 = j by omega, q1] at r1
    rw [show j + 2 - 1 = j + 1 by omega, q2] at r2
    rw [q3] at r3
    rw [show j + 2 + 1 = j + 3 by omega, q4] at r4
    rw [show j + 2 + 2 = j + 4 by omega, q5] at r5
    cases r1; cases r2; cases r3; cases r4; cases r5
    exact p

/-- C37, in every rounding: at bar `i` fbands reports the high of the latest peak and the low of the latest trough among the
bars up to `i - 2`, and 0 for a band that has had none. -/
theorem fbands_latest (high low : List (FP ρ)) (hl : low.length = high.length) (hn : 4 ≤ high.length) (fh : Fins high)
    (fl : Fins low) :
    Items high.length 4 (fun i p => ∃ u d, p.1 ⇓ u ∧ p.2 ⇓ d ∧ LatestAt (IsPeak (vals high)) (vals high) (i - 2) u ∧
      LatestAt (IsTrough (vals low)) (vals low) (i - 2) d) (fbands high low) := by
  obtain ⟨o, e, lo, -⟩ := fbands_aligned high low hl hn
  refine ⟨o, e, lo, fun i p hi hp => ?_⟩
  obtain ⟨r, er, e⟩ := Option.bind_eq_some_iff.1 e
  cases e
  rw [List.getElem?_append_right (by simpa using hi), List.length_replicate] at hp
  have key := scanM_idx (I := fun j (s : FP ρ × FP ρ) => ∃ u d, s.1 ⇓ u ∧ s.2 ⇓ d ∧
      LatestAt (IsPeak (vals high)) (vals high) (j + 1) u ∧ LatestAt (IsTrough (vals low)) (vals low) (j + 1) d)
    (P := fun j (s : FP ρ × FP ρ) => ∃ u d, s.1 ⇓ u ∧ s.2 ⇓ d ∧
      LatestAt (IsPeak (vals high)) (vals high) (j + 2) u ∧ LatestAt (IsTrough (vals low)) (vals low) (j + 2) d) ?_ ?_ er _ _ hp
  · rw [show i - 4 + 2 = i - 2 by omega] at key
    exact key
  · rintro j ⟨su, sd⟩ ⟨h, l⟩ ⟨su', sd'⟩ y hx ⟨u, d, iu, id, hu, hd⟩ ef
    obtain ⟨x1, x2⟩ := List.getElem?_zip_eq_some.1 hx
    have b1 := (List.getElem?_eq_some_iff.1 x1).1
    rw [windowsOf_length] at b1
    rw [windowsOf_getElem? (by omega)] at x1 x2
    cases x1; cases x2
    obtain ⟨k1, q1, t1⟩ := argBest_peak fh (j := j) (by omega)
    obtain ⟨k2, q2, t2⟩ := argBest_trough fl (j := j) (by omega)
    obtain ⟨c1, r1⟩ : ∃ c, high[j + 2]? = some c := ⟨_, List.getElem?_eq_getElem (by omega)⟩
    obtain ⟨c2, r2⟩ : ∃ c, low[j + 2]? = some c := ⟨_, List.getElem?_eq_getElem (by omega)⟩
    have g1 : ((high.drop j).take 5)[2]? = some c1 := by simpa using r1
    have g2 : ((low.drop j).take 5)[2]? = some c2 := by simpa using r2
    simp only [q1, q2, g1, g2, Option.bind_eq_bind, Option.bind_some, Option.some.injEq] at ef
    have v1 : (vals high)[j + 2]? = some c1.val := by rw [vals_getElem?, r1]; rfl
    have v2 : (vals low)[j + 2]? = some c2.val := by rw [vals_getElem?, r2]; rfl
    have e1 : ∃ u', (if k1 = 2 then c1 else su) ⇓ u' ∧ LatestAt (IsPeak (vals high)) (vals high) (j + 2) u' := by
      split
      · rename_i h; exact ⟨_, (fh.isAt r1), .step_yes (t1.1 h) v1⟩
      · rename_i h; exact ⟨u, iu, .step_no (fun hc => h (t1.2 hc)) hu⟩
    have e2 : ∃ u', (if k2 = 2 then c2 else sd) ⇓ u' ∧ LatestAt (IsTrough (vals low)) (vals low) (j + 2) u' := by
      split
      · rename_i h; exact ⟨_, (fl.isAt r2), .step_yes (t2.1 h) v2⟩
      · rename_i h; exact ⟨d, id, .step_no (fun hc => h (t2.2 hc)) hd⟩
    obtain ⟨u', iu', hu'⟩ := e1
    obtain ⟨d', id', hd'⟩ := e2
    cases ef
    exact ⟨⟨u', d', iu', id', hu', hd'⟩, u', d', iu', id', hu', hd'⟩
  · exact ⟨0, 0, isZero, isZero, .inr ⟨fun k hk h => by have := h.1; omega, rfl⟩, .inr ⟨fun k hk h => by have := h.1; omega, rfl⟩⟩

/-- C37: fbands need not be in order. The high of bar 2 is the latest peak and the low of bar 7 the latest trough. -/
theorem fbands_crossed (ρ : Rounding) : ∃ high low : List (FP ρ), Fins high ∧ Fins low ∧
    (∀ (j : ℕ) (h l : ℝ), (vals high)[j]? = some h → (vals low)[j]? = some l → l ≤ h) ∧
    ∃ out u d, fbands high low = some out ∧ out[9]? = some (u, d) ∧ u ⇓ 3 ∧ d ⇓ 6 := by
  let hs : List ℝ := [1, 2, 3, 2, 1, 20, 21, 22, 23, 24]
  let ls : List ℝ := [0, 0, 0, 0, 0, 9, 8, 6, 8, 9]
  refine ⟨hs.map fin, ls.map fin, fins_map_fin _, fins_map_fin _, ?_, ?_⟩
  · intro j h l e1 e2
    simp only [vals_map_fin, hs, ls] at e1 e2
    rcases j with _ | _ | _ | _ | _ | _ | _ | _ | _ | _ | j <;> simp at e1 e2 <;> subst e1 <;> subst e2 <;> norm_num
  · obtain ⟨out, e, lo, h⟩ := fbands_latest (ρ := ρ) (hs.map fin) (ls.map fin) rfl (by simp [hs]) (fins_map_fin _) (fins_map_fin _)
    obtain ⟨⟨u, d⟩, ho⟩ : ∃ p, out[9]? = some p := ⟨_, List.getElem?_eq_getElem (by rw [lo]; simp [hs])⟩
    obtain ⟨a, b, ia, ib, ha, hb⟩ := h 9 _ (by omega) ho
    simp only [vals_map_fin] at ha hb
    refine ⟨out, u, d, e, ho, ia.congr ?_, ib.congr ?_⟩
    · have pk : IsPeak hs 2 := ⟨le_rfl, 1, 2, 3, 2, 1, rfl, rfl, rfl, rfl, rfl, by norm_num, by norm_num, by norm_num, by norm_num⟩
      rcases ha with ⟨j, h1, h2, h3, h4⟩ | ⟨h1, -⟩
      · have : ∀ k, 2 < k → k ≤ 7 → ¬ IsPeak hs k := by
          rintro k k1 k2 ⟨-, a, b, c, d, e, q1, q2, q3, q4, q5, p1, p2, p3, p4⟩
          have : k = 3 ∨ k = 4 ∨ k = 5 ∨ k = 6 ∨ k = 7 := by omega
          rcases this with rfl | rfl | rfl | rfl | rfl <;> simp [hs] at q1 q2 q3 q4 q5 <;> linarith
        have hj : j = 2 := by
          rcases Nat.lt_trichotomy j 2 with h | h | h
          · exact absurd pk (h3 2 h (by omega))
          · exact h
          · exact absurd h2 (this j h (by omega))
        subst hj
        simpa [hs] using h4.symm
      · exact absurd pk (h1 2 (by omega))
    · have pk : IsTrough ls 7 := ⟨by omega, 9, 8, 6, 8, 9, rfl, rfl, rfl, rfl, rfl, by norm_num, by norm_num, by norm_num, by norm_num⟩
      rcases hb with ⟨j, h1, h2, h3, h4⟩ | ⟨h1, -⟩
      · have hj : j = 7 := by
          rcases Nat.lt_trichotomy j 7 with h | h | h
          · exact absurd pk (h3 7 h (by omega))
          · exact h
          · omega
        subst hj
        simpa [ls] using h4.symm
      · exact absurd pk (h1 7 (by omega))

end Traquer.Volatility
