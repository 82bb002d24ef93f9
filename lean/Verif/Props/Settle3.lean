import Verif.Props.Settle2
import Verif.Props.Bands
/-!
# C104, continued: mama, and the indicators of whole bars
-/

namespace Traquer
open FP FloatLit Filter Topology

variable {s h l x : ℕ → ℝ} {c : ℝ} {w : ℕ}

/-! ## mama -/

/-- A bound on the distance from the limit that follows the recursion. -/
noncomputable def trailing (k : ℕ) (q a : ℝ) (b : ℕ → ℝ) : ℕ → ℝ
  | 0 => a
  | i + 1 => if i < k then a else (1 - q) * trailing k q a b i + b (i + 1)

theorem trailing_nonneg {k : ℕ} {q a : ℝ} {b : ℕ → ℝ} (ha : 0 ≤ a) (hq : q ≤ 1) (hb : ∀ i, 0 ≤ b i) : ∀ i, 0 ≤ trailing k q a b i := fun i => by
  induction i with
  | zero => exact ha
  | succ i ih =>
    rw [trailing]
    split
    · exact ha
    · have := hb (i + 1)
      have : 0 ≤ 1 - q := by linarith
      positivity

theorem tendsto_trailing {k : ℕ} {q a : ℝ} {b : ℕ → ℝ} (ha : 0 ≤ a) (q0 : 0 < q) (hq : q ≤ 1) (hb : ∀ i, 0 ≤ b i) (lim : Tendsto b atTop (𝓝 0)) :
    Tendsto (trailing k q a b) atTop (𝓝 0) :=
  tendsto_contract (k := k) (trailing_nonneg ha hq hb) (by linarith) (by linarith : 1 - q < 1) lim fun i hi => by rw [trailing, if_neg (by omega)]

theorem trailing_start {k : ℕ} {q a : ℝ} {b : ℕ → ℝ} : trailing k q a b k = a := by
  cases k with
  | zero => rfl
  | succ k => rw [trailing, if_pos (by omega)]

/-- A recursion that starts at 0 and moves at least `q` of the way to values within `b` of the limit. -/
theorem within_trailing {k n : ℕ} {q : ℝ} {b y g v : ℕ → ℝ} (hy : y k = 0) (hg : ∀ i, k < i → i < n → q ≤ g i ∧ g i ≤ 1) (q0 : 0 ≤ q)
    (h : ∀ i, k < i → i < n → y i = g i * v i + (1 - g i) * y (i - 1)) (hv : ∀ i, k < i → i < n → |v i - c| ≤ b i) :
    ∀ i, k ≤ i → i < n → |y i - c| ≤ trailing k q |c| b i := by
  intro i hi
  induction i, hi using Nat.le_induction with
  | base => intro _; rw [hy, trailing_start, zero_sub, abs_neg]
  | succ i hi ih =>
    intro h2
    obtain ⟨g1, g2⟩ := hg (i + 1) (by omega) h2
    have hb := hv (i + 1) (by omega) h2
    have e : y (i + 1) - c = (1 - g (i + 1)) * (y i - c) + g (i + 1) * (v (i + 1) - c) := by
      rw [h (i + 1) (by omega) h2, Nat.add_sub_cancel]; ring
    have := ih (by omega)
    rw [e, trailing, if_neg (by omega)]
    refine (abs_add_le _ _).trans ?_
    rw [abs_mul, abs_mul, abs_of_nonneg (by linarith : 0 ≤ 1 - g (i + 1)), abs_of_nonneg (by linarith : 0 ≤ g (i + 1))]
    nlinarith [abs_nonneg (y i - c), abs_nonneg (v (i + 1) - c)]

theorem settles_within {r : ℕ → Option (List XF)} {b : ℕ → ℝ} {T : ℝ} (lim : Tendsto b atTop (𝓝 0))
    (hr : ∀ᶠ n in atTop, ∃ k V, k ≤ n ∧ Reports (n + 1) k V (r (n + 1)) ∧ |V n - T| ≤ b n) : Settles r T := by
  obtain ⟨N, hN⟩ := eventually_atTop.1 hr
  choose! k V h1 h2 h3 using hN
  refine settles_reports (V := V) (u := fun n => V n n) ?_ (eventually_atTop.2 ⟨N, fun n hn => ⟨k n, h1 n hn, h2 n hn, rfl⟩⟩)
  rw [tendsto_iff_dist_tendsto_zero]
  refine squeeze_zero' (Eventually.of_forall fun _ => dist_nonneg) (eventually_atTop.2 ⟨N, fun n hn => ?_⟩) lim
  rw [Real.dist_eq]
  exact h3 n hn

namespace Smooth

/-- C104: both lines of `mama` settle on the price, for gains between 0 and 1. -/
theorem mama_settles (fast slow : Option XF) {f g : ℝ} (hf : fast.getD 0.5 ⇓ f) (hg : slow.getD 0.05 ⇓ g) (f0 : 0 ≤ f) (f1 : f ≤ 1) (g0 : 0 < g)
    (g1 : g ≤ 1) (hs : Tendsto s atTop (𝓝 c)) : Settles (fun n => (mama (upTo s n) fast slow).map (·.map fun p => p.1)) c ∧
      Settles (fun n => (mama (upTo s n) fast slow).map (·.map fun p => p.2)) c := by
  have lb : Tendsto (fun i => |s i - c|) atTop (𝓝 0) := by simpa using (hs.sub_const c).abs
  have la := tendsto_trailing (k := 5) (abs_nonneg c) g0 g1 (fun i => abs_nonneg (s i - c)) lb
  have na := trailing_nonneg (k := 5) (abs_nonneg c) g1 (fun i => abs_nonneg (s i - c))
  have lf := tendsto_trailing (k := 5) (q := 0.5 * g) (abs_nonneg c) (by linarith) (by linarith) na la
  have key : ∀ n, 6 ≤ n → ∃ (out : List (XF × XF)) (m : Mesa), mama (upTo s (n + 1)) fast slow = some out ∧
      Reports (n + 1) 6 m.mama (some (out.map fun x => x.1)) ∧ Reports (n + 1) 6 m.fama (some (out.map fun x => x.2)) ∧
      |m.mama n - c| ≤ trailing 5 g |c| (fun i => |s i - c|) n ∧
      |m.fama n - c| ≤ trailing 5 (0.5 * g) |c| (trailing 5 g |c| (fun i => |s i - c|)) n := fun n hn => by
    obtain ⟨out, m, e, sol, r1, r2⟩ := mama_reports (upTo s (n + 1)) fast slow f g (by simp; omega) (upTo_fins _ _) hf hg
    rw [upTo_length] at sol r1 r2
    have gain : ∀ i, 5 < i → i < n + 1 → g ≤ m.gain i ∧ m.gain i ≤ 1 := fun i h1 h2 => by
      rw [sol.gain_at i (by omega) h2]
      refine ⟨le_max_right _ _, max_le ?_ g1⟩
      have : (1 : ℝ) ≤ max (m.phase (i - 1) - m.phase i) 1 := le_max_right _ _
      exact (div_le_self f0 this).trans f1
    have ham := within_trailing (c := c) (k := 5) (n := n + 1) (b := fun i => |s i - c|) (v := s) (sol.start 5 (by norm_num)).2.2.2.2.2.2.2.2.2.1 gain g0.le
      (fun i h1 h2 => by rw [sol.mama_at i (by omega) h2, bar_upTo h2]) (fun i _ _ => le_rfl)
    refine ⟨out, m, e, r1, r2, ham n (by omega) (by omega), ?_⟩
    exact within_trailing (c := c) (k := 5) (n := n + 1) (v := m.mama) (g := fun i => 0.5 * m.gain i) (sol.start 5 (by norm_num)).2.2.2.2.2.2.2.2.2.2
      (fun i h1 h2 => by have := gain i h1 h2; constructor <;> linarith) (by linarith)
      (fun i h1 h2 => by rw [sol.fama_at i (by omega) h2]) (fun i h1 h2 => ham i (by omega) h2) n (by omega) (by omega)
  constructor
  · refine settles_within la (eventually_atTop.2 ⟨6, fun n hn => ?_⟩)
    obtain ⟨out, m, e, r1, -, b1, -⟩ := key n hn
    exact ⟨6, m.mama, hn, by rw [e]; exact r1, b1⟩
  · refine settles_within lf (eventually_atTop.2 ⟨6, fun n hn => ?_⟩)
    obtain ⟨out, m, e, -, r2, -, b2⟩ := key n hn
    exact ⟨6, m.fama, hn, by rw [e]; exact r2, b2⟩

end Smooth

/-! ## Bars -/

theorem settles_items {α : Type} {r : ℕ → Option (List α)} {g : α → XF} {T : ℝ} {u : ℕ → ℝ} (lim : Tendsto u atTop (𝓝 T))
    (h : ∀ᶠ n in atTop, ∃ k P, k ≤ n ∧ Items (n + 1) k P (r (n + 1)) ∧ ∀ y, P n y → g y ⇓ u n) : Settles (fun n => (r n).map (·.map g)) T :=
  settles_intro lim (h.mono fun n ⟨k, P, hk, ⟨out, e, lo, hv⟩, hu⟩ => by
    have hn : n < out.length := by omega
    exact ⟨out.map g, g out[n], by rw [e]; rfl, by simp [lo], by simp [hn], hu _ (hv n _ hk (List.getElem?_eq_getElem hn))⟩)

namespace Volatility
variable (hh : Tendsto h atTop (𝓝 c)) (hl : Tendsto l atTop (𝓝 c)) (hx : Tendsto x atTop (𝓝 c))

theorem trAt_upTo {n i : ℕ} (hi : i < n) : trAt (vals (upTo h n)) (vals (upTo l n)) (vals (upTo x n)) i = trueRangeOf (h i) (l i) (x (i - 1)) := by
  rw [trAt, bar_upTo hi, bar_upTo hi, bar_upTo (by omega)]

include hh hl hx in
theorem tendsto_trueRange : Tendsto (fun i => trueRangeOf (h i) (l i) (x (i - 1))) atTop (𝓝 0) := by
  have hp := hx.comp (tendsto_sub_atTop_nat 1)
  have := (hh.sub hl).max ((hh.sub hp).abs.max (hl.sub hp).abs)
  simpa [trueRangeOf] using this

include hh hl hx in
/-- C104 -/
theorem tr_settles : Settles (fun n => tr (upTo h n) (upTo l n) (upTo x n)) 0 := by
  refine settles_reports (tendsto_trueRange hh hl hx) (eventually_atTop.2 ⟨1, fun n hn => ⟨1, hn, ?_, trAt_upTo (n := n + 1) (by omega)⟩⟩)
  obtain ⟨t, et, -, rt⟩ := trueRange_values (high := upTo h (n + 1)) (low := upTo l (n + 1)) (close := upTo x (n + 1)) (by simp) (by simp) (by simp)
    (upTo_fins _ _) (upTo_fins _ _) (upTo_fins _ _)
  rw [upTo_length] at rt
  run_model [tr, et]
  exact rt

theorem atr_upTo {n i : ℕ} (hw : 1 ≤ w) (h1 : w ≤ i) (hi : i < n) : wilderFrom 1 w (trAt (vals (upTo h n)) (vals (upTo l n)) (vals (upTo x n))) i =
    wilderFrom 1 w (fun i => trueRangeOf (h i) (l i) (x (i - 1))) i := by
  have := wilderFrom_near (k := 1) (n := n) (e := 0) hw (v := trAt (vals (upTo h n)) (vals (upTo l n)) (vals (upTo x n)))
    (v' := fun i => trueRangeOf (h i) (l i) (x (i - 1))) (fun i a b => by rw [trAt_upTo b]; simp) i (by omega) hi
  exact sub_eq_zero.1 (abs_eq_zero.1 (le_antisymm this (abs_nonneg _)))

include hh hl hx in
/-- C104 -/
theorem atr_settles (hw : 1 ≤ w) : Settles (fun n => atr (upTo h n) (upTo l n) (upTo x n) w) 0 := by
  refine settles_reports (tendsto_wilderFrom (k := 1) hw (tendsto_trueRange hh hl hx)) (eventually_atTop.2 ⟨w, fun n hn => ⟨w, hn, ?_, atr_upTo (n := n + 1) hw hn (by omega)⟩⟩)
  have := atr_values (high := upTo h (n + 1)) (low := upTo l (n + 1)) (close := upTo x (n + 1)) (w := w) (by simp) (by simp) hw (by simp; omega)
    (upTo_fins _ _) (upTo_fins _ _) (upTo_fins _ _)
  rwa [upTo_length] at this

include hh hl hx in
/-- C104 -/
theorem typical_settles (hw : 1 ≤ w) : Settles (fun n => typical (upTo h n) (upTo l n) (upTo x n) w) c := by
  have lim := tendsto_mean hw (((hh.add hl).add hx).div_const 3)
  rw [show (c + c + c) / 3 = c by ring] at lim
  refine settles_reports lim (eventually_atTop.2 ⟨w, fun n hn => ⟨w - 1, by omega, ?_, ?_⟩⟩)
    (V := fun n i => mean (lastOf (fun j => (bar (vals (upTo h (n + 1))) j + bar (vals (upTo l (n + 1))) j + bar (vals (upTo x (n + 1))) j) / 3) w i))
  · have := typical_reports (upTo h (n + 1)) (upTo l (n + 1)) (upTo x (n + 1)) w hw (by simp; omega) (by simp) (by simp)
      (upTo_fins _ _) (upTo_fins _ _) (upTo_fins _ _)
    rwa [upTo_length] at this
  · congr 1
    refine lastOf_congr fun j hj => ?_
    rw [bar_upTo (by omega), bar_upTo (by omega), bar_upTo (by omega)]

include hh hl hx in
/-- C104 -/
theorem wcp_settles : Settles (fun n => some (wcp (upTo h n) (upTo l n) (upTo x n))) c := by
  have lim := ((hh.add hl).add (hx.const_mul 2)).div_const 4
  rw [show (c + c + 2 * c) / 4 = c by ring] at lim
  refine settles_reports lim (eventually_atTop.2 ⟨0, fun n hn => ⟨0, by omega, ?_, ?_⟩⟩)
    (V := fun n i => (bar (vals (upTo h (n + 1))) i + bar (vals (upTo l (n + 1))) i + 2 * bar (vals (upTo x (n + 1))) i) / 4)
  · have := wcp_reports (upTo h (n + 1)) (upTo l (n + 1)) (upTo x (n + 1)) (by simp) (by simp) (upTo_fins _ _) (upTo_fins _ _) (upTo_fins _ _)
    rwa [upTo_length] at this
  · rw [bar_upTo (by omega), bar_upTo (by omega), bar_upTo (by omega)]

include hh hl in
/-- C104: the channel closes on the price. -/
theorem donchian_settles (hw : 1 ≤ w) : Settles (fun n => (donchian (upTo h n) (upTo l n) w).map (·.map fun p => p.1)) c ∧
    Settles (fun n => (donchian (upTo h n) (upTo l n) w).map (·.map fun p => p.2.1)) c ∧
    Settles (fun n => (donchian (upTo h n) (upTo l n) w).map (·.map fun p => p.2.2)) c := by
  have key := fun n (hn : w ≤ n) => donchian_contains (upTo h (n + 1)) (upTo l (n + 1)) w (by simp) hw (by simp; omega) (upTo_fins _ _) (upTo_fins _ _)
  simp only [upTo_length] at key
  have ne : ∀ (v : ℕ → ℝ) i, lastOf v w i ≠ [] := fun v i => by rw [← List.length_pos_iff]; simp [lastOf]; omega
  have l1 : Tendsto (fun i => maxOf (lastOf h w i)) atTop (𝓝 c) := tendsto_mem (Eventually.of_forall fun i => maxOf_mem (ne h i)) hh
  have l2 : Tendsto (fun i => minOf (lastOf l w i)) atTop (𝓝 c) := tendsto_mem (Eventually.of_forall fun i => minOf_mem (ne l i)) hl
  have l3 := (l1.add l2).div_const 2
  rw [show (c + c) / 2 = c by ring] at l3
  refine ⟨settles_items l1 ?_, settles_items l3 ?_, settles_items l2 ?_⟩ <;>
  · refine eventually_atTop.2 ⟨w, fun n hn => ⟨w - 1, _, by omega, key n hn, ?_⟩⟩
    rintro y ⟨u, m, d, i1, i2, i3, b1, m1, b2, m2, rfl⟩
    rw [recent_upTo (by omega) (by omega)] at b1 m1 b2 m2
    have e1 := maxOf_eq m1 b1
    have e2 := minOf_eq m2 b2
    subst e1 e2
    assumption

theorem ewmaOf_upTo {n : ℕ} (hw : 1 ≤ w) (hn : w ≤ n) : ewmaOf w (vals (upTo x (n + 1))) n = ewmaFrom 0 w x n := by
  have := ewmaOf_eq (k := 0) (l := vals (upTo x (n + 1))) (v := bar (vals (upTo x (n + 1)))) (n := n + 1) hw
    (fun j hj => by simp [bar, hj]) (by omega) n (by omega) (by omega)
  rw [Nat.zero_add] at this
  rw [this]
  exact (Lip.ewma hw).sees (by omega) fun j hj => bar_upTo (by omega)

include hx in
/-- C104: Bollinger's bands close on the price. -/
theorem bbands_settles (hw : 1 ≤ w) : Settles (fun n => (bbands (upTo x n) w none none).map (·.map fun p => p.1)) c ∧
    Settles (fun n => (bbands (upTo x n) w none none).map (·.map fun p => p.2.1)) c ∧
    Settles (fun n => (bbands (upTo x n) w none none).map (·.map fun p => p.2.2)) c := by
  have key := fun n (hn : w ≤ n) => bbands_default (upTo x (n + 1)) w hw (by simp; omega) (upTo_fins _ _)
  simp only [upTo_length] at key
  have l1 := tendsto_ewmaFrom (k := 0) hw hx
  have l2 : Tendsto (fun i => stdDev (lastOf x w i)) atTop (𝓝 0) :=
    tendsto_const_window (L := 1) (fun e l m e0 hl h => by rw [one_mul]; exact stdDev_stable h (by rintro rfl; simp at hl; omega) e0)
      (stdDev_eq_zero.2 (replicate_flat w c)) hx
  have l3 := l1.add (l2.mul_const 2)
  have l4 := l1.sub (l2.mul_const 2)
  rw [zero_mul, add_zero] at l3
  rw [zero_mul, sub_zero] at l4
  refine ⟨settles_items l3 ?_, settles_items l1 ?_, settles_items l4 ?_⟩ <;>
  · refine eventually_atTop.2 ⟨w, fun n hn => ⟨w - 1, _, by omega, key n hn, ?_⟩⟩
    rintro y ⟨i1, i2, i3⟩
    rw [ewmaOf_upTo hw hn] at i1 i2 i3
    rw [recent_upTo (by omega) (by omega)] at i2 i3
    assumption

include hh hl hx in
/-- C104: Keltner's channel closes on the price. -/
theorem keltner_settles (hw : 1 ≤ w) : Settles (fun n => (keltner (upTo h n) (upTo l n) (upTo x n) w).map (·.map fun p => p.1)) c ∧
    Settles (fun n => (keltner (upTo h n) (upTo l n) (upTo x n) w).map (·.map fun p => p.2.1)) c ∧
    Settles (fun n => (keltner (upTo h n) (upTo l n) (upTo x n) w).map (·.map fun p => p.2.2)) c := by
  have key := fun n (hn : w ≤ n) => keltner_bands (upTo h (n + 1)) (upTo l (n + 1)) (upTo x (n + 1)) w (by simp) (by simp) hw (by simp; omega)
    (upTo_fins _ _) (upTo_fins _ _) (upTo_fins _ _)
  have ea : ∀ n, w ≤ n → wilderOf w (trueRanges (vals (upTo h (n + 1))) (vals (upTo l (n + 1))) (vals (upTo x (n + 1)))) (n - 1) =
      wilderFrom 1 w (fun i => trueRangeOf (h i) (l i) (x (i - 1))) n := fun n hn => by
    have s1 := (atr_reports (upTo h (n + 1)) (upTo l (n + 1)) (upTo x (n + 1)) w (by simp) (by simp) hw (by simp; omega)
      (upTo_fins _ _) (upTo_fins _ _) (upTo_fins _ _)).shows (i := n) hn (by simp)
    have s2 := (atr_values (high := upTo h (n + 1)) (low := upTo l (n + 1)) (close := upTo x (n + 1)) (w := w) (by simp) (by simp) hw (by simp; omega)
      (upTo_fins _ _) (upTo_fins _ _) (upTo_fins _ _)).shows (i := n) hn (by simp)
    rw [s1.unique s2, atr_upTo hw hn (by omega)]
  simp only [upTo_length] at key
  have l1 := tendsto_ewmaFrom (k := 0) hw hx
  have l2 := (tendsto_wilderFrom (k := 1) hw (tendsto_trueRange hh hl hx)).const_mul 2
  rw [mul_zero] at l2
  have l3 := l1.add l2
  have l4 := l1.sub l2
  rw [add_zero] at l3
  rw [sub_zero] at l4
  refine ⟨settles_items l1 ?_, settles_items l3 ?_, settles_items l4 ?_⟩ <;>
  · refine eventually_atTop.2 ⟨w, fun n hn => ⟨w, _, by omega, key n hn, ?_⟩⟩
    rintro y ⟨m, a, i1, i2, i3, -, e1, e2⟩
    rw [ewmaOf_upTo hw hn] at e1
    rw [ea n hn] at e2
    subst e1 e2
    assumption

end Volatility

namespace Trend

/-- C104 -/
theorem dpo_settles (hw : 3 ≤ w) (hs : Tendsto s atTop (𝓝 c)) : Settles (fun n => dpo (upTo s n) w none) 0 := by
  have lim := (hs.comp (tendsto_sub_atTop_nat (w / 2 + 1))).sub (tendsto_mean (w := w) (by omega) hs)
  rw [sub_self] at lim
  refine settles_reports lim (eventually_atTop.2 ⟨w, fun n hn => ⟨w - 1, by omega, ?_, ?_⟩⟩)
    (V := fun n i => bar (vals (upTo s (n + 1))) (i - (w / 2 + 1)) - mean (recent (vals (upTo s (n + 1))) w i))
  · have := dpo_reports (upTo s (n + 1)) w none hw (by simp; omega) (upTo_fins _ _)
      (Smooth.sma_reports (upTo s (n + 1)) w (by omega) (by simp; omega) (upTo_fins _ _))
    rwa [upTo_length] at this
  · rw [recent_upTo (by omega) (by omega), bar_upTo (by omega)]
    rfl

/-- C104: drawdowns vanish, for positive prices. -/
theorem ulcer_settles (hw : 1 ≤ w) (h0 : ∀ i, 0 < s i) (hc : c ≠ 0) (hs : Tendsto s atTop (𝓝 c)) : Settles (fun n => ulcer (upTo s n) w) 0 := by
  have ne : ∀ i, lastOf s w i ≠ [] := fun i => by rw [← List.length_pos_iff]; simp [lastOf]; omega
  have pos : ∀ i, 0 < maxOf (lastOf s w i) := fun i => by
    obtain ⟨j, -, e⟩ := List.mem_map.1 (maxOf_mem (ne i))
    exact lt_of_lt_of_eq (h0 _) e
  have lm : Tendsto (fun i => maxOf (lastOf s w i)) atTop (𝓝 c) := tendsto_mem (Eventually.of_forall fun i => maxOf_mem (ne i)) hs
  have ld := (((hs.sub lm).const_mul 100).div lm hc).pow 2
  have lim := (tendsto_mean hw ld).sqrt
  rw [sub_self, mul_zero, zero_div, zero_pow two_ne_zero, Real.sqrt_zero] at lim
  refine settles_reports lim (eventually_atTop.2 ⟨2 * w, fun n hn => ⟨2 * (w - 1), by omega, ?_, ?_⟩⟩)
    (V := fun n i => √(mean (lastOf (fun j => drawdown (vals (upTo s (n + 1))) w j ^ 2) w i)))
  · have := ulcer_reports (upTo s (n + 1)) w hw (by simp; omega) (upTo_fins _ _) fun i h1 h2 => by
      rw [recent_upTo h1 (by simpa using h2)]; exact (pos i).ne'
    rwa [upTo_length] at this
  · congr 2
    refine lastOf_congr fun j hj => ?_
    rw [drawdown, bar_upTo (by omega), recent_upTo (by omega) (by omega)]
    rfl

end Trend

/-! ## A price that settles -/

theorem tendsto_example : Tendsto (fun i : ℕ => 5 + 1 / ((i : ℝ) + 1)) atTop (𝓝 5) := by
  simpa using tendsto_one_div_add_atTop_nhds_zero_nat.const_add (5 : ℝ)

/-- From 6, 5.5, 5.33, … every average goes to 5. -/
example : Settles (fun n => Smooth.hull (upTo (fun i : ℕ => 5 + 1 / ((i : ℝ) + 1)) n) 4) 5 := Smooth.hull_settles (by norm_num) (by norm_num) tendsto_example

example : Settles (fun n => (Smooth.mama (upTo (fun i : ℕ => 5 + 1 / ((i : ℝ) + 1)) n) none none).map (·.map fun p => p.1)) 5 :=
  (Smooth.mama_settles none none (is_sci 5 true 1) (is_sci 5 true 2) (by norm_num) (by norm_num) (by norm_num) (by norm_num) tendsto_example).1

example : Settles (fun n => Momentum.cog (upTo (fun i : ℕ => 5 + 1 / ((i : ℝ) + 1)) n) 3) (-((3 + 1) / 2)) := by
  exact_mod_cast Momentum.cog_settles (w := 3) (by norm_num) (by norm_num) tendsto_example

/-- The price falls at every bar, so that no window is flat. -/
example : Settles (fun n => Smooth.kama (upTo (fun i : ℕ => 5 + 1 / ((i : ℝ) + 1)) n) 2 none none) 5 := by
  refine Smooth.kama_settles none none le_rfl (by decide) (by decide) (fun i hi => ?_) tendsto_example
  simp only [lastOf, List.range_succ, List.range_zero, List.map_cons, List.map_nil, List.nil_append, List.cons_append, changes, pairs,
    List.tail_cons, List.zip_cons_cons, List.zip_nil_left, List.zip_nil_right, List.sum_cons, List.sum_nil, add_zero, ne_eq, abs_eq_zero]
  have : (0 : ℝ) < ((i + 1 - 2 : ℕ) : ℝ) + 1 := by positivity
  rw [sub_eq_zero, add_right_inj, one_div, one_div, inv_inj]
  push_cast
  linarith

end Traquer
