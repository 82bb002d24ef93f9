import Verif.Spec.NearCycle
import Verif.Props.Forget
import Verif.Props.CausalSmooth
import Verif.Props.CausalMomentum
import Verif.Props.CausalVolatility
/-!
# C113: a recursive average of a series that repeats settles into a cycle

What `KeepsCycle` (C101) is for the functions of a window. A recursive average never forgets its first bars entirely, so it repeats only
approximately; the difference between a bar and any bar a whole number of cycles later shrinks geometrically, and the mean of the average over a cycle
approaches the mean of the price over a cycle.
-/

namespace Traquer
open FP FloatLit

theorem Cycles.mul {β : Type} {p : ℕ} {a : List β} (h : Cycles p a) (m : ℕ) : Cycles (m * p) a := by
  induction m with
  | zero => intro j _; simp
  | succ m ih =>
    intro j hj
    rw [Nat.succ_mul, ← add_assoc] at hj ⊢
    rw [h _ hj, ih _ (by omega)]

/-- A series that repeats goes on after `W + p` bars as it does after `W`. -/
theorem Cycles.splice {β : Type} {p : ℕ} {a : List β} (h : Cycles p a) (W : ℕ) (hl : W + p ≤ a.length) : a.take W ++ a.drop (W + p) = a.take (a.length - p) := by
  refine List.ext_getElem? fun i => ?_
  by_cases h1 : i < W
  · rw [List.getElem?_append_left (by simp; omega), List.getElem?_take, List.getElem?_take, if_pos h1, if_pos (by omega)]
  · rw [List.getElem?_append_right (by simp; omega), List.length_take, min_eq_left (by omega), List.getElem?_drop, List.getElem?_take]
    split
    · rw [show W + p + (i - W) = i + p by omega, h i (by omega)]
    · exact List.getElem?_eq_none (by omega)

/-- What forgets its past and never revises an answer settles into a cycle. -/
theorem nearsCycle_of_forgets {β : Type} {P : List β → Prop} {W : ℕ} {B : ℕ → ℝ} {f : List β → Option (List XF)} (hP : ∀ a b, P a → b ⊆ a → P b)
    (hc : Causal f) (h : ∀ past past' recent, P (past ++ recent) → P (past' ++ recent) → W ≤ past.length → W ≤ past'.length →
      Agree past.length past'.length recent.length B (f (past ++ recent)) (f (past' ++ recent))) : NearsCycle P W B f := by
  intro p a hp ha hW
  obtain ⟨out, -, e, -, -⟩ := h (a.take W) (a.take W) (a.drop W) (by simpa using ha) (by simpa using ha) (by simp; omega) (by simp; omega)
  rw [List.take_append_drop] at e
  refine ⟨out, e, fun j m hj => ?_⟩
  have hs := (hp.mul m).splice W (by omega)
  obtain ⟨o, o', e1, e2, hj'⟩ := h (a.take W) (a.take (W + m * p)) (a.drop (W + m * p)) (by rw [hs]; exact hP _ _ ha (List.take_subset _ _)) (by simpa using ha)
    (by simp; omega) (by simp; omega)
  rw [hs] at e1
  rw [List.take_append_drop, e] at e2
  cases e2
  obtain ⟨y, z, ry, rz, g1, g2, g3, g4, g5⟩ := hj' j (by simp; omega)
  have hpre : o <+: out := hc (a.take (a.length - m * p)) (a.drop (a.length - m * p)) o out e1 (by rw [List.take_append_drop]; exact e)
  simp only [List.length_take] at g1 g2
  rw [min_eq_left (by omega)] at g1 g2
  refine ⟨y, z, ry, rz, (by obtain ⟨t, ht⟩ := hpre; rw [← ht, List.getElem?_append_left (List.getElem?_eq_some_iff.1 g1).1]; exact g1), ?_, g3, g4, by rw [abs_sub_comm]; exact g5⟩
  rw [← g2]
  congr 1
  omega

theorem bounded_subset {M : ℝ} (a b : List XF) (h : Bounded M a) (hb : b ⊆ a) : Bounded M b := h.sub fun _ hx => hb hx

variable {w : ℕ} (M : ℝ)

/-- C113: on a series that repeats, the exponential average settles into a cycle. -/
theorem ewma_nears_cycle (hw : 1 ≤ w) : NearsCycle (Bounded M) w (fun j => 2 * M * (1 - 2 / (w + 1)) ^ (j + 1)) fun l => Smooth.ewma l w :=
  nearsCycle_of_forgets bounded_subset (Smooth.ewma_causal w) fun past past' recent b b' => ewma_forgets past past' recent hw b b'

theorem wilder_nears_cycle (hw : 1 ≤ w) : NearsCycle (Bounded M) w (fun j => 2 * M * (1 - 1 / w) ^ (j + 1)) fun l => Smooth.wilder l w :=
  nearsCycle_of_forgets bounded_subset (Smooth.wilder_causal w) fun past past' recent b b' => wilder_forgets past past' recent hw b b'

theorem dema_nears_cycle (hw : 1 ≤ w) : NearsCycle (Bounded M) (2 * w - 1)
    (fun j => 2 * M * (1 - 2 / (w + 1)) ^ (j + 1) * (3 + 2 / (w + 1) * (j + 1))) fun l => Smooth.dema l w :=
  nearsCycle_of_forgets bounded_subset (Smooth.dema_causal w) fun past past' recent b b' h h' => dema_forgets past past' recent hw b b' (by omega) (by omega)

theorem tema_nears_cycle (hw : 1 ≤ w) : NearsCycle (Bounded M) (3 * w - 2)
    (fun j => 2 * M * (1 - 2 / (w + 1)) ^ (j + 1) * (7 + 4 * (2 / (w + 1)) * (j + 1) + (2 / (w + 1)) ^ 2 * ((j + 1) * (j + 2) / 2))) fun l => Smooth.tema l w :=
  nearsCycle_of_forgets bounded_subset (Smooth.tema_causal w) fun past past' recent b b' h h' => tema_forgets past past' recent hw b b' (by omega) (by omega)

theorem zlma_nears_cycle (hw : 1 ≤ w) : NearsCycle (Bounded M) ((w - 1) / 2 + w) (fun j => 6 * M * (1 - 2 / (w + 1)) ^ (j + 1 - (w - 1) / 2)) fun l => Smooth.zlma l w :=
  nearsCycle_of_forgets bounded_subset (Smooth.zlma_causal w) fun past past' recent b b' h h' => zlma_forgets past past' recent hw b b' h h'

theorem macd_nears_cycle {short long : ℕ} (hs : 1 ≤ short) (hl : 1 ≤ long) : NearsCycle (Bounded M) (max short long)
    (fun j => 2 * M * ((1 - 2 / (short + 1)) ^ (j + 1) + (1 - 2 / (long + 1)) ^ (j + 1))) fun l => Momentum.macd l short long :=
  nearsCycle_of_forgets bounded_subset (Momentum.macd_causal short long) fun past past' recent b b' h h' => Momentum.macd_forgets past past' recent b b' hs hl h h'

theorem apo_nears_cycle {short long : ℕ} (hs : 1 ≤ short) (hl : 1 ≤ long) : NearsCycle (Bounded M) (max short long)
    (fun j => 2 * M * ((1 - 2 / (short + 1)) ^ (j + 1) + (1 - 2 / (long + 1)) ^ (j + 1))) fun l => Momentum.apo l short long :=
  nearsCycle_of_forgets bounded_subset (Momentum.apo_causal short long) fun past past' recent b b' h h' => Momentum.apo_forgets past past' recent b b' hs hl h h'

/-- The high, low and close of every bar are at most `M` in size. -/
def BarsBounded (M : ℝ) (l : List (Candle XF)) : Prop :=
  Bounded M (l.map Candle.high) ∧ Bounded M (l.map Candle.low) ∧ Bounded M (l.map Candle.close)

/-- C113: the average true range of bars that repeat settles into a cycle. -/
theorem atr_nears_cycle (hw : 1 ≤ w) : NearsCycle (BarsBounded M) (w + 1) (fun j => 2 * M * (1 - 1 / w) ^ j) fun l : List (Candle XF) =>
    Volatility.atr (l.map Candle.high) (l.map Candle.low) (l.map Candle.close) w :=
  nearsCycle_of_forgets (fun a b h hb => ⟨bounded_subset _ _ h.1 (List.map_subset _ hb), bounded_subset _ _ h.2.1 (List.map_subset _ hb), bounded_subset _ _ h.2.2 (List.map_subset _ hb)⟩)
    (Volatility.atr_causal w) fun past past' recent b b' h h' => by
      simp only [List.map_append]
      have b1 := b; have b2 := b'
      simp only [BarsBounded, List.map_append] at b1 b2
      have := atr_forgets (past.map Candle.high) (past'.map Candle.high) (recent.map Candle.high) (past.map Candle.low) (past'.map Candle.low) (recent.map Candle.low)
        (past.map Candle.close) (past'.map Candle.close) (recent.map Candle.close) hw (by simp) (by simp) (by simp) (by simp) (by simp) (by simp) (by simpa using h)
        (by simpa using h') b1.1 b1.2.1 b1.2.2 b2.1 b2.2.1 b2.2.2
      simpa using this

/-- C113: bounds that tend to 0 make the readings of a bar and of the same bar a whole number of cycles later as close as one likes. -/
theorem NearsCycle.eventually {β : Type} {P : List β → Prop} {W : ℕ} {B : ℕ → ℝ} {f : List β → Option (List XF)} (h : NearsCycle P W B f)
    (hB : Filter.Tendsto B Filter.atTop (nhds 0)) {ε : ℝ} (hε : 0 < ε) : ∃ J, ∀ p a, Cycles p a → P a → W ≤ a.length → ∃ out, f a = some out ∧
      ∀ i m, J ≤ i → i + m * p < a.length → ∃ y z ry rz, out[i]? = some y ∧ out[i + m * p]? = some z ∧ FP.Is y ry ∧ FP.Is z rz ∧ |rz - ry| ≤ ε := by
  obtain ⟨J, hJ⟩ := Filter.eventually_atTop.1 (hB.eventually (gt_mem_nhds hε))
  refine ⟨W + J, fun p a hp ha hW => ?_⟩
  obtain ⟨out, e, ho⟩ := h p a hp ha hW
  refine ⟨out, e, fun i m hi hm => ?_⟩
  obtain ⟨y, z, ry, rz, g1, g2, g3, g4, g5⟩ := ho (i - W) m (by omega)
  rw [show W + (i - W) = i by omega] at g1 g2
  exact ⟨y, z, ry, rz, g1, g2, g3, g4, g5.trans (hJ _ (by omega)).le⟩

/-- C113: after enough bars the exponential average repeats to any accuracy. -/
theorem ewma_cycle_limit (hw : 1 ≤ w) {ε : ℝ} (hε : 0 < ε) : ∃ J, ∀ (p : ℕ) (a : List XF), Cycles p a → Bounded M a → w ≤ a.length → ∃ out, Smooth.ewma a w = some out ∧
    ∀ i m, J ≤ i → i + m * p < a.length → ∃ y z ry rz, out[i]? = some y ∧ out[i + m * p]? = some z ∧ FP.Is y ry ∧ FP.Is z rz ∧ |rz - ry| ≤ ε :=
  (ewma_nears_cycle M hw).eventually (ewma_fading M hw) hε

/-! ## The mean over a cycle -/

section Mean
open Finset

/-- The sums over a cycle of an average with constant gain `g` approach the sum of the data over a cycle. -/
theorem cycle_sums {g : ℝ} {x y : ℕ → ℝ} {s n p : ℕ} (hy : ∀ i, s ≤ i → i + 1 < n → y (i + 1) = g * x (i + 1) + (1 - g) * y i) (hx : ∀ i, i + p < n → x (i + p) = x i)
    (j : ℕ) (hj : s + j + p ≤ n) :
    ∑ k ∈ range p, y (s + j + k) - ∑ k ∈ range p, x k = (1 - g) ^ j * (∑ k ∈ range p, y (s + k) - ∑ k ∈ range p, x k) := by
  have hT : ∀ i, i + p ≤ n → ∑ k ∈ range p, x (i + k) = ∑ k ∈ range p, x k := by
    intro i
    induction i with
    | zero => intro _; simp
    | succ i ih =>
      intro hi
      rw [← ih (by omega)]
      have h1 := sum_range_succ' (fun k => x (i + k)) p
      have h2 := sum_range_succ (fun k => x (i + k)) p
      rw [hx i (by omega)] at h2
      simp only [add_zero] at h1
      rw [h1] at h2
      have h3 := add_right_cancel h2
      rw [← h3]
      refine sum_congr rfl fun k _ => ?_
      congr 1
      omega
  induction j with
  | zero => simp
  | succ j ih =>
    have e : ∑ k ∈ range p, y (s + (j + 1) + k) = g * ∑ k ∈ range p, x (s + j + 1 + k) + (1 - g) * ∑ k ∈ range p, y (s + j + k) := by
      rw [mul_sum, mul_sum, ← sum_add_distrib]
      refine sum_congr rfl fun k hk => ?_
      have := mem_range.1 hk
      rw [show s + (j + 1) + k = s + j + k + 1 by omega, hy _ (by omega) (by omega), show s + j + 1 + k = s + j + k + 1 by omega]
    rw [e, hT _ (by omega), pow_succ', mul_assoc, ← ih (by omega)]
    ring

theorem cycle_means {g : ℝ} {x y : ℕ → ℝ} {s n p : ℕ} {M : ℝ} (hp : 1 ≤ p) (hg : g ≤ 1) (hy : ∀ i, s ≤ i → i + 1 < n → y (i + 1) = g * x (i + 1) + (1 - g) * y i)
    (hx : ∀ i, i + p < n → x (i + p) = x i) (hX : ∀ i, i < n → |x i| ≤ M) (hY : ∀ i, s ≤ i → i < n → |y i| ≤ M) (j : ℕ) (hj : s + j + p ≤ n) :
    |(∑ k ∈ range p, y (s + j + k)) / p - (∑ k ∈ range p, x k) / p| ≤ 2 * M * (1 - g) ^ j := by
  have hp0 : (0 : ℝ) < p := by exact_mod_cast hp
  rw [← sub_div, cycle_sums hy hx j hj, abs_div, abs_mul, abs_pow, abs_of_nonneg (by linarith : (0 : ℝ) ≤ 1 - g), abs_of_pos hp0, div_le_iff₀ hp0]
  have h1 : |∑ k ∈ range p, y (s + k)| ≤ p * M := (abs_sum_le_sum_abs _ _).trans ((sum_le_sum fun k hk => hY (s + k) (by omega) (by have := mem_range.1 hk; omega)).trans (by simp))
  have h2 : |∑ k ∈ range p, x k| ≤ p * M := (abs_sum_le_sum_abs _ _).trans ((sum_le_sum fun k hk => hX k (by have := mem_range.1 hk; omega)).trans (by simp))
  have h3 : |∑ k ∈ range p, y (s + k) - ∑ k ∈ range p, x k| ≤ p * M + p * M := (abs_sub _ _).trans (add_le_add h1 h2)
  have h4 : (0 : ℝ) ≤ (1 - g) ^ j := pow_nonneg (by linarith) _
  calc (1 - g) ^ j * |∑ k ∈ range p, y (s + k) - ∑ k ∈ range p, x k| ≤ (1 - g) ^ j * (p * M + p * M) := by gcongr
    _ = _ := by ring

theorem bar_cycles {p : ℕ} {a : List XF} (h : Cycles p a) (i : ℕ) (hi : i + p < a.length) : bar (vals a) (i + p) = bar (vals a) i := by
  rw [bar, bar, List.getD_eq_getElem?_getD, List.getD_eq_getElem?_getD, vals, List.getElem?_map, List.getElem?_map, h i hi]

variable {a : List XF} {p : ℕ}

/-- C113: the mean of the exponential average over a cycle approaches the mean of the price over a cycle. -/
theorem ewma_cycle_mean (hw : 1 ≤ w) (hp : 1 ≤ p) (hc : Cycles p a) (ha : Bounded M a) (hn : w ≤ a.length) : ∃ y, Reports a.length (w - 1) y (Smooth.ewma a w) ∧
    ∀ j, w - 1 + j + p ≤ a.length →
      |(∑ k ∈ range p, y (w - 1 + j + k)) / p - (∑ k ∈ range p, bar (vals a) k) / p| ≤ 2 * M * (1 - 2 / (w + 1)) ^ j := by
  refine ⟨_, ewma_values a w hw hn ha.fins, fun j hj => ?_⟩
  have hw' : (1 : ℝ) ≤ w := by exact_mod_cast hw
  refine cycle_means (n := a.length) hp (by rw [div_le_one (by linarith)]; linarith) (fun i h1 h2 => ?_) (bar_cycles hc) (fun i hi => bounded_bar ha hi)
    (fun i h1 h2 => ewmaFrom_bounded (n := a.length) hw (fun i _ hi => bounded_bar ha hi) i (by omega) h2) j hj
  rw [ewmaFrom, if_neg (by omega)]
  ring

theorem wilder_cycle_mean (hw : 1 ≤ w) (hp : 1 ≤ p) (hc : Cycles p a) (ha : Bounded M a) (hn : w ≤ a.length) : ∃ y, Reports a.length (w - 1) y (Smooth.wilder a w) ∧
    ∀ j, w - 1 + j + p ≤ a.length →
      |(∑ k ∈ range p, y (w - 1 + j + k)) / p - (∑ k ∈ range p, bar (vals a) k) / p| ≤ 2 * M * (1 - 1 / w) ^ j := by
  refine ⟨_, wilder_values a w hw hn ha.fins, fun j hj => ?_⟩
  have hw' : (1 : ℝ) ≤ w := by exact_mod_cast hw
  refine cycle_means (n := a.length) hp (by rw [div_le_one (by linarith)]; linarith) (fun i h1 h2 => ?_) (bar_cycles hc) (fun i hi => bounded_bar ha hi)
    (fun i h1 h2 => wilderFrom_bounded (n := a.length) hw (fun i _ hi => bounded_bar ha hi) i (by omega) h2) j hj
  rw [wilderFrom, if_neg (by omega)]
  field_simp
  ring

end Mean

/-! ## The hypotheses are met by ordinary calls -/

/-- Prices that alternate between 1 and 3 repeat every two bars; the average of nine bars is settled to within `6 / 2 ^ 5` at its end. -/
example : ∃ out, Smooth.ewma [(fin 1 : XF), fin 3, fin 1, fin 3, fin 1, fin 3, fin 1, fin 3, fin 1, fin 3] 3 = some out ∧ ∃ y z ry rz,
    out[7]? = some y ∧ out[9]? = some z ∧ FP.Is y ry ∧ FP.Is z rz ∧ |rz - ry| ≤ 2 * 3 * (1 - 2 / ((3 : ℕ) + 1)) ^ (4 + 1) := by
  obtain ⟨out, e, h⟩ := ewma_nears_cycle 3 (w := 3) (by norm_num) 2 [(fin 1 : XF), fin 3, fin 1, fin 3, fin 1, fin 3, fin 1, fin 3, fin 1, fin 3] (by
    intro j hj
    have hj : j < 8 := by simp at hj; omega
    interval_cases j <;> rfl) (by
    intro x hx
    simp at hx
    have : x = fin 1 ∨ x = fin 3 := by tauto
    rcases this with rfl | rfl
    · exact ⟨1, FP.is_fin _, by norm_num⟩
    · exact ⟨3, FP.is_fin _, by norm_num⟩) (by simp)
  exact ⟨out, e, h 4 1 (by simp)⟩

end Traquer
