import Verif.Spec.Cross
import Verif.Props.Travel
import Verif.Props.VolumeFormulas
import Verif.Props.ZeroLine
/-!
# C129: an exponential average crosses no level more often than the price

An exponential average can only pass a level when the price has passed it first. So it crosses a level at most as often as the price
does, and turns at most as often. The same is true of Wilder's average and of the average with the weights of Pascal's triangle. It is
false of the simple average.
-/

namespace Traquer
open FP FloatLit

theorem sign_sq {s : ℝ} (h : s = 1 ∨ s = -1) (j : ℕ) : s * (-1) ^ (j + 1) = -(s * (-1) ^ j) := by ring

/-- A series that never leaves a side of the level before another series does crosses the level no more often. -/
theorem crosses_of {y x : ℕ → ℝ} {L : ℝ} {lo k n : ℕ}
    (start : ∀ σ : ℝ, k < n → (∀ t, lo ≤ t → t ≤ k → σ * (x t - L) ≤ 0) → σ * (y k - L) ≤ 0)
    (step : ∀ (σ : ℝ) i, k ≤ i → i + 1 < n → σ * (y i - L) ≤ 0 → σ * (x (i + 1) - L) ≤ 0 → σ * (y (i + 1) - L) ≤ 0) (hk : lo ≤ k) {m : ℕ}
    (h : Crosses y L k n m) : Crosses x L lo n m := by
  obtain ⟨s, t, hs, ht, hv⟩ := h
  have run : ∀ (σ : ℝ) a, k ≤ a → σ * (y a - L) ≤ 0 → ∀ d, a + d < n → (∀ i, a < i → i ≤ a + d → σ * (x i - L) ≤ 0) →
      σ * (y (a + d) - L) ≤ 0 := by
    intro σ a ha h0 d
    induction d with
    | zero => exact fun _ _ => h0
    | succ d ih => exact fun hd hx => step σ (a + d) (by omega) hd (ih (by omega) fun i h1 h2 => hx i h1 (by omega)) (hx _ (by omega) (by omega))
  have key : ∀ j, ∃ u, j ≤ m → lo ≤ u ∧ u ≤ t j ∧ (∀ i, i + 1 = j → t i < u) ∧ 0 < s * (-1) ^ j * (x u - L) := by
    intro j
    by_cases hj : j ≤ m
    swap
    · exact ⟨0, fun h => absurd h hj⟩
    obtain ⟨g1, g2, g3⟩ := hv j hj
    by_contra hno
    push Not at hno
    obtain _ | i := j
    · have a0 := start (s * (-1) ^ 0) (by omega) fun i h1 h2 => by
        by_contra hp
        obtain ⟨-, hc⟩ := hno i
        exact absurd (hc h1 (by omega) (fun i hi => by omega)) (not_le.2 (not_le.1 hp))
      have := run _ k le_rfl a0 (t 0 - k) (by omega) fun i h1 h2 => by
        obtain ⟨-, hc⟩ := hno i
        exact hc (by omega) (by omega) (fun i hi => by omega)
      rw [show k + (t 0 - k) = t 0 by omega] at this
      linarith
    · obtain ⟨f1, f2, f3⟩ := hv i (by omega)
      have lt := ht i (by omega)
      have := run (s * (-1) ^ (i + 1)) (t i) f1 (by rw [sign_sq hs]; linarith) (t (i + 1) - t i) (by omega) fun e h1 h2 => by
        obtain ⟨-, hc⟩ := hno e
        exact hc (by omega) (by omega) (fun a ha => by rw [show a = i by omega]; exact h1)
      rw [show t i + (t (i + 1) - t i) = t (i + 1) by omega] at this
      linarith
  choose u hu using key
  refine ⟨s, u, hs, fun j hj => ?_, fun j hj => ?_⟩
  · exact lt_of_le_of_lt (hu j (by omega)).2.1 ((hu (j + 1) (by omega)).2.2.1 j rfl)
  · obtain ⟨a, b, -, c⟩ := hu j hj
    exact ⟨a, lt_of_le_of_lt b (hv j hj).2.1, c⟩

theorem Crosses.congr {v v' : ℕ → ℝ} {L : ℝ} {lo hi m : ℕ} (h : Crosses v L lo hi m)
    (e : ∀ σ i, lo ≤ i → i < hi → 0 < σ * (v i - L) → 0 < σ * (v' i - L)) : Crosses v' L lo hi m := by
  obtain ⟨s, t, hs, ht, hv⟩ := h
  exact ⟨s, t, hs, ht, fun j hj => ⟨(hv j hj).1, (hv j hj).2.1, e _ _ (hv j hj).1 (hv j hj).2.1 (hv j hj).2.2⟩⟩

/-- The same without a start: the first crossing is not counted. -/
theorem onceMore_of {y x : ℕ → ℝ} {L : ℝ} {k n m : ℕ}
    (step : ∀ (σ : ℝ) i, k ≤ i → i + 1 < n → σ * (y i - L) ≤ 0 → σ * (x (i + 1) - L) ≤ 0 → σ * (y (i + 1) - L) ≤ 0)
    (h : Crosses y L k n (m + 1)) : Crosses x L (k + 1) n m := by
  obtain ⟨s, t, hs, ht, hv⟩ := h
  have run : ∀ (σ : ℝ) a, k ≤ a → σ * (y a - L) ≤ 0 → ∀ d, a + d < n → (∀ i, a < i → i ≤ a + d → σ * (x i - L) ≤ 0) →
      σ * (y (a + d) - L) ≤ 0 := by
    intro σ a ha h0 d
    induction d with
    | zero => exact fun _ _ => h0
    | succ d ih => exact fun hd hx => step σ (a + d) (by omega) hd (ih (by omega) fun i h1 h2 => hx i h1 (by omega)) (hx _ (by omega) (by omega))
  have key : ∀ j, ∃ u, j ≤ m → t j < u ∧ u ≤ t (j + 1) ∧ 0 < s * (-1) ^ (j + 1) * (x u - L) := by
    intro j
    by_cases hj : j ≤ m
    swap
    · exact ⟨0, fun h => absurd h hj⟩
    obtain ⟨g1, g2, g3⟩ := hv (j + 1) (by omega)
    obtain ⟨f1, f2, f3⟩ := hv j (by omega)
    have lt := ht j (by omega)
    by_contra hno
    push Not at hno
    have := run (s * (-1) ^ (j + 1)) (t j) f1 (by rw [sign_sq hs]; linarith) (t (j + 1) - t j) (by omega) fun e h1 h2 =>
      (hno e).2 h1 (by omega)
    rw [show t j + (t (j + 1) - t j) = t (j + 1) by omega] at this
    linarith
  choose u hu using key
  refine ⟨-s, u, by rcases hs with rfl | rfl <;> simp, fun j hj => ?_, fun j hj => ?_⟩
  · exact lt_of_le_of_lt (hu j (by omega)).2.1 (hu (j + 1) (by omega)).1
  · obtain ⟨a, b, c⟩ := hu j hj
    have := hv j (by omega)
    refine ⟨by omega, lt_of_le_of_lt b (hv (j + 1) (by omega)).2.1, ?_⟩
    rwa [sign_sq hs, ← neg_mul] at c

/-- A blend of two values on one side of a level is on that side. -/
theorem blend_sign {σ g a b L : ℝ} (g0 : 0 ≤ g) (g1 : g ≤ 1) (ha : σ * (a - L) ≤ 0) (hb : σ * (b - L) ≤ 0) :
    σ * (g * (b - a) + a - L) ≤ 0 := by
  rw [show σ * (g * (b - a) + a - L) = (1 - g) * (σ * (a - L)) + g * (σ * (b - L)) by ring]
  have h1 := mul_nonpos_of_nonneg_of_nonpos (by linarith : 0 ≤ 1 - g) ha
  have h2 := mul_nonpos_of_nonneg_of_nonpos g0 hb
  linarith

theorem mean_sign {σ L : ℝ} {x : ℕ → ℝ} {w i : ℕ} (hw : 1 ≤ w) (h : ∀ j < w, σ * (x (i + 1 - w + j) - L) ≤ 0) :
    σ * (mean (lastOf x w i) - L) ≤ 0 := by
  have w0 : (0 : ℝ) < w := by exact_mod_cast hw
  have e : σ * (mean (lastOf x w i) - L) = ((List.range w).map fun j => σ * (x (i + 1 - w + j) - L)).sum / w := by
    rw [mean, lastOf, List.length_map, List.length_range, eq_div_iff w0.ne']
    have : ∀ l : List ℕ, (l.map fun j => σ * (x (i + 1 - w + j) - L)).sum = σ * ((l.map fun j => x (i + 1 - w + j)).sum - l.length * L) := by
      intro l
      induction l with
      | nil => simp
      | cons a l ih => simp only [List.map_cons, List.sum_cons, ih, List.length_cons]; push_cast; ring
    rw [this, List.length_range]
    field_simp
  rw [e]
  refine div_nonpos_of_nonpos_of_nonneg ?_ w0.le
  have low : ∀ l : List ℝ, (∀ y ∈ l, y ≤ 0) → l.sum ≤ 0 := fun l => by
    induction l with
    | nil => simp
    | cons a l ih => intro h; rw [List.sum_cons]; linarith [h a (by simp), ih fun y hy => h y (by simp [hy])]
  refine low _ fun y hy => ?_
  obtain ⟨j, hj, rfl⟩ := List.mem_map.1 hy
  exact h j (List.mem_range.1 hj)

/-- A recursive average with a fixed gain, started with the mean of `w` values from bar `lo` on. -/
theorem recursive_crosses {y x : ℕ → ℝ} {g L : ℝ} {lo w n : ℕ} (hw : 1 ≤ w) (g0 : 0 ≤ g) (g1 : g ≤ 1)
    (h0 : y (lo + (w - 1)) = mean (lastOf x w (lo + (w - 1))))
    (hs : ∀ i, lo + (w - 1) ≤ i → y (i + 1) = g * (x (i + 1) - y i) + y i) {m : ℕ} (h : Crosses y L (lo + (w - 1)) n m) :
    Crosses x L lo n m := by
  refine crosses_of (fun σ _ hx => ?_) (fun σ i h1 _ ha hb => ?_) (by omega) h
  · rw [h0]
    exact mean_sign hw fun j hj => hx _ (by omega) (by omega)
  · rw [hs i h1]
    exact blend_sign g0 g1 ha hb

theorem recursive_turns {y x : ℕ → ℝ} {g : ℝ} {lo w n : ℕ} (hw : 1 ≤ w) (g0 : 0 ≤ g) (g1 : g ≤ 1)
    (h0 : y (lo + (w - 1)) = mean (lastOf x w (lo + (w - 1))))
    (hs : ∀ i, lo + (w - 1) ≤ i → y (i + 1) = g * (x (i + 1) - y i) + y i) {m : ℕ} (h : Turns y (lo + (w - 1)) n m) :
    Turns x lo n m := by
  refine crosses_of (fun σ hk hx => ?_) (fun σ i h1 _ ha hb => ?_) (by omega) h
  · simp only [Nat.add_sub_cancel, sub_zero] at hx ⊢
    rw [hs _ le_rfl]
    have far : ∀ d, d ≤ w - 1 → σ * (x (lo + (w - 1) + 1) - x (lo + (w - 1) - d)) ≤ 0 := by
      intro d
      induction d with
      | zero => intro _; exact hx _ (by omega) le_rfl
      | succ d ih =>
        intro hd
        have a := ih (by omega)
        have b := hx (lo + (w - 1) - d) (by omega) (by omega)
        rw [show lo + (w - 1) - (d + 1) = lo + (w - 1) - d - 1 by omega]
        linarith
    have := mean_sign (σ := -σ) (L := x (lo + (w - 1) + 1)) (x := x) (i := lo + (w - 1)) hw fun j hj => by
      have := far (w - 1 - j) (by omega)
      rw [show lo + (w - 1) - (w - 1 - j) = lo + (w - 1) + 1 - w + j by omega] at this
      linarith
    rw [← h0] at this
    rw [show σ * (g * (x (lo + (w - 1) + 1) - y (lo + (w - 1))) + y (lo + (w - 1)) - y (lo + (w - 1))) =
      g * (-σ * (y (lo + (w - 1)) - x (lo + (w - 1) + 1))) by ring]
    exact mul_nonpos_of_nonneg_of_nonpos g0 this
  · simp only [Nat.add_sub_cancel] at hb ⊢
    obtain ⟨i, rfl⟩ : ∃ j, i = j + 1 := ⟨i - 1, by omega⟩
    simp only [Nat.add_sub_cancel] at ha
    have := blend_sign g0 g1 ha hb
    rw [hs (i + 1) (by omega)]
    have e := hs i (by omega)
    rw [show g * (x (i + 1 + 1) - y (i + 1)) + y (i + 1) - y (i + 1) - 0 = g * (x (i + 1 + 1) - x (i + 1) - (y (i + 1) - y i)) + (y (i + 1) - y i) - 0 by
      rw [e]; ring]
    exact this

theorem ewmaFrom_start {lo w : ℕ} (hw : 1 ≤ w) (x : ℕ → ℝ) : ewmaFrom lo w x (lo + (w - 1)) = mean (lastOf x w (lo + (w - 1))) := by
  rw [show lo + (w - 1) = lo + w - 1 by omega]
  cases h : lo + w - 1 with
  | zero => rw [ewmaFrom, h]
  | succ i => rw [ewmaFrom, if_pos (by omega), h]

theorem ewmaFrom_pull {lo w : ℕ} (hw : 1 ≤ w) (x : ℕ → ℝ) (i : ℕ) (hi : lo + (w - 1) ≤ i) :
    ewmaFrom lo w x (i + 1) = 2 / ((w : ℝ) + 1) * (x (i + 1) - ewmaFrom lo w x i) + ewmaFrom lo w x i := by
  rw [ewmaFrom, if_neg (by omega)]
  ring

theorem wilderFrom_start {lo w : ℕ} (hw : 1 ≤ w) (x : ℕ → ℝ) : wilderFrom lo w x (lo + (w - 1)) = mean (lastOf x w (lo + (w - 1))) := by
  rw [show lo + (w - 1) = lo + w - 1 by omega]
  cases h : lo + w - 1 with
  | zero => rw [wilderFrom, h]
  | succ i => rw [wilderFrom, if_pos (by omega), h]

theorem wilderFrom_pull {lo w : ℕ} (hw : 1 ≤ w) (x : ℕ → ℝ) (i : ℕ) (hi : lo + (w - 1) ≤ i) :
    wilderFrom lo w x (i + 1) = 1 / (w : ℝ) * (x (i + 1) - wilderFrom lo w x i) + wilderFrom lo w x i := by
  have w0 : (w : ℝ) ≠ 0 := by have : 0 < w := hw; positivity
  rw [wilderFrom, if_neg (by omega)]
  field_simp
  ring

theorem ewma_gain_mem {w : ℕ} (hw : 1 ≤ w) : 0 ≤ 2 / ((w : ℝ) + 1) ∧ 2 / ((w : ℝ) + 1) ≤ 1 := by
  have : (1 : ℝ) ≤ w := by exact_mod_cast hw
  exact ⟨by positivity, by rw [div_le_one (by positivity)]; linarith⟩

theorem ewmaFrom_crosses {lo w n m : ℕ} {x : ℕ → ℝ} {L : ℝ} (hw : 1 ≤ w) (h : Crosses (ewmaFrom lo w x) L (lo + (w - 1)) n m) :
    Crosses x L lo n m :=
  recursive_crosses hw (ewma_gain_mem hw).1 (ewma_gain_mem hw).2 (ewmaFrom_start hw x) (ewmaFrom_pull hw x) h

theorem ewmaFrom_turns {lo w n m : ℕ} {x : ℕ → ℝ} (hw : 1 ≤ w) (h : Turns (ewmaFrom lo w x) (lo + (w - 1)) n m) : Turns x lo n m :=
  recursive_turns hw (ewma_gain_mem hw).1 (ewma_gain_mem hw).2 (ewmaFrom_start hw x) (ewmaFrom_pull hw x) h

theorem wilder_gain_mem {w : ℕ} (hw : 1 ≤ w) : 0 ≤ 1 / (w : ℝ) ∧ 1 / (w : ℝ) ≤ 1 := by
  have : (1 : ℝ) ≤ w := by exact_mod_cast hw
  exact ⟨by positivity, by rw [div_le_one (by positivity)]; linarith⟩

/-- The mean of two neighbours. -/
theorem pair_crosses {y x : ℕ → ℝ} {L : ℝ} {lo n m : ℕ} (hy : ∀ i, lo ≤ i → y (i + 1) = (x i + x (i + 1)) / 2)
    (h : Crosses y L (lo + 1) n m) : Crosses x L lo n m := by
  obtain ⟨s, t, hs, ht, hv⟩ := h
  have key : ∀ j, ∃ u, j ≤ m → t j - 1 ≤ u ∧ u ≤ t j ∧ 0 < s * (-1) ^ j * (x u - L) := by
    intro j
    by_cases hj : j ≤ m
    swap
    · exact ⟨0, fun h => absurd h hj⟩
    obtain ⟨g1, g2, g3⟩ := hv j hj
    obtain ⟨i, hi⟩ : ∃ i, t j = i + 1 := ⟨t j - 1, by omega⟩
    rw [hi, hy i (by omega)] at g3
    rw [hi]
    by_contra hno
    push Not at hno
    have a := (hno i).2 (by omega) (by omega)
    have b := (hno (i + 1)).2 (by omega) (by omega)
    linarith
  choose u hu using key
  refine ⟨s, u, hs, fun j hj => ?_, fun j hj => ?_⟩
  · obtain ⟨-, a2, a3⟩ := hu j (by omega)
    obtain ⟨b1, -, b3⟩ := hu (j + 1) (by omega)
    have := ht j hj
    refine lt_of_le_of_ne (by omega) fun e => ?_
    rw [← e, sign_sq hs] at b3
    linarith
  · obtain ⟨a, b, c⟩ := hu j hj
    have := hv j hj
    exact ⟨by omega, by omega, c⟩

theorem pair_turns {y x : ℕ → ℝ} {lo n m : ℕ} (hy : ∀ i, lo ≤ i → y (i + 1) = (x i + x (i + 1)) / 2)
    (h : Turns y (lo + 1) n m) : Turns x lo n m := by
  refine pair_crosses (y := fun i => y i - y (i - 1)) (fun i hi => ?_) h
  obtain ⟨i, rfl⟩ : ∃ j, i = j + 1 := ⟨i - 1, by omega⟩
  simp only [Nat.add_sub_cancel]
  rw [hy (i + 1) (by omega), hy i (by omega)]
  ring

/-- The average of `d + 1` values with the weights of row `d` of Pascal's triangle. -/
noncomputable def pascalMean (x : ℕ → ℝ) (d i : ℕ) : ℝ := (∑ k ∈ Finset.range (d + 1), (d.choose k : ℝ) * x (i - d + k)) / 2 ^ d

theorem pascalMean_succ (x : ℕ → ℝ) (d i : ℕ) (hi : d ≤ i) :
    pascalMean x (d + 1) (i + 1) = (pascalMean x d i + pascalMean x d (i + 1)) / 2 := by
  unfold pascalMean
  rw [Finset.sum_range_succ', Finset.sum_range_succ' (n := d) (f := fun k => (d.choose k : ℝ) * x (i - d + k))]
  simp only [Nat.choose_succ_succ, Nat.choose_zero_right]
  rw [show i + 1 - (d + 1) = i - d by omega]
  have e : ∀ k, x (i + 1 - d + k) = x (i - d + (k + 1)) := fun k => by congr 1; omega
  simp only [e]
  rw [Finset.sum_congr rfl fun k _ => show ((d.choose k + d.choose (k + 1) : ℕ) : ℝ) * x (i - d + (k + 1)) =
    d.choose k * x (i - d + (k + 1)) + d.choose (k + 1) * x (i - d + (k + 1)) by push_cast; ring, Finset.sum_add_distrib,
    Finset.sum_range_succ (fun k => (d.choose (k + 1) : ℝ) * x (i - d + (k + 1)))]
  simp only [Nat.choose_succ_self, Nat.cast_zero, zero_mul, add_zero]
  rw [pow_succ]
  field_simp
  push_cast
  ring

theorem pascalMean_crosses {x : ℕ → ℝ} {L : ℝ} {n m : ℕ} : ∀ {d : ℕ}, Crosses (pascalMean x d) L d n m → Crosses x L 0 n m
  | 0, h => h.congr fun σ i _ _ hp => by simpa [pascalMean] using hp
  | d + 1, h => pascalMean_crosses (pair_crosses (fun i hi => pascalMean_succ x d i hi) h)

theorem pascalMean_turns {x : ℕ → ℝ} {n m : ℕ} : ∀ {d : ℕ}, Turns (pascalMean x d) d n m → Turns x 0 n m
  | 0, h => h.congr fun σ i _ _ hp => by simpa [pascalMean] using hp
  | d + 1, h => pascalMean_turns (pair_turns (fun i hi => pascalMean_succ x d i hi) h)

namespace Smooth

/-- C129: `ewma` crosses no level more often than the price. -/
theorem ewma_crosses (data : List XF) (w : ℕ) (hw : 1 ≤ w) (hn : w ≤ data.length) (hd : Fins data) :
    CrossesNoMore data.length (w - 1) (bar (vals data)) (ewma data w) :=
  ⟨_, ewma_values data w hw hn hd, fun L m h => ewmaFrom_crosses hw (by rwa [Nat.zero_add])⟩

/-- C129: `ewma` turns no more often than the price. -/
theorem ewma_turns (data : List XF) (w : ℕ) (hw : 1 ≤ w) (hn : w ≤ data.length) (hd : Fins data) :
    TurnsNoMore data.length (w - 1) (bar (vals data)) (ewma data w) :=
  ⟨_, ewma_values data w hw hn hd, fun m h => ewmaFrom_turns hw (by rwa [Nat.zero_add])⟩

/-- C129: `wilder` crosses no level more often than the price. -/
theorem wilder_crosses (data : List XF) (w : ℕ) (hw : 1 ≤ w) (hn : w ≤ data.length) (hd : Fins data) :
    CrossesNoMore data.length (w - 1) (bar (vals data)) (wilder data w) :=
  ⟨_, wilder_values data w hw hn hd, fun L m h =>
    recursive_crosses hw (wilder_gain_mem hw).1 (wilder_gain_mem hw).2 (wilderFrom_start hw _) (wilderFrom_pull hw _) (by rwa [Nat.zero_add])⟩

/-- C129: `wilder` turns no more often than the price. -/
theorem wilder_turns (data : List XF) (w : ℕ) (hw : 1 ≤ w) (hn : w ≤ data.length) (hd : Fins data) :
    TurnsNoMore data.length (w - 1) (bar (vals data)) (wilder data w) :=
  ⟨_, wilder_values data w hw hn hd, fun m h =>
    recursive_turns hw (wilder_gain_mem hw).1 (wilder_gain_mem hw).2 (wilderFrom_start hw _) (wilderFrom_pull hw _) (by rwa [Nat.zero_add])⟩

theorem pwma_pascal (data : List XF) (w : ℕ) (hw : 1 ≤ w) (hp : w ≤ 63) (hn : w ≤ data.length + 1) (hd : Fins data) :
    Reports data.length (w - 1) (pascalMean (bar (vals data)) (w - 1)) (pwma data w) := by
  refine (pwma_reports data w hw hp hn hd).congr fun i h1 h2 => ?_
  rw [weightedMean, pascal_sum w hw, ← lastOf_bar (by omega) (by simpa using h2), pascalMean, lastOf, List.map_map, List.zip_map',
    List.map_map, sum_map_range, show w - 1 + 1 = w by omega]
  congr 1
  refine Finset.sum_congr rfl fun k _ => ?_
  simp only [Function.comp]
  rw [show i - (w - 1) + k = i + 1 - w + k by omega]

/-- C129: `pwma` crosses no level more often than the price. -/
theorem pwma_crosses (data : List XF) (w : ℕ) (hw : 1 ≤ w) (hp : w ≤ 63) (hn : w ≤ data.length + 1) (hd : Fins data) :
    CrossesNoMore data.length (w - 1) (bar (vals data)) (pwma data w) :=
  ⟨_, pwma_pascal data w hw hp hn hd, fun _ _ h => pascalMean_crosses h⟩

/-- C129: `pwma` turns no more often than the price. -/
theorem pwma_turns (data : List XF) (w : ℕ) (hw : 1 ≤ w) (hp : w ≤ 63) (hn : w ≤ data.length + 1) (hd : Fins data) :
    TurnsNoMore data.length (w - 1) (bar (vals data)) (pwma data w) :=
  ⟨_, pwma_pascal data w hw hp hn hd, fun _ h => pascalMean_turns h⟩

theorem adaptive_crosses {n k K : ℕ} {g x : ℕ → ℝ} {r : Option (List XF)} (hr : Reports n K (adaptive k g x) r) (hk : k ≤ K + 1)
    (hg : ∀ i, K < i → i < n → 0 ≤ g i ∧ g i ≤ 1) : CrossesOnceMore n K x r := by
  refine ⟨_, hr, fun L m h => onceMore_of (fun σ i h1 h2 ha hb => ?_) h⟩
  rw [adaptive, if_neg (by omega)]
  obtain ⟨g0, g1⟩ := hg (i + 1) (by omega) h2
  exact blend_sign g0 g1 ha hb

/-- C129: `kama` with factors of 1 or more. -/
theorem kama_crosses (data : List XF) (w : ℕ) (short long : Option ℕ) (hw : 2 ≤ w) (hs : 1 ≤ short.getD 2) (hl : 1 ≤ long.getD 30)
    (hn : w ≤ data.length + 1) (hd : Fins data)
    (hm : ∀ i, w ≤ i + 1 → i < data.length → ((changes (recent (vals data) w i)).map fun c => |c|).sum ≠ 0) :
    CrossesOnceMore data.length (w - 1) (bar (vals data)) (kama data w short long) := by
  refine adaptive_crosses (kama_reports data w short long hw hn hd hm) (by omega) fun i h1 h2 => ?_
  have he : 0 ≤ efficiency (recent (vals data) w i) ∧ efficiency (recent (vals data) w i) ≤ 1 :=
    efficiency_mem (recent_ne_nil (by omega) (by omega) (by simpa [vals] using h2))
  generalize efficiency (recent (vals data) w i) = e at he ⊢
  have h2' : ∀ k : ℕ, 1 ≤ k → 0 ≤ 2 / ((k : ℝ) + 1) ∧ 2 / ((k : ℝ) + 1) ≤ 1 := fun k hk => by
    have : (1 : ℝ) ≤ k := by exact_mod_cast hk
    exact ⟨by positivity, by rw [div_le_one (by positivity)]; linarith⟩
  obtain ⟨s0, s1⟩ := h2' _ hs
  obtain ⟨l0, l1⟩ := h2' _ hl
  generalize 2 / (((short.getD 2 : ℕ) : ℝ) + 1) = s at *
  generalize 2 / (((long.getD 30 : ℕ) : ℝ) + 1) = l at *
  have a : 0 ≤ e * (s - l) + l := by nlinarith
  have b : e * (s - l) + l ≤ 1 := by nlinarith
  exact ⟨by positivity, by nlinarith⟩

/-- C129: `vma`. -/
theorem vma_crosses (data : List XF) (w : ℕ) (hw : 1 ≤ w) (hn : max w 9 ≤ data.length) (hd : Fins data)
    (hm : ∀ i, 9 ≤ i → i < data.length → (rises (recent (vals data) 10 i)).sum + (falls (recent (vals data) 10 i)).sum ≠ 0) :
    CrossesOnceMore data.length (max w 9) (bar (vals data)) (vma data w) := by
  refine adaptive_crosses (vma_reports data w hn hd hm) (by omega) fun i h1 h2 => ?_
  have h1' : (1 : ℝ) ≤ w := by exact_mod_cast hw
  have r0 : 0 ≤ (rises (recent (vals data) 10 i)).sum := List.sum_nonneg fun x hx => by
    obtain ⟨p, -, rfl⟩ := List.mem_map.1 hx
    exact le_max_left _ _
  have f0 : 0 ≤ (falls (recent (vals data) 10 i)).sum := List.sum_nonneg fun x hx => by
    obtain ⟨p, -, rfl⟩ := List.mem_map.1 hx
    exact le_max_left _ _
  have ne := hm i (by omega) h2
  generalize (rises (recent (vals data) 10 i)).sum = r at *
  generalize (falls (recent (vals data) 10 i)).sum = f at *
  have q : |(r - f) / (r + f)| ≤ 1 := by
    rw [abs_div, abs_of_nonneg (by linarith : 0 ≤ r + f), div_le_one (lt_of_le_of_ne (by linarith) (Ne.symm ne)), abs_le]
    constructor <;> linarith
  have a : 2 / ((w : ℝ) + 1) ≤ 1 := by rw [div_le_one (by positivity)]; linarith
  have a0 : 0 ≤ 2 / ((w : ℝ) + 1) := by positivity
  exact ⟨mul_nonneg a0 (abs_nonneg _), by nlinarith [abs_nonneg ((r - f) / (r + f))]⟩

/-- C129: `frama`. -/
theorem frama_crosses (data : List XF) (w : ℕ) (hw : 2 ≤ w) (he : w % 2 = 0) (hn : w ≤ data.length + 1) (hd : Fins data)
    (hb : ∀ x ∈ vals data, |x| ≤ f64Max) (hr : ∀ i, w ≤ i + 1 → i < data.length → rangeOf (recent (vals data) w i) ≠ 0) :
    ∃ out, frama data w = some (.ok out) ∧ CrossesOnceMore data.length (w - 1) (bar (vals data)) (some out) := by
  obtain ⟨out, e, h⟩ := frama_reports data w hw he hn hd hb hr
  refine ⟨out, e, adaptive_crosses h (by omega) fun i _ _ => ?_⟩
  unfold fractalGain
  split
  · norm_num
  · exact ⟨le_trans (by norm_num) (le_max_left _ _), max_le (by norm_num) (min_le_right _ _)⟩

/-- C129: the simple average is different. These prices cross zero twice and their three-bar average, 10/3, -1/3, 1/3 and -2, three times. -/
theorem sma_crosses_more : ∃ data : List XF, Fins data ∧ ¬ CrossesNoMore data.length 2 (bar (vals data)) (sma data 3) := by
  refine ⟨[1, 1, 8, -10, 3, 1].map fin, fins_map_fin _, ?_⟩
  rintro ⟨v, hv, h⟩
  have hs := sma_reports ([1, 1, 8, -10, 3, 1].map fin) 3 (by decide) (by simp) (fins_map_fin _)
  have val : ∀ i, 2 ≤ i → i < 6 → v i = mean (recent [1, 1, 8, -10, 3, 1] 3 i) := fun i h1 h2 => by
    obtain ⟨o, e, -, -, g⟩ := hv
    obtain ⟨o', e', -, -, g'⟩ := hs
    obtain rfl : o = o' := Option.some.inj (e.symm.trans e')
    obtain ⟨y, ey, hy⟩ := g i h1 (by simpa using h2)
    obtain ⟨y', ey', hy'⟩ := g' i h1 (by simpa using h2)
    rw [ey] at ey'
    obtain rfl := Option.some.inj ey'
    rw [vals_map_fin] at hy'
    exact hy.2.symm.trans hy'.2
  have := h 0 3 ⟨1, fun j => j + 2, .inl rfl, fun j _ => by beta_reduce; omega, fun j hj => by
    beta_reduce
    refine ⟨by omega, by simp; omega, ?_⟩
    rw [val _ (by omega) (by omega)]
    interval_cases j <;> simp [mean, recent] <;> norm_num⟩
  obtain ⟨s, t, hs, ht, hx⟩ := this
  rw [vals_map_fin] at hx
  have h0 := hx 0 (by omega)
  have h1 := hx 1 (by omega)
  have h2 := hx 2 (by omega)
  have h3 := hx 3 (by omega)
  have l0 := ht 0 (by omega)
  have l1 := ht 1 (by omega)
  have l2 := ht 2 (by omega)
  norm_num at l0 l1 l2
  have neg : ∀ i, i < 6 → bar ([1, 1, 8, -10, 3, 1] : List ℝ) i < 0 → i = 3 := by
    intro i hi
    interval_cases i <;> simp [bar]
  have b : ∀ j, t j < ([1, 1, 8, -10, 3, 1].map (fin : ℝ → XF)).length → t j < 6 := fun j hj => by simpa using hj
  rcases hs with rfl | rfl
  · have e1 := neg (t 1) (b _ h1.2.1) (by have := h1.2.2; norm_num at this; linarith)
    have e3 := neg (t 3) (b _ h3.2.1) (by have := h3.2.2; norm_num at this; linarith)
    omega
  · have e1 := neg (t 0) (b _ h0.2.1) (by have := h0.2.2; norm_num at this; linarith)
    have e3 := neg (t 2) (b _ h2.2.1) (by have := h2.2.2; norm_num at this; linarith)
    omega

end Smooth

namespace Momentum
open Traquer.Smooth (ema1 ema2 ema3)

/-- C129: `trix` of positive prices changes sign no more often than the price turns. -/
theorem trix_signals (data : List XF) (w : ℕ) (hw : 1 ≤ w) (hn : 3 * w ≤ data.length + 2) (hd : Fins data) (hp : Positive (vals data)) :
    SignalsNoMore data.length (3 * (w - 1) + 1) (bar (vals data)) (trix data w) := by
  have p1 : ∀ i, w - 1 ≤ i → i < data.length → 0 < ema1 w (bar (vals data)) i := fun i h1 h2 =>
    ewmaFrom_pos hw (fun j _ hj => hp.bar (by simpa using hj)) i (by omega) h2
  have p2 : ∀ i, 2 * (w - 1) ≤ i → i < data.length → 0 < ema2 w (bar (vals data)) i := fun i h1 h2 =>
    ewmaFrom_pos hw p1 i (by omega) h2
  have p3 : ∀ i, 3 * (w - 1) ≤ i → i < data.length → 0 < ema3 w (bar (vals data)) i := fun i h1 h2 =>
    ewmaFrom_pos hw p2 i (by omega) h2
  refine ⟨fun i => 100 * (ema3 w (bar (vals data)) i - ema3 w (bar (vals data)) (i - 1)) / ema3 w (bar (vals data)) (i - 1),
    (trix_reports data w hw hn hd).mono fun i y h1 h2 h => h.1 (p3 _ (by omega) (by omega)).ne', fun m h => ?_⟩
  have t3 : Turns (ema3 w (bar (vals data))) (2 * (w - 1) + (w - 1)) data.length m := by
    rw [show 2 * (w - 1) + (w - 1) = 3 * (w - 1) by omega]
    refine Crosses.congr h fun σ i h1 h2 hq => ?_
    have pos := p3 (i - 1) (by omega) (by omega)
    rw [sub_zero, show σ * (100 * (ema3 w (bar (vals data)) i - ema3 w (bar (vals data)) (i - 1)) / ema3 w (bar (vals data)) (i - 1)) =
      (σ * (ema3 w (bar (vals data)) i - ema3 w (bar (vals data)) (i - 1))) * (100 / ema3 w (bar (vals data)) (i - 1)) by ring] at hq
    rw [sub_zero]
    exact pos_of_mul_pos_left hq (by positivity)
  have t2 := ewmaFrom_turns hw t3
  have t1 := ewmaFrom_turns (lo := w - 1) hw (by rwa [← two_mul])
  exact ewmaFrom_turns (lo := 0) hw (by rwa [Nat.zero_add])

end Momentum

namespace Volume

/-- C129: `elder_force` changes sign no more often than the price turns, whatever the volumes. -/
theorem elder_force_signals (close volume : List XF) (w : ℕ) (hv : volume.length = close.length) (hw : 1 ≤ w) (hn : w < close.length)
    (fc : Fins close) (fv : Fins volume) (v0 : ∀ i, 0 ≤ bar (vals volume) i) :
    SignalsNoMore close.length w (bar (vals close)) (elder_force close volume w) := by
  refine ⟨_, elder_force_reports close volume w hv hw hn fc fv, fun m h => ?_⟩
  have := ewmaFrom_crosses (lo := 1) hw (by rwa [show 1 + (w - 1) = w by omega])
  refine this.congr fun σ i _ _ hp => ?_
  rw [sub_zero, ← mul_assoc] at hp
  rw [sub_zero]
  exact pos_of_mul_pos_left hp (v0 i)

end Volume

/-! A price series that crosses 3 three times, and what the theorems say about it. -/

example : CrossesNoMore 5 1 (bar [1, 5, 2, 9, 4]) (Smooth.ewma ([1, 5, 2, 9, 4].map (fin : ℝ → XF)) 2) := by
  have := Smooth.ewma_crosses ([1, 5, 2, 9, 4].map fin) 2 (by decide) (by simp) (fins_map_fin _)
  rwa [vals_map_fin] at this

example : Crosses (bar [1, 5, 2, 9, 4]) 3 0 5 3 := by
  refine ⟨-1, fun j => j, .inr rfl, fun j _ => by beta_reduce; omega, fun j hj => ⟨by omega, by beta_reduce; omega, ?_⟩⟩
  interval_cases j <;> simp [bar] <;> norm_num

example := Smooth.pwma_turns ([1, 5, 2, 9, 4].map fin) 3 (by decide) (by decide) (by simp) (fins_map_fin _)
example := Momentum.trix_signals ([1, 5, 2, 9, 4].map fin) 2 (by decide) (by simp) (fins_map_fin _) (by
  rw [vals_map_fin]; intro x hx; fin_cases hx <;> norm_num)
example := Volume.elder_force_signals ([1, 5, 2, 9].map fin) ([10, 20, 0, 40].map fin) 2 (by simp) (by decide) (by simp) (fins_map_fin _)
  (fins_map_fin _) (by
    rw [vals_map_fin]
    intro i
    match i with
    | 0 | 1 | 2 | 3 => simp [bar]
    | i + 4 => simp [bar])
example := Smooth.kama_crosses ([1, 5, 2, 9].map fin) 2 none none (by decide) (by decide) (by decide) (by simp) (fins_map_fin _) (by
  rw [vals_map_fin]
  intro i h1 h2
  have : i < 4 := by simpa using h2
  interval_cases i <;> simp [recent, changes, pairs] <;> norm_num)

end Traquer
