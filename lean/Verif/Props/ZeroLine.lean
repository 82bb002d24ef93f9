import Verif.Lemmas.ZeroLine
import Verif.Props.Saturate2
import Verif.Props.Oscillators2
import Verif.Props.MomentumFormulas3
import Verif.Props.VolumeFormulas
import Verif.Props.Dispersion
/-!
# C114: which side of the zero line the unbounded oscillators are on in a trend
-/

namespace Traquer
open FP

theorem QuotIs.above {a b : ℝ} {y : XF} (h : QuotIs a b y) (ha : 0 < a) (hb : 0 < b) : ∃ v : ℝ, y ⇓ v ∧ 0 < v :=
  ⟨_, h.1 hb.ne', div_pos ha hb⟩

theorem QuotIs.below {a b : ℝ} {y : XF} (h : QuotIs a b y) (ha : a < 0) (hb : 0 < b) : ∃ v : ℝ, y ⇓ v ∧ v < 0 :=
  ⟨_, h.1 hb.ne', div_neg_of_neg_of_pos ha hb⟩

theorem Positive.bar {l : List ℝ} (h : Positive l) {i : ℕ} (hi : i < l.length) : 0 < bar l i :=
  h _ (by rw [Traquer.bar, List.getD_eq_getElem?_getD, List.getElem?_eq_getElem hi]; exact List.getElem_mem hi)

theorem Positive.nonzero {data : List XF} (h : Positive (vals data)) (hd : Fins data) : ∀ x ∈ data, ¬ x ⇓ 0 := by
  intro x hx h0
  obtain ⟨i, hi, rfl⟩ := List.mem_iff_getElem.1 hx
  have h1 := Trend.is_bar hd (List.getElem?_eq_getElem hi)
  exact (h.bar (i := i) (by simpa using hi)).ne' (h1.unique h0)

theorem weightedMean_pos {ws l : List ℝ} (h0 : ws ≠ []) (hl : ws.length = l.length) (h1 : ∀ x ∈ ws, 0 < x) (h2 : ∀ x ∈ l, 0 < x) :
    0 < weightedMean ws l := by
  refine div_pos (List.sum_pos _ ?_ ?_) (List.sum_pos _ h1 h0)
  · intro y hy
    obtain ⟨p, hp, rfl⟩ := List.mem_map.1 hy
    exact mul_pos (h1 _ (List.of_mem_zip hp).1) (h2 _ (List.of_mem_zip hp).2)
  · intro e
    have := congrArg List.length e
    have h3 := List.length_pos_iff.2 h0
    rw [List.length_map, List.length_zip, List.length_nil] at this
    omega

theorem sum_map_opposite {α : Type} (l : List α) (f : α → ℝ) : (l.map fun a => -f a).sum = -(l.map f).sum := by
  induction l with
  | nil => simp
  | cons a l ih => rw [List.map_cons, List.sum_cons, List.map_cons, List.sum_cons, ih]; ring

theorem sum_not_pos {l : List ℝ} (h : ∀ x ∈ l, x ≤ 0) : l.sum ≤ 0 := by
  induction l with
  | nil => simp
  | cons a l ih =>
    rw [List.sum_cons]
    have := h a (by simp)
    have := ih fun x hx => h x (by simp [hx])
    linarith

theorem weightedMean_neg {ws l : List ℝ} (h0 : ws ≠ []) (hl : ws.length = l.length) (h1 : ∀ x ∈ ws, 0 < x) (h2 : ∀ x ∈ l, x < 0) :
    weightedMean ws l < 0 := by
  have h := weightedMean_pos (l := l.map fun x => -x) h0 (by simpa using hl) h1 fun x hx => by
    obtain ⟨y, hy, rfl⟩ := List.mem_map.1 hx
    exact neg_pos.2 (h2 y hy)
  have e : weightedMean ws (l.map fun x => -x) = -weightedMean ws l := by
    rw [weightedMean, weightedMean, ← neg_div, List.zip_map_right, List.map_map]
    congr 1
    have : ((fun p : ℝ × ℝ => p.1 * p.2) ∘ Prod.map id fun x => -x) = fun p => -(p.1 * p.2) := by
      funext p; simp
    rw [this]
    exact sum_map_opposite _ _
  rw [e] at h
  linarith

theorem meanAbsDev_pos {l : List ℝ} {x y : ℝ} (hx : x ∈ l) (hy : y ∈ l) (h : x < y) : 0 < meanAbsDev l := by
  have hl : 0 < l.length := List.length_pos_of_mem hx
  rw [meanAbsDev, mean, List.length_map]
  refine div_pos ?_ (by exact_mod_cast hl)
  have nn : ∀ z ∈ l.map (fun x => |x - mean l|), 0 ≤ z := fun z hz => by
    obtain ⟨a, -, rfl⟩ := List.mem_map.1 hz
    exact abs_nonneg _
  rcases (List.sum_nonneg nn).eq_or_lt with e | e
  · exfalso
    have z : ∀ a ∈ l, a = mean l := fun a ha => by
      have h1 := List.single_le_sum nn _ (List.mem_map_of_mem (f := fun x => |x - mean l|) ha)
      have := abs_nonneg (a - mean l)
      have h2 : |a - mean l| = 0 := le_antisymm (by rw [e]; exact h1) this
      exact sub_eq_zero.1 (abs_eq_zero.1 h2)
    rw [z x hx, z y hy] at h
    exact lt_irrefl _ h
  · exact e

end Traquer

namespace Traquer.Momentum
open Traquer FP FloatLit Smooth

section
variable (data : List XF) (w short long : ℕ) (hd : Fins data)
include hd

/-- C114: while prices rise, `macd` with a short window below the long one is above zero. -/
theorem macd_rising (hs : 1 ≤ short) (hl : short < long) (hn : long ≤ data.length) (hr : Rising (vals data)) :
    AboveZero data.length (long - 1) (macd data short long) := by
  have := macd_reports data short long hs (by omega) (by omega) hd
  rw [show max short long = long by omega] at this
  have hc := hr.climbs
  rw [vals_length] at hc
  exact this.toP fun i y h1 h2 h => ⟨_, h, sub_pos.2 (hc.fast_above_slow hs hl i h1 h2)⟩

theorem macd_falling (hs : 1 ≤ short) (hl : short < long) (hn : long ≤ data.length) (hr : Falling (vals data)) :
    BelowZero data.length (long - 1) (macd data short long) := by
  have := macd_reports data short long hs (by omega) (by omega) hd
  rw [show max short long = long by omega] at this
  have hc := hr.climbs
  rw [vals_length] at hc
  exact this.toP fun i y h1 h2 h => ⟨_, h, sub_neg.2 (by
    have := hc.fast_above_slow hs hl i h1 h2
    rw [ewmaFrom_neg, ewmaFrom_neg] at this
    exact neg_lt_neg_iff.1 this)⟩

/-- C114: the same for `apo`. -/
theorem apo_rising (hs : 1 ≤ short) (hl : short < long) (hn : long ≤ data.length) (hr : Rising (vals data)) :
    AboveZero data.length (long - 1) (apo data short long) := macd_rising data short long hd hs hl hn hr

theorem apo_falling (hs : 1 ≤ short) (hl : short < long) (hn : long ≤ data.length) (hr : Falling (vals data)) :
    BelowZero data.length (long - 1) (apo data short long) := macd_falling data short long hd hs hl hn hr

/-- C114: the same for `ppo` of positive prices. -/
theorem ppo_rising (hs : 1 ≤ short) (hl : short < long) (hn : long ≤ data.length) (hp : Positive (vals data)) (hr : Rising (vals data)) :
    AboveZero data.length (long - 1) (ppo data short long) := by
  have := ppo_reports data short long hs (by omega) (by omega) hd
  rw [show max short long = long by omega] at this
  have hc := hr.climbs
  rw [vals_length] at hc
  exact this.mono fun i y h1 h2 h => h.above (mul_pos (by norm_num) (sub_pos.2 (hc.fast_above_slow hs hl i h1 h2)))
    (ewmaFrom_pos (k := 0) (by omega) (fun j _ hj => hp.bar (by simpa using hj)) i (by omega) h2)

theorem ppo_falling (hs : 1 ≤ short) (hl : short < long) (hn : long ≤ data.length) (hp : Positive (vals data)) (hr : Falling (vals data)) :
    BelowZero data.length (long - 1) (ppo data short long) := by
  have := ppo_reports data short long hs (by omega) (by omega) hd
  rw [show max short long = long by omega] at this
  have hc := hr.climbs
  rw [vals_length] at hc
  refine this.mono fun i y h1 h2 h => h.below ?_
    (ewmaFrom_pos (k := 0) (by omega) (fun j _ hj => hp.bar (by simpa using hj)) i (by omega) h2)
  have := hc.fast_above_slow hs hl i h1 h2
  rw [ewmaFrom_neg, ewmaFrom_neg] at this
  linarith

/-- C114: `disparity` of rising positive prices is above zero. -/
theorem disparity_rising (hw : 2 ≤ w) (hn : w ≤ data.length) (hp : Positive (vals data)) (hr : Rising (vals data)) :
    AboveZero data.length (w - 1) (disparity data w) := by
  have hc := hr.climbs
  rw [vals_length] at hc
  exact (disparity_reports data w (by omega) hn hd).mono fun i y h1 h2 h =>
    h.above (mul_pos (by norm_num) (sub_pos.2 (hc.ewma_lt hw i (by omega) h2)))
      (ewmaFrom_pos (k := 0) (by omega) (fun j _ hj => hp.bar (by simpa using hj)) i (by omega) h2)

theorem disparity_falling (hw : 2 ≤ w) (hn : w ≤ data.length) (hp : Positive (vals data)) (hr : Falling (vals data)) :
    BelowZero data.length (w - 1) (disparity data w) := by
  have hc := hr.climbs
  rw [vals_length] at hc
  refine (disparity_reports data w (by omega) hn hd).mono fun i y h1 h2 h => h.below ?_
      (ewmaFrom_pos (k := 0) (by omega) (fun j _ hj => hp.bar (by simpa using hj)) i (by omega) h2)
  have := hc.ewma_lt hw i (by omega) h2
  rw [ewmaFrom_neg] at this
  linarith

/-- C114: `roc` of rising positive prices is above zero. -/
theorem roc_rising (hw : 2 ≤ w) (hn : w ≤ data.length + 1) (hp : Positive (vals data)) (hr : Rising (vals data)) :
    AboveZero data.length (w - 1) (roc data w) := by
  have hc := hr.climbs
  rw [vals_length] at hc
  exact (roc_reports data w (by omega) hn hd).mono fun i y h1 h2 h =>
    h.above (mul_pos (by norm_num) (sub_pos.2 (hc.lt (by omega) (by omega) h2))) (hp.bar (by simp; omega))

theorem roc_falling (hw : 2 ≤ w) (hn : w ≤ data.length + 1) (hp : Positive (vals data)) (hr : Falling (vals data)) :
    BelowZero data.length (w - 1) (roc data w) := by
  have hc := hr.climbs
  rw [vals_length] at hc
  refine (roc_reports data w (by omega) hn hd).mono fun i y h1 h2 h => h.below ?_ (hp.bar (by simp; omega))
  have := hc.lt (i := i - (w - 1)) (by omega) (by omega) h2
  beta_reduce at this
  linarith

/-- C114: `trix` of rising positive prices is above zero. -/
theorem trix_rising (hw : 1 ≤ w) (hn : 3 * w ≤ data.length + 2) (hp : Positive (vals data)) (hr : Rising (vals data)) :
    AboveZero data.length (3 * (w - 1) + 1) (trix data w) := by
  have hc := hr.climbs
  rw [vals_length] at hc
  have c1 := hc.ewma hw
  rw [Nat.zero_add] at c1
  have c2 := c1.ewma hw
  rw [← two_mul] at c2
  have c3 := c2.ewma hw
  have p1 : ∀ i, w - 1 ≤ i → i < data.length → 0 < ema1 w (bar (vals data)) i := fun i h1 h2 =>
    ewmaFrom_pos hw (fun j _ hj => hp.bar (by simpa using hj)) i (by omega) h2
  have p2 : ∀ i, 2 * (w - 1) ≤ i → i < data.length → 0 < ema2 w (bar (vals data)) i := fun i h1 h2 =>
    ewmaFrom_pos hw p1 i (by omega) h2
  have p3 : ∀ i, 3 * (w - 1) ≤ i → i < data.length → 0 < ema3 w (bar (vals data)) i := fun i h1 h2 =>
    ewmaFrom_pos hw p2 i (by omega) h2
  refine (trix_reports data w hw hn hd).mono fun i y h1 h2 h => h.above (mul_pos (by norm_num) (sub_pos.2 ?_)) (p3 _ (by omega) (by omega))
  have := c3 (i - 1) (by omega) (by omega)
  rwa [show i - 1 + 1 = i by omega] at this

theorem trix_falling (hw : 1 ≤ w) (hn : 3 * w ≤ data.length + 2) (hp : Positive (vals data)) (hr : Falling (vals data)) :
    BelowZero data.length (3 * (w - 1) + 1) (trix data w) := by
  have hc := hr.climbs
  rw [vals_length] at hc
  have c1 := hc.ewma hw
  rw [Nat.zero_add] at c1
  have c2 := c1.ewma hw
  rw [← two_mul] at c2
  have c3 := c2.ewma hw
  have p1 : ∀ i, w - 1 ≤ i → i < data.length → 0 < ema1 w (bar (vals data)) i := fun i h1 h2 =>
    ewmaFrom_pos hw (fun j _ hj => hp.bar (by simpa using hj)) i (by omega) h2
  have p2 : ∀ i, 2 * (w - 1) ≤ i → i < data.length → 0 < ema2 w (bar (vals data)) i := fun i h1 h2 =>
    ewmaFrom_pos hw p1 i (by omega) h2
  have p3 : ∀ i, 3 * (w - 1) ≤ i → i < data.length → 0 < ema3 w (bar (vals data)) i := fun i h1 h2 =>
    ewmaFrom_pos hw p2 i (by omega) h2
  refine (trix_reports data w hw hn hd).mono fun i y h1 h2 h => h.below ?_ (p3 _ (by omega) (by omega))
  have := c3 (i - 1) (by omega) (by omega)
  rw [show i - 1 + 1 = i by omega] at this
  have e1 : (ewmaFrom 0 w fun j => -bar (vals data) j) = fun j => -ema1 w (bar (vals data)) j := funext fun j => ewmaFrom_neg _ _ _ _
  have e2 : (ewmaFrom (w - 1) w fun j => -ema1 w (bar (vals data)) j) = fun j => -ema2 w (bar (vals data)) j :=
    funext fun j => ewmaFrom_neg _ _ _ _
  rw [e1, e2, ewmaFrom_neg, ewmaFrom_neg] at this
  linarith

/-- C114: `pmo` of rising positive prices is above zero. -/
theorem pmo_rising {w1 w2 : ℕ} (h1 : 1 ≤ w1) (h2 : 1 ≤ w2) (hn : w1 + w2 ≤ data.length) (hp : Positive (vals data)) (hr : Rising (vals data)) :
    AboveZero data.length (w1 + (w2 - 1)) (pmo data w1 w2) := by
  have hc := hr.climbs
  rw [vals_length] at hc
  refine (pmo_reports data w1 w2 h1 h2 hn hd (hp.nonzero hd)).toP fun i y g1 g2 h => ⟨_, h, ?_⟩
  refine ewmaFrom_pos (n := data.length) h2 (fun j j1 j2 => ewmaFrom_pos (n := data.length) h1 (fun a a1 a2 => ?_) j (by omega) j2) i (by omega) g2
  have hb := hp.bar (i := a - 1) (by simp; omega)
  have := hc.lt (i := a - 1) (j := a) (by omega) (by omega) a2
  have : 1 < bar (vals data) a / bar (vals data) (a - 1) := (one_lt_div hb).2 this
  linarith

theorem pmo_falling {w1 w2 : ℕ} (h1 : 1 ≤ w1) (h2 : 1 ≤ w2) (hn : w1 + w2 ≤ data.length) (hp : Positive (vals data)) (hr : Falling (vals data)) :
    BelowZero data.length (w1 + (w2 - 1)) (pmo data w1 w2) := by
  have hc := hr.climbs
  rw [vals_length] at hc
  refine (pmo_reports data w1 w2 h1 h2 hn hd (hp.nonzero hd)).toP fun i y g1 g2 h => ⟨_, h, ?_⟩
  have key : 0 < ewmaFrom w1 w2 (fun j => -(ewmaFrom 1 w1 fun i => 1000 * (bar (vals data) i / bar (vals data) (i - 1) - 1)) j) i := by
    refine ewmaFrom_pos (n := data.length) h2 (fun j j1 j2 => ?_) i (by omega) g2
    rw [← ewmaFrom_neg]
    refine ewmaFrom_pos (n := data.length) h1 (fun a a1 a2 => ?_) j (by omega) j2
    have hb := hp.bar (i := a - 1) (by simp; omega)
    have := hc.lt (i := a - 1) (j := a) (by omega) (by omega) a2
    have : bar (vals data) a / bar (vals data) (a - 1) < 1 := (div_lt_one hb).2 (by linarith)
    linarith
  rw [ewmaFrom_neg] at key
  linarith


/-- C114: `coppock` of rising positive prices is above zero. -/
theorem coppock_rising (hw : 1 ≤ w) (h1 : 1 ≤ short) (hs : short ≤ long) (hn : long + w ≤ data.length + 1) (hp : Positive (vals data))
    (hr : Rising (vals data)) : AboveZero data.length (long + (w - 1)) (coppock data w short long) := by
  have hc := hr.climbs
  rw [vals_length] at hc
  refine (coppock_reports data w short long hw hs hn hd (hp.nonzero hd)).toP fun i y g1 g2 h => ⟨_, h, weightedMean_pos ?_ ?_ ?_ ?_⟩
  · simp; omega
  · simp [lastOf]
  · intro x hx
    obtain ⟨j, hj, rfl⟩ := List.mem_map.1 hx
    have := (List.mem_range'_1.1 hj).1
    exact_mod_cast (by omega : 0 < j)
  · intro x hx
    obtain ⟨j, hj, rfl⟩ := List.mem_map.1 hx
    have := List.mem_range.1 hj
    generalize ha : i + 1 - w + j = a
    have q : ∀ d, 1 ≤ d → d ≤ long → 1 < bar (vals data) a / bar (vals data) (a - d) := fun d d1 d2 =>
      (one_lt_div (hp.bar (by simp; omega))).2 (hc.lt (by omega) (by omega) (by omega))
    have := q short h1 hs
    have := q long (by omega) le_rfl
    linarith

theorem coppock_falling (hw : 1 ≤ w) (h1 : 1 ≤ short) (hs : short ≤ long) (hn : long + w ≤ data.length + 1) (hp : Positive (vals data))
    (hr : Falling (vals data)) : BelowZero data.length (long + (w - 1)) (coppock data w short long) := by
  refine (coppock_reports data w short long hw hs hn hd (hp.nonzero hd)).toP fun i y g1 g2 h => ⟨_, h, weightedMean_neg ?_ ?_ ?_ ?_⟩
  · simp; omega
  · simp [lastOf]
  · intro x hx
    obtain ⟨j, hj, rfl⟩ := List.mem_map.1 hx
    have := (List.mem_range'_1.1 hj).1
    exact_mod_cast (by omega : 0 < j)
  · intro x hx
    obtain ⟨j, hj, rfl⟩ := List.mem_map.1 hx
    have := List.mem_range.1 hj
    generalize ha : i + 1 - w + j = a
    have q : ∀ d, 1 ≤ d → d ≤ long → bar (vals data) a / bar (vals data) (a - d) < 1 := fun d d1 d2 =>
      (div_lt_one (hp.bar (by simp; omega))).2 (hr.lt (by omega) (by simp; omega))
    have := q short h1 hs
    have := q long (by omega) le_rfl
    linarith

omit hd in
theorem rocOver_rising (hp : Positive (vals data)) (hr : Rising (vals data)) {r i : ℕ} (h1 : 1 ≤ r) (h2 : r ≤ i) (hi : i < data.length) :
    0 < rocOver (bar (vals data)) r i := by
  have : 1 < bar (vals data) i / bar (vals data) (i - r) :=
    (one_lt_div (hp.bar (by simp; omega))).2 (hr.lt (by omega) (by simpa using hi))
  rw [rocOver]
  linarith

omit hd in
theorem rocOver_falling (hp : Positive (vals data)) (hr : Falling (vals data)) {r i : ℕ} (h1 : 1 ≤ r) (h2 : r ≤ i) (hi : i < data.length) :
    0 < -rocOver (bar (vals data)) r i := by
  have : bar (vals data) i / bar (vals data) (i - r) < 1 :=
    (div_lt_one (hp.bar (by simp; omega))).2 (hr.lt (by omega) (by simpa using hi))
  rw [rocOver]
  linarith

omit hd in
theorem pringPart_rising (hp : Positive (vals data)) (hr : Rising (vals data)) {r p i : ℕ} {c : ℝ} (h1 : 1 ≤ r) (h2 : 1 ≤ p) (hc : 0 < c)
    (hi : i < data.length) : 0 ≤ pringPart (bar (vals data)) (r, p, c) i ∧ (r + p ≤ i + 1 → 0 < pringPart (bar (vals data)) (r, p, c) i) := by
  have key : r + p ≤ i + 1 → 0 < pringPart (bar (vals data)) (r, p, c) i := fun h => by
    rw [pringPart, if_pos h]
    exact mul_pos hc (mean_lastOf_pos (k := r) h2 h fun j j1 j2 => rocOver_rising data hp hr h1 j1 (by omega))
  refine ⟨?_, key⟩
  by_cases h : r + p ≤ i + 1
  · exact (key h).le
  · rw [pringPart, if_neg h]

omit hd in
theorem pringPart_falling (hp : Positive (vals data)) (hr : Falling (vals data)) {r p i : ℕ} {c : ℝ} (h1 : 1 ≤ r) (h2 : 1 ≤ p) (hc : 0 < c)
    (hi : i < data.length) : pringPart (bar (vals data)) (r, p, c) i ≤ 0 ∧ (r + p ≤ i + 1 → pringPart (bar (vals data)) (r, p, c) i < 0) := by
  have key : r + p ≤ i + 1 → pringPart (bar (vals data)) (r, p, c) i < 0 := fun h => by
    rw [pringPart, if_pos h]
    have := mean_lastOf_pos (x := fun j => -rocOver (bar (vals data)) r j) (k := r) h2 h fun j j1 j2 => rocOver_falling data hp hr h1 j1 (by omega)
    have e : mean (lastOf (fun j => -rocOver (bar (vals data)) r j) p i) = -mean (lastOf (rocOver (bar (vals data)) r) p i) := by
      rw [mean, mean, ← neg_div]
      congr 1
      · rw [lastOf, lastOf]
        exact sum_map_opposite _ _
      · simp [lastOf]
    rw [e] at this
    exact mul_neg_of_pos_of_neg hc (by linarith)
  refine ⟨?_, key⟩
  by_cases h : r + p ≤ i + 1
  · exact (key h).le
  · rw [pringPart, if_neg h]

/-- C114: `kst` of rising positive prices is above zero. -/
theorem kst_rising (rocs periods : Option (ℕ × ℕ × ℕ × ℕ)) (r1 r2 r3 r4 p1 p2 p3 p4 : ℕ)
    (er : rocs.getD (10, 15, 20, 30) = (r1, r2, r3, r4)) (ep : periods.getD (10, 10, 10, 15) = (p1, p2, p3, p4)) (h0 : 1 ≤ r1) (hrr : r1 ≤ r2 ∧ r1 ≤ r3 ∧ r1 ≤ r4)
    (hpp : p1 ≤ p2 ∧ p1 ≤ p3 ∧ p1 ≤ p4) (h1 : 1 ≤ p1) (hn : r1 + (p1 - 1) ≤ data.length) (hp : Positive (vals data)) (hr : Rising (vals data)) :
    AboveZero data.length (r1 + (p1 - 1)) (kst data rocs periods) := by
  refine (kst_reports data rocs periods r1 r2 r3 r4 p1 p2 p3 p4 er ep hrr hpp h1 hn hd (hp.nonzero hd)).toP fun i y g1 g2 h => ⟨_, h, ?_⟩
  have q1 := (pringPart_rising data hp hr (c := 1) h0 h1 (by norm_num) g2).2 (by omega)
  have q2 := (pringPart_rising data hp hr (r := r2) (p := p2) (c := 2) (by omega) (by omega) (by norm_num) g2).1
  have q3 := (pringPart_rising data hp hr (r := r3) (p := p3) (c := 3) (by omega) (by omega) (by norm_num) g2).1
  have q4 := (pringPart_rising data hp hr (r := r4) (p := p4) (c := 4) (by omega) (by omega) (by norm_num) g2).1
  show 0 < pringPart _ _ i + pringPart _ _ i + pringPart _ _ i + pringPart _ _ i
  linarith

theorem kst_falling (rocs periods : Option (ℕ × ℕ × ℕ × ℕ)) (r1 r2 r3 r4 p1 p2 p3 p4 : ℕ)
    (er : rocs.getD (10, 15, 20, 30) = (r1, r2, r3, r4)) (ep : periods.getD (10, 10, 10, 15) = (p1, p2, p3, p4)) (h0 : 1 ≤ r1) (hrr : r1 ≤ r2 ∧ r1 ≤ r3 ∧ r1 ≤ r4)
    (hpp : p1 ≤ p2 ∧ p1 ≤ p3 ∧ p1 ≤ p4) (h1 : 1 ≤ p1) (hn : r1 + (p1 - 1) ≤ data.length) (hp : Positive (vals data)) (hr : Falling (vals data)) :
    BelowZero data.length (r1 + (p1 - 1)) (kst data rocs periods) := by
  refine (kst_reports data rocs periods r1 r2 r3 r4 p1 p2 p3 p4 er ep hrr hpp h1 hn hd (hp.nonzero hd)).toP fun i y g1 g2 h => ⟨_, h, ?_⟩
  have q1 := (pringPart_falling data hp hr (c := 1) h0 h1 (by norm_num) g2).2 (by omega)
  have q2 := (pringPart_falling data hp hr (r := r2) (p := p2) (c := 2) (by omega) (by omega) (by norm_num) g2).1
  have q3 := (pringPart_falling data hp hr (r := r3) (p := p3) (c := 3) (by omega) (by omega) (by norm_num) g2).1
  have q4 := (pringPart_falling data hp hr (r := r4) (p := p4) (c := 4) (by omega) (by omega) (by norm_num) g2).1
  show pringPart _ _ i + pringPart _ _ i + pringPart _ _ i + pringPart _ _ i < 0
  linarith

/-- C114: `special_k` of rising positive prices is above zero. -/
theorem special_k_rising (hn : 19 ≤ data.length) (hp : Positive (vals data)) (hr : Rising (vals data)) :
    AboveZero data.length 19 (special_k data) := by
  refine (special_k_reports data hn hd (hp.nonzero hd)).toP fun i y g1 g2 h => ⟨_, h, ?_⟩
  have nn : ∀ r p (c : ℝ), 1 ≤ r → 1 ≤ p → 0 < c → 0 ≤ pringPart (bar (vals data)) (r, p, c) i := fun r p c a b d =>
    (pringPart_rising data hp hr a b d g2).1
  have q1 := (pringPart_rising data hp hr (r := 10) (p := 10) (c := 1) (by omega) (by omega) (by norm_num) g2).2 (by omega)
  rw [List.map_cons, List.sum_cons]
  refine add_pos_of_pos_of_nonneg q1 (List.sum_nonneg ?_)
  intro z hz
  simp only [List.map_cons, List.map_nil, List.mem_cons, List.not_mem_nil, or_false] at hz
  rcases hz with rfl | rfl | rfl | rfl | rfl | rfl | rfl | rfl | rfl | rfl | rfl <;>
    exact nn _ _ _ (by norm_num) (by norm_num) (by norm_num)

theorem special_k_falling (hn : 19 ≤ data.length) (hp : Positive (vals data)) (hr : Falling (vals data)) :
    BelowZero data.length 19 (special_k data) := by
  refine (special_k_reports data hn hd (hp.nonzero hd)).toP fun i y g1 g2 h => ⟨_, h, ?_⟩
  have nn : ∀ r p (c : ℝ), 1 ≤ r → 1 ≤ p → 0 < c → pringPart (bar (vals data)) (r, p, c) i ≤ 0 := fun r p c a b d =>
    (pringPart_falling data hp hr a b d g2).1
  have q1 := (pringPart_falling data hp hr (r := 10) (p := 10) (c := 1) (by omega) (by omega) (by norm_num) g2).2 (by omega)
  rw [List.map_cons, List.sum_cons]
  refine add_neg_of_neg_of_nonpos q1 (sum_not_pos ?_)
  intro z hz
  simp only [List.map_cons, List.map_nil, List.mem_cons, List.not_mem_nil, or_false] at hz
  rcases hz with rfl | rfl | rfl | rfl | rfl | rfl | rfl | rfl | rfl | rfl | rfl <;>
    exact nn _ _ _ (by norm_num) (by norm_num) (by norm_num)

end
end Traquer.Momentum
