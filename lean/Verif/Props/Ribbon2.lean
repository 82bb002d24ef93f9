import Verif.Props.Ribbon
import Verif.Props.Reverse
import Verif.Props.Vwap
import Verif.Props.Quantile
import Verif.Props.Order
/-!
# C135: `alma`, `vwma` and the median in a trend
-/

namespace Traquer
open FP FloatLit

theorem LagsTrend.later {k k' n : ℕ} {V : (ℕ → ℝ) → ℕ → ℝ} (h : LagsTrend k n V) (hk : k ≤ k') : LagsTrend k' n V := fun x hx =>
  ⟨fun i h1 h2 => (h x hx).1 i (hk.trans h1) h2, fun i h1 h2 => (h x hx).2 i (hk.trans h1) h2⟩

/-- The average of `x` weighted by the volumes `v` of the last `w` bars. -/
noncomputable def volumeMean (v : ℕ → ℝ) (w : ℕ) (x : ℕ → ℝ) (i : ℕ) : ℝ := (lastOf (fun j => x j * v j) w i).sum / (lastOf v w i).sum

theorem Lin.volumeMean (v : ℕ → ℝ) (w : ℕ) : Lin (volumeMean v w) := fun s t x y i => by
  have := Lin.sum w s t (fun j => x j * v j) (fun j => y j * v j) i
  simp only at this
  simp only [Traquer.volumeMean]
  rw [show (fun j => (s * x j + t * y j) * v j) = fun j => s * (x j * v j) + t * (y j * v j) by funext j; ring, this]
  ring

/-- A volume weighted average lies between bounds of its prices. -/
theorem volumeMean_between {v x : ℕ → ℝ} {w i : ℕ} {a b : ℝ} (hv : ∀ j, i + 1 - w ≤ j → j < i + 1 - w + w → 0 ≤ v j)
    (h : ∀ j, i + 1 - w ≤ j → j < i + 1 - w + w → a ≤ x j ∧ x j ≤ b) :
    a * (lastOf v w i).sum ≤ (lastOf (fun j => x j * v j) w i).sum ∧ (lastOf (fun j => x j * v j) w i).sum ≤ b * (lastOf v w i).sum := by
  simp only [lastOf]
  rw [← List.sum_map_mul_left, ← List.sum_map_mul_left]
  constructor
  · refine List.sum_le_sum fun j hj => ?_
    have := List.mem_range.1 hj
    exact mul_le_mul_of_nonneg_right (h _ (by omega) (by omega)).1 (hv _ (by omega) (by omega))
  · refine List.sum_le_sum fun j hj => ?_
    have := List.mem_range.1 hj
    exact mul_le_mul_of_nonneg_right (h _ (by omega) (by omega)).2 (hv _ (by omega) (by omega))

theorem lastOf_newest (f : ℕ → ℝ) {u i : ℕ} (h : u ≤ i) : (lastOf f (u + 1) i).sum = (lastOf f u (i - 1)).sum + f i := by
  have := lastOf_join f (u := u) (v := 1) (i := i) (by omega)
  rw [this]
  simp [lastOf]

theorem lastOf_oldest (f : ℕ → ℝ) {u i : ℕ} (h : u ≤ i) : (lastOf f (u + 1) i).sum = f (i - u) + (lastOf f u i).sum := by
  have := lastOf_join f (u := 1) (v := u) (i := i) (by omega)
  rw [Nat.add_comm u 1, this]
  simp [lastOf, show i - u + 1 - 1 = i - u by omega]

theorem lagsTrend_volume {v : ℕ → ℝ} {n w : ℕ} (hw : 2 ≤ w) (hv : ∀ j, j < n → 0 < v j) : LagsTrend (w - 1) n (volumeMean v w) := fun x h => by
  obtain ⟨u, rfl⟩ : ∃ u, w = u + 1 := ⟨w - 1, by omega⟩
  have vp : ∀ i, u ≤ i + 1 → i < n → 0 < (lastOf v u i).sum := fun i h1 h2 =>
    Momentum.lastOf_sum_pos (by omega) h1 (fun j hj => (hv j (by omega)).le) (hv i h2)
  refine ⟨fun i hi hn => ?_, fun i hi hn => ?_⟩
  · show volumeMean v (u + 1) x i < volumeMean v (u + 1) x (i + 1)
    rw [volumeMean, volumeMean, lastOf_oldest _ (by omega), lastOf_oldest v (by omega), lastOf_newest _ (by omega), lastOf_newest v (by omega), Nat.add_sub_cancel]
    have V0 := vp i (by omega) (by omega)
    have a0 := hv (i - u) (by omega)
    have b0 := hv (i + 1) hn
    obtain ⟨p, q⟩ := volumeMean_between (v := v) (x := x) (w := u) (i := i) (a := x (i - u)) (b := x i) (fun j h1 h2 => (hv j (by omega)).le)
      fun j h1 h2 => ⟨h.le (by omega) (by omega) (by omega), h.le (by omega) (by omega) (by omega)⟩
    have x1 : x (i - u) < x (i + 1) := h.lt (by omega) (by omega) hn
    have x2 : x i < x (i + 1) := h i (by omega) hn
    generalize (lastOf v u i).sum = V at *
    generalize (lastOf (fun j => x j * v j) u i).sum = N at *
    generalize x (i - u) = A at *
    generalize x (i + 1) = B at *
    generalize v (i - u) = a at *
    generalize v (i + 1) = b at *
    rw [div_lt_div_iff₀ (by linarith) (by linarith)]
    have q' : N < B * V := q.trans_lt (mul_lt_mul_of_pos_right x2 V0)
    have m1 := mul_le_mul_of_nonneg_left p a0.le
    have m2 := mul_lt_mul_of_pos_left q' b0
    have m3 := mul_lt_mul_of_pos_left x1 (mul_pos a0 b0)
    nlinarith
  · rw [volumeMean, div_lt_iff₀ (Momentum.lastOf_sum_pos (by omega) (by omega) (fun j hj => (hv j (by omega)).le) (hv i hn)), lastOf_newest _ (by omega), lastOf_newest v (by omega)]
    obtain ⟨p, q⟩ := volumeMean_between (v := v) (x := x) (w := u) (i := i - 1) (a := x (i - u)) (b := x (i - 1)) (fun j h1 h2 => (hv j (by omega)).le)
      fun j h1 h2 => ⟨h.le (by omega) (by omega) (by omega), h.le (by omega) (by omega) (by omega)⟩
    have V0 := vp (i - 1) (by omega) (by omega)
    have x2 : x (i - 1) < x i := h.lt (by omega) (by omega) hn
    have := mul_lt_mul_of_pos_right x2 V0
    linarith

/-- The midWindow of the window. -/
noncomputable def midWindow (w : ℕ) (x : ℕ → ℝ) (i : ℕ) : ℝ := (x (i - w / 2) + x (i - (w - 1) / 2)) / 2

theorem lagsTrend_mid {n w : ℕ} (hw : 2 ≤ w) : LagsTrend (w - 1) n (midWindow w) := fun x h => by
  refine ⟨fun i hi hn => ?_, fun i hi hn => ?_⟩
  · have a := h.lt (i := i - w / 2) (j := i + 1 - w / 2) (by omega) (by omega) (by omega)
    have b := h.lt (i := i - (w - 1) / 2) (j := i + 1 - (w - 1) / 2) (by omega) (by omega) (by omega)
    show midWindow w x i < midWindow w x (i + 1)
    simp only [midWindow]
    linarith
  · have a := h.lt (i := i - w / 2) (j := i) (by omega) (by omega) hn
    have b := h.le (i := i - (w - 1) / 2) (j := i) (by omega) (by omega) hn
    simp only [midWindow]
    linarith

theorem orderStat_climb {x : ℕ → ℝ} {n w i k : ℕ} (h : Climbs 0 n x) (hi : w ≤ i + 1) (hn : i < n) (hk : k < w) :
    orderStat (lastOf x w i) k = x (i + 1 - w + k) := by
  have hp : (lastOf x w i).Pairwise (· ≤ ·) := by
    rw [lastOf, List.pairwise_map]
    refine List.Pairwise.imp_of_mem ?_ List.pairwise_lt_range
    intro a b _ hb hab
    have := List.mem_range.1 hb
    exact h.le (by omega) (by omega) (by omega)
  rw [orderStat, List.Pairwise.insertionSort_eq hp, lastOf, List.getElem?_map, List.getElem?_range hk]
  rfl

theorem orderStat_sink {x : ℕ → ℝ} {n w i k : ℕ} (h : Climbs 0 n fun j => -x j) (hi : w ≤ i + 1) (hn : i < n) (hk : k < w) :
    orderStat (lastOf x w i) k = x (i - k) := by
  have hp : (lastOf x w i).reverse.Pairwise (· ≤ ·) := by
    rw [List.pairwise_reverse, lastOf, List.pairwise_map]
    refine List.Pairwise.imp_of_mem ?_ List.pairwise_lt_range
    intro a b _ hb hab
    have := List.mem_range.1 hb
    exact neg_le_neg_iff.1 (h.le (i := i + 1 - w + a) (j := i + 1 - w + b) (by omega) (by omega) (by omega))
  have l : (lastOf x w i).length = w := by simp [lastOf]
  rw [← (List.reverse_perm _).orderStat, orderStat, List.Pairwise.insertionSort_eq hp, List.getElem?_reverse (by rw [l]; exact hk), l, lastOf,
    List.getElem?_map, List.getElem?_range (by omega)]
  show x _ = _
  congr 1
  omega

namespace Smooth

/-- C135: the Arnaud Legoux average follows a trend. -/
theorem alma_follows (data : List XF) (w : ℕ) (sigma : XF) (mu : Option XF) {s m : ℝ} (hd : Fins data) (hw : 2 ≤ w) (hn : w ≤ data.length)
    (hs : sigma ⇓ s) (h0 : s ≠ 0) (hm : mu.getD 0.85 ⇓ m) : FollowsTrend w (vals data) (alma data w sigma mu) :=
  followsTrend_of (Lin.weighted (fun _ => (almaGauss w s m).reverse) fun _ => w)
    (LagsTrend.later (lagsTrend_weighted hw (by simp [almaGauss]) fun y hy => by
      obtain ⟨j, -, rfl⟩ := List.mem_map.1 (List.mem_reverse.1 hy)
      exact Real.exp_pos _) (by omega)) (by
    rw [vals_length]
    exact (alma_reports data w sigma mu s m (by omega) hn hs h0 hm hd).congr fun i h1 h2 => by
      rw [lastOf_bar (by omega) (by simpa using h2), weightedMean_reverse (by rw [recent_length (by omega) (by simpa using h2)]; simp [almaGauss])])

end Smooth

namespace Volume

/-- C135: so does the volume weighted average of two or more bars, for positive volumes. -/
theorem vwma_follows (data volume : List XF) (w : ℕ) (hv : volume.length = data.length) (hw : 2 ≤ w) (hn : w ≤ data.length + 1) (hd : Fins data)
    (hf : Fins volume) (hp : ∀ x ∈ volume, 0 < x.val) : FollowsTrend (w - 1) (vals data) (vwma data volume w) := by
  have pos : ∀ j, j < data.length → 0 < bar (vals volume) j := fun j hj => by
    obtain ⟨y, hy⟩ : ∃ y, volume[j]? = some y := ⟨_, List.getElem?_eq_getElem (by omega)⟩
    simpa [bar, vals, hy] using hp y (List.mem_of_getElem? hy)
  refine followsTrend_of (Lin.volumeMean (bar (vals volume)) w) (lagsTrend_volume hw (by rw [vals_length]; exact pos)) ?_
  rw [vals_length]
  refine (vwma_reports data volume w hv (by omega) hn hd hf).mono fun i y h1 h2 hy => ?_
  rw [← lastOf_bar (l := vals data) (by omega) (by simpa using h2), ← lastOf_bar (l := vals volume) (by omega) (by simp; omega)] at hy
  have d := Momentum.lastOf_sum_pos (v := bar (vals volume)) (w := w) (by omega) (by omega) (fun j hj => (pos j (by omega)).le) (pos i h2)
  refine (hy.1 d.ne').congr ?_
  rw [volumeMean]
  congr 1
  simp [lastOf, List.zip_map', Function.comp_def]

end Volume

namespace Distribution

/-- C135: so does the median. -/
theorem median_follows (data : List XF) (w : ℕ) (hd : Fins data) (hw : 2 ≤ w) (hw' : w ≤ 2 ^ 53) (hn : w ≤ data.length + 1) :
    FollowsTrend (w - 1) (vals data) (median data w) := by
  have hr := median_reports data w (by omega) hw' hn hd
  refine ⟨_, by rw [vals_length]; exact hr, fun h => ?_, fun h => ?_⟩
  · obtain ⟨c1, c2⟩ := lagsTrend_mid hw _ h.climbs
    have e : ∀ i, w - 1 ≤ i → i < (vals data).length → (orderStat (recent (vals data) w i) ((w - 1) / 2) + orderStat (recent (vals data) w i) (w / 2)) / 2 =
        midWindow w (bar (vals data)) i := fun i h1 h2 => by
      rw [← lastOf_bar (by omega) h2, orderStat_climb h.climbs (by omega) h2 (by omega), orderStat_climb h.climbs (by omega) h2 (by omega), midWindow,
        show i + 1 - w + (w - 1) / 2 = i - w / 2 by omega, show i + 1 - w + w / 2 = i - (w - 1) / 2 by omega]
    refine ⟨fun i h1 h2 => ?_, fun i h1 h2 => ?_⟩
    · simp only [e i h1 (by omega), e (i + 1) (by omega) h2]
      exact c1 i h1 h2
    · simp only [e i h1 h2]
      exact c2 i h1 h2
  · obtain ⟨c1, c2⟩ := lagsTrend_mid hw _ h.climbs
    have e : ∀ i, w - 1 ≤ i → i < (vals data).length → (orderStat (recent (vals data) w i) ((w - 1) / 2) + orderStat (recent (vals data) w i) (w / 2)) / 2 =
        -midWindow w (fun j => -bar (vals data) j) i := fun i h1 h2 => by
      rw [← lastOf_bar (by omega) h2, orderStat_sink h.climbs (by omega) h2 (by omega), orderStat_sink h.climbs (by omega) h2 (by omega), midWindow]
      ring
    refine ⟨fun i h1 h2 => ?_, fun i h1 h2 => ?_⟩
    · simp only [e i h1 (by omega), e (i + 1) (by omega) h2]
      exact neg_lt_neg (c1 i h1 h2)
    · simp only [e i h1 h2]
      have := c2 i h1 h2
      linarith

example := median_follows ([1, 2, 4, 8].map (fin : ℝ → XF)) 3 (fins_map_fin _) (by norm_num) (by norm_num) (by simp)
example := Volume.vwma_follows ([1, 2, 4, 8].map (fin : ℝ → XF)) ([3, 1, 1, 2].map fin) 2 rfl (by norm_num) (by simp) (fins_map_fin _) (fins_map_fin _)
  (by simp [FP.val])
example := Smooth.alma_follows ([1, 2, 4, 8].map (fin : ℝ → XF)) 3 (fin 6) (some (fin 0.5)) (s := 6) (m := 0.5) (fins_map_fin _) (by norm_num) (by simp)
  (is_fin _) (by norm_num) (is_fin _)

end Distribution
end Traquer
