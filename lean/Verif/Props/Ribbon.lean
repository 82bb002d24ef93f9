import Verif.Spec.Ribbon
import Verif.Props.Superpose
import Verif.Props.ZeroLine
import Verif.Props.Join
/-!
# C135: moving averages in a trend

While prices rise at every bar, `sma`, `ewma`, `wilder`, `wma`, `pwma`, `fwma` and `trima` rise at every bar and stay below the price, and the
`sma` or `ewma` of the shorter window is above that of the longer one; the mirror image while prices fall.
-/

namespace Traquer
open FP FloatLit

/-- The average `V` of a rising series rises and is below it. -/
def LagsTrend (k n : ℕ) (V : (ℕ → ℝ) → ℕ → ℝ) : Prop := ∀ x, Climbs 0 n x → Climbs k n (V x) ∧ ∀ i, k ≤ i → i < n → V x i < x i

theorem Lin.opposite {V : (ℕ → ℝ) → ℕ → ℝ} (h : Lin V) (x : ℕ → ℝ) (i : ℕ) : V (fun j => -x j) i = -V x i := by
  have := h (-1) 0 x x i
  simpa using this

theorem followsTrend_of {k : ℕ} {l : List ℝ} {V : (ℕ → ℝ) → ℕ → ℝ} {r : Option (List XF)} (hV : Lin V) (hL : LagsTrend k l.length V)
    (h : Reports l.length k (V (bar l)) r) : FollowsTrend k l r := by
  refine ⟨_, h, fun hr => hL _ hr.climbs, fun hf => ?_⟩
  obtain ⟨h1, h2⟩ := hL _ hf.climbs
  refine ⟨fun i a b => ?_, fun i a b => ?_⟩
  · have := h1 i a b
    rw [hV.opposite, hV.opposite] at this
    exact neg_lt_neg_iff.1 this
  · have := h2 i a b
    rw [hV.opposite] at this
    exact neg_lt_neg_iff.1 this

theorem fastLeads_of {kf ks : ℕ} {l : List ℝ} {V W : (ℕ → ℝ) → ℕ → ℝ} {f s : Option (List XF)} (hV : Lin V) (hW : Lin W)
    (hL : ∀ x, Climbs 0 l.length x → ∀ i, kf ≤ i → ks ≤ i → i < l.length → W x i < V x i)
    (h : Reports l.length kf (V (bar l)) f) (h' : Reports l.length ks (W (bar l)) s) : FastLeads kf ks l f s := by
  refine ⟨_, _, h, h', fun hr => hL _ hr.climbs, fun hf i a b c => ?_⟩
  have := hL _ hf.climbs i a b c
  rw [hV.opposite, hW.opposite] at this
  exact neg_lt_neg_iff.1 this

section
variable {n w : ℕ}

theorem lagsTrend_mean (hw : 2 ≤ w) : LagsTrend (w - 1) n fun x i => mean (lastOf x w i) := fun x h =>
  ⟨by simpa using h.mean_step (w := w) (by omega), fun i h1 h2 => h.mean_lt hw (by omega) h2⟩

theorem lagsTrend_ewma (hw : 2 ≤ w) : LagsTrend (w - 1) n (ewmaFrom 0 w) := fun x h =>
  ⟨by simpa using h.ewma (w := w) (by omega), fun i h1 h2 => h.ewma_lt hw i (by omega) h2⟩

theorem wilder_below {x : ℕ → ℝ} (h : Climbs 0 n x) (hw : 2 ≤ w) : ∀ i, w - 1 ≤ i → i < n → wilderFrom 0 w x i < x i := by
  have hw' : (2 : ℝ) ≤ w := by exact_mod_cast hw
  intro i hi
  induction i, hi using Nat.le_induction with
  | base =>
    intro hn
    obtain ⟨v, rfl⟩ : ∃ v, w = v + 2 := ⟨w - 2, by omega⟩
    have := h.mean_lt (w := v + 2) hw (i := v + 1) (by omega) (by omega)
    show wilderFrom 0 (v + 2) x (v + 1) < x (v + 1)
    rw [wilderFrom, if_pos (by omega)]
    simpa using this
  | succ i hi ih =>
    intro hn
    rw [wilderFrom, if_neg (by omega), div_lt_iff₀ (by linarith)]
    have h1 := h i (by omega) hn
    have h2 := ih (by omega)
    nlinarith

theorem lagsTrend_wilder (hw : 2 ≤ w) : LagsTrend (w - 1) n (wilderFrom 0 w) := fun x h => by
  refine ⟨fun i hi hn => ?_, wilder_below h hw⟩
  have hw' : (2 : ℝ) ≤ w := by exact_mod_cast hw
  have h1 := h i (by omega) hn
  have h2 := wilder_below h hw i hi (by omega)
  rw [show wilderFrom 0 w x (i + 1) = (wilderFrom 0 w x i * (w - 1) + x (i + 1)) / w by rw [wilderFrom, if_neg (by omega)],
    lt_div_iff₀ (by linarith)]
  linarith

theorem weighted_below {ws l : List ℝ} {c : ℝ} (hl : ws.length = l.length) (h1 : ∀ y ∈ ws, 0 < y) (h2 : ∀ y ∈ l, y ≤ c) (h3 : ∃ y ∈ l, y < c) :
    weightedMean ws l < c := by
  obtain ⟨y, hy, hyc⟩ := h3
  have h0 : ws ≠ [] := by
    rintro rfl
    have := List.length_pos_of_mem hy
    simp at hl
    omega
  rw [weightedMean, div_lt_iff₀ (List.sum_pos _ h1 h0)]
  have e : c * ws.sum = ((ws.zip l).map fun p => p.1 * c).sum := by
    have : ((ws.zip l).map fun p => p.1 * c) = ws.map fun a => a * c := by
      conv_rhs => rw [← List.map_fst_zip (l₁ := ws) (l₂ := l) hl.le, List.map_map]
      rfl
    rw [this, List.sum_map_mul_right, List.map_id', mul_comm]
  rw [e]
  refine List.sum_lt_sum _ _ (fun p hp => mul_le_mul_of_nonneg_left (h2 _ (List.of_mem_zip hp).2) (h1 _ (List.of_mem_zip hp).1).le) ?_
  obtain ⟨j, hj, rfl⟩ := List.mem_iff_getElem.1 hy
  have hz : j < (ws.zip l).length := by simp; omega
  refine ⟨(ws.zip l)[j], List.getElem_mem hz, ?_⟩
  rw [List.getElem_zip]
  exact mul_lt_mul_of_pos_left hyc (h1 _ (List.getElem_mem _))

theorem lagsTrend_weighted {ws : List ℝ} (hw : 2 ≤ w) (hl : ws.length = w) (h0 : ∀ y ∈ ws, 0 < y) :
    LagsTrend (w - 1) n fun x i => weightedMean ws (lastOf x w i) := fun x h => by
  refine ⟨fun i hi hn => ?_, fun i hi hn => ?_⟩
  · have e := Lin.weighted (fun _ => ws) (fun _ => w) 1 (-1) (fun j => x (j + 1)) x i
    have p : 0 < weightedMean ws (lastOf (fun j => 1 * x (j + 1) + -1 * x j) w i) := by
      refine weightedMean_pos (fun e => by rw [e] at hl; simp at hl; omega) (by simp [lastOf, hl]) h0 fun y hy => ?_
      obtain ⟨j, hj, rfl⟩ := List.mem_map.1 hy
      have := List.mem_range.1 hj
      have := h (i + 1 - w + j) (by omega) (by omega)
      simp only
      linarith
    have s : lastOf (fun j => x (j + 1)) w i = lastOf x w (i + 1) := by
      simp only [lastOf]
      exact List.map_congr_left fun j _ => by congr 1; omega
    simp only at e
    rw [e, s] at p
    show weightedMean ws (lastOf x w i) < weightedMean ws (lastOf x w (i + 1))
    linarith
  · refine weighted_below (by simp [lastOf, hl]) h0 (fun y hy => ?_) ⟨x (i + 1 - w), ?_, h.lt (by omega) (by omega) hn⟩
    · obtain ⟨j, hj, rfl⟩ := List.mem_map.1 hy
      have := List.mem_range.1 hj
      exact h.le (by omega) (by omega) hn
    · exact List.mem_map.2 ⟨0, List.mem_range.2 (by omega), by simp⟩

theorem lagsTrend_trima (hw : 2 ≤ w) : LagsTrend (w - 1) n fun x i => mean (lastOf (fun j => mean (lastOf x ((w + 1) / 2) j)) (w / 2 + 1) i) := fun x h => by
  have c := h.mean_step (w := (w + 1) / 2) (by omega)
  refine ⟨?_, fun i hi hn => ?_⟩
  · have := c.mean_step (w := w / 2 + 1) (by omega)
    rwa [show 0 + ((w + 1) / 2 - 1) + (w / 2 + 1 - 1) = w - 1 by omega] at this
  · have h1 := c.mean_lt (w := w / 2 + 1) (by omega) (i := i) (by omega) hn
    exact h1.trans_le (h.mean_le (w := (w + 1) / 2) (by omega) (by omega) hn)

theorem mean_short_above {x : ℕ → ℝ} (h : Climbs 0 n x) {s l i : ℕ} (hs : 1 ≤ s) (hl : s < l) (hi : l - 1 ≤ i) (hn : i < n) :
    mean (lastOf x l i) < mean (lastOf x s i) := by
  obtain ⟨u, rfl⟩ : ∃ u, l = u + s := ⟨l - s, by omega⟩
  have hs' : (1 : ℝ) ≤ s := by exact_mod_cast hs
  have hu' : (1 : ℝ) ≤ u := by exact_mod_cast (by omega : 1 ≤ u)
  have a := h.mean_le (w := u) (by omega) (i := i - s) (by omega) (by omega)
  have b : x (i - s) < mean (lastOf x s i) := by
    have := mean_lastOf_pos (k := i - s + 1) (w := s) (x := fun j => 1 * x j + (-1) * x (i - s)) hs (i := i) (by omega) fun j h1 h2 => by
      have := h.lt (i := i - s) (j := j) (by omega) (by omega) (by omega)
      linarith
    have q := Lin.mean s 1 (-1) x (fun _ => x (i - s)) i
    simp only at q
    rw [q] at this
    have e : mean (lastOf (fun _ => x (i - s)) s i) = x (i - s) := by
      have : (s : ℝ) ≠ 0 := by linarith
      simp [mean, lastOf]
      field_simp
    rw [e] at this
    linarith
  have j := lastOf_join x (u := u) (v := s) (i := i) (by omega)
  have L : ∀ w i, (lastOf x w i).length = w := fun w i => by simp [lastOf]
  rw [mean, L] at a b
  rw [mean, mean, L, L, j]
  push_cast
  rw [div_lt_div_iff₀ (by linarith) (by linarith)]
  rw [div_le_iff₀ (by linarith)] at a
  rw [lt_div_iff₀ (by linarith)] at b
  generalize (lastOf x u (i - s)).sum = A at *
  generalize (lastOf x s i).sum = B at *
  have h1 := mul_le_mul_of_nonneg_right a (show (0 : ℝ) ≤ s by linarith)
  have h2 := mul_lt_mul_of_pos_right b (show (0 : ℝ) < u by linarith)
  nlinarith

end

namespace Smooth
section
variable (data : List XF) (w : ℕ) (hd : Fins data) (hw : 2 ≤ w)
include hd hw

/-- C135: the simple average follows a trend. -/
theorem sma_follows (hn : w ≤ data.length + 1) : FollowsTrend (w - 1) (vals data) (sma data w) :=
  followsTrend_of (Lin.mean w) (lagsTrend_mean hw) (by
    rw [vals_length]
    exact (sma_reports data w (by omega) hn hd).congr fun i h1 h2 => by rw [lastOf_bar (by omega) (by simpa using h2)])

/-- C135: so does the exponential average. -/
theorem ewma_follows (hn : w ≤ data.length) : FollowsTrend (w - 1) (vals data) (ewma data w) :=
  followsTrend_of (Lin.ewma 0 w) (lagsTrend_ewma hw) (by rw [vals_length]; exact ewma_values data w (by omega) hn hd)

/-- C135: so does Wilder's average. -/
theorem wilder_follows (hn : w ≤ data.length) : FollowsTrend (w - 1) (vals data) (wilder data w) :=
  followsTrend_of (Lin.wilder 0 w) (lagsTrend_wilder hw) (by rw [vals_length]; exact wilder_values data w (by omega) hn hd)

/-- C135: so does the linearly weighted average. -/
theorem wma_follows (hn : w ≤ data.length + 1) : FollowsTrend (w - 1) (vals data) (wma data w) :=
  followsTrend_of (Lin.weighted (fun _ => (List.range' 1 w).map fun i : ℕ => (i : ℝ)) fun _ => w) (lagsTrend_weighted hw (by simp) fun y hy => by
      obtain ⟨j, hj, rfl⟩ := List.mem_map.1 hy
      have := (List.mem_range'_1.1 hj).1
      exact_mod_cast (by omega : 0 < j)) (by
    rw [vals_length]
    exact (wma_reports data w (by omega) hn hd).congr fun i h1 h2 => by rw [lastOf_bar (by omega) (by simpa using h2)])

/-- C135: so does the average weighted by a row of Pascal's triangle. -/
theorem pwma_follows (hp : w ≤ 63) (hn : w ≤ data.length + 1) : FollowsTrend (w - 1) (vals data) (pwma data w) :=
  followsTrend_of (Lin.weighted (fun _ => ((List.range w).map fun k => (w - 1).choose k).map fun u : ℕ => (u : ℝ)) fun _ => w)
    (lagsTrend_weighted hw (by simp) fun y hy => by
      obtain ⟨j, hj, rfl⟩ := List.mem_map.1 hy
      obtain ⟨k, hk, rfl⟩ := List.mem_map.1 hj
      have := List.mem_range.1 hk
      exact_mod_cast Nat.choose_pos (by omega)) (by
    rw [vals_length]
    exact (pwma_reports data w (by omega) hp hn hd).congr fun i h1 h2 => by rw [lastOf_bar (by omega) (by simpa using h2)])

/-- C135: so does the average weighted by the Fibonacci numbers. -/
theorem fwma_follows (hn : w ≤ data.length + 1) : FollowsTrend (w - 1) (vals data) (fwma data w) :=
  followsTrend_of (Lin.weighted (fun _ => ((List.range' 1 w).map Nat.fib).map fun u : ℕ => (u : ℝ)) fun _ => w)
    (lagsTrend_weighted hw (by simp) fun y hy => by
      obtain ⟨j, hj, rfl⟩ := List.mem_map.1 hy
      obtain ⟨k, hk, rfl⟩ := List.mem_map.1 hj
      have := (List.mem_range'_1.1 hk).1
      exact_mod_cast Nat.fib_pos.2 (by omega)) (by
    rw [vals_length]
    exact (fwma_reports data w hw hn hd).congr fun i h1 h2 => by rw [lastOf_bar (by omega) (by simpa using h2)])

/-- C135: so does the triangular average. -/
theorem trima_follows (hn : w ≤ data.length + 1) : FollowsTrend (w - 1) (vals data) (trima data w) :=
  followsTrend_of ((Lin.mean (w / 2 + 1)).comp (Lin.mean ((w + 1) / 2))) (lagsTrend_trima hw) (by
    rw [vals_length]; exact trima_values data w (by omega) hn hd)

end

section
variable (data : List XF) (s l : ℕ) (hd : Fins data) (hs : 1 ≤ s) (hl : s < l)
include hd hs hl

/-- C135: in a trend the simple average of the shorter window leads that of the longer one. -/
theorem sma_leads (hn : l ≤ data.length + 1) : FastLeads (s - 1) (l - 1) (vals data) (sma data s) (sma data l) :=
  fastLeads_of (Lin.mean s) (Lin.mean l) (fun x h i _ h2 h3 => mean_short_above h hs hl h2 h3)
    (by rw [vals_length]
        exact (sma_reports data s hs (by omega) hd).congr fun i h1 h2 => by rw [lastOf_bar (by omega) (by simpa using h2)])
    (by rw [vals_length]
        exact (sma_reports data l (by omega) hn hd).congr fun i h1 h2 => by rw [lastOf_bar (by omega) (by simpa using h2)])

/-- C135: so does the exponential average. -/
theorem ewma_leads (hn : l ≤ data.length) : FastLeads (s - 1) (l - 1) (vals data) (ewma data s) (ewma data l) :=
  fastLeads_of (Lin.ewma 0 s) (Lin.ewma 0 l) (fun x h i _ h2 h3 => h.fast_above_slow hs hl i h2 h3)
    (by rw [vals_length]; exact ewma_values data s hs (by omega) hd)
    (by rw [vals_length]; exact ewma_values data l (by omega) hn hd)

end

/-- C135: the hypotheses are met by four prices that rise at every bar. -/
example : FollowsTrend 1 [1, 2, 4, 8] (ewma [.fin 1, .fin 2, .fin 4, .fin 8] 2) ∧ Rising [1, 2, 4, 8] ∧
    FastLeads 1 2 [1, 2, 4, 8] (sma [.fin 1, .fin 2, .fin 4, .fin 8] 2) (sma [.fin 1, .fin 2, .fin 4, .fin 8] 3) := by
  have hv : vals ([.fin 1, .fin 2, .fin 4, .fin 8] : List XF) = [1, 2, 4, 8] := by simp [vals]
  have hd : Fins ([.fin 1, .fin 2, .fin 4, .fin 8] : List XF) := by simp [Fins]
  refine ⟨?_, ?_, ?_⟩
  · have := ewma_follows _ 2 hd (by norm_num) (by simp)
    rwa [hv] at this
  · intro i hi
    simp only [List.length_cons, List.length_nil] at hi
    obtain rfl | rfl | rfl : i = 0 ∨ i = 1 ∨ i = 2 := by omega
    all_goals norm_num [bar]
  · have := sma_leads _ 2 3 hd (by norm_num) (by norm_num) (by simp)
    rwa [hv] at this

end Smooth
end Traquer
