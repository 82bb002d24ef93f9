import Verif.Spec.Travel
import Verif.Props.Determines
import Verif.Props.Move
/-!
# C125: an average travels no further than the prices it averages (exact arithmetic)
-/

namespace Traquer
open FP FloatLit
open scoped BigOperators

theorem journey_nonneg (v : ℕ → ℝ) (a b : ℕ) : 0 ≤ journey v a b := Finset.sum_nonneg fun _ _ => abs_nonneg _

theorem journey_sub (v : ℕ → ℝ) {a b a' b' : ℕ} (h1 : a' ≤ a) (h2 : b ≤ b') : journey v a b ≤ journey v a' b' :=
  Finset.sum_le_sum_of_subset_of_nonneg (Finset.Ico_subset_Ico h1 h2) fun _ _ _ => abs_nonneg _

theorem journey_succ (v : ℕ → ℝ) {a b : ℕ} (h : a ≤ b) : journey v a (b + 1) = journey v a b + |v (b + 1) - v b| :=
  Finset.sum_Ico_succ_top h _

theorem journey_self (v : ℕ → ℝ) (a : ℕ) : journey v a a = 0 := by simp [journey]

theorem journey_congr {u v : ℕ → ℝ} {a b : ℕ} (h : ∀ i, a ≤ i → i ≤ b → u i = v i) : journey u a b = journey v a b := by
  refine Finset.sum_congr rfl fun i hi => ?_
  obtain ⟨h1, h2⟩ := Finset.mem_Ico.1 hi
  rw [h i h1 (by omega), h (i + 1) (by omega) (by omega)]

/-- Two bars are no further apart than the way between them. -/
theorem journey_dist (v : ℕ → ℝ) {a b : ℕ} (h : a ≤ b) : |v b - v a| ≤ journey v a b := by
  induction b, h using Nat.le_induction with
  | base => simp [journey]
  | succ n hn ih =>
    rw [journey_succ v hn]
    calc |v (n + 1) - v a| = |(v (n + 1) - v n) + (v n - v a)| := by ring_nf
      _ ≤ _ := abs_add_le _ _
      _ ≤ _ := by linarith

/-- From bar `k` on `V` travels at most `c` times as far as its input does from bar `s` on. -/
def Slow (s k : ℕ) (c : ℝ) (V : (ℕ → ℝ) → ℕ → ℝ) : Prop := ∀ x b, k ≤ b → journey (V x) k b ≤ c * journey x s b

theorem Slow.later {s k k' : ℕ} {c : ℝ} {V : (ℕ → ℝ) → ℕ → ℝ} (h : Slow s k c V) (hk : k ≤ k') : Slow s k' c V := fun x b hb =>
  (journey_sub _ hk le_rfl).trans (h x b (by omega))

theorem Slow.comp {s k k' : ℕ} {c d : ℝ} {V W : (ℕ → ℝ) → ℕ → ℝ} (h' : Slow k k' d W) (h : Slow s k c V) (hd : 0 ≤ d) (hk : k ≤ k') :
    Slow s k' (d * c) (fun x => W (V x)) := fun x b hb => by
  have h1 := h' (V x) b hb
  have h2 := mul_le_mul_of_nonneg_left (h x b (by omega)) hd
  linarith

theorem Slow.add {s k : ℕ} {c d : ℝ} {V W : (ℕ → ℝ) → ℕ → ℝ} (h : Slow s k c V) (h' : Slow s k d W) :
    Slow s k (c + d) (fun x i => V x i + W x i) := fun x b hb => by
  have h1 := h x b hb
  have h2 := h' x b hb
  have : journey (fun i => V x i + W x i) k b ≤ journey (V x) k b + journey (W x) k b := by
    unfold journey
    rw [← Finset.sum_add_distrib]
    refine Finset.sum_le_sum fun i _ => ?_
    rw [show V x (i + 1) + W x (i + 1) - (V x i + W x i) = (V x (i + 1) - V x i) + (W x (i + 1) - W x i) by ring]
    exact abs_add_le _ _
  linarith

theorem Slow.mul {s k : ℕ} {c : ℝ} {V : (ℕ → ℝ) → ℕ → ℝ} (h : Slow s k c V) (t : ℝ) : Slow s k (|t| * c) (fun x i => t * V x i) :=
  fun x b hb => by
    have e : journey (fun i => t * V x i) k b = |t| * journey (V x) k b := by
      unfold journey
      rw [Finset.mul_sum]
      refine Finset.sum_congr rfl fun i _ => ?_
      rw [← mul_sub, abs_mul]
    rw [e, mul_assoc]
    exact mul_le_mul_of_nonneg_left (h x b hb) (abs_nonneg _)

theorem Slow.sub {s k : ℕ} {c d : ℝ} {V W : (ℕ → ℝ) → ℕ → ℝ} (h : Slow s k c V) (h' : Slow s k d W) :
    Slow s k (c + d) (fun x i => V x i - W x i) := by
  have := h.add (h'.mul (-1))
  simp only [abs_neg, abs_one, one_mul, neg_mul, ← sub_eq_add_neg] at this
  exact this

theorem Slow.price : Slow 0 0 1 fun x i => x i := fun x b _ => by rw [one_mul]

theorem Slow.ago (L : ℕ) : Slow 0 L 1 fun x i => x (i - L) := fun x b hb => by
  rw [one_mul]
  have e : journey (fun i => x (i - L)) L b = journey x 0 (b - L) := by
    unfold journey
    have := Finset.sum_Ico_add' (fun i => |x (i + 1 - L) - x (i - L)|) 0 (b - L) L
    rw [show b - L + L = b by omega, zero_add] at this
    rw [← this]
    refine Finset.sum_congr rfl fun i _ => ?_
    rw [show i + L + 1 - L = i + 1 by omega, show i + L - L = i by omega]
  rw [e]
  exact journey_sub _ le_rfl (by omega)

/-- Averages of the last `w` values with fixed weights that are not negative and sum to one. -/
theorem Slow.conv {s w : ℕ} (hw : 1 ≤ w) {c : ℕ → ℝ} (h0 : ∀ j, j < w → 0 ≤ c j) (h1 : ∑ j ∈ Finset.range w, c j = 1) {V : (ℕ → ℝ) → ℕ → ℝ}
    (hV : ∀ x i, s + (w - 1) ≤ i → V x i = ∑ j ∈ Finset.range w, c j * x (i + 1 - w + j)) : Slow s (s + (w - 1)) 1 V := fun x b hb => by
  rw [one_mul]
  have e : journey (V x) (s + (w - 1)) b ≤ ∑ i ∈ Finset.Ico (s + (w - 1)) b, ∑ j ∈ Finset.range w,
      c j * |x (i + 1 - w + j + 1) - x (i + 1 - w + j)| := by
    refine Finset.sum_le_sum fun i hi => ?_
    have hi1 := (Finset.mem_Ico.1 hi).1
    rw [hV x (i + 1) (by omega), hV x i hi1, ← Finset.sum_sub_distrib]
    refine (Finset.abs_sum_le_sum_abs _ _).trans (Finset.sum_le_sum fun j hj => ?_)
    rw [show i + 1 + 1 - w + j = i + 1 - w + j + 1 by omega, ← mul_sub, abs_mul, abs_of_nonneg (h0 j (Finset.mem_range.1 hj))]
  refine e.trans ?_
  rw [Finset.sum_comm]
  have f : ∀ j ∈ Finset.range w, ∑ i ∈ Finset.Ico (s + (w - 1)) b, c j * |x (i + 1 - w + j + 1) - x (i + 1 - w + j)| ≤ c j * journey x s b := by
    intro j hj
    have hj := Finset.mem_range.1 hj
    rw [← Finset.mul_sum]
    refine mul_le_mul_of_nonneg_left ?_ (h0 j hj)
    have t := Finset.sum_Ico_add' (fun i => |x (i + 1 - w + j + 1) - x (i + 1 - w + j)|) (s + j) (b - (w - 1 - j)) (w - 1 - j)
    rw [show s + j + (w - 1 - j) = s + (w - 1) by omega, show b - (w - 1 - j) + (w - 1 - j) = b by omega] at t
    rw [← t]
    have u : ∑ i ∈ Finset.Ico (s + j) (b - (w - 1 - j)), |x (i + (w - 1 - j) + 1 - w + j + 1) - x (i + (w - 1 - j) + 1 - w + j)| =
        journey x (s + j) (b - (w - 1 - j)) := Finset.sum_congr rfl fun i hi => by
      have := (Finset.mem_Ico.1 hi).1
      rw [show i + (w - 1 - j) + 1 - w + j = i by omega]
    rw [u]
    exact journey_sub x (by omega) (by omega)
  refine (Finset.sum_le_sum f).trans ?_
  rw [← Finset.sum_mul, h1, one_mul]

theorem zip_map_range (ws : List ℝ) (f : ℕ → ℝ) :
    ((ws.zip ((List.range ws.length).map f)).map fun p => p.1 * p.2).sum = ∑ j ∈ Finset.range ws.length, ws.getD j 0 * f j := by
  induction ws generalizing f with
  | nil => simp
  | cons a t ih =>
    rw [List.length_cons, List.range_succ_eq_map, Finset.sum_range_succ', List.map_cons, List.zip_cons_cons, List.map_cons, List.sum_cons,
      List.map_map, ih (f ∘ Nat.succ)]
    simp [add_comm]

theorem sum_getD (ws : List ℝ) : ws.sum = ∑ j ∈ Finset.range ws.length, ws.getD j 0 := by
  induction ws with
  | nil => simp
  | cons a t ih => rw [List.length_cons, Finset.sum_range_succ', List.sum_cons, ih]; simp [add_comm]

theorem Slow.weighted {s w : ℕ} (hw : 1 ≤ w) {ws : List ℝ} (hl : ws.length = w) (h0 : ∀ c ∈ ws, 0 ≤ c) (h1 : 0 < ws.sum) :
    Slow s (s + (w - 1)) 1 fun x i => weightedMean ws (lastOf x w i) := by
  refine Slow.conv hw (c := fun j => ws.getD j 0 / ws.sum) (fun j hj => ?_) ?_ fun x i hi => ?_
  · have : ws.getD j 0 ∈ ws := by
      rw [List.getD_eq_getElem?_getD, List.getElem?_eq_getElem (by omega)]
      exact List.getElem_mem _
    exact div_nonneg (h0 _ this) h1.le
  · rw [← Finset.sum_div, ← hl, ← sum_getD, div_self h1.ne']
  · rw [weightedMean, lastOf, ← hl, zip_map_range, hl, Finset.sum_div]
    exact Finset.sum_congr rfl fun j _ => by ring

theorem Slow.mean {s w : ℕ} (hw : 1 ≤ w) : Slow s (s + (w - 1)) 1 fun x i => mean (lastOf x w i) := by
  have h1 := Smooth.natCast_pos hw
  refine Slow.conv hw (c := fun _ => 1 / (w : ℝ)) (fun j _ => by positivity) (by simp; field_simp) fun x i hi => ?_
  rw [mean_of_length (show (lastOf x w i).length = w by simp [lastOf]), lastOf, ← Finset.mul_sum, Finset.sum_range, ← List.sum_ofFn]
  rw [div_eq_mul_one_div, mul_comm]
  congr 2
  exact List.ext_getElem (by simp) fun j h1 h2 => by simp

/-- A line that always moves from where it is towards the newest bar. -/
theorem chase {x v : ℕ → ℝ} {a b : ℕ} (h : a ≤ b) (hb : ∀ i, a ≤ i → i < b → Between (v i) (v (i + 1)) (x (i + 1))) :
    journey v a b + |x b - v b| ≤ journey x a b + |x a - v a| := by
  induction b, h using Nat.le_induction with
  | base => simp [journey]
  | succ n hn ih =>
    have ih := ih fun i h1 h2 => hb i h1 (by omega)
    rw [journey_succ v hn, journey_succ x hn]
    have e : |v (n + 1) - v n| + |x (n + 1) - v (n + 1)| = |x (n + 1) - v n| := by
      rcases hb n hn (by omega) with ⟨h1, h2⟩ | ⟨h1, h2⟩
      · rw [abs_of_nonneg (by linarith : 0 ≤ v (n + 1) - v n), abs_of_nonneg (by linarith : 0 ≤ x (n + 1) - v (n + 1)),
          abs_of_nonneg (by linarith : 0 ≤ x (n + 1) - v n)]
        ring
      · rw [abs_of_nonpos (by linarith : v (n + 1) - v n ≤ 0), abs_of_nonpos (by linarith : x (n + 1) - v (n + 1) ≤ 0),
          abs_of_nonpos (by linarith : x (n + 1) - v n ≤ 0)]
        ring
    have t : |x (n + 1) - v n| ≤ |x (n + 1) - x n| + |x n - v n| := by
      rw [show x (n + 1) - v n = (x (n + 1) - x n) + (x n - v n) by ring]
      exact abs_add_le _ _
    linarith

theorem between_step {a p g : ℝ} (h0 : 0 ≤ g) (h1 : g ≤ 1) : Between a (g * (p - a) + a) p := by
  rcases le_total a p with h | h
  · left; constructor <;> nlinarith
  · right; constructor <;> nlinarith

/-- The mean of a stretch is no further from its last bar than the way through the stretch. -/
theorem mean_journey {x : ℕ → ℝ} {s w : ℕ} (hw : 1 ≤ w) : |x (s + w - 1) - mean (lastOf x w (s + w - 1))| ≤ journey x s (s + w - 1) := by
  have h1 := Smooth.natCast_pos hw
  have e : mean (lastOf x w (s + w - 1)) = (∑ j ∈ Finset.range w, x (s + j)) / w := by
    rw [mean_of_length (show (lastOf x w (s + w - 1)).length = w by simp [lastOf]), lastOf, Finset.sum_range, ← List.sum_ofFn]
    congr 2
    exact List.ext_getElem (by simp) fun j h1 h2 => by simp; congr 1; omega
  have d : x (s + w - 1) - mean (lastOf x w (s + w - 1)) = (∑ j ∈ Finset.range w, (x (s + w - 1) - x (s + j))) / w := by
    rw [e, Finset.sum_sub_distrib, Finset.sum_const, Finset.card_range, nsmul_eq_mul]
    field_simp
  rw [d, abs_div, abs_of_pos h1, div_le_iff₀ h1]
  refine (Finset.abs_sum_le_sum_abs _ _).trans ?_
  refine (Finset.sum_le_sum fun j hj => ?_ : _ ≤ ∑ _j ∈ Finset.range w, journey x s (s + w - 1)).trans ?_
  · have hj := Finset.mem_range.1 hj
    exact (journey_dist x (by omega)).trans (journey_sub x (by omega) le_rfl)
  · rw [Finset.sum_const, Finset.card_range, nsmul_eq_mul, mul_comm]

theorem Slow.ewma {k w : ℕ} (hw : 1 ≤ w) : Slow k (k + (w - 1)) 1 (ewmaFrom k w) := fun x b hb => by
  have h1 : (1 : ℝ) ≤ w := by exact_mod_cast hw
  have seed : ewmaFrom k w x (k + w - 1) = Traquer.mean (lastOf x w (k + w - 1)) := by
    obtain ⟨j, e⟩ : ∃ j, k + w - 1 = j := ⟨_, rfl⟩
    rcases j with _ | j
    · rw [e, ewmaFrom, e]
    · rw [e, ewmaFrom, if_pos (by omega), e]
  have c := chase (x := x) (v := ewmaFrom k w x) (a := k + (w - 1)) (b := b) hb fun i h2 h3 => by
    rw [ewmaFrom, if_neg (by omega)]
    have := between_step (a := ewmaFrom k w x i) (p := x (i + 1)) (g := 2 / ((w : ℝ) + 1)) (by positivity)
      (by rw [div_le_one (by positivity)]; linarith)
    rwa [show 2 / ((w : ℝ) + 1) * (x (i + 1) - ewmaFrom k w x i) + ewmaFrom k w x i =
      x (i + 1) * (2 / ((w : ℝ) + 1)) + ewmaFrom k w x i * (1 - 2 / ((w : ℝ) + 1)) by ring] at this
  have m := mean_journey (x := x) (s := k) hw
  rw [← seed, show k + w - 1 = k + (w - 1) by omega] at m
  have n := abs_nonneg (x b - ewmaFrom k w x b)
  have s : journey x k b = journey x k (k + (w - 1)) + journey x (k + (w - 1)) b :=
    (Finset.sum_Ico_consecutive _ (by omega) hb).symm
  linarith

theorem Slow.wilder {k w : ℕ} (hw : 1 ≤ w) : Slow k (k + (w - 1)) 1 (wilderFrom k w) := fun x b hb => by
  have h1 : (1 : ℝ) ≤ w := by exact_mod_cast hw
  have seed : wilderFrom k w x (k + w - 1) = Traquer.mean (lastOf x w (k + w - 1)) := by
    obtain ⟨j, e⟩ : ∃ j, k + w - 1 = j := ⟨_, rfl⟩
    rcases j with _ | j
    · rw [e, wilderFrom, e]
    · rw [e, wilderFrom, if_pos (by omega), e]
  have c := chase (x := x) (v := wilderFrom k w x) (a := k + (w - 1)) (b := b) hb fun i h2 h3 => by
    rw [wilderFrom, if_neg (by omega)]
    have := between_step (a := wilderFrom k w x i) (p := x (i + 1)) (g := 1 / (w : ℝ)) (by positivity)
      (by rw [div_le_one (by positivity)]; linarith)
    rwa [show 1 / (w : ℝ) * (x (i + 1) - wilderFrom k w x i) + wilderFrom k w x i =
      (wilderFrom k w x i * (w - 1) + x (i + 1)) / w by field_simp; ring] at this
  have m := mean_journey (x := x) (s := k) hw
  rw [← seed, show k + w - 1 = k + (w - 1) by omega] at m
  have n := abs_nonneg (x b - wilderFrom k w x b)
  have s : journey x k b = journey x k (k + (w - 1)) + journey x (k + (w - 1)) b :=
    (Finset.sum_Ico_consecutive _ (by omega) hb).symm
  linarith

theorem travels_of {n k : ℕ} {c : ℝ} {V : (ℕ → ℝ) → ℕ → ℝ} {x : ℕ → ℝ} {r : Option (List XF)} (h : Slow 0 k c V) (hr : Reports n k (V x) r) :
    Travels n k c x r := ⟨_, hr, fun b h1 _ => h x b h1⟩

theorem chases_of {n k : ℕ} {v x : ℕ → ℝ} {r : Option (List XF)} (hr : Reports n k v r)
    (h : ∀ i, k ≤ i → i + 1 < n → Between (v i) (v (i + 1)) (x (i + 1))) : Chases n k x r := by
  obtain ⟨out, e, l, -, hv⟩ := hr
  refine ⟨out, e, l, fun a b h1 h2 h3 => ⟨v, fun i g1 g2 => hv i (by omega) (by omega), ?_⟩⟩
  have := chase (x := x) (v := v) h2.le fun i g1 g2 => h i (by omega) (by omega)
  linarith

end Traquer

namespace Traquer.Smooth
open FP FloatLit

/-- C125 -/
theorem sma_travels (data : List XF) (w : ℕ) (hw : 1 ≤ w) (hn : w ≤ data.length + 1) (hd : Fins data) :
    Travels data.length (w - 1) 1 (bar (vals data)) (sma data w) := by
  refine travels_of ((Slow.mean (s := 0) hw).later (by omega)) ((sma_reports data w hw hn hd).congr fun i h1 h2 => ?_)
  rw [lastOf_bar (by omega) (by simpa using h2)]

/-- C125 -/
theorem ewma_travels (data : List XF) (w : ℕ) (hw : 1 ≤ w) (hn : w ≤ data.length) (hd : Fins data) :
    Travels data.length (w - 1) 1 (bar (vals data)) (ewma data w) :=
  travels_of ((Slow.ewma (k := 0) hw).later (by omega)) (ewma_values data w hw hn hd)

/-- C125 -/
theorem wilder_travels (data : List XF) (w : ℕ) (hw : 1 ≤ w) (hn : w ≤ data.length) (hd : Fins data) :
    Travels data.length (w - 1) 1 (bar (vals data)) (wilder data w) :=
  travels_of ((Slow.wilder (k := 0) hw).later (by omega)) (wilder_values data w hw hn hd)

theorem Slow.wma {s w : ℕ} (hw : 1 ≤ w) : Slow s (s + (w - 1)) 1 fun x i => wmaOf w (lastOf x w i) := by
  have := natCast_pos hw
  refine Slow.weighted hw (by simp) (fun c hc => ?_) (by rw [wma_sum]; positivity)
  obtain ⟨j, -, rfl⟩ := List.mem_map.1 hc
  positivity

/-- C125 -/
theorem wma_travels (data : List XF) (w : ℕ) (hw : 1 ≤ w) (hn : w ≤ data.length + 1) (hd : Fins data) :
    Travels data.length (w - 1) 1 (bar (vals data)) (wma data w) := by
  refine travels_of ((Slow.wma (s := 0) hw).later (by omega)) ((wma_reports data w hw hn hd).congr fun i h1 h2 => ?_)
  rw [lastOf_bar (by omega) (by simpa using h2)]

theorem natWeights_sum {l : List ℕ} (h : ∃ a ∈ l, a ≠ 0) : 0 < (l.map fun u : ℕ => (u : ℝ)).sum := by
  obtain ⟨a, ha, h0⟩ := h
  have h1 : (a : ℝ) ≤ (l.map fun u : ℕ => (u : ℝ)).sum := List.single_le_sum (fun x hx => by
    obtain ⟨j, -, rfl⟩ := List.mem_map.1 hx
    positivity) _ (List.mem_map.2 ⟨a, ha, rfl⟩)
  have : (0 : ℝ) < a := by exact_mod_cast Nat.pos_of_ne_zero h0
  linarith

theorem natWeights_nonneg {l : List ℕ} : ∀ c ∈ l.map fun u : ℕ => (u : ℝ), 0 ≤ c := fun c hc => by
  obtain ⟨j, -, rfl⟩ := List.mem_map.1 hc
  positivity

/-- C125 -/
theorem pwma_travels (data : List XF) (w : ℕ) (hw : 1 ≤ w) (hp : w ≤ 63) (hn : w ≤ data.length + 1) (hd : Fins data) :
    Travels data.length (w - 1) 1 (bar (vals data)) (pwma data w) := by
  have g := Slow.weighted (s := 0) (w := w) (ws := ((List.range w).map fun k => (w - 1).choose k).map fun u : ℕ => (u : ℝ)) hw (by simp)
    natWeights_nonneg (natWeights_sum ⟨1, List.mem_map.2 ⟨0, by simp; omega, by simp⟩, by decide⟩)
  refine travels_of (g.later (by omega)) ((pwma_reports data w hw hp hn hd).congr fun i h1 h2 => ?_)
  rw [lastOf_bar (by omega) (by simpa using h2)]

/-- C125 -/
theorem fwma_travels (data : List XF) (w : ℕ) (hw : 2 ≤ w) (hn : w ≤ data.length + 1) (hd : Fins data) :
    Travels data.length (w - 1) 1 (bar (vals data)) (fwma data w) := by
  have g := Slow.weighted (s := 0) (w := w) (ws := ((List.range' 1 w).map Nat.fib).map fun u : ℕ => (u : ℝ)) (by omega) (by simp)
    natWeights_nonneg (natWeights_sum ⟨1, List.mem_map.2 ⟨1, by simp; omega, by simp⟩, by decide⟩)
  refine travels_of (g.later (by omega)) ((fwma_reports data w hw hn hd).congr fun i h1 h2 => ?_)
  rw [lastOf_bar (by omega) (by simpa using h2)]

/-- C125 -/
theorem trima_travels (data : List XF) (w : ℕ) (hw : 1 ≤ w) (hn : w ≤ data.length + 1) (hd : Fins data) :
    Travels data.length (w - 1) 1 (bar (vals data)) (trima data w) := by
  have h := (Slow.mean (s := (w + 1) / 2 - 1) (w := w / 2 + 1) (by omega)).comp
    ((Slow.mean (s := 0) (w := (w + 1) / 2) (by omega)).later (k' := (w + 1) / 2 - 1) (by omega)) zero_le_one (by omega)
  rw [one_mul] at h
  exact travels_of (h.later (by omega)) (trima_values data w hw hn hd)

/-- C125 -/
theorem alma_travels (data : List XF) (w : ℕ) (sigma : XF) (mu : Option XF) (s m : ℝ) (hw : 1 ≤ w) (hn : w ≤ data.length)
    (hs : sigma ⇓ s) (h0 : s ≠ 0) (hm : mu.getD 0.85 ⇓ m) (hd : Fins data) :
    Travels data.length w 1 (bar (vals data)) (alma data w sigma mu) := by
  have hp : ∀ c ∈ almaGauss w s m, 0 < c := fun c hc => by
    obtain ⟨j, -, rfl⟩ := List.mem_map.1 hc
    exact Real.exp_pos _
  have hl : (almaGauss w s m).length = w := by simp [almaGauss]
  have hsum : 0 < (almaGauss w s m).reverse.sum := by
    rw [List.sum_reverse]
    exact List.sum_pos _ hp fun e => by rw [e] at hl; simp at hl; omega
  refine travels_of ((Slow.weighted (s := 0) (ws := (almaGauss w s m).reverse) hw (by simp [hl])
    (fun c hc => (hp c (List.mem_reverse.1 hc)).le) hsum).later (by omega)) ((alma_reports data w sigma mu s m hw hn hs h0 hm hd).congr fun i h1 h2 => ?_)
  rw [lastOf_bar (by omega) (by simpa using h2)]
  have l := recent_length (l := vals data) (show w ≤ i + 1 by omega) (by simpa using h2)
  simp only [weightedMean, List.sum_reverse]
  congr 1
  have e : ((almaGauss w s m).reverse.zip (recent (vals data) w i)) = ((almaGauss w s m).zip (recent (vals data) w i).reverse).reverse := by
    show List.zipWith Prod.mk _ _ = (List.zipWith Prod.mk _ _).reverse
    rw [List.reverse_zipWith (by rw [List.length_reverse, hl, l]), List.reverse_reverse]
  rw [e, List.map_reverse, List.sum_reverse]

theorem Slow.ema1 {w : ℕ} (hw : 1 ≤ w) : Slow 0 (1 * (w - 1)) 1 (ema1 w) := (Slow.ewma (k := 0) hw).later (by omega)

theorem Slow.step {w m : ℕ} {V : (ℕ → ℝ) → ℕ → ℝ} (h : Slow 0 (m * (w - 1)) 1 V) (hw : 1 ≤ w) :
    Slow 0 ((m + 1) * (w - 1)) 1 (fun x => ewmaFrom (m * (w - 1)) w (V x)) := by
  have e : (m + 1) * (w - 1) = m * (w - 1) + (w - 1) := by ring
  have := (Slow.ewma (k := m * (w - 1)) hw).comp h zero_le_one (by omega)
  rw [one_mul] at this
  rwa [e]

theorem Slow.ema2 {w : ℕ} (hw : 1 ≤ w) : Slow 0 (2 * (w - 1)) 1 (ema2 w) := by
  have := Slow.step (Slow.ema1 hw) hw
  simpa only [one_mul] using this

theorem Slow.weaken {s k : ℕ} {c d : ℝ} {V : (ℕ → ℝ) → ℕ → ℝ} (h : Slow s k c V) (hc : c ≤ d) : Slow s k d V := fun x b hb =>
  (h x b hb).trans (mul_le_mul_of_nonneg_right hc (journey_nonneg _ _ _))

/-- C125: `dema` overshoots, but travels at most three times as far as the prices. -/
theorem dema_travels (data : List XF) (w : ℕ) (hw : 1 ≤ w) (hn : 2 * w ≤ data.length + 1) (hd : Fins data) :
    Travels data.length (2 * (w - 1)) 3 (bar (vals data)) (dema data w) := by
  have h := (((Slow.ema1 hw).later (by omega)).mul 2).sub (Slow.ema2 hw)
  exact travels_of (Slow.weaken h (by norm_num)) (dema_reports data w hw hn hd)

/-- C125 -/
theorem tema_travels (data : List XF) (w : ℕ) (hw : 1 ≤ w) (hn : 3 * w ≤ data.length + 2) (hd : Fins data) :
    Travels data.length (3 * (w - 1)) 7 (bar (vals data)) (tema data w) := by
  have h := ((((Slow.ema1 hw).later (by omega)).mul 3).sub (((Slow.ema2 hw).later (by omega)).mul 3)).add (Slow.step (Slow.ema2 hw) hw)
  exact travels_of (Slow.weaken h (by norm_num)) (tema_reports data w hw hn hd)

/-- C125: `t3` travels at most `(1 + 2g)³` times as far as the prices, `g` its volume factor. -/
theorem t3_travels (data : List XF) (w : ℕ) (factor : Option XF) (f : ℝ) (hw : 1 ≤ w) (hn : 6 * w ≤ data.length + 5)
    (hf : factor.getD 0.7 ⇓ f) (hd : Fins data) :
    Travels data.length (6 * (w - 1)) ((1 + 2 * max 0 (min f 1)) ^ 3) (bar (vals data)) (t3 data w factor) := by
  have g3 := Slow.step (Slow.ema2 hw) hw
  have g4 := Slow.step g3 hw
  have g5 := Slow.step g4 hw
  have g6 := Slow.step g5 hw
  norm_num only at g3 g4 g5 g6
  have hr := t3_reports data w factor f hw hn hf hd
  dsimp only at hr
  have hg0 : 0 ≤ max 0 (min f 1) := le_max_left _ _
  generalize max 0 (min f 1) = g at hr hg0 ⊢
  have h := (((g6.mul (-g ^ 3)).add ((g5.later (k' := 6 * (w - 1)) (by omega)).mul (3 * g ^ 2 + 3 * g ^ 3))).add
    ((g4.later (k' := 6 * (w - 1)) (by omega)).mul (-3 * g - 6 * g ^ 2 - 3 * g ^ 3))).add
    ((g3.later (k' := 6 * (w - 1)) (by omega)).mul (1 + 3 * g + 3 * g ^ 2 + g ^ 3))
  refine travels_of (Slow.weaken h ?_) hr
  have p2 := pow_nonneg hg0 2
  have p3 := pow_nonneg hg0 3
  rw [abs_of_nonpos (by linarith : -g ^ 3 ≤ 0), abs_of_nonneg (by linarith : 0 ≤ 3 * g ^ 2 + 3 * g ^ 3),
    abs_of_nonpos (by linarith : -3 * g - 6 * g ^ 2 - 3 * g ^ 3 ≤ 0), abs_of_nonneg (by linarith : 0 ≤ 1 + 3 * g + 3 * g ^ 2 + g ^ 3)]
  nlinarith

/-- C125 -/
theorem hull_travels (data : List XF) (w : ℕ) (hw : 1 ≤ w) (hb : w < 2 ^ 64) (hn : w ≤ data.length + 1) (hd : Fins data) :
    Travels data.length (w - 1 + (Nat.sqrt w - 1)) 3 (bar (vals data)) (hull data w) := by
  have hs : 1 ≤ Nat.sqrt w := Nat.sqrt_pos.2 (by omega)
  have h := (Slow.wma (s := w - 1) hs).comp ((((Slow.wma (s := 0) (w := (w + 1) / 2) (by omega)).later (k' := w - 1) (by omega)).mul 2).sub
    ((Slow.wma (s := 0) hw).later (k' := w - 1) (by omega))) zero_le_one (by omega)
  exact travels_of (Slow.weaken h (by norm_num)) (hull_values data w hw hb hn hd)

/-- C125 -/
theorem zlma_travels (data : List XF) (w : ℕ) (hw : 1 ≤ w) (hn : (w - 1) / 2 + w ≤ data.length) (hd : Fins data) :
    Travels data.length ((w - 1) / 2 + (w - 1)) 3 (bar (vals data)) (zlma data w) := by
  have h := (Slow.ewma (k := (w - 1) / 2) hw).comp (((Slow.price.later (k' := (w - 1) / 2) (by omega)).mul 2).sub (Slow.ago ((w - 1) / 2)))
    zero_le_one (by omega)
  exact travels_of (Slow.weaken h (by norm_num)) (zlma_reports data w hw hn hd)

/-- C125 -/
theorem ewma_chases (data : List XF) (w : ℕ) (hw : 1 ≤ w) (hn : w ≤ data.length) (hd : Fins data) :
    Chases data.length (w - 1) (bar (vals data)) (ewma data w) := by
  refine chases_of (ewma_values data w hw hn hd) fun i h1 h2 => ?_
  have h1' : (1 : ℝ) ≤ w := by exact_mod_cast hw
  rw [ewmaFrom, if_neg (by omega)]
  have := between_step (a := ewmaFrom 0 w (bar (vals data)) i) (p := bar (vals data) (i + 1)) (g := 2 / ((w : ℝ) + 1)) (by positivity)
    (by rw [div_le_one (by positivity)]; linarith)
  rwa [show ∀ a p g : ℝ, g * (p - a) + a = p * g + a * (1 - g) by intros; ring] at this

/-- C125 -/
theorem wilder_chases (data : List XF) (w : ℕ) (hw : 1 ≤ w) (hn : w ≤ data.length) (hd : Fins data) :
    Chases data.length (w - 1) (bar (vals data)) (wilder data w) := by
  refine chases_of (wilder_values data w hw hn hd) fun i h1 h2 => ?_
  have h1' : (1 : ℝ) ≤ w := by exact_mod_cast hw
  rw [wilderFrom, if_neg (by omega)]
  have := between_step (a := wilderFrom 0 w (bar (vals data)) i) (p := bar (vals data) (i + 1)) (g := 1 / (w : ℝ)) (by positivity)
    (by rw [div_le_one (by positivity)]; linarith)
  rwa [show 1 / (w : ℝ) * (bar (vals data) (i + 1) - wilderFrom 0 w (bar (vals data)) i) + wilderFrom 0 w (bar (vals data)) i =
      (wilderFrom 0 w (bar (vals data)) i * (w - 1) + bar (vals data) (i + 1)) / w by field_simp; ring] at this

theorem adaptive_chases {n k K : ℕ} {g x : ℕ → ℝ} {r : Option (List XF)} (hr : Reports n K (adaptive k g x) r) (hk : k ≤ K + 1)
    (hg : ∀ i, K < i → i < n → 0 ≤ g i ∧ g i ≤ 1) : Chases n K x r := by
  refine chases_of hr fun i h1 h2 => ?_
  rw [adaptive, if_neg (by omega)]
  obtain ⟨g0, g1⟩ := hg (i + 1) (by omega) h2
  exact between_step g0 g1

/-- C125: `kama` with factors of 1 or more. -/
theorem kama_chases (data : List XF) (w : ℕ) (short long : Option ℕ) (hw : 2 ≤ w) (hs : 1 ≤ short.getD 2) (hl : 1 ≤ long.getD 30)
    (hn : w ≤ data.length + 1) (hd : Fins data)
    (hm : ∀ i, w ≤ i + 1 → i < data.length → ((changes (recent (vals data) w i)).map fun c => |c|).sum ≠ 0) :
    Chases data.length (w - 1) (bar (vals data)) (kama data w short long) := by
  refine adaptive_chases (kama_reports data w short long hw hn hd hm) (by omega) fun i h1 h2 => ?_
  have he : 0 ≤ efficiency (recent (vals data) w i) ∧ efficiency (recent (vals data) w i) ≤ 1 :=
    efficiency_mem (recent_ne_nil (by omega) (by omega) (by simpa [vals] using h2))
  generalize efficiency (recent (vals data) w i) = e at he ⊢
  have h2' : ∀ k : ℕ, 1 ≤ k → 0 ≤ 2 / ((k : ℝ) + 1) ∧ 2 / ((k : ℝ) + 1) ≤ 1 := fun k hk => by
    have : (1 : ℝ) ≤ k := by exact_mod_cast hk
    exact ⟨by positivity, by rw [div_le_one (by positivity)]; linarith⟩
  obtain ⟨s0, s1⟩ := h2' _ hs
  obtain ⟨l0, l1⟩ := h2' _ hl
  generalize 2 / (((short.getD 2 : ℕ) : ℝ) + 1) = s at *
  generalize 2 / (((long.getD 30 : ℕ) : ℝ) + 1) = l at *
  have a : 0 ≤ e * (s - l) + l := by nlinarith
  have b : e * (s - l) + l ≤ 1 := by nlinarith
  exact ⟨by positivity, by nlinarith⟩

/-- C125: `vma`. -/
theorem vma_chases (data : List XF) (w : ℕ) (hw : 1 ≤ w) (hn : max w 9 ≤ data.length) (hd : Fins data)
    (hm : ∀ i, 9 ≤ i → i < data.length → (rises (recent (vals data) 10 i)).sum + (falls (recent (vals data) 10 i)).sum ≠ 0) :
    Chases data.length (max w 9) (bar (vals data)) (vma data w) := by
  refine adaptive_chases (vma_reports data w hn hd hm) (by omega) fun i h1 h2 => ?_
  have h1' : (1 : ℝ) ≤ w := by exact_mod_cast hw
  have r0 : 0 ≤ (rises (recent (vals data) 10 i)).sum := List.sum_nonneg fun x hx => by
    obtain ⟨p, -, rfl⟩ := List.mem_map.1 hx
    exact le_max_left _ _
  have f0 : 0 ≤ (falls (recent (vals data) 10 i)).sum := List.sum_nonneg fun x hx => by
    obtain ⟨p, -, rfl⟩ := List.mem_map.1 hx
    exact le_max_left _ _
  have ne := hm i (by omega) h2
  generalize (rises (recent (vals data) 10 i)).sum = r at *
  generalize (falls (recent (vals data) 10 i)).sum = f at *
  have q : |(r - f) / (r + f)| ≤ 1 := by
    rw [abs_div, abs_of_nonneg (by linarith : 0 ≤ r + f), div_le_one (lt_of_le_of_ne (by linarith) (Ne.symm ne)), abs_le]
    constructor <;> linarith
  have a : 2 / ((w : ℝ) + 1) ≤ 1 := by rw [div_le_one (by positivity)]; linarith
  have a0 : 0 ≤ 2 / ((w : ℝ) + 1) := by positivity
  exact ⟨mul_nonneg a0 (abs_nonneg _), by nlinarith [abs_nonneg ((r - f) / (r + f))]⟩

/-- C125: `frama`. -/
theorem frama_chases (data : List XF) (w : ℕ) (hw : 2 ≤ w) (he : w % 2 = 0) (hn : w ≤ data.length + 1) (hd : Fins data)
    (hb : ∀ x ∈ vals data, |x| ≤ f64Max) (hr : ∀ i, w ≤ i + 1 → i < data.length → rangeOf (recent (vals data) w i) ≠ 0) :
    ∃ out, frama data w = some (.ok out) ∧ Chases data.length (w - 1) (bar (vals data)) (some out) := by
  obtain ⟨out, e, h⟩ := frama_reports data w hw he hn hd hb hr
  refine ⟨out, e, adaptive_chases h (by omega) fun i _ _ => ?_⟩
  unfold fractalGain
  split
  · norm_num
  · exact ⟨le_trans (by norm_num) (le_max_left _ _), max_le (by norm_num) (min_le_right _ _)⟩

end Traquer.Smooth

namespace Traquer.Momentum
open FP FloatLit

/-- C125: the difference of two exponential averages travels at most twice as far as the prices. -/
theorem macd_travels (close : List XF) (short long : ℕ) (hs : 1 ≤ short) (hl : 1 ≤ long) (hn : max short long ≤ close.length)
    (hd : Fins close) : Travels close.length (max short long - 1) 2 (bar (vals close)) (macd close short long) := by
  have h := ((Smooth.Slow.ema1 hs).later (k' := max short long - 1) (by omega)).sub ((Smooth.Slow.ema1 hl).later (k' := max short long - 1) (by omega))
  exact travels_of (Smooth.Slow.weaken h (by norm_num)) (macd_reports close short long hs hl hn hd)

/-- C125 -/
theorem apo_travels (data : List XF) (short long : ℕ) (hs : 1 ≤ short) (hl : 1 ≤ long) (hn : max short long ≤ data.length)
    (hd : Fins data) : Travels data.length (max short long - 1) 2 (bar (vals data)) (apo data short long) :=
  macd_travels data short long hs hl hn hd

end Traquer.Momentum

namespace Traquer
open FP FloatLit

/-- The zigzag 0 8 0 travels 16, its 2-bar average not at all. -/
example : journey (bar [0, 8, 0]) 0 2 = 16 ∧ journey (fun i => mean (recent [0, 8, 0] 2 i)) 1 2 = 0 := by
  constructor
  · simp [journey, bar, Finset.sum_range_succ]; norm_num
  · simp [journey, mean, recent]; norm_num
example := Smooth.hull_travels ([1, 4, 2, 8, 5].map fin) 4 (by decide) (by norm_num) (by simp) (fins_map_fin _)
example := Smooth.t3_travels ([1, 4, 2, 8, 5, 7, 9].map fin) 2 (some (fin (7 / 10))) (7 / 10) (by decide) (by simp) (is_fin _) (fins_map_fin _)
example := Smooth.ewma_chases ([1, 4, 2, 8, 5].map fin) 3 (by decide) (by simp) (fins_map_fin _)
example := Momentum.macd_travels ([1, 4, 2, 8, 5].map fin) 2 3 (by decide) (by decide) (by simp) (fins_map_fin _)

end Traquer
