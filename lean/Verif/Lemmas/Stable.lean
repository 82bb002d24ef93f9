import Verif.Spec.Stable
import Verif.Lemmas.NearSeries
import Verif.Lemmas.NearWindows
import Verif.Lemmas.Cauchy
import Verif.Lemmas.Range
import Verif.Props.Quantile
import Verif.Props.Superpose
/-!
# Quantities that an error in the data changes by a bounded multiple of the error
-/

namespace Traquer
open FP

/-- Series that differ by at most `e` at every bar before `n` give values that differ by at most `L * e` from bar `k` on. -/
def Lip (k : ℕ) (L : ℝ) (V : (ℕ → ℝ) → ℕ → ℝ) : Prop :=
  ∀ (n : ℕ) (e : ℝ) (x y : ℕ → ℝ), 0 ≤ e → (∀ i, i < n → |x i - y i| ≤ e) → ∀ i, k ≤ i → i < n → |V x i - V y i| ≤ L * e

/-- The lists differ by at most `e` at every place. -/
abbrev NearL (e : ℝ) (l m : List ℝ) : Prop := List.Forall₂ (fun a b => |a - b| ≤ e) l m

namespace Lip
variable {V W : (ℕ → ℝ) → ℕ → ℝ} {k k' : ℕ} {L M : ℝ}

theorem price : Lip 0 1 fun x => x := fun n e x y _ h i _ hi => by rw [one_mul]; exact h i hi

theorem mono (h : Lip k L V) (hk : k ≤ k') (hL : L ≤ M) : Lip k' M V := fun n e x y e0 hx i h1 h2 =>
  (h n e x y e0 hx i (by omega) h2).trans (mul_le_mul_of_nonneg_right hL e0)

theorem sub (h : Lip k L V) (g : Lip k M W) : Lip k (L + M) fun x i => V x i - W x i := fun n e x y e0 hx i h1 h2 => by
  have a := h n e x y e0 hx i h1 h2
  have b := g n e x y e0 hx i h1 h2
  rw [add_mul, show V x i - W x i - (V y i - W y i) = (V x i - V y i) + -(W x i - W y i) by ring]
  exact (abs_add_le _ _).trans (by rw [abs_neg]; linarith)

theorem add (h : Lip k L V) (g : Lip k M W) : Lip k (L + M) fun x i => V x i + W x i := fun n e x y e0 hx i h1 h2 => by
  have a := h n e x y e0 hx i h1 h2
  have b := g n e x y e0 hx i h1 h2
  rw [add_mul, add_sub_add_comm]
  exact (abs_add_le _ _).trans (by linarith)

theorem mul (c : ℝ) (h : Lip k L V) : Lip k (|c| * L) fun x i => c * V x i := fun n e x y e0 hx i h1 h2 => by
  rw [← mul_sub, abs_mul, mul_assoc]
  exact mul_le_mul_of_nonneg_left (h n e x y e0 hx i h1 h2) (abs_nonneg _)

/-- Following one such quantity by another that looks only at bars from `k` on. -/
theorem after (hW : ∀ (n : ℕ) (e : ℝ) (x y : ℕ → ℝ), 0 ≤ e → (∀ i, k ≤ i → i < n → |x i - y i| ≤ e) →
    ∀ i, k' ≤ i → i < n → |W x i - W y i| ≤ M * e) (h : Lip k L V) (hL : 0 ≤ L) : Lip k' (M * L) fun x => W (V x) :=
  fun n e x y e0 hx i h1 h2 => by
    rw [mul_assoc]
    exact hW n (L * e) _ _ (mul_nonneg hL e0) (fun j g1 g2 => h n e x y e0 hx j g1 g2) i h1 h2

/-- A quantity of a window. -/
theorem window {w : ℕ} {g : List ℝ → ℝ} (hg : ∀ (e : ℝ) (l m : List ℝ), 0 ≤ e → l.length = w → NearL e l m → |g l - g m| ≤ L * e) (k : ℕ)
    (n : ℕ) (e : ℝ) (x y : ℕ → ℝ) (e0 : 0 ≤ e) (h : ∀ i, k ≤ i → i < n → |x i - y i| ≤ e) (i : ℕ) (h1 : k + (w - 1) ≤ i) (h2 : i < n) (hw : 1 ≤ w) :
    |g (lastOf x w i) - g (lastOf y w i)| ≤ L * e :=
  hg e _ _ e0 (by simp [lastOf]) (lastOf_forall₂ (k := k) (n := n) h (by omega) h2)

theorem of_window {w : ℕ} {g : List ℝ → ℝ} (hw : 1 ≤ w)
    (hg : ∀ (e : ℝ) (l m : List ℝ), 0 ≤ e → l.length = w → NearL e l m → |g l - g m| ≤ L * e) : Lip (w - 1) L fun x i => g (lastOf x w i) :=
  fun n e x y e0 h i h1 h2 => window hg 0 n e x y e0 (fun j _ hj => h j hj) i (by omega) h2 hw

theorem mean {w : ℕ} (hw : 1 ≤ w) : Lip (w - 1) 1 fun x i => mean (lastOf x w i) :=
  of_window hw fun e l m _ hl h => by
    rw [one_mul]
    exact mean_near h (by rintro rfl; simp at hl; omega)

theorem ewma {w : ℕ} (hw : 1 ≤ w) : Lip (w - 1) 1 (ewmaFrom 0 w) := fun n e x y _ h i h1 h2 => by
  rw [one_mul]
  exact ewmaFrom_near hw (fun j _ hj => h j hj) i (by omega) h2

theorem wilder {w : ℕ} (hw : 1 ≤ w) : Lip (w - 1) 1 (wilderFrom 0 w) := fun n e x y _ h i h1 h2 => by
  rw [one_mul]
  exact wilderFrom_near hw (fun j _ hj => h j hj) i (by omega) h2

theorem weighted {ws : List ℝ} (hu : ∀ u ∈ ws, 0 ≤ u) (hs : 0 < ws.sum) {w : ℕ} (hl : ws.length = w) (hw : 1 ≤ w) :
    Lip (w - 1) 1 fun x i => weightedMean ws (lastOf x w i) :=
  of_window hw fun e l m _ hm h => by
    rw [one_mul]
    exact weightedMean_near hu hs (by omega) h

end Lip

/-! ## Statistics of a list -/

section
variable {e : ℝ} {l m : List ℝ}

theorem NearL.symm (h : NearL e l m) : NearL e m l := by
  refine List.Forall₂.flip (h.imp fun a b hab => ?_)
  show |b - a| ≤ e
  rwa [abs_sub_comm]

theorem NearL.ne_nil (h : NearL e l m) (hl : l ≠ []) : m ≠ [] := by
  rintro rfl
  cases h
  exact hl rfl

theorem NearL.mem (h : NearL e l m) {a : ℝ} (ha : a ∈ l) : ∃ b ∈ m, |a - b| ≤ e := by
  induction h with
  | nil => simp at ha
  | cons hab _ ih =>
    rcases List.mem_cons.1 ha with rfl | ha
    · exact ⟨_, List.mem_cons_self, hab⟩
    · obtain ⟨b, hb, h⟩ := ih ha
      exact ⟨b, List.mem_cons_of_mem _ hb, h⟩

theorem maxOf_stable (h : NearL e l m) (hl : l ≠ []) : |maxOf l - maxOf m| ≤ e := by
  obtain ⟨b, hb, h1⟩ := h.mem (maxOf_mem hl)
  obtain ⟨a, ha, h2⟩ := h.symm.mem (maxOf_mem (h.ne_nil hl))
  have := le_maxOf hb
  have := le_maxOf ha
  rw [abs_le] at *
  constructor <;> linarith

theorem minOf_stable (h : NearL e l m) (hl : l ≠ []) : |minOf l - minOf m| ≤ e := by
  obtain ⟨b, hb, h1⟩ := h.mem (minOf_mem hl)
  obtain ⟨a, ha, h2⟩ := h.symm.mem (minOf_mem (h.ne_nil hl))
  have := minOf_le hb
  have := minOf_le ha
  rw [abs_le] at *
  constructor <;> linarith

theorem sorted_le_iff {s : List ℝ} (hs : s.Pairwise (· ≤ ·)) {k : ℕ} (hk : k < s.length) (c : ℝ) :
    s[k] ≤ c ↔ k < s.countP (· ≤ c) := by
  induction s generalizing k with
  | nil => simp at hk
  | cons a s ih =>
    rw [List.pairwise_cons] at hs
    rw [List.countP_cons]
    by_cases hac : a ≤ c
    · cases k with
      | zero => simp [hac]
      | succ k =>
        simp only [List.getElem_cons_succ, hac, decide_true, if_true]
        rw [ih hs.2 (by simpa using hk)]
        omega
    · have h0 : s.countP (· ≤ c) = 0 := List.countP_eq_zero.2 fun b hb => by
        have := hs.1 b hb
        simp only [decide_eq_true_eq, not_le]; push Not at hac; linarith
      have : c < (a :: s)[k] := by
        push Not at hac
        cases k with
        | zero => simpa using hac
        | succ k => exact hac.trans_le (hs.1 _ (List.getElem_mem _))
      simp only [h0, hac, decide_false]
      constructor
      · intro h; linarith
      · intro h; simp at h

theorem orderStat_le_iff {k : ℕ} (hk : k < l.length) (c : ℝ) : orderStat l k ≤ c ↔ k < l.countP (· ≤ c) := by
  have hk' : k < (l.insertionSort (· ≤ ·)).length := by rwa [List.length_insertionSort]
  rw [orderStat, List.getElem?_eq_getElem hk', Option.getD_some, sorted_le_iff (List.pairwise_insertionSort _ l) hk',
    (List.perm_insertionSort (· ≤ ·) l).countP_eq]

theorem orderStat_stable (h : NearL e l m) {k : ℕ} (hk : k < l.length) : |orderStat l k - orderStat m k| ≤ e := by
  have key : ∀ {l m : List ℝ}, NearL e l m → ∀ {k}, k < l.length → orderStat l k ≤ orderStat m k + e := by
    intro l m h k hk
    have hm : k < m.length := by rw [← h.length_eq]; exact hk
    rw [orderStat_le_iff hk]
    refine ((orderStat_le_iff hm _).1 le_rfl).trans_le ?_
    generalize orderStat m k = b
    clear hk hm
    induction h with
    | nil => simp
    | @cons x y l m hxy _ ih =>
      rw [List.countP_cons, List.countP_cons]
      have : y ≤ b → x ≤ b + e := fun hy => by have := (abs_le.1 hxy).2; linarith
      by_cases hy : y ≤ b
      · simp only [hy, this hy, decide_true, if_true]; omega
      · simp only [hy, decide_false]; split <;> simp_all; omega
  rw [abs_le]
  have h1 := key h hk
  have h2 := key h.symm (k := k) (by rw [← h.length_eq]; exact hk)
  constructor <;> linarith

theorem meanAbsDev_stable (h : NearL e l m) (hl : l ≠ []) : |meanAbsDev l - meanAbsDev m| ≤ 2 * e := by
  have hm := mean_near h hl
  rw [meanAbsDev, meanAbsDev]
  refine mean_near ?_ (by simpa using hl)
  rw [List.forall₂_map_left_iff, List.forall₂_map_right_iff]
  refine h.imp fun a b hab => ?_
  refine (abs_abs_sub_abs_le _ _).trans ?_
  rw [show a - mean l - (b - mean m) = (a - b) + -(mean l - mean m) by ring]
  refine (abs_add_le _ _).trans ?_
  rw [abs_neg]
  linarith

/-- The root mean square of a list of pairs' differences bounds the difference of the root mean squares. -/
theorem sqrt_sum_sub_le {α : Type} (L : List α) (f g : α → ℝ) :
    (Real.sqrt (L.map fun x => f x ^ 2).sum - Real.sqrt (L.map fun x => g x ^ 2).sum) ^ 2 ≤ (L.map fun x => (f x - g x) ^ 2).sum := by
  have hf : 0 ≤ (L.map fun x => f x ^ 2).sum := sum_map_nonneg fun x _ => sq_nonneg _
  have hg : 0 ≤ (L.map fun x => g x ^ 2).sum := sum_map_nonneg fun x _ => sq_nonneg _
  have e : (L.map fun x => (f x - g x) ^ 2).sum = (L.map fun x => f x ^ 2).sum + (L.map fun x => g x ^ 2).sum - 2 * (L.map fun x => f x * g x).sum := by
    rw [show (fun x => (f x - g x) ^ 2) = fun x => (f x ^ 2 + g x ^ 2) - 2 * (f x * g x) by funext x; ring,
      sum_map_sub' L (fun x => f x ^ 2 + g x ^ 2), sum_map_add' L (fun x => f x ^ 2), sum_map_mul L 2 (fun x => f x * g x)]
  have c := cauchy L f g
  have h : (L.map fun x => f x * g x).sum ≤ Real.sqrt (L.map fun x => f x ^ 2).sum * Real.sqrt (L.map fun x => g x ^ 2).sum := by
    rw [← Real.sqrt_mul hf]
    exact Real.le_sqrt_of_sq_le c
  rw [e, sub_sq, Real.sq_sqrt hf, Real.sq_sqrt hg]
  linarith

theorem sum_centered_le {α : Type} (L : List α) (f : α → ℝ) (hL : L ≠ []) :
    (L.map fun x => (f x - (L.map f).sum / L.length) ^ 2).sum ≤ (L.map fun x => f x ^ 2).sum := by
  have hp : (0 : ℝ) < L.length := by exact_mod_cast List.length_pos_iff.2 hL
  set c := (L.map f).sum / L.length with hc
  have hs : (L.map f).sum = L.length * c := by rw [hc]; field_simp
  rw [show (fun x => (f x - c) ^ 2) = fun x => (f x ^ 2 - (2 * c) * f x) + c ^ 2 by funext x; ring,
    sum_map_add' L (fun x => f x ^ 2 - (2 * c) * f x), sum_map_sub' L (fun x => f x ^ 2), sum_map_mul L (2 * c) f, sum_map_const, hs]
  nlinarith [mul_nonneg hp.le (sq_nonneg c)]

theorem stdDev_stable (h : NearL e l m) (hl : l ≠ []) (e0 : 0 ≤ e) : |stdDev l - stdDev m| ≤ e := by
  have hlen : m.length = l.length := h.length_eq.symm
  have hp : (0 : ℝ) < l.length := by exact_mod_cast List.length_pos_iff.2 hl
  have hz : l.zip m ≠ [] := by
    have := List.length_pos_iff.2 hl
    rw [← List.length_pos_iff, List.length_zip, hlen]; simpa using this
  have zl : (l.zip m).length = l.length := by simp [hlen]
  have key := sqrt_sum_sub_le (l.zip m) (fun p => p.1 - mean l) (fun p => p.2 - mean m)
  rw [map_zip_fst hlen fun x => (x - mean l) ^ 2, map_zip_snd hlen fun x => (x - mean m) ^ 2] at key
  have d1 : ((l.zip m).map fun p => (p.1 - mean l - (p.2 - mean m)) ^ 2).sum ≤ ((l.zip m).map fun p => (p.1 - p.2) ^ 2).sum := by
    have := sum_centered_le (l.zip m) (fun p => p.1 - p.2) hz
    rw [sum_map_sub' (l.zip m) (fun p => p.1) fun p => p.2, zip_fst hlen, zip_snd hlen, zl] at this
    refine le_trans (le_of_eq ?_) this
    congr 1
    refine List.map_congr_left fun p _ => ?_
    rw [mean, mean, hlen]; ring
  have d2 : ((l.zip m).map fun p => (p.1 - p.2) ^ 2).sum ≤ l.length * e ^ 2 := by
    rw [← zl, ← sum_map_const (l.zip m) (e ^ 2)]
    refine sum_map_le fun p hp => ?_
    have := (List.forall₂_iff_zip.1 h).2 hp
    rw [← sq_abs]
    exact pow_le_pow_left₀ (abs_nonneg _) this 2
  have s1 : stdDev l = Real.sqrt (l.map fun x => (x - mean l) ^ 2).sum / Real.sqrt l.length := by
    rw [stdDev, moment, mean_of_length (l := List.map _ l) (w := l.length) (by simp), Real.sqrt_div' _ hp.le]
  have s2 : stdDev m = Real.sqrt (m.map fun x => (x - mean m) ^ 2).sum / Real.sqrt l.length := by
    rw [stdDev, moment, mean_of_length (l := List.map _ m) (w := l.length) (by simp [hlen]), Real.sqrt_div' _ hp.le]
  have r0 : 0 < Real.sqrt l.length := Real.sqrt_pos.2 hp
  rw [s1, s2, ← sub_div, abs_div, abs_of_pos r0, div_le_iff₀ r0]
  refine abs_le_of_sq_le_sq ?_ (by positivity)
  rw [mul_pow, Real.sq_sqrt hp.le]
  linarith

end

/-! ## From the values to the answers -/

section
variable {ρ : Rounding} {e : ℝ} {x y : List (FP ρ)}

theorem Off.fins_left (h : Off e x y) : Fins x := by
  intro a ha
  induction h with
  | nil => simp at ha
  | cons hab _ ih =>
    rcases List.mem_cons.1 ha with rfl | ha
    · obtain ⟨r, s, hr, -⟩ := hab; exact hr.1
    · exact ih ha

theorem Off.symm (h : Off e x y) : Off e y x := by
  refine List.Forall₂.flip (h.imp fun a b ⟨r, s, h1, h2, h3⟩ => ⟨s, r, h2, h1, ?_⟩)
  rwa [abs_sub_comm]

theorem Off.fins_right (h : Off e x y) : Fins y := h.symm.fins_left

theorem Off.len (h : Off e x y) : y.length = x.length := h.length_eq.symm

theorem Off.bar (h : Off e x y) {i : ℕ} (hi : i < x.length) : |bar (vals x) i - bar (vals y) i| ≤ e := by
  have hy : i < y.length := by rw [h.len]; exact hi
  have := (List.forall₂_iff_get.1 h).2 i hi hy
  obtain ⟨r, s, h1, h2, h3⟩ := this
  simp only [List.get_eq_getElem] at h1 h2
  simpa [Traquer.bar, vals, hi, hy, h1.2, h2.2] using h3

theorem Off.nonneg (h : Off e x y) (hx : 1 ≤ x.length) : 0 ≤ e := (abs_nonneg _).trans (h.bar (i := 0) hx)

theorem offN_of {n k : ℕ} {u v : ℕ → ℝ} {p q : Option (List (FP ρ))} (hp : Reports n k u p) (hq : Reports n k v q)
    (h : ∀ i, k ≤ i → i < n → |u i - v i| ≤ e) : ∃ a b, p = some a ∧ q = some b ∧ OffN e a b := by
  obtain ⟨a, ea, la, na, va⟩ := hp
  obtain ⟨b, eb, lb, nb, vb⟩ := hq
  refine ⟨a, b, ea, eb, ?_⟩
  rw [OffN, List.forall₂_iff_get]
  refine ⟨by omega, fun i h1 h2 => ?_⟩
  simp only [List.get_eq_getElem]
  rcases Nat.lt_or_ge i k with hi | hi
  · have e1 := na i hi (by omega)
    have e2 := nb i hi (by omega)
    rw [List.getElem?_eq_getElem h1] at e1
    rw [List.getElem?_eq_getElem h2] at e2
    exact .inl ⟨Option.some.inj e1, Option.some.inj e2⟩
  · obtain ⟨z, e1, i1⟩ := va i hi (by omega)
    obtain ⟨z', e2, i2⟩ := vb i hi (by omega)
    rw [List.getElem?_eq_getElem h1] at e1
    rw [List.getElem?_eq_getElem h2] at e2
    rw [Option.some.inj e1, Option.some.inj e2]
    exact .inr ⟨_, _, i1, i2, h i hi (by omega)⟩

end

theorem stable_of {ok : ℕ → Prop} {f : List XF → Option (List XF)} {k : ℕ} {L : ℝ} {V : (ℕ → ℝ) → ℕ → ℝ} (hV : Lip k L V)
    (h : ∀ data, Fins data → ok data.length → Reports data.length k (V (bar (vals data))) (f data)) : Stable L ok f := by
  intro e x y hxy ho
  have r1 := h x hxy.fins_left ho
  have r2 := h y hxy.fins_right (by rw [hxy.len]; exact ho)
  rw [hxy.len] at r2
  exact offN_of r1 r2 fun i h1 h2 => hV x.length e _ _ (hxy.nonneg (by omega)) (fun j hj => hxy.bar hj) i h1 h2

end Traquer
