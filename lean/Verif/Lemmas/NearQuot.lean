import Verif.Lemmas.NearSeries
import Verif.Props.ErrorAverages
/-! The rounding error of a quotient whose denominator is at least `m`: the units of the operands are multiplied by `M / m`. -/

namespace Traquer
open FP FloatLit

variable {M m Q : ℝ} {x y : F64} {a b c d k j : ℝ}

/-- The quotient of two approximate numbers of different kinds: the numerator is at most about `P * M`, the denominator about `M`. -/
theorem Nearly.quotP {P : ℝ} (hP : Sized P) (hM : Sized M) (h1 : Nearly (P * M) x a c k) (h2 : Nearly M y b d j) (hm : 0 < m) (hb : m ≤ |b|)
    (hj : 2 * (j * unit64 * M) ≤ m) (hq : |a / b| ≤ Q * P) (hQ : Q ≤ 2 ^ 60) (hk : (k + Q * j) * unit64 * M ≤ m) :
    Nearly P (x / y) (a / b) Q (2 * (k + Q * j) * (M / m) + Q + 3) := by
  refine ⟨?_, hq⟩
  obtain ⟨r, hr, er⟩ := h1.approx
  obtain ⟨s, hs, es⟩ := h2.approx
  have P0 := hP.pos
  have hb0 : 0 < |b| := hm.trans_le hb
  have b0 : b ≠ 0 := abs_pos.1 hb0
  have Q0 : 0 ≤ Q * P := (abs_nonneg _).trans hq
  have hs2 : m / 2 ≤ |s| := by
    have := abs_sub_abs_le_abs_sub b s
    rw [abs_sub_comm] at this
    linarith
  have s0 : 0 < |s| := by linarith
  have sne : s ≠ 0 := abs_pos.1 s0
  have e : r / s - a / b = ((r - a) + a / b * (b - s)) / s := by field_simp; ring
  have num : |(r - a) + a / b * (b - s)| ≤ (k + Q * j) * unit64 * M * P := by
    refine (abs_add_le _ _).trans ?_
    rw [abs_mul, abs_sub_comm b s]
    have := mul_le_mul hq es (abs_nonneg _) Q0
    linarith
  have n0 : 0 ≤ (k + Q * j) * unit64 * M * P := (abs_nonneg _).trans num
  have err : |r / s - a / b| ≤ 2 * ((k + Q * j) * unit64 * M * P) / m := by
    rw [e, abs_div, div_le_div_iff₀ s0 hm]
    have h1 := mul_le_mul_of_nonneg_right num hm.le
    have h2 : (k + Q * j) * unit64 * M * P * m ≤ (k + Q * j) * unit64 * M * P * (2 * |s|) := mul_le_mul_of_nonneg_left (by linarith) n0
    linarith
  have e2 : 2 * ((k + Q * j) * unit64 * M * P) / m ≤ 2 * P := by
    rw [div_le_iff₀ hm]
    have := mul_le_mul_of_nonneg_right hk P0.le
    linarith
  have fit : (Q * P + 2 * P) + (unit64 * (Q * P + 2 * P) + 2⁻¹ ^ 1075) ≤ max64 := hP.fits (by nlinarith) (by linarith)
  have key := accurate64.step (K := Q * P + 2 * P) (rounds_div hr hs sne) err (by linarith) fit
  refine key.mono ?_
  have hu := underflow64 hP.low
  have e3 : 2 * ((k + Q * j) * unit64 * M * P) / m = 2 * (k + Q * j) * (M / m) * unit64 * P := by
    field_simp
  rw [e3]
  generalize (2⁻¹ ^ 1075 : ℝ) = D at hu ⊢
  linarith

/-- The quotient of two approximate numbers, in units of `2^-53`. -/
theorem Nearly.quot (hM : Sized M) (h1 : Nearly M x a c k) (h2 : Nearly M y b d j) (hm : 0 < m) (hb : m ≤ |b|)
    (hj : 2 * (j * unit64 * M) ≤ m) (hq : |a / b| ≤ Q) (hQ : Q ≤ 2 ^ 60) (hk : (k + Q * j) * unit64 * M ≤ m) :
    Nearly 1 (x / y) (a / b) Q (2 * (k + Q * j) * (M / m) + Q + 3) :=
  Nearly.quotP sized_one hM (by rwa [one_mul]) h2 hm hb hj (by rwa [mul_one]) hQ hk

/-- `y` is the quotient `a / b` to within `K` units of rounding times the `p`-th power of the condition number `M / |b|`, whenever
that bound is at most 1. -/
def QuotWithin (M K : ℝ) (p : ℕ) (a b : ℝ) (y : F64) : Prop :=
  b ≠ 0 → K * unit64 * (M / |b|) ^ p ≤ 1 → Approx y (a / b) (K * unit64 * (M / |b|) ^ p)

/-- A quotient of bounded size `Q`. -/
theorem Nearly.quot1 {K : ℝ} (hM : Sized M) (h1 : Nearly M x a c k) (h2 : Nearly M y b d j) (hq : |a| ≤ Q * |b|) (hQ : Q ≤ 2 ^ 60)
    (hQ1 : 1 ≤ Q) (hK : 2 * (k + Q * j) + d * (Q + 3) ≤ K) : QuotWithin M K 1 a b (x / y) := by
  intro b0 hc
  have hb : 0 < |b| := abs_pos.2 b0
  have d0 := h2.c_nonneg hM
  have j0 := h2.k_nonneg hM
  have k0 := h1.k_nonneg hM
  rw [pow_one] at hc ⊢
  have hdb : 1 ≤ d * (M / |b|) := by
    rw [← mul_div_assoc, le_div_iff₀ hb, one_mul]; exact h2.bound
  have hx : K * unit64 * M ≤ |b| := by
    rw [← mul_div_assoc, div_le_iff₀ hb, one_mul] at hc; exact hc
  have uM := hM.unit_nonneg
  have h3 : (2 * (k + Q * j)) * (unit64 * M) ≤ K * (unit64 * M) :=
    mul_le_mul_of_nonneg_right (by nlinarith [mul_nonneg d0 (show 0 ≤ Q + 3 by linarith)]) uM
  have h4 : j * (unit64 * M) ≤ (k + Q * j) * (unit64 * M) := mul_le_mul_of_nonneg_right (by nlinarith) uM
  have h5 : 0 ≤ (k + Q * j) * (unit64 * M) := mul_nonneg (by nlinarith) uM
  have key := Nearly.quot hM h1 h2 (m := |b|) (Q := Q) hb le_rfl (by linarith) (by rw [abs_div, div_le_iff₀ hb]; exact hq) hQ (by linarith)
  refine key.approx.mono ?_
  have hκ : 0 ≤ M / |b| := div_nonneg hM.nonneg hb.le
  have h6 : 2 * (k + Q * j) * (M / |b|) + Q + 3 ≤ K * (M / |b|) := by
    have := mul_le_mul_of_nonneg_right hK hκ
    have := mul_le_mul_of_nonneg_right hdb (show 0 ≤ Q + 3 by linarith)
    linarith
  have := mul_le_mul_of_nonneg_right h6 accurate64.u0
  linarith

/-- A quotient whose size is bounded by that of its numerator only. -/
theorem Nearly.quot2 {K : ℝ} (hM : Sized M) (h1 : Nearly M x a c k) (h2 : Nearly M y b d j) (hcd : d ≤ c) (hc : c ≤ 2 ^ 30) (hK1 : 1 ≤ K)
    (hK : 2 * k * d + 2 * c * j + c * d + 3 * d ^ 2 ≤ K) : QuotWithin M K 2 a b (x / y) := by
  intro b0 hco
  have hb : 0 < |b| := abs_pos.2 b0
  have d0 := h2.c_nonneg hM
  have j0 := h2.k_nonneg hM
  have k0 := h1.k_nonneg hM
  have c0 := d0.trans hcd
  have hκ : 0 ≤ M / |b| := div_nonneg hM.nonneg hb.le
  have hdb : 1 ≤ d * (M / |b|) := by
    rw [← mul_div_assoc, le_div_iff₀ hb, one_mul]; exact h2.bound
  have hMb : M = M / |b| * |b| := by field_simp
  have hab : |a / b| ≤ c * (M / |b|) := by
    rw [abs_div, div_le_iff₀ hb]
    have := h1.bound
    rw [mul_assoc, ← hMb]; exact this
  generalize M / |b| = κ at *
  have hκ2 : κ ^ 2 ≤ 2 ^ 53 := by
    have h1 : unit64 * κ ^ 2 ≤ K * unit64 * κ ^ 2 := by
      rw [mul_assoc]; exact le_mul_of_one_le_left (mul_nonneg accurate64.u0 (sq_nonneg _)) hK1
    have h2 : unit64 * κ ^ 2 ≤ unit64 * 2 ^ 53 := by rw [unit64_eq]; linarith
    exact le_of_mul_le_mul_left h2 unit64_pos
  have hκ3 : κ ≤ 2 ^ 27 := by nlinarith
  have Q0 : 0 ≤ c * κ := mul_nonneg c0 hκ
  have Q1 : 1 ≤ c * κ := hdb.trans (mul_le_mul_of_nonneg_right hcd hκ)
  have hQ : c * κ ≤ 2 ^ 60 := by nlinarith
  have e1 : 2 * (k + c * κ * j) * κ ≤ (2 * k * d + 2 * c * j) * κ ^ 2 := by
    have : k * κ * 1 ≤ k * κ * (d * κ) := mul_le_mul_of_nonneg_left hdb (mul_nonneg k0 hκ)
    nlinarith
  have e2 : c * κ + 3 ≤ (c * d + 3 * d ^ 2) * κ ^ 2 := by
    have : c * κ * 1 ≤ c * κ * (d * κ) := mul_le_mul_of_nonneg_left hdb Q0
    nlinarith
  have e3 : (2 * k * d + 2 * c * j + c * d + 3 * d ^ 2) * κ ^ 2 ≤ K * κ ^ 2 := mul_le_mul_of_nonneg_right hK (sq_nonneg _)
  have e4 : 0 ≤ (c * d + 3 * d ^ 2) * κ ^ 2 := by positivity
  have e5 : 2 * (k + c * κ * j) * κ * unit64 ≤ 1 := by
    have := mul_le_mul_of_nonneg_right (show 2 * (k + c * κ * j) * κ ≤ K * κ ^ 2 by linarith) accurate64.u0
    linarith
  have e6 : 2 * ((k + c * κ * j) * unit64 * M) ≤ |b| := by
    have := mul_le_mul_of_nonneg_right e5 hb.le
    have e : 2 * ((k + c * κ * j) * unit64 * M) = 2 * ((k + c * κ * j) * unit64 * (κ * |b|)) := by rw [← hMb]
    rw [e]; linarith
  have e7 : j * unit64 * M ≤ (k + c * κ * j) * unit64 * M := by
    rw [mul_assoc, mul_assoc]; exact mul_le_mul_of_nonneg_right (by nlinarith) hM.unit_nonneg
  have e8 : 0 ≤ j * unit64 * M := mul_nonneg (mul_nonneg j0 accurate64.u0) hM.nonneg
  have key := Nearly.quot hM h1 h2 (m := |b|) (Q := c * κ) hb le_rfl (by linarith) hab hQ (by linarith)
  refine key.approx.mono ?_
  have e9 : M / |b| = κ := by rw [hMb]; field_simp
  rw [e9]
  have := mul_le_mul_of_nonneg_right (show 2 * (k + c * κ * j) * κ + c * κ + 3 ≤ K * κ ^ 2 by linarith) accurate64.u0
  linarith

/-- A change in percent, computed as `100 * (x / y - 1)`. -/
theorem Nearly.percent {K : ℝ} (hM : Sized M) (h1 : Nearly M x a 1 k) (h2 : Nearly M y b 1 j) (hK : 200 * (k + j) + 1002 ≤ K) :
    QuotWithin M K 2 (100 * (a - b)) b (100 * (x / y - 1)) := by
  intro b0 hco
  have hb : 0 < |b| := abs_pos.2 b0
  have j0 := h2.k_nonneg hM
  have k0 := h1.k_nonneg hM
  have hκ : 0 ≤ M / |b| := div_nonneg hM.nonneg hb.le
  have hdb : 1 ≤ M / |b| := by
    have := h2.bound
    rw [le_div_iff₀ hb]; linarith
  have hMb : M = M / |b| * |b| := by field_simp
  have hab : |a / b| ≤ M / |b| := by
    rw [abs_div, div_le_iff₀ hb]
    have := h1.bound
    rw [← hMb]; linarith
  have e0 : 100 * (a - b) / b = 100 * (a / b - 1) := by field_simp
  rw [e0]
  have e9 : M / |b| = M / |b| := rfl
  generalize hk : M / |b| = κ at *
  have k1 : 1 ≤ κ ^ 2 := one_le_pow₀ hdb
  have k2 : κ ≤ κ ^ 2 := by nlinarith
  have hco' : K * κ ^ 2 ≤ 2 ^ 53 := by
    have h2 : unit64 * (K * κ ^ 2) ≤ unit64 * 2 ^ 53 := by rw [unit64_eq]; linarith
    exact le_of_mul_le_mul_left h2 unit64_pos
  have e1 : 2 * (k + κ * j) * κ ≤ 2 * (k + j) * κ ^ 2 := by nlinarith
  have hK' : (200 * (k + j) + 1002) * κ ^ 2 ≤ K * κ ^ 2 := mul_le_mul_of_nonneg_right hK (sq_nonneg _)
  have kj : 0 ≤ (k + j) * κ ^ 2 := by positivity
  have e5 : 2 * (k + κ * j) * κ * unit64 ≤ 1 := by
    have := mul_le_mul_of_nonneg_right (show 2 * (k + κ * j) * κ ≤ K * κ ^ 2 by linarith) accurate64.u0
    linarith
  have e6 : 2 * ((k + κ * j) * unit64 * M) ≤ |b| := by
    have := mul_le_mul_of_nonneg_right e5 hb.le
    have e : 2 * ((k + κ * j) * unit64 * M) = 2 * ((k + κ * j) * unit64 * (κ * |b|)) := by rw [← hMb]
    rw [e]; linarith
  have e7 : j * unit64 * M ≤ (k + κ * j) * unit64 * M := by
    rw [mul_assoc, mul_assoc]; exact mul_le_mul_of_nonneg_right (by nlinarith) hM.unit_nonneg
  have e8 : 0 ≤ j * unit64 * M := mul_nonneg (mul_nonneg j0 accurate64.u0) hM.nonneg
  have hQ : κ ≤ 2 ^ 53 := by linarith
  have key := Nearly.quot hM h1 h2 (m := |b|) (Q := κ) hb le_rfl (by linarith) hab (by linarith) (by linarith)
  rw [hk] at key
  have s1 := key.sub sized_one (Nearly.exact (M := 1) (c := 1) isOne (by norm_num)) (by linarith) (by linarith)
  have s2 := Nearly.smul sized_one (isLit 100 (by norm_num)) s1 (by norm_num; linarith) (by norm_num; linarith)
  refine s2.approx.mono ?_
  have := mul_le_mul_of_nonneg_right (show 100 * (2 * (k + κ * j) * κ + κ + 3 + 0 + (κ + 1) + 2) + 100 * (κ + 1) + 2 ≤ K * κ ^ 2 by
    linarith) accurate64.u0
  norm_num
  linarith

theorem zip_nans {f : F64 × F64 → F64} (hf : f (nan, nan) = nan) (n : ℕ) (l m : List F64) :
    ((nans n ++ l).zip (nans n ++ m)).map f = nans n ++ (l.zip m).map f := by
  rw [List.zip_append (by simp), List.map_append]
  congr 1
  rw [nans, List.zip_replicate, List.map_replicate, hf, Nat.min_self]

/-- The same number measured in larger units. -/
theorem Nearly.coarser {N : ℝ} (h : Nearly M x a c k) (hM : Sized M) (hN : M ≤ N) : Nearly N x a c k := by
  have k0 := h.k_nonneg hM
  have c0 := h.c_nonneg hM
  refine ⟨h.approx.mono ?_, h.bound.trans (mul_le_mul_of_nonneg_left hN c0)⟩
  exact mul_le_mul_of_nonneg_left hN (mul_nonneg k0 accurate64.u0)

/-- The sum of a list of approximate numbers, in units of the list's length times the bound. -/
theorem near_total (hM : tiny64 ≤ M) (hB : M ≤ 2 ^ 800) {l : List F64} {g : ℕ → ℝ} {n : ℕ} (hl : l.length = n) (h : ∀ i x, l[i]? = some x → Nearly M x (g i) c k)
    (hk : k ≤ 2 ^ 53) (hc : c ≤ 2 ^ 10) (c0 : 0 ≤ c) (hn : n < 2 ^ 32) :
    Nearly (n * M) (fsum l) ((List.range n).map g).sum c (k + (n + 1) * (c + 1)) := by
  subst hl
  have hS := Smooth.sized_of hM hB
  have n32 : (l.length : ℝ) < 2 ^ 32 := by exact_mod_cast hn
  have n0 : (0 : ℝ) ≤ l.length := Nat.cast_nonneg _
  have hb : Bounded ((c + 1) * M) l := fun x hx => by
    obtain ⟨i, hi⟩ := List.mem_iff_getElem?.1 hx
    have p := h i x hi
    obtain ⟨r, hr, er⟩ := p.approx
    refine ⟨r, hr, ?_⟩
    have := abs_near er
    have := p.bound
    have := hS.units hk
    linarith
  have M1 : M ≤ (c + 1) * M := le_mul_of_one_le_left hS.nonneg (by linarith)
  have key := accurate64.near_fsum (M := (c + 1) * M) (by linarith [hS.nonneg]) (underflow64 (hM.trans M1)) (by unfold unit64; norm_num) hb
    (by
      have := mul_le_mul_of_nonneg_right (show (l.length : ℝ) ≤ 2 ^ 53 by linarith) accurate64.u0
      rwa [mul_comm (2 ^ 53) unit64, unit64_eq] at this)
    (by
      have := NearS.room (w := l.length) hS c0 (by nlinarith)
      have : 0 ≤ (l.length : ℝ) * ((c + 1) * M) := mul_nonneg n0 (by linarith [hS.nonneg])
      linarith)
  have hv : ∀ r ∈ (List.range l.length).map g, |r| ≤ c * M := fun r hr => by
    obtain ⟨i, hi, rfl⟩ := List.mem_map.1 hr
    have hi := List.mem_range.1 hi
    exact (h i _ (List.getElem?_eq_getElem hi)).bound
  refine ⟨?_, ?_⟩
  · obtain ⟨r, hr, er⟩ := key
    refine ⟨r, hr, ?_⟩
    have hd : |(vals l).sum - ((List.range l.length).map g).sum| ≤ l.length * (k * unit64 * M) := by
      have e : (vals l).sum - ((List.range l.length).map g).sum = ((List.range l.length).map fun i => (vals l).getD i 0 - g i).sum := by
        have : (vals l).sum = ((List.range l.length).map fun i => (vals l).getD i 0).sum := by
          congr 1
          apply List.ext_getElem?
          intro i
          by_cases hi : i < l.length
          · simp [hi, vals]
          · rw [List.getElem?_eq_none (by simp; omega), List.getElem?_eq_none (by simp; omega)]
        rw [this]
        induction List.range l.length with
        | nil => simp
        | cons a t ih => simp only [List.map_cons, List.sum_cons]; linarith
      rw [e]
      have := abs_sum_bounded (M := k * unit64 * M) (l := (List.range l.length).map fun i => (vals l).getD i 0 - g i) (fun r hr => by
        obtain ⟨i, hi, rfl⟩ := List.mem_map.1 hr
        have hi := List.mem_range.1 hi
        obtain ⟨r, hr, er⟩ := (h i _ (List.getElem?_eq_getElem hi)).approx
        have : (vals l).getD i 0 = r := by simp [vals, hi, hr.2]
        rw [this]; exact er)
      simpa using this
    have := abs_add_le (r - (vals l).sum) ((vals l).sum - ((List.range l.length).map g).sum)
    rw [sub_add_sub_cancel] at this
    linarith
  · have := abs_sum_bounded hv
    rw [List.length_map, List.length_range] at this
    linarith

/-- The mean of a list of approximate numbers. -/
theorem near_average (hM : tiny64 ≤ M) (hB : M ≤ 2 ^ 800) {l : List F64} {g : ℕ → ℝ} {n : ℕ} (hl : l.length = n)
    (h : ∀ i x, l[i]? = some x → Nearly M x (g i) c k) (hk : k ≤ 2 ^ 53) (hc : c ≤ 2 ^ 10) (c0 : 0 ≤ c) (h1 : 1 ≤ n) (hn : n < 2 ^ 32) :
    Nearly M (fsum l / flt n) (mean ((List.range n).map g)) c (k + (n + 5) * (c + 1)) := by
  subst hl
  have hS := Smooth.sized_of hM hB
  have n32 : (l.length : ℝ) < 2 ^ 32 := by exact_mod_cast hn
  have n0 : (0 : ℝ) ≤ l.length := Nat.cast_nonneg _
  have hb : Bounded ((c + 1) * M) l := fun x hx => by
    obtain ⟨i, hi⟩ := List.mem_iff_getElem?.1 hx
    have p := h i x hi
    obtain ⟨r, hr, er⟩ := p.approx
    refine ⟨r, hr, ?_⟩
    have := abs_near er
    have := p.bound
    have := hS.units hk
    linarith
  have M1 : M ≤ (c + 1) * M := le_mul_of_one_le_left hS.nonneg (by linarith)
  have key := accurate64.near_mean (M := (c + 1) * M) (by linarith [hS.nonneg]) (underflow64 (hM.trans M1)) (by unfold unit64; norm_num) hb
    h1 (by omega)
    (by
      have := mul_le_mul_of_nonneg_right (show (l.length : ℝ) ≤ 2 ^ 53 by linarith) accurate64.u0
      rwa [mul_comm (2 ^ 53) unit64, unit64_eq] at this)
    (NearS.room (w := l.length) hS c0 (by nlinarith))
  have hv : ∀ i, 0 ≤ i → i < l.length → |g i| ≤ c * M := fun i _ hi => (h i _ (List.getElem?_eq_getElem hi)).bound
  have e0 : (List.range l.length).map g = lastOf g l.length (l.length - 1) := by
    rw [lastOf]; congr 1; funext j; congr 1; omega
  have e1 : vals l = lastOf (fun i => (vals l).getD i 0) l.length (l.length - 1) := by
    apply List.ext_getElem?
    intro i
    by_cases hi : i < l.length
    · simp [hi, vals, lastOf]
      rw [show l.length - 1 + 1 - l.length + i = i by omega]
      simp [hi]
    · rw [List.getElem?_eq_none (by simp; omega), List.getElem?_eq_none (by simp [lastOf]; omega)]
  refine ⟨?_, ?_⟩
  · obtain ⟨r, hr, er⟩ := key
    refine ⟨r, hr, ?_⟩
    rw [e1] at er
    have hd := mean_lastOf_near (k := 0) (w := l.length) (n := l.length) (v := fun i => (vals l).getD i 0) (v' := g) (e := k * unit64 * M) h1
      (fun i _ hi => by
        obtain ⟨r, hr, er⟩ := (h i _ (List.getElem?_eq_getElem hi)).approx
        have : (vals l).getD i 0 = r := by simp [vals, hi, hr.2]
        rw [this]; exact er) (l.length - 1) (by omega) (by omega)
    rw [e0]
    have := abs_add_le (r - mean (lastOf (fun i => (vals l).getD i 0) l.length (l.length - 1)))
      (mean (lastOf (fun i => (vals l).getD i 0) l.length (l.length - 1)) - mean (lastOf g l.length (l.length - 1)))
    rw [sub_add_sub_cancel] at this
    linarith
  · rw [e0]
    exact mean_lastOf_bounded (k := 0) h1 hv _ (by omega) (by omega)

end Traquer
