import Verif.Props.Error
import Verif.Model.Momentum
/-!
# C74: rounding errors of the dispersion measures and of macd in binary64 arithmetic
-/

namespace Traquer
open FP FloatLit

variable {ρ : Rounding} {u η B : ℝ}

theorem FP.Rounds.is_rnd {x : FP ρ} {a t : ℝ} (h : Rounds x a) (ht : x ⇓ t) : ρ.fits (ρ.rnd a) ∧ t = ρ.rnd a := by
  rcases h.cases with ⟨f, i⟩ | ⟨-, rfl⟩
  · exact ⟨f, ht.unique i⟩
  · exact ht.1.elim

/-- `1 * y` is `y` for a rounded number. -/
theorem one_mul_rounded {y : FP ρ} {a t : ℝ} (h : Rounds y a) (ht : y ⇓ t) : 1 * y ⇓ t := by
  obtain ⟨f, rfl⟩ := h.is_rnd ht
  have h1 := rounds_mul (isOne (ρ := ρ)) ht
  rw [one_mul] at h1
  rcases h1.cases with ⟨-, i⟩ | ⟨n, -⟩
  · rwa [ρ.idem] at i
  · rw [ρ.idem] at n
    exact absurd f n

theorem powi_sq (x : FP ρ) : powi x 2 = 1 * (x * x) := by
  rw [powi, powiLoop, dif_neg (by norm_num)]
  simp only [show 2 % 2 = 0 from rfl, show 2 / 2 = 1 from rfl]
  rw [if_neg (by norm_num), if_neg (by norm_num), powiLoop, dif_neg (by norm_num)]
  simp

/-- Two means of values that differ by at most `e`. -/
theorem mean_near {e : ℝ} {l m : List ℝ} (h : List.Forall₂ (fun a b => |a - b| ≤ e) l m) (hl : l ≠ []) : |mean l - mean m| ≤ e := by
  have hs : |l.sum - m.sum| ≤ l.length * e := by
    clear hl
    induction h with
    | nil => simp
    | cons h _ ih =>
      simp only [List.sum_cons, List.length_cons]
      push_cast
      rw [add_sub_add_comm]
      refine (abs_add_le _ _).trans ?_
      linarith
  have n0 : (0 : ℝ) < l.length := by exact_mod_cast List.length_pos_iff.2 hl
  rw [mean, mean, ← h.length_eq, ← sub_div, abs_div, abs_of_pos n0, div_le_iff₀ n0]
  linarith

/-- A mean of computed items. -/
theorem Accurate.mean_map (A : Accurate ρ u η B) {α : Type} {M e : ℝ} (hM : 0 ≤ M) (hη : η ≤ u * M) (hu : u ≤ 1 / 4) {l : List α}
    {f : α → FP ρ} {g : α → ℝ} (hf : ∀ x ∈ l, Approx (f x) (g x) e) (hg : ∀ x ∈ l, |g x| + e ≤ M) (h1 : 1 ≤ l.length)
    (h53 : l.length ≤ 2 ^ 53) (hn : l.length * u ≤ 1) (hB : 4 * l.length * M ≤ B) :
    Approx (fsum (l.map f) / flt l.length) (mean (l.map g)) (e + u * M * (l.length + 5)) := by
  have hb : Bounded M (l.map f) := fun y hy => by
    obtain ⟨x, hx, rfl⟩ := List.mem_map.1 hy
    obtain ⟨r, h1, h2⟩ := hf x hx
    exact ⟨r, h1, (abs_near h2).trans (hg x hx)⟩
  have := A.near_mean hM hη hu hb (by simpa using h1) (by simpa using h53) (by simpa using hn) (by simpa using hB)
  simp only [List.length_map] at this
  obtain ⟨r, hr, er⟩ := this
  refine ⟨r, hr, ?_⟩
  have h2 : |mean (vals (l.map f)) - mean (l.map g)| ≤ e := by
    refine mean_near ?_ (by rw [← List.length_pos_iff]; simp; omega)
    rw [vals, List.map_map]
    clear hb hr er h1 h53 hn hB hg
    induction l with
    | nil => exact .nil
    | cons x l ih =>
      refine .cons ?_ (ih fun y hy => hf y (List.mem_cons_of_mem _ hy))
      obtain ⟨r, h1, h2⟩ := hf x (by simp)
      simpa [h1.2] using h2
  have := abs_add_le (r - mean (vals (l.map f))) (mean (vals (l.map f)) - mean (l.map g))
  rw [sub_add_sub_cancel] at this
  linarith

/-- The deviation of a value from the computed mean of its window. -/
theorem Accurate.dev (A : Accurate ρ u η B) {M : ℝ} {l : List (FP ρ)} (hM : 0 ≤ M) (hη : η ≤ u * M) (hb : Bounded M l)
    (h1 : 1 ≤ l.length) (h53 : l.length ≤ 2 ^ 53) (hn : ((l.length : ℝ) + 9) * u ≤ 1) (hB : 4 * l.length * M ≤ B) {x : FP ρ}
    (hx : x ∈ l) :
    Approx (x - fsum l / flt l.length) (x.val - mean (vals l)) (((l.length : ℝ) + 9) * (u * M)) ∧ |x.val - mean (vals l)| ≤ 2 * M := by
  have u0 := A.u0
  have uM : 0 ≤ u * M := mul_nonneg u0 hM
  have n1 : (1 : ℝ) ≤ l.length := by exact_mod_cast h1
  obtain ⟨t, ht, et⟩ := A.near_mean hM hη (by nlinarith) hb h1 h53 (by nlinarith) hB
  obtain ⟨r, hr, er⟩ := hb x hx
  have hm : |mean (vals l)| ≤ M :=
    abs_le.2 (within_mean (fun y hy => abs_le.1 (hb.vals y hy)) (by rw [← List.length_pos_iff]; simp; omega))
  have hc : |x.val - mean (vals l)| ≤ 2 * M := by
    rw [hr.2]
    have := abs_sub r (mean (vals l))
    linarith
  refine ⟨?_, hc⟩
  have hd : u * M * (l.length + 5) ≤ M := by nlinarith
  have := A.step (K := 3 * M) (rounds_sub hr ht) (c := x.val - mean (vals l)) (e := u * M * (l.length + 5))
    (by rw [hr.2, sub_sub_sub_cancel_left, abs_sub_comm]; exact et)
    (by linarith)
    (by nlinarith)
  exact this.mono (by nlinarith)

theorem foldl_add_map {α : Type} {F : Type} [FloatOps F] (f : α → F) (l : List α) :
    l.foldl (fun acc x => acc + f x) 0 = fsum (l.map f) := by
  rw [fsum, List.foldl_map]

theorem Accurate.mad_win (A : Accurate ρ u η B) {M : ℝ} {l : List (FP ρ)} (hM : 0 ≤ M) (hη : η ≤ u * M) (hb : Bounded M l)
    (h1 : 1 ≤ l.length) (h53 : l.length ≤ 2 ^ 53) (hn : ((l.length : ℝ) + 9) * u ≤ 1) (hB : 12 * l.length * M ≤ B) :
    Approx (l.foldl (fun acc x => acc + fabs (x - Distribution.winMean l l.length)) 0 / flt l.length) (meanAbsDev (vals l))
      (4 * ((l.length : ℝ) + 6) * u * M) := by
  have u0 := A.u0
  have uM : 0 ≤ u * M := mul_nonneg u0 hM
  have n1 : (1 : ℝ) ≤ l.length := by exact_mod_cast h1
  have nM : 0 ≤ (l.length : ℝ) * M := by positivity
  have := A.mean_map (M := 3 * M) (e := ((l.length : ℝ) + 9) * (u * M)) (by linarith) (by linarith) (by nlinarith) (l := l)
    (f := fun x => fabs (x - Distribution.winMean l l.length)) (g := fun x => |x.val - mean (vals l)|)
    (fun x hx => by
      obtain ⟨⟨r, h1, h2⟩, -⟩ := A.dev hM hη hb h1 h53 hn (by nlinarith) hx
      exact ⟨_, is_abs h1, (abs_abs_sub_abs_le _ _).trans h2⟩)
    (fun x hx => by
      have := (A.dev hM hη hb h1 h53 hn (by nlinarith) hx).2
      rw [abs_abs]
      nlinarith)
    h1 h53 (by nlinarith) (by nlinarith)
  rw [foldl_add_map, meanAbsDev, vals, List.map_map]
  exact this.mono (by nlinarith)

theorem Accurate.var_win (A : Accurate ρ u η B) {M : ℝ} {l : List (FP ρ)} (hM : 0 ≤ M) (hη : η ≤ u * M) (hη2 : η ≤ u * M ^ 2)
    (hb : Bounded M l) (h1 : 1 ≤ l.length) (h53 : l.length ≤ 2 ^ 53) (hn : ((l.length : ℝ) + 9) * u ≤ 1)
    (hB : 4 * l.length * M ≤ B) (hB2 : 40 * l.length * M ^ 2 ≤ B) :
    Approx (Distribution.powDev l (Distribution.winMean l l.length) 2 / flt l.length) (moment 2 (vals l))
      (15 * ((l.length : ℝ) + 7) * u * M ^ 2) := by
  have u0 := A.u0
  have uM : 0 ≤ u * M := mul_nonneg u0 hM
  have M2 : 0 ≤ M ^ 2 := by positivity
  have uM2 : 0 ≤ u * M ^ 2 := by positivity
  have n1 : (1 : ℝ) ≤ l.length := by exact_mod_cast h1
  have nM2 : M ^ 2 ≤ (l.length : ℝ) * M ^ 2 := by nlinarith
  have u10 : u ≤ 1 / 10 := by nlinarith
  have u10M : u * M ^ 2 ≤ 1 / 10 * M ^ 2 := mul_le_mul_of_nonneg_right u10 M2
  have hd' : ((l.length : ℝ) + 9) * (u * M) ≤ M := by nlinarith
  have hd0 : 0 ≤ ((l.length : ℝ) + 9) * (u * M) := by positivity
  have hdM : ((l.length : ℝ) + 9) * (u * M) * M ≤ M ^ 2 := by nlinarith
  have := A.mean_map (M := 10 * M ^ 2) (e := 5 * ((l.length : ℝ) + 11) * (u * M ^ 2)) (by linarith) (by linarith) (by nlinarith) (l := l)
    (f := fun x => powi (x - Distribution.winMean l l.length) 2) (g := fun x => (x.val - mean (vals l)) ^ 2)
    (fun x hx => by
      obtain ⟨⟨r, h1, h2⟩, h3⟩ := A.dev hM hη hb h1 h53 hn (by nlinarith) hx
      set c := x.val - mean (vals l)
      have hr : |r| ≤ 3 * M := by
        have := abs_near h2
        linarith
      have h0 : |r * r - c ^ 2| ≤ 5 * (((l.length : ℝ) + 9) * (u * M) * M) := by
        have := mul_near h2 h2
        rw [sq]
        have p1 : ((l.length : ℝ) + 9) * (u * M) * |r| ≤ ((l.length : ℝ) + 9) * (u * M) * (3 * M) := mul_le_mul_of_nonneg_left hr hd0
        have p2 : |c| * (((l.length : ℝ) + 9) * (u * M)) ≤ 2 * M * (((l.length : ℝ) + 9) * (u * M)) := mul_le_mul_of_nonneg_right h3 hd0
        linarith
      have hc2 : |c ^ 2| ≤ 4 * M ^ 2 := by
        rw [abs_pow]
        have := pow_le_pow_left₀ (abs_nonneg c) h3 2
        nlinarith
      have hm := rounds_mul h1 h1
      obtain ⟨t, ht, et⟩ := A.step (K := 9 * M ^ 2) hm h0 (by linarith) (by nlinarith)
      rw [powi_sq]
      exact ⟨t, one_mul_rounded hm ht, by nlinarith⟩)
    (fun x hx => by
      have h3 := (A.dev hM hη hb h1 h53 hn (by nlinarith) hx).2
      set c := x.val - mean (vals l)
      have hc2 : |c ^ 2| ≤ 4 * M ^ 2 := by
        rw [abs_pow]
        have := pow_le_pow_left₀ (abs_nonneg c) h3 2
        nlinarith
      nlinarith)
    h1 h53 (by nlinarith) (by nlinarith)
  have e : moment 2 (vals l) = mean (l.map fun x => (x.val - mean (vals l)) ^ 2) := by
    rw [moment]
    conv_lhs => arg 1; rw [vals, List.map_map]
    rfl
  rw [Distribution.powDev, foldl_add_map, e]
  exact this.mono (by nlinarith)

theorem rounds_sqrt {x : FP ρ} {a : ℝ} (hx : x ⇓ a) (h0 : 0 ≤ a) : Rounds (sqrt x) (Real.sqrt a) := by
  rcases is_iff.1 hx with rfl | ⟨rfl, rfl⟩
  · exact ⟨false, by rw [sqrt_def, FP.sqrt, if_neg (not_lt.2 h0)]⟩
  · exact ⟨true, by rw [Real.sqrt_zero, mk_zero_true]; rfl⟩

theorem NonNegInf.one_mul {y : FP ρ} (hy : NonNegInf y) : NonNegInf (1 * y) := by
  rcases hy with rfl | ⟨a, ha, a0⟩
  · have h1 : (1 : FP ρ) = fin 1 := by
      rcases is_iff.1 (isOne (ρ := ρ)) with h | ⟨-, h⟩
      · exact h
      · norm_num at h
    refine Or.inl ?_
    rw [h1, mul_def, FP.mul, if_neg (by simp)]
    · simp [sgn]
    · simp
    · simp
  · exact (rounds_mul isOne ha).nonNegInf (by linarith)

/-- `|√a - √b| ≤ √|a - b|` -/
theorem sqrt_near {a b e : ℝ} (h : |a - b| ≤ e) : |Real.sqrt a - Real.sqrt b| ≤ Real.sqrt e := by
  have key : ∀ {x y : ℝ}, x - y ≤ e → Real.sqrt x - Real.sqrt y ≤ Real.sqrt e := by
    intro x y h
    have h1 := Real.sqrt_le_sqrt (show x ≤ max y 0 + max e 0 by
      have := le_max_left y 0
      have := le_max_left e 0
      linarith)
    have h2 : Real.sqrt (max y 0 + max e 0) ≤ Real.sqrt (max y 0) + Real.sqrt (max e 0) := by
      refine Real.sqrt_le_iff.2 ⟨by positivity, ?_⟩
      have p1 := Real.sq_sqrt (le_max_right y 0)
      have p2 := Real.sq_sqrt (le_max_right e 0)
      have p3 := mul_nonneg (Real.sqrt_nonneg (max y 0)) (Real.sqrt_nonneg (max e 0))
      nlinarith
    have h3 : ∀ z : ℝ, Real.sqrt (max z 0) = Real.sqrt z := fun z => by
      rcases le_total z 0 with hz | hz
      · rw [max_eq_right hz, Real.sqrt_zero, Real.sqrt_eq_zero_of_nonpos hz]
      · rw [max_eq_left hz]
    rw [h3, h3] at h2
    linarith
  rw [abs_le] at h ⊢
  exact ⟨by have := key (x := b) (y := a) (by linarith); linarith, key (by linarith)⟩

theorem Accurate.sd_win (A : Accurate ρ u η B) {M : ℝ} {l : List (FP ρ)} (hM : 0 ≤ M) (hη : η ≤ u * M) (hη2 : η ≤ u * M ^ 2)
    (hb : Bounded M l) (h1 : 1 ≤ l.length) (h53 : l.length ≤ 2 ^ 53) (hn : 15 * ((l.length : ℝ) + 7) * u ≤ 1)
    (hB : 4 * l.length * M ≤ B) (hB2 : 40 * l.length * M ^ 2 ≤ B) :
    Approx (Distribution.stdDevWin l.length l) (stdDev (vals l)) ((Real.sqrt (15 * ((l.length : ℝ) + 7) * u) + 4 * u) * M) := by
  have u0 := A.u0
  have n1 : (1 : ℝ) ≤ l.length := by exact_mod_cast h1
  have hn' : ((l.length : ℝ) + 9) * u ≤ 1 := by nlinarith
  have h0 : NonNegInf (Distribution.powDev l (Distribution.winMean l l.length) 2 / flt l.length) := by
    refine NonNegInf.div ?_ (isFlt h53) (by linarith)
    rw [Distribution.powDev, foldl_add_map]
    refine NonNegInf.fsum fun y hy => ?_
    obtain ⟨x, hx, rfl⟩ := List.mem_map.1 hy
    obtain ⟨⟨r, hr, -⟩, -⟩ := A.dev hM hη hb h1 h53 hn' (by nlinarith) hx
    simp only [powi_sq]
    exact ((rounds_mul hr hr).nonNegInf (mul_self_nonneg r)).one_mul
  obtain ⟨v, hv, ev⟩ := A.var_win hM hη hη2 hb h1 h53 hn' hB hB2
  have v0 : 0 ≤ v := by
    rcases h0 with h | ⟨a, ha, a0⟩
    · rw [h] at hv
      exact hv.1.elim
    · rwa [hv.unique ha]
  have e1 : |Real.sqrt v - stdDev (vals l)| ≤ Real.sqrt (15 * ((l.length : ℝ) + 7) * u) * M := by
    have := sqrt_near ev
    rwa [Real.sqrt_mul (by positivity), Real.sqrt_sq hM] at this
  have e2 : Real.sqrt (15 * ((l.length : ℝ) + 7) * u) * M ≤ M := by
    have : Real.sqrt (15 * ((l.length : ℝ) + 7) * u) ≤ 1 := Real.sqrt_le_one.2 hn
    nlinarith
  have e3 : |stdDev (vals l)| ≤ 2 * M := by
    rw [stdDev, abs_of_nonneg (Real.sqrt_nonneg _)]
    refine Real.sqrt_le_iff.2 ⟨by linarith, ?_⟩
    rw [moment]
    refine (within_mean (lo := 0) (hi := (2 * M) ^ 2) (fun y hy => ?_) (by rw [← List.length_pos_iff]; simp; omega)).2
    obtain ⟨r, hr, rfl⟩ := List.mem_map.1 hy
    obtain ⟨x, hx, rfl⟩ := List.mem_map.1 hr
    have := (A.dev hM hη hb h1 h53 hn' (by nlinarith) hx).2
    exact ⟨by positivity, sq_le_sq' (abs_le.1 this).1 (abs_le.1 this).2⟩
  have := A.step (K := 3 * M) (rounds_sqrt hv v0) e1 (by linarith) (by
    have p1 : u * M ≤ 1 / 120 * M := mul_le_mul_of_nonneg_right (by nlinarith) hM
    have p2 : M ≤ l.length * M := le_mul_of_one_le_left hM n1
    linarith)
  exact this.mono (by nlinarith)

/-! ## binary64 -/

theorem unit64_add {w c k : ℕ} (h : w < 2 ^ 48) (hc : c ≤ 16) (hk : k ≤ 2 ^ 48) : (c : ℝ) * ((w : ℝ) + k) * unit64 ≤ 1 := by
  have := unit64_mul (w := w + k) (c := c) (by exact_mod_cast hc) (by omega)
  push_cast at this
  exact this

section
variable (data : List F64) (w : ℕ) (hw : 1 ≤ w) (hn : w ≤ data.length + 1) (h49 : w < 2 ^ 48) {M : ℝ} (hM : tiny64 ≤ M)
  (hB : 12 * w * M ≤ max64) (hd : Bounded M data)
include hw hn h49 hM hB hd

/-- C74: the mean absolute deviation computed in binary64 is within `4 (w + 6) * 2^-53 * M` of the exact one. -/
theorem mad_error :
    ReportsP data.length (w - 1) (fun i y => Approx y (meanAbsDev (recent (vals data) w i)) (4 * (w + 6) * unit64 * M))
      (Distribution.mad data w) := by
  run_model [Distribution.mad]
  refine reportsP_windows hw hn fun i h1 h2 => ?_
  have l := recent_length h1 h2
  have := accurate64.mad_win (tiny64_pos.le.trans hM) (underflow64 hM) (hd.recent w i) (by omega) (by omega)
    (by rw [l]; simpa using unit64_add (c := 1) (k := 9) h49 (by norm_num) (by norm_num)) (by rw [l]; exact hB)
  rwa [l, recent_vals] at this

variable (hM2 : tiny64 ≤ M ^ 2) (hB2 : 40 * w * M ^ 2 ≤ max64)
include hM2 hB2

/-- C74: the variance computed in binary64 is within `15 (w + 7) * 2^-53 * M^2` of the exact one. -/
theorem variance_error :
    ReportsP data.length (w - 1) (fun i y => Approx y (moment 2 (recent (vals data) w i)) (15 * (w + 7) * unit64 * M ^ 2))
      (Distribution.variance data w) := by
  have M0 := tiny64_pos.le.trans hM
  have w0 : (0 : ℝ) ≤ w * M := by positivity
  run_model [Distribution.variance]
  refine reportsP_windows hw hn fun i h1 h2 => ?_
  have l := recent_length h1 h2
  have := accurate64.var_win M0 (underflow64 hM) (underflow64 hM2) (hd.recent w i) (by omega) (by omega)
    (by rw [l]; simpa using unit64_add (c := 1) (k := 9) h49 (by norm_num) (by norm_num)) (by rw [l]; linarith) (by rw [l]; exact hB2)
  rwa [l, recent_vals] at this

/-- C74: the standard deviation computed in binary64 is a number, and within `√(15 (w + 7) * 2^-53) * M` (plus one rounding) of the
exact one. -/
theorem std_dev_error :
    ReportsP data.length (w - 1)
      (fun i y => Approx y (stdDev (recent (vals data) w i)) ((Real.sqrt (15 * (w + 7) * unit64) + 4 * unit64) * M))
      (Distribution.std_dev data w) := by
  have M0 := tiny64_pos.le.trans hM
  have w0 : (0 : ℝ) ≤ w * M := by positivity
  run_model [Distribution.std_dev, Distribution.stdDevRaw]
  refine reportsP_windows hw hn fun i h1 h2 => ?_
  have l := recent_length h1 h2
  have := accurate64.sd_win M0 (underflow64 hM) (underflow64 hM2) (hd.recent w i) (by omega) (by omega)
    (by rw [l]; exact unit64_add (c := 15) (k := 7) h49 (by norm_num) (by norm_num)) (by rw [l]; linarith) (by rw [l]; exact hB2)
  rwa [l, recent_vals] at this

end

/-- Two series combined bar by bar. -/
theorem ReportsP.zipP {n k₁ k₂ : ℕ} {P₁ P₂ P : ℕ → FP ρ → Prop} {m₁ m₂ : List (FP ρ)} {f : FP ρ × FP ρ → FP ρ}
    (h₁ : ReportsP n k₁ P₁ (some m₁)) (h₂ : ReportsP n k₂ P₂ (some m₂)) (hl : ∀ y, f (nan, y) = nan) (hr : ∀ x, f (x, nan) = nan)
    (hf : ∀ i x y, k₁ ≤ i → k₂ ≤ i → i < n → P₁ i x → P₂ i y → P i (f (x, y))) :
    ReportsP n (max k₁ k₂) P (some ((m₁.zip m₂).map f)) := by
  obtain ⟨o₁, e₁, l₁, n₁, v₁⟩ := h₁
  obtain ⟨o₂, e₂, l₂, n₂, v₂⟩ := h₂
  cases e₁
  cases e₂
  refine ⟨_, rfl, by simp [l₁, l₂], fun i hi hin => ?_, fun i hi hin => ?_⟩
  · obtain ⟨x, hx⟩ : ∃ x, m₁[i]? = some x := ⟨_, List.getElem?_eq_getElem (by omega)⟩
    obtain ⟨y, hy⟩ : ∃ y, m₂[i]? = some y := ⟨_, List.getElem?_eq_getElem (by omega)⟩
    rw [List.getElem?_map, List.getElem?_zip_eq_some (z := (x, y)) |>.2 ⟨hx, hy⟩, Option.map_some]
    by_cases h : i < k₁
    · rw [n₁ i h hin] at hx
      cases hx
      rw [hl]
    · rw [n₂ i (by omega) hin] at hy
      cases hy
      rw [hr]
  · obtain ⟨x, hx, px⟩ := v₁ i (by omega) hin
    obtain ⟨y, hy, py⟩ := v₂ i (by omega) hin
    exact ⟨f (x, y), by rw [List.getElem?_map, List.getElem?_zip_eq_some (z := (x, y)) |>.2 ⟨hx, hy⟩]; rfl, hf i x y (by omega) (by omega) hin px py⟩

/-- C74: macd computed in binary64 is within `(10 (short + long) + 25) * 2^-53 * M` of the difference of the two exact averages. -/
theorem macd_error (close : List F64) (short long : ℕ) (hs : 1 ≤ short) (hl : 1 ≤ long) (hn : max short long ≤ close.length)
    (h49 : max short long < 2 ^ 48) {M : ℝ} (hM : tiny64 ≤ M) (hB : 4 * (short + long) * M ≤ max64) (hd : Bounded M close) :
    ReportsP close.length (max short long - 1)
      (fun i y => Approx y (ewmaOf short (vals close) i - ewmaOf long (vals close) i) ((10 * (short + long) + 25) * unit64 * M))
      (Momentum.macd close short long) := by
  have M0 := tiny64_pos.le.trans hM
  have s1 : (1 : ℝ) ≤ short := by exact_mod_cast hs
  have l1 : (1 : ℝ) ≤ long := by exact_mod_cast hl
  have sM : M ≤ short * M := le_mul_of_one_le_left M0 s1
  have lM : M ≤ long * M := le_mul_of_one_le_left M0 l1
  have r1 := ewma_error close short hs (by omega) (by omega) hM (by linarith) hd
  have r2 := ewma_error close long hl (by omega) (by omega) hM (by linarith) hd
  obtain ⟨m₁, e₁, -⟩ := id r1
  obtain ⟨m₂, e₂, -⟩ := id r2
  rw [e₁] at r1
  rw [e₂] at r2
  run_model [Momentum.macd, e₁, e₂]
  rw [show max short long - 1 = max (short - 1) (long - 1) by omega]
  refine r1.zipP r2 (fun y => rfl) (fun x => by cases x <;> rfl) fun i x y h1 h2 hin hx hy => ?_
  obtain ⟨a, ha, ea⟩ := hx
  obtain ⟨b, hb, eb⟩ := hy
  have cs := ewmaOf_within (w := short) (l := vals close) hs (i := i) (by omega) (by simp; omega) (within_of_bounded hd.vals _)
  have cl := ewmaOf_within (w := long) (l := vals close) hl (i := i) (by omega) (by simp; omega) (within_of_bounded hd.vals _)
  have u1 := unit64_add (w := short) (c := 10) (k := 1) (by omega) (by norm_num) (by norm_num)
  have u2 := unit64_add (w := long) (c := 10) (k := 1) (by omega) (by norm_num) (by norm_num)
  push_cast at u1 u2
  have E1 : 10 * ((short : ℝ) + 1) * unit64 * M ≤ M := mul_le_of_le_one_left M0 u1
  have E2 : 10 * ((long : ℝ) + 1) * unit64 * M ≤ M := mul_le_of_le_one_left M0 u2
  have hη := underflow64 hM
  have u20 : unit64 * M ≤ 1 / 20 * M := mul_le_mul_of_nonneg_right (by nlinarith [accurate64.u0]) M0
  have := accurate64.step (K := 4 * M) (rounds_sub ha hb) (c := ewmaOf short (vals close) i - ewmaOf long (vals close) i)
    (e := 10 * ((short : ℝ) + 1) * unit64 * M + 10 * ((long : ℝ) + 1) * unit64 * M)
    (by
      rw [sub_sub_sub_comm]
      exact (abs_sub _ _).trans (add_le_add ea eb))
    (by
      have := abs_sub (ewmaOf short (vals close) i) (ewmaOf long (vals close) i)
      have := abs_le.2 cs
      have := abs_le.2 cl
      linarith)
    (by
      refine le_trans (add_le_add_right (add_le_add_right hη _) _) ?_
      linarith)
  exact this.mono (by
    refine le_trans (add_le_add_right (add_le_add_right hη _) _) ?_
    linarith)

/-! ## The hypotheses are met -/

theorem error_example2 : tiny64 ≤ (7 : ℝ) ^ 2 ∧ 12 * ((3 : ℕ) : ℝ) * 7 ≤ max64 ∧ 40 * ((3 : ℕ) : ℝ) * 7 ^ 2 ≤ max64 := by
  refine ⟨?_, ?_, ?_⟩
  · have : tiny64 ≤ 1 := pow_le_one₀ (by norm_num) (by norm_num)
    linarith
  · exact le_trans (by norm_num) large_le_max64
  · exact le_trans (by norm_num) large_le_max64

example : ReportsP 4 2 (fun i y => Approx y (stdDev (recent (vals ([1, 5, 3, 7] : List F64)) 3 i))
    ((Real.sqrt (15 * (((3 : ℕ) : ℝ) + 7) * unit64) + 4 * unit64) * 7)) (Distribution.std_dev ([1, 5, 3, 7] : List F64) 3) :=
  std_dev_error _ 3 (by norm_num) (by simp) (by norm_num) error_example.2.1 error_example2.2.1 error_example.1 error_example2.1
    error_example2.2.2
example : ReportsP 4 2 (fun i y => Approx y (moment 2 (recent (vals ([1, 5, 3, 7] : List F64)) 3 i))
    (15 * (((3 : ℕ) : ℝ) + 7) * unit64 * 7 ^ 2)) (Distribution.variance ([1, 5, 3, 7] : List F64) 3) :=
  variance_error _ 3 (by norm_num) (by simp) (by norm_num) error_example.2.1 error_example2.2.1 error_example.1 error_example2.1
    error_example2.2.2
example : ReportsP 4 2 (fun i y => Approx y (meanAbsDev (recent (vals ([1, 5, 3, 7] : List F64)) 3 i))
    (4 * (((3 : ℕ) : ℝ) + 6) * unit64 * 7)) (Distribution.mad ([1, 5, 3, 7] : List F64) 3) :=
  mad_error _ 3 (by norm_num) (by simp) (by norm_num) error_example.2.1 error_example2.2.1 error_example.1
example : ReportsP 4 2 (fun i y => Approx y (ewmaOf 2 (vals ([1, 5, 3, 7] : List F64)) i - ewmaOf 3 (vals ([1, 5, 3, 7] : List F64)) i)
    ((10 * (((2 : ℕ) : ℝ) + ((3 : ℕ) : ℝ)) + 25) * unit64 * 7)) (Momentum.macd ([1, 5, 3, 7] : List F64) 2 3) :=
  macd_error _ 2 3 (by norm_num) (by norm_num) (by simp) (by norm_num) error_example.2.1
    (le_trans (by norm_num) large_le_max64) error_example.1

end Traquer
