import Verif.Lemmas.Information
import Verif.Lemmas.Items
import Verif.Props.ShapeStats
import Mathlib.Analysis.SpecialFunctions.Pow.Real
/-!
# C46: the maximal information coefficient
-/

namespace Traquer.Correlation
open FP FloatLit

/-- A hash map yields each of its keys once, in some order. -/
def HashOrder.Valid (ho : HashOrder) : Prop := ∀ c i j l, (ho c i j l).Perm l

theorem mem_binPairs {b i j : ℕ} : (i, j) ∈ binPairs b ↔ 2 ≤ i ∧ 2 ≤ j ∧ i * j ≤ b := by
  simp only [binPairs, List.mem_flatMap, List.mem_map, List.mem_range'_1, Prod.mk.injEq]
  constructor
  · rintro ⟨a, ⟨h1, h2⟩, c, ⟨h3, h4⟩, rfl, rfl⟩
    refine ⟨h1, h3, ?_⟩
    have : c ≤ b / a := by omega
    have := (Nat.le_div_iff_mul_le (by omega)).1 this
    rwa [mul_comm] at this
  · rintro ⟨h1, h2, h3⟩
    have e1 : i ≤ b / 2 := (Nat.le_div_iff_mul_le (by omega)).2 (le_trans (Nat.mul_le_mul_left i h2) h3)
    have e2 : j ≤ b / i := (Nat.le_div_iff_mul_le (by omega)).2 (by rwa [mul_comm])
    exact ⟨i, by omega, j, by omega, rfl, rfl⟩

theorem bin_length {F : Type} [FloatOps F] (x : List F) (k : ℕ) : (bin x k).length = x.length := by simp [bin]

theorem bin_lt {F : Type} [FloatOps F] {x : List F} {k : ℕ} (hk : 1 ≤ k) : ∀ a ∈ bin x k, a < k := by
  simp only [bin, List.mem_map]
  rintro _ ⟨v, _, rfl⟩
  omega

/-- The model's sum over the hash map of joint counts is the mutual information, whatever the iteration order. -/
theorem mutualInfo_is {order : List (ℕ × ℕ) → List (ℕ × ℕ)} (ho : ∀ l, (order l).Perm l) {x y : List ℕ} (hl : y.length = x.length)
    (hx : x ≠ []) : (mutualInfo order x y : XF) ⇓ mutualInformation x y := by
  have hn : (x.length : ℝ) ≠ 0 := by have := List.length_pos_iff.2 hx; positivity
  have t : ∀ p ∈ order (x.zip y).dedup, (miTerm x y p : XF) ⇓
      freq (x.zip y) p * Real.logb 2 (freq (x.zip y) p / (freq x p.1 * freq y p.2)) := fun p hp => by
    have hp := List.mem_dedup.1 ((ho _).mem_iff.1 hp)
    have c0 : 0 < (x.zip y).count p := List.count_pos_iff.2 hp
    have c1 : 0 < x.count p.1 := lt_of_lt_of_le c0 (count_zip_fst x y p)
    have c2 : 0 < y.count p.2 := lt_of_lt_of_le c0 (count_zip_snd x y p)
    have e1 : (flt ((x.zip y).count p) / flt x.length : XF) ⇓ freq (x.zip y) p := by
      refine (is_div (is_flt _) (is_flt _) hn).congr ?_
      rw [freq, List.length_zip, hl, min_self]
    have e2 : (flt ((x.take y.length).count p.1) / flt x.length : XF) ⇓ freq x p.1 := by
      rw [hl, List.take_length]; exact is_div (is_flt _) (is_flt _) hn
    have e3 : (flt ((y.take x.length).count p.2) / flt x.length : XF) ⇓ freq y p.2 := by
      rw [← hl, List.take_length]; exact is_div (is_flt _) (is_flt _) (by rwa [hl])
    have hx' : 0 < x.length := List.length_pos_iff.2 hx
    have f1 : 0 < freq (x.zip y) p := by rw [freq, List.length_zip, hl, min_self]; positivity
    have f2 : 0 < freq x p.1 := by rw [freq]; positivity
    have f3 : 0 < freq y p.2 := by rw [freq, hl]; positivity
    exact is_mul e1 (is_log2 (is_div e1 (is_mul e2 e3) (by positivity)) (by positivity))
  refine (foldl_add_is is_zero t).congr ?_
  rw [zero_add, ((ho _).map _).sum_eq, mutualInformation]
  rw [Finset.sum, List.toFinset_val, Multiset.map_coe, Multiset.sum_coe]

theorem grid_range {x y : List ℕ} {i j : ℕ} (hl : y.length = x.length) (hi : 2 ≤ i) (hj : 2 ≤ j) (hx : ∀ a ∈ x, a < i) (hy : ∀ a ∈ y, a < j) :
    0 ≤ mutualInformation x y / Real.logb 2 (min i j) ∧ mutualInformation x y / Real.logb 2 (min i j) ≤ 1 := by
  have hp : 0 < Real.logb 2 (min i j : ℝ) := Real.logb_pos (by norm_num) (by
    have : (1 : ℝ) < (min i j : ℕ) := by exact_mod_cast (by omega : 1 < min i j)
    simpa using this)
  refine ⟨div_nonneg (mutualInformation_nonneg hl) hp.le, (div_le_one hp).2 ?_⟩
  rcases le_total i j with h | h
  · rw [min_eq_left (by exact_mod_cast h)]; exact mutualInformation_le hl hx (by omega)
  · rw [min_eq_right (by exact_mod_cast h), mutualInformation_symm hl]; exact mutualInformation_le hl.symm hy (by omega)

/-- One candidate of the search. -/
theorem candidate_is {order : List (ℕ × ℕ) → List (ℕ × ℕ)} (ho : ∀ l, (order l).Perm l) {x y : List XF} {i j : ℕ} (hl : y.length = x.length)
    (hx : x ≠ []) (hi : 2 ≤ i) (hj : 2 ≤ j) :
    (mutualInfo order (bin x i) (bin y j) / log2 (flt (min i j)) : XF) ⇓ mutualInformation (bin x i) (bin y j) / Real.logb 2 (min i j) := by
  have h1 : (1 : ℝ) < (min i j : ℕ) := by exact_mod_cast (by omega : 1 < min i j)
  have := is_div (mutualInfo_is ho (x := bin x i) (y := bin y j) (by simp [bin_length, hl]) (by
    intro h; have := congrArg List.length h; simp [bin_length] at this; exact hx this)) (is_log2 (is_flt (min i j)) (by linarith))
    (Real.logb_pos (by norm_num) h1).ne'
  rwa [Nat.cast_min] at this

theorem foldl_best {α : Type} {v : α → XF} {g : α → ℝ} {l : List α} (h : ∀ p ∈ l, v p ⇓ g p) {s : XF} {u : ℝ} (hs : s ⇓ u) :
    ∃ r, l.foldl (fun best p => fmax (v p) best) s ⇓ r ∧ (r = u ∨ ∃ p ∈ l, r = g p) ∧ u ≤ r ∧ ∀ p ∈ l, g p ≤ r := by
  induction l generalizing s u with
  | nil => exact ⟨u, hs, .inl rfl, le_rfl, by simp⟩
  | cons p l ih =>
    obtain ⟨r, h1, h2, h3, h4⟩ := ih (fun q hq => h q (by simp [hq])) (is_fmax (h p (by simp)) hs)
    refine ⟨r, h1, ?_, (le_max_right _ _).trans h3, ?_⟩
    · rcases h2 with h2 | ⟨q, hq, e⟩
      · rcases max_cases (g p) u with ⟨e, -⟩ | ⟨e, -⟩
        · exact .inr ⟨p, by simp, by rw [h2, e]⟩
        · exact .inl (by rw [h2, e])
      · exact .inr ⟨q, by simp [hq], e⟩
    · intro q hq
      rcases List.mem_cons.1 hq with rfl | hq
      · exact (le_max_left _ _).trans h3
      · exact h4 q hq

theorem micWin_is {ho : HashOrder} (hv : ho.Valid) {b c : ℕ} {x y : List XF} (hl : y.length = x.length) (hx : x ≠ []) (hb : 4 ≤ b) :
    ∃ r, micWin ho b c x y ⇓ r ∧ IsGreatest {v | ∃ i j, 2 ≤ i ∧ 2 ≤ j ∧ i * j ≤ b ∧
      v = mutualInformation (bin x i) (bin y j) / Real.logb 2 (min i j)} r := by
  obtain ⟨r, h1, h2, h3, h4⟩ := foldl_best (l := binPairs b)
    (v := fun p => (mutualInfo (ho c p.1 p.2) (bin x p.1) (bin y p.2) / log2 (flt (min p.1 p.2)) : XF))
    (g := fun p => mutualInformation (bin x p.1) (bin y p.2) / Real.logb 2 (min p.1 p.2)) (fun p hp => by
      obtain ⟨i, j⟩ := p
      obtain ⟨h1, h2, -⟩ := mem_binPairs.1 hp
      exact candidate_is (hv c i j) hl hx h1 h2) (is_neg is_maxValue)
  refine ⟨r, h1, ?_, ?_⟩
  · rcases h2 with h2 | ⟨⟨i, j⟩, hp, e⟩
    · exfalso
      have h5 := h4 (2, 2) (mem_binPairs.2 ⟨le_rfl, le_rfl, by omega⟩)
      have h6 := (grid_range (x := bin x 2) (y := bin y 2) (by simp [bin_length, hl]) le_rfl le_rfl (bin_lt (by norm_num)) (bin_lt (by norm_num))).1
      have h7 : (0 : ℝ) < (2 - 2 ^ (-52 : ℤ)) * 2 ^ (1023 : ℤ) := by
        refine mul_pos ?_ (by positivity)
        rw [zpow_neg]
        norm_num
      dsimp only at h5
      linarith
    · obtain ⟨h5, h6, h7⟩ := mem_binPairs.1 hp
      exact ⟨i, j, h5, h6, h7, e⟩
  · rintro _ ⟨i, j, h5, h6, h7, rfl⟩
    exact h4 (i, j) (mem_binPairs.2 ⟨h5, h6, h7⟩)

/-- The number of cells allowed for a window. -/
theorem maxBins_is {w : ℕ} (h1 : 1 ≤ w) (h2 : w < 2 ^ 64) :
    toUsize (ceil (powf (flt w : XF) 0.6)) = ⌈(w : ℝ) ^ (0.6 : ℝ)⌉₊ := by
  have w0 : (0 : ℝ) < w := by exact_mod_cast h1
  have hp := is_powf (is_flt w) (is_sci 6 true 1) w0
  have hle : (w : ℝ) ^ (0.6 : ℝ) ≤ w := by
    conv_rhs => rw [← Real.rpow_one (w : ℝ)]
    exact Real.rpow_le_rpow_of_exponent_le (by exact_mod_cast h1) (by norm_num)
  have hc : ⌈(w : ℝ) ^ (0.6 : ℝ)⌉ ≤ w := Int.ceil_le.2 (by exact_mod_cast hle)
  have hlt : ((⌈(w : ℝ) ^ (0.6 : ℝ)⌉ : ℤ) : ℝ) < 2 ^ 64 := by
    have : ((⌈(w : ℝ) ^ (0.6 : ℝ)⌉ : ℤ) : ℝ) ≤ w := by exact_mod_cast hc
    exact lt_of_le_of_lt this (by exact_mod_cast h2)
  rw [is_toUsize (is_ceil hp) hlt]
  show ⌊((⌈(w : ℝ) ^ (0.6 : ℝ)⌉ : ℤ) : ℝ)⌋₊ = _
  rw [← Int.floor_toNat, Int.floor_intCast, Int.ceil_toNat]

theorem maxBins_lt {w : ℕ} (h1 : 1 ≤ w) (h2 : w < 2 ^ 64) : ⌈(w : ℝ) ^ (0.6 : ℝ)⌉₊ < 2 ^ 64 := by
  have hle : (w : ℝ) ^ (0.6 : ℝ) ≤ w := by
    conv_rhs => rw [← Real.rpow_one (w : ℝ)]
    exact Real.rpow_le_rpow_of_exponent_le (by exact_mod_cast h1) (by norm_num)
  exact lt_of_le_of_lt (Nat.ceil_le.2 hle) h2

theorem maxBins_large {w : ℕ} (h : 7 ≤ w) : 4 ≤ ⌈(w : ℝ) ^ (0.6 : ℝ)⌉₊ := by
  have : (3 : ℝ) < (w : ℝ) ^ (0.6 : ℝ) := by
    have h3 : (3 : ℝ) = ((3 : ℝ) ^ (5 : ℕ)) ^ (1 / 5 : ℝ) := by
      rw [← Real.rpow_natCast, ← Real.rpow_mul (by norm_num)]; norm_num
    have h4 : (w : ℝ) ^ (0.6 : ℝ) = ((w : ℝ) ^ (3 : ℕ)) ^ (1 / 5 : ℝ) := by
      rw [← Real.rpow_natCast, ← Real.rpow_mul (by positivity)]; norm_num
    rw [h3, h4]
    refine Real.rpow_lt_rpow (by positivity) ?_ (by norm_num)
    have h7 : (7 : ℝ) ≤ w := by exact_mod_cast h
    have := pow_le_pow_left₀ (by norm_num) h7 3
    linarith
  have : 3 < ⌈(w : ℝ) ^ (0.6 : ℝ)⌉₊ := Nat.lt_ceil.2 (by exact_mod_cast this)
  omega

theorem maxBins_small {w : ℕ} (h : w ≤ 6) : ⌈(w : ℝ) ^ (0.6 : ℝ)⌉₊ ≤ 3 := by
  refine Nat.ceil_le.2 ?_
  have h3 : ((3 : ℕ) : ℝ) = ((3 : ℝ) ^ (5 : ℕ)) ^ (1 / 5 : ℝ) := by
    rw [← Real.rpow_natCast, ← Real.rpow_mul (by norm_num)]; norm_num
  have h4 : (w : ℝ) ^ (0.6 : ℝ) = ((w : ℝ) ^ (3 : ℕ)) ^ (1 / 5 : ℝ) := by
    rw [← Real.rpow_natCast, ← Real.rpow_mul (by positivity)]; norm_num
  rw [h3, h4]
  refine Real.rpow_le_rpow (by positivity) ?_ (by norm_num)
  have h7 : (w : ℝ) ≤ 6 := by exact_mod_cast h
  have := pow_le_pow_left₀ (by positivity) h7 3
  linarith

/-- The bins of the code are bins of equal width. The values must be in the range of an `f64`. -/
theorem bin_is {x : List XF} {k : ℕ} (hx : Fins x) (hk : 1 ≤ k) (hk' : k < 2 ^ 64)
    (hr : Within (-((2 - 2 ^ (-52 : ℤ)) * 2 ^ (1023 : ℤ))) ((2 - 2 ^ (-52 : ℤ)) * 2 ^ (1023 : ℤ)) (vals x)) :
    bin x k = equalWidthBins k (vals x) := by
  by_cases hx0 : x = []
  · subst hx0; rfl
  set M : ℝ := (2 - 2 ^ (-52 : ℤ)) * 2 ^ (1023 : ℤ) with hM
  have mn : x.foldl fmin maxValue ⇓ minOf (vals x) := by
    refine (foldl_fmin_is hx is_maxValue).congr ?_
    cases x with
    | nil => exact absurd rfl hx0
    | cons a x =>
      show (vals x).foldl min (min M a.val) = (vals x).foldl min a.val
      rw [min_eq_right (hr a.val (by simp [vals])).2]
  have mx : x.foldl fmax (-maxValue) ⇓ maxOf (vals x) := by
    refine (foldl_fmax_is hx (is_neg is_maxValue)).congr ?_
    cases x with
    | nil => exact absurd rfl hx0
    | cons a x =>
      show (vals x).foldl max (max (-M) a.val) = (vals x).foldl max a.val
      rw [max_eq_right (hr a.val (by simp [vals])).1]
  have k0 : (0 : ℝ) < k := by exact_mod_cast hk
  have hwd := is_div (is_sub mx mn) (is_flt k) k0.ne'
  rw [bin, equalWidthBins, vals, List.map_map]
  refine List.map_congr_left fun v hv => ?_
  simp only [Function.comp_apply]
  have hv' : v.val ∈ vals x := List.mem_map_of_mem hv
  have l1 := minOf_le hv'
  have l2 := le_maxOf hv'
  have hq := quotIs (is_sub (hx v hv).is mn) hwd
  rw [← vals]
  by_cases he : maxOf (vals x) = minOf (vals x)
  · rw [if_pos he]
    rw [hq.2.1 (by rw [he]; simp) (by rw [he] at l2; linarith [le_antisymm l2 l1])]
    show min (toUsize (floor (FP.nan : XF))) (k - 1) = 0
    have : toUsize (floor (FP.nan : XF)) = 0 := rfl
    rw [this]
    simp
  · rw [if_neg he]
    have hd : 0 < maxOf (vals x) - minOf (vals x) := by
      have := lt_of_le_of_ne (l1.trans l2) (Ne.symm he); linarith
    have hf := is_floor (hq.1 (by positivity))
    have hle : (v.val - minOf (vals x)) / ((maxOf (vals x) - minOf (vals x)) / k) ≤ k := by
      rw [div_le_iff₀ (by positivity)]
      have : (k : ℝ) * ((maxOf (vals x) - minOf (vals x)) / k) = maxOf (vals x) - minOf (vals x) := by field_simp
      rw [this]; linarith
    have hlt : ((⌊(v.val - minOf (vals x)) / ((maxOf (vals x) - minOf (vals x)) / k)⌋ : ℤ) : ℝ) < 2 ^ 64 :=
      lt_of_le_of_lt ((Int.floor_le _).trans hle) (by exact_mod_cast hk')
    rw [is_toUsize hf hlt, ← Int.floor_toNat, Int.floor_intCast, Int.floor_toNat]

section
variable (ho : HashOrder) (hv : ho.Valid) (s1 s2 : List XF) (w : ℕ) (h : s2.length = s1.length) (hn : w ≤ s1.length + 1)
include h hn

theorem mic_window (hw : 1 ≤ w) (hw' : w < 2 ^ 64) {P : ℕ → XF → Prop}
    (hP : ∀ i c, w ≤ i + 1 → i < s1.length → P i (micWin ho ⌈(w : ℝ) ^ (0.6 : ℝ)⌉₊ c (recent s1 w i) (recent s2 w i))) :
    ReportsP s1.length (w - 1) P (mic ho s1 s2 w) := by
  refine (mic_aligned ho s1 s2 w h hw hn).reportsP fun out e i y hi hy => ?_
  run_at e [mic]
  cases e
  rw [List.getElem?_append_right (by simpa using hi), List.getElem?_map, Option.map_eq_some_iff] at hy
  obtain ⟨⟨c, x, z⟩, hz, rfl⟩ := hy
  obtain ⟨-, hz⟩ := List.getElem?_zip_eq_some.1 hz
  obtain ⟨e1, e2⟩ := List.getElem?_zip_eq_some.1 hz
  rw [nans_length] at e1 e2
  have hl : i < s1.length := by
    have := (List.getElem?_eq_some_iff.1 e1).1
    simp at this
    omega
  rw [windowsOf_recent hw (by omega) (by omega)] at e1 e2
  cases e1; cases e2
  rw [maxBins_is hw hw']
  exact hP i c (by omega) hl

include hv

/-- C46: with a window of at least 7 values `mic` is a number between 0 and 1, whatever the iteration order of the hash maps. -/
theorem mic_range (hw : 7 ≤ w) (hw' : w < 2 ^ 64) : ReportsP s1.length (w - 1) (fun _ y => ∃ r, y ⇓ r ∧ 0 ≤ r ∧ r ≤ 1) (mic ho s1 s2 w) := by
  refine mic_window ho s1 s2 w h hn (by omega) hw' fun i c hi hl => ?_
  have l1 := recent_length hi hl
  have l2 := recent_length (l := s2) hi (by omega)
  obtain ⟨r, hr, ⟨a, b, h1, h2, -, rfl⟩, -⟩ := micWin_is hv (c := c) (x := recent s1 w i) (y := recent s2 w i) (by omega)
    (by intro e; rw [e] at l1; simp at l1; omega) (maxBins_large hw)
  refine ⟨_, hr, grid_range (by simp [bin_length, l1, l2]) h1 h2 (bin_lt (by omega)) (bin_lt (by omega))⟩

/-- C46: with a window of at least 7 values `mic` is the greatest relative mutual information of the last `w` points on a grid of
equal-width bins with at most `⌈w^0.6⌉` cells. The right hand side does not mention the iteration order of the hash maps. -/
theorem mic_reports (hw : 7 ≤ w) (hw' : w < 2 ^ 64) (h1 : Fins s1) (h2 : Fins s2)
    (r1 : Within (-((2 - 2 ^ (-52 : ℤ)) * 2 ^ (1023 : ℤ))) ((2 - 2 ^ (-52 : ℤ)) * 2 ^ (1023 : ℤ)) (vals s1))
    (r2 : Within (-((2 - 2 ^ (-52 : ℤ)) * 2 ^ (1023 : ℤ))) ((2 - 2 ^ (-52 : ℤ)) * 2 ^ (1023 : ℤ)) (vals s2)) :
    Reports s1.length (w - 1) (fun i => maximalInformation ⌈(w : ℝ) ^ (0.6 : ℝ)⌉₊ (recent (vals s1) w i) (recent (vals s2) w i)) (mic ho s1 s2 w) := by
  refine (mic_window ho s1 s2 w h hn (P := fun i y => y ⇓ maximalInformation ⌈(w : ℝ) ^ (0.6 : ℝ)⌉₊ (recent (vals s1) w i) (recent (vals s2) w i))
    (by omega) hw' fun i c hi hl => ?_)
  have l1 := recent_length hi hl
  have l2 := recent_length (l := s2) hi (by omega)
  obtain ⟨r, hr, hg⟩ := micWin_is hv (c := c) (x := recent s1 w i) (y := recent s2 w i) (by omega)
    (by intro e; rw [e] at l1; simp at l1; omega) (maxBins_large hw)
  refine hr.congr ?_
  rw [maximalInformation, ← hg.csSup_eq]
  congr 1
  have hb : ⌈(w : ℝ) ^ (0.6 : ℝ)⌉₊ < 2 ^ 64 := maxBins_lt (by omega) hw'
  have q1 : Within (-((2 - 2 ^ (-52 : ℤ)) * 2 ^ (1023 : ℤ))) ((2 - 2 ^ (-52 : ℤ)) * 2 ^ (1023 : ℤ)) (vals (recent s1 w i)) := fun v hv => by
    rw [recent_vals] at hv; exact r1 v (List.mem_of_mem_drop (List.mem_of_mem_take hv))
  have q2 : Within (-((2 - 2 ^ (-52 : ℤ)) * 2 ^ (1023 : ℤ))) ((2 - 2 ^ (-52 : ℤ)) * 2 ^ (1023 : ℤ)) (vals (recent s2 w i)) := fun v hv => by
    rw [recent_vals] at hv; exact r2 v (List.mem_of_mem_drop (List.mem_of_mem_take hv))
  ext v
  refine exists_congr fun a => exists_congr fun b => and_congr_right fun ha => and_congr_right fun hb' => and_congr_right fun hab => ?_
  have ba : a < 2 ^ 64 := lt_of_le_of_lt ((Nat.le_mul_of_pos_right a (by omega)).trans hab) hb
  have bb : b < 2 ^ 64 := lt_of_le_of_lt ((Nat.le_mul_of_pos_left b (by omega)).trans hab) hb
  rw [gridInformation, bin_is (h1.recent w i) (by omega) ba q1, bin_is (h2.recent w i) (by omega) bb q2, recent_vals, recent_vals]

omit hv in
/-- C46, where the code and its documentation part: with a window of at most 6 values every reported value is the most negative float. -/
theorem mic_small (hw : 1 ≤ w) (hw' : w ≤ 6) : ReportsP s1.length (w - 1) (fun _ y => y = -maxValue) (mic ho s1 s2 w) := by
  refine mic_window ho s1 s2 w h hn hw (by omega) fun i c hi hl => ?_
  have hb : binPairs ⌈(w : ℝ) ^ (0.6 : ℝ)⌉₊ = [] := List.eq_nil_iff_forall_not_mem.2 fun ⟨a, b⟩ hp => by
    obtain ⟨h1, h2, h3⟩ := mem_binPairs.1 hp
    have := maxBins_small hw'
    have := Nat.mul_le_mul h1 h2
    omega
  rw [micWin, hb]
  rfl
end

example : ReportsP 8 6 (fun _ y => ∃ r, y ⇓ r ∧ 0 ≤ r ∧ r ≤ 1)
    (mic (fun _ _ _ l => l.reverse) ([1, 3, 2, 2, 5, 6, 7, 7].map (fin (ρ := Rounding.exact))) ([3, 3, 2, 1, 0, 0, 0, 9].map fin) 7) :=
  mic_range _ (fun _ _ _ l => List.reverse_perm l) _ _ _ rfl (by simp) le_rfl (by norm_num)

example : ReportsP 3 2 (fun _ y => y = -maxValue)
    (mic (fun _ _ _ l => l) ([1, 3, 2].map (fin (ρ := Rounding.exact))) ([3, 3, 2].map fin) 3) :=
  mic_small _ _ _ _ rfl (by simp) (by norm_num) (by norm_num)

end Traquer.Correlation
