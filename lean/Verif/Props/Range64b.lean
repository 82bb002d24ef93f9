import Verif.Props.Range64
import Verif.Props.Stochastic
import Verif.Lemmas.RoundsTo
/-!
# C77: the stochastics in binary64 arithmetic
-/

namespace Traquer
open FP FloatLit
open Momentum (UpTo)

theorem nan_sub {ρ : Rounding} {x : FP ρ} : FP.nan - x = FP.nan := rfl
theorem mul_nan {ρ : Rounding} {x : FP ρ} : x * FP.nan = FP.nan := by cases x <;> rfl

theorem hundred_inf : (100 : F64) * FP.inf false = FP.inf false := by
  rcases is_iff.1 (isLit (ρ := Rounding.binary64) 100 (by norm_num)) with h | ⟨-, h⟩
  · rw [h, mul_def, FP.mul, if_neg (by simp)]
    · simp [sgn]
    · simp
    · simp
  · norm_num at h

/-- The share of a dominated number, in percent. -/
theorem Dominated.upTo {x y : F64} (h : Dominated x y) (hs : Stored x) : UpTo (100 + 2 ^ (-46 : ℤ)) (100 * x / y) := by
  rcases h with rfl | ⟨hx, rfl⟩ | ⟨a, b, ha, hb, a0, ab⟩
  · exact Or.inr (Or.inl div_nan)
  · rcases hx with rfl | ⟨a, ha, a0⟩
    · rw [hundred_inf]; exact Or.inr (Or.inl rfl)
    · right
      rcases (rounds_mul (isLit (ρ := Rounding.binary64) 100 (by norm_num)) ha).nonNegInf (by positivity) with h | ⟨c, hc, c0⟩
      · rw [h]; exact Or.inl rfl
      · right
        rcases is_iff.1 hc with h | ⟨h, rfl⟩ <;> rw [h]
        · rw [show (fin c / inf false : F64) = if sgn (fin c : F64) != false then negz else fin 0 from rfl]
          split
          · exact ⟨0, is_negz, le_rfl, by positivity⟩
          · exact ⟨0, is_fin 0, le_rfl, by positivity⟩
        · exact ⟨0, is_negz, le_rfl, by positivity⟩
  · exact (Share64 ha hb (hs a ha).1 a0 ab).imp_left And.left

/-- Numbers that are not NaN are infinite or finite. -/
theorem not_nan_cases {ρ : Rounding} {x : FP ρ} (h : isNaN x = false) : x = inf true ∨ x = inf false ∨ ∃ a, x ⇓ a := by
  cases x with
  | nan => cases h
  | inf b => cases b <;> simp
  | negz => exact Or.inr (Or.inr ⟨0, is_negz⟩)
  | fin r => exact Or.inr (Or.inr ⟨r, is_fin r⟩)

theorem inf_sub {ρ : Rounding} {x : FP ρ} {a : ℝ} (h : x ⇓ a) : (inf false : FP ρ) - x = inf false := by
  rcases is_iff.1 h with rfl | ⟨rfl, -⟩
  · show FP.add (inf false) (FP.neg (fin a)) = _
    rw [show FP.neg (fin a : FP ρ) = if a = 0 then negz else fin (-a) from rfl]
    split <;> rfl
  · rfl

theorem sub_neg_inf {ρ : Rounding} {x : FP ρ} {a : ℝ} (h : x ⇓ a) : x - (inf true : FP ρ) = inf false := by
  rcases is_iff.1 h with rfl | ⟨rfl, -⟩ <;> rfl

/-- Differences to a common smaller number. -/
theorem span_dominated {ρ : Rounding} {l c h : FP ρ} (nl : isNaN l = false) (nc : isNaN c = false) (nh : isNaN h = false)
    (h1 : l.toE ≤ c.toE) (h2 : c.toE ≤ h.toE) : c - l = FP.nan ∨ Dominated (c - l) (h - l) := by
  rcases not_nan_cases nl with rfl | rfl | ⟨r, hr⟩
  · rcases not_nan_cases nc with rfl | rfl | ⟨t, ht⟩
    · exact Or.inl rfl
    · obtain rfl : h = inf false := by
        rcases not_nan_cases nh with rfl | rfl | ⟨u, hu⟩
        · simp [toE] at h2
        · rfl
        · rw [hu.toE] at h2; simp [toE] at h2
      exact Or.inr (Or.inr (Or.inl ⟨Or.inl rfl, rfl⟩))
    · right; right; left
      refine ⟨Or.inl (sub_neg_inf ht), ?_⟩
      rcases not_nan_cases nh with rfl | rfl | ⟨u, hu⟩
      · rw [ht.toE] at h2; simp [toE] at h2
      · rfl
      · exact sub_neg_inf hu
  · left
    rcases not_nan_cases nc with rfl | rfl | ⟨t, ht⟩
    · simp [toE] at h1
    · rfl
    · rw [ht.toE] at h1; simp [toE] at h1
  · right
    rcases not_nan_cases nc with rfl | rfl | ⟨t, ht⟩
    · rw [hr.toE] at h1; simp [toE] at h1
    · obtain rfl : h = inf false := by
        rcases not_nan_cases nh with rfl | rfl | ⟨u, hu⟩
        · simp [toE] at h2
        · rfl
        · rw [hu.toE] at h2; simp [toE] at h2
      exact Or.inr (Or.inl ⟨Or.inl (inf_sub hr), inf_sub hr⟩)
    · rw [hr.toE, ht.toE] at h1
      have h1' : r ≤ t := by exact_mod_cast h1
      rcases not_nan_cases nh with rfl | rfl | ⟨u, hu⟩
      · rw [ht.toE] at h2; simp [toE] at h2
      · exact Or.inr (Or.inl ⟨(rounds_sub ht hr).nonNegInf (by linarith), inf_sub hr⟩)
      · rw [hu.toE, ht.toE] at h2
        have h2' : t ≤ u := by exact_mod_cast h2
        exact (rounds_sub ht hr).dominated (rounds_sub hu hr) (by linarith) (by linarith)

theorem span_upTo {l c h : F64} (nl : isNaN l = false) (nc : isNaN c = false) (nh : isNaN h = false)
    (h1 : l.toE ≤ c.toE) (h2 : c.toE ≤ h.toE) : UpTo (100 + 2 ^ (-46 : ℤ)) (100 * (c - l) / (h - l)) := by
  rcases span_dominated nl nc nh h1 h2 with e | h
  · rw [e, mul_nan]; exact Or.inr (Or.inl rfl)
  · exact h.upTo stored_sub

namespace Momentum

theorem UpTo.mono {m n : ℝ} {x : F64} (h : UpTo m x) (hmn : m ≤ n) : UpTo n x := by
  rcases h with h | h | ⟨a, ha, a0, a1⟩
  · exact Or.inl h
  · exact Or.inr (Or.inl h)
  · exact Or.inr (Or.inr ⟨a, ha, a0, a1.trans hmn⟩)

theorem rnd64_over : rnd64 (100 + 2 ^ (-46 : ℤ)) = 100 + 2 ^ (-46 : ℤ) := by
  rw [show (100 + 2 ^ (-46 : ℤ) : ℝ) = ((7036874417766401 : ℤ) : ℝ) * 2 ^ (-46 : ℤ) by norm_num]
  exact rnd64_exact (by norm_num) (by norm_num)

theorem rnd64_over2 : rnd64 (100 + 2 ^ (-46 : ℤ) + (100 + 2 ^ (-46 : ℤ))) = 200 + 2 ^ (-45 : ℤ) := by
  rw [show (100 + 2 ^ (-46 : ℤ) + (100 + 2 ^ (-46 : ℤ)) : ℝ) = ((7036874417766401 : ℤ) : ℝ) * 2 ^ (-45 : ℤ) by norm_num,
    rnd64_exact (by norm_num) (by norm_num)]
  norm_num

theorem rnd64_over3 : rnd64 (200 + 2 ^ (-45 : ℤ) + (100 + 2 ^ (-46 : ℤ))) = 300 + 2 ^ (-44 : ℤ) := by
  rw [rnd64_eq (e := -44) (n := 5277655813324801) (by norm_num) (by norm_num) (by norm_num) (roundEven_eq (by norm_num) (by norm_num))]
  norm_num

theorem rnd64_third : rnd64 ((300 + 2 ^ (-44 : ℤ)) / 3) = 100 + 2 ^ (-46 : ℤ) := by
  rw [rnd64_eq (e := -46) (n := 7036874417766401) (by norm_num) (by norm_num) (by norm_num) (roundEven_eq (by norm_num) (by norm_num))]
  norm_num

/-- The mean of three such percentages is one. -/
theorem UpTo.mean3 {x y z : F64} (hx : UpTo (100 + 2 ^ (-46 : ℤ)) x) (hy : UpTo (100 + 2 ^ (-46 : ℤ)) y)
    (hz : UpTo (100 + 2 ^ (-46 : ℤ)) z) : UpTo (100 + 2 ^ (-46 : ℤ)) (fsum [x, y, z] / flt 3) := by
  have h0 : UpTo 0 (0 : F64) := Or.inr (Or.inr ⟨0, isZero, le_rfl, le_rfl⟩)
  have h1 := h0.add hx (k := 100 + 2 ^ (-46 : ℤ)) (by rw [zero_add]; exact rnd64_over) (le_trans (by norm_num) large_le_max64)
  have h2 := h1.add hy rnd64_over2 (le_trans (by norm_num) large_le_max64)
  have h3 := h2.add hz rnd64_over3 (le_trans (by norm_num) large_le_max64)
  exact h3.div (isFlt (n := 3) (by norm_num)) (by norm_num) (by push_cast; exact rnd64_third) (le_trans (by norm_num) large_le_max64)

theorem sma3_upTo {l out : List F64} (h : ∀ x ∈ l, UpTo (100 + 2 ^ (-46 : ℤ)) x) (e : Smooth.sma l 3 = some out) :
    ∀ y ∈ out, UpTo (100 + 2 ^ (-46 : ℤ)) y := by
  run_at e [Smooth.sma]
  cases e
  intro y hy
  rcases List.mem_append.1 hy with hy | hy
  · exact Or.inr (Or.inl (List.eq_of_mem_replicate hy))
  · obtain ⟨u, hu, rfl⟩ := List.mem_map.1 hy
    have hl := windowsOf_mem_length hu
    obtain ⟨a, b, c, rfl⟩ := List.length_eq_three.1 hl
    have hm : ∀ x ∈ [a, b, c], UpTo (100 + 2 ^ (-46 : ℤ)) x := fun x hx => h x (mem_of_mem_windowsOf hu hx)
    exact UpTo.mean3 (hm a (by simp)) (hm b (by simp)) (hm c (by simp))

/-- C77: both lines of the binary64 `stochastic` are NaN, `+∞` or between 0 and `100 + 2^-46` for sane bars. -/
theorem stochastic_range64 (high low close : List F64) (w : ℕ) (hw : 1 ≤ w) (hn : w + 3 ≤ high.length)
    (hh : Fins high) (hl : Fins low) (hc : Fins close) (hs : SaneBars (vals high) (vals low) (vals close)) :
    ∃ out, stochastic high low close w = some out ∧ out.length = high.length ∧
      ∀ p ∈ out, (p.1 = inf false ∨ InRange 0 (100 + 2 ^ (-46 : ℤ)) p.1) ∧ (p.2 = inf false ∨ InRange 0 (100 + 2 ^ (-46 : ℤ)) p.2) := by
  have ll : low.length = high.length := by simpa [vals] using hs.low_length
  have lc : close.length = high.length := by simpa [vals] using hs.close_length
  obtain ⟨out, e, l, -⟩ := stoch_aligned high low close w 3 ll lc hw (by norm_num) (by omega)
  refine ⟨out, e, l, ?_⟩
  run_at e [stoch]
  obtain ⟨fk, e1, e⟩ := Option.bind_eq_some_iff.1 e
  obtain ⟨t, e2, e⟩ := Option.bind_eq_some_iff.1 e
  obtain ⟨-, rfl⟩ := sliceFrom_some e2
  obtain ⟨kk, e3, e⟩ := Option.bind_eq_some_iff.1 e
  cases e
  have r1 : ∀ y ∈ fk, UpTo (100 + 2 ^ (-46 : ℤ)) y := by
    refine sma3_upTo (fun y hy => ?_) e1
    obtain ⟨⟨a, b, x⟩, hp, rfl⟩ := List.mem_map.1 hy
    obtain ⟨j, hj⟩ := List.mem_iff_getElem?.1 hp
    obtain ⟨e1, e2, e3⟩ := zip3_getElem?.1 hj
    have hi := (List.getElem?_eq_some_iff.1 e1).1
    rw [windowsOf_length] at hi
    rw [show j = j + (w - 1) - (w - 1) by omega, windowsOf_recent hw (by omega) (by omega)] at e1 e2
    rw [List.getElem?_drop, Nat.add_comm] at e3
    cases e1; cases e2
    have i1 := foldMax_is (hh.recent w (j + (w - 1))) (recent_ne_nil hw (by omega) (by omega))
    have i2 := foldMin_is (hl.recent w (j + (w - 1))) (recent_ne_nil hw (by omega) (by omega))
    have i3 := hc.isAt e3
    rw [recent_vals] at i1 i2
    have hm := hs.mem (w := w) (i := j + (w - 1)) (c := x.val) hw (by omega) (by rw [vals_length]; omega) (by rw [vals_getElem?, e3]; rfl)
    refine span_upTo i2.not_nan i3.not_nan i1.not_nan ?_ ?_
    · rw [i2.toE, i3.toE]; exact_mod_cast hm.1
    · rw [i1.toE, i3.toE]; exact_mod_cast hm.2
  have r2 : ∀ y ∈ kk, UpTo (100 + 2 ^ (-46 : ℤ)) y := sma3_upTo (fun y hy => r1 y (List.mem_of_mem_drop hy)) e3
  intro p hp
  obtain ⟨a, b⟩ := p
  obtain ⟨h1, h2⟩ := List.of_mem_zip hp
  have nn : ∀ {n : ℕ} {l : List F64}, (∀ y ∈ l, UpTo (100 + 2 ^ (-46 : ℤ)) y) → ∀ y ∈ nans n ++ l, UpTo (100 + 2 ^ (-46 : ℤ)) y := by
    intro n l h y hy
    rcases List.mem_append.1 hy with hy | hy
    · exact Or.inr (Or.inl (List.eq_of_mem_replicate hy))
    · exact h y hy
  exact ⟨nn r1 a h1, nn r2 b h2⟩

/-! ## `stc` -/

theorem foldMax_toE {ρ : Rounding} {l : List (FP ρ)} {x : FP ρ} (hx : x ∈ l) (nx : isNaN x = false) :
    isNaN (Volatility.foldMax l) = false ∧ x.toE ≤ (Volatility.foldMax l).toE := by
  have grow : ∀ (l : List (FP ρ)) (s : FP ρ), isNaN s = false → isNaN (l.foldl fmax s) = false ∧ s.toE ≤ (l.foldl fmax s).toE := by
    intro l
    induction l with
    | nil => exact fun s h => ⟨h, le_rfl⟩
    | cons y l ih =>
      intro s hs
      rw [List.foldl_cons]
      cases ny : isNaN y
      · obtain ⟨h1, h2⟩ := toE_fmax hs ny
        obtain ⟨h3, h4⟩ := ih _ h1
        exact ⟨h3, le_trans (by rw [h2]; exact le_max_left _ _) h4⟩
      · have : fmax s y = s := by unfold fmax; rw [hs, ny]; rfl
        rw [this]
        exact ih s hs
  obtain ⟨a, b, rfl⟩ := List.append_of_mem hx
  rw [Volatility.foldMax, List.foldl_append, List.foldl_cons]
  have key : isNaN (fmax (a.foldl fmax nan) x) = false ∧ x.toE ≤ (fmax (a.foldl fmax nan) x).toE := by
    cases ns : isNaN (a.foldl fmax (nan : FP ρ))
    · obtain ⟨h1, h2⟩ := toE_fmax ns nx
      exact ⟨h1, by rw [h2]; exact le_max_right _ _⟩
    · have : fmax (a.foldl fmax nan) x = x := if_pos ns
      rw [this]
      exact ⟨nx, le_rfl⟩
  obtain ⟨h1, h2⟩ := grow b _ key.1
  exact ⟨h1, key.2.trans h2⟩

theorem foldMin_toE {ρ : Rounding} {l : List (FP ρ)} {x : FP ρ} (hx : x ∈ l) (nx : isNaN x = false) :
    isNaN (Volatility.foldMin l) = false ∧ (Volatility.foldMin l).toE ≤ x.toE := by
  have grow : ∀ (l : List (FP ρ)) (s : FP ρ), isNaN s = false → isNaN (l.foldl fmin s) = false ∧ (l.foldl fmin s).toE ≤ s.toE := by
    intro l
    induction l with
    | nil => exact fun s h => ⟨h, le_rfl⟩
    | cons y l ih =>
      intro s hs
      rw [List.foldl_cons]
      cases ny : isNaN y
      · obtain ⟨h1, h2⟩ := toE_fmin hs ny
        obtain ⟨h3, h4⟩ := ih _ h1
        exact ⟨h3, le_trans h4 (by rw [h2]; exact min_le_left _ _)⟩
      · have : fmin s y = s := by unfold fmin; rw [hs, ny]; rfl
        rw [this]
        exact ih s hs
  obtain ⟨a, b, rfl⟩ := List.append_of_mem hx
  rw [Volatility.foldMin, List.foldl_append, List.foldl_cons]
  have key : isNaN (fmin (a.foldl fmin nan) x) = false ∧ (fmin (a.foldl fmin nan) x).toE ≤ x.toE := by
    cases ns : isNaN (a.foldl fmin (nan : FP ρ))
    · obtain ⟨h1, h2⟩ := toE_fmin ns nx
      exact ⟨h1, by rw [h2]; exact min_le_right _ _⟩
    · have : fmin (a.foldl fmin nan) x = x := if_pos ns
      rw [this]
      exact ⟨nx, le_rfl⟩
  obtain ⟨h1, h2⟩ := grow b _ key.1
  exact ⟨h1, h2.trans key.2⟩

theorem wilder2_upTo {l out : List F64} (h : ∀ x ∈ l, UpTo (100 + 2 ^ (-46 : ℤ)) x) (e : Smooth.wilder l 2 = some out) :
    ∀ y ∈ out, UpTo (100 + 2 ^ (-46 : ℤ)) y := by
  unfold Smooth.wilder at e
  rw [if_neg (by norm_num)] at e
  obtain ⟨k, ek, e⟩ := Option.bind_eq_some_iff.1 e
  obtain ⟨-, rfl⟩ := usub_some ek
  obtain ⟨t, et, e⟩ := Option.bind_eq_some_iff.1 e
  obtain ⟨-, rfl⟩ := sliceTo_some et
  obtain ⟨u, eu, e⟩ := Option.bind_eq_some_iff.1 e
  obtain ⟨-, rfl⟩ := sliceFrom_some eu
  cases e
  have one : (flt (2 - 1) : F64) ⇓ 1 := (isFlt (n := 1) (by norm_num)).congr (by norm_num)
  have mulOne : ∀ {x : F64}, UpTo (100 + 2 ^ (-46 : ℤ)) x → UpTo (100 + 2 ^ (-46 : ℤ)) (x * flt (2 - 1)) := by
    intro x hx
    rcases hx with rfl | rfl | ⟨a, ha, a0, a1⟩
    · exact Or.inl (inf_mul one one_pos)
    · exact Or.inr (Or.inl rfl)
    · have h1 := rnd64_mono (a * 1) (100 + 2 ^ (-46 : ℤ)) (by rw [mul_one]; exact a1)
      rw [rnd64_over] at h1
      have h0 := rnd64_nonneg (x := a * 1) (by linarith)
      exact Or.inr (Or.inr ⟨_, is64 (rounds_mul ha one) rfl (by rw [abs_of_nonneg h0]; exact h1.trans percent_le_max64), h0, h1⟩)
  intro y hy
  rcases List.mem_append.1 hy with hy | hy
  · exact Or.inr (Or.inl (List.eq_of_mem_replicate hy))
  refine scanS_invariant (I := UpTo (100 + 2 ^ (-46 : ℤ))) (fun s x hx hs => ?_) ?_ y hy
  · refine ((mulOne hs).add (h x (List.mem_of_mem_drop hx)) rnd64_over2 (le_trans (by norm_num) large_le_max64)).div
      (isFlt (n := 2) (by norm_num)) (by norm_num) ?_ percent_le_max64
    rw [show ((200 + 2 ^ (-45 : ℤ)) / ((2 : ℕ) : ℝ)) = 100 + 2 ^ (-46 : ℤ) by norm_num]
    exact rnd64_over
  · have hf : UpTo (100 + 2 ^ (-46 : ℤ)) (fsum (l.take (2 - 1))) := by
      have h0 : UpTo 0 (0 : F64) := Or.inr (Or.inr ⟨0, isZero, le_rfl, le_rfl⟩)
      cases l with
      | nil => exact h0.mono (by norm_num)
      | cons x l =>
        exact h0.add (h x (by simp)) (by rw [zero_add]; exact rnd64_over) percent_le_max64
    exact hf.div one one_pos (by rw [div_one]; exact rnd64_over) percent_le_max64

theorem stcRaw_upTo {series out : List F64} {w : ℕ} (hw : 1 ≤ w) (e : stcRaw series w 2 = some out) :
    ∀ y ∈ out, UpTo (100 + 2 ^ (-46 : ℤ)) y := by
  unfold stcRaw at e
  rw [windows_eq _ hw] at e
  simp only [Option.bind_eq_bind, Option.bind_some] at e
  obtain ⟨r, er, e⟩ := Option.bind_eq_some_iff.1 e
  refine wilder2_upTo (fun x hx => ?_) e
  obtain ⟨win, hwin, ex⟩ := mapP_mem er hx
  obtain ⟨c, hc, ex⟩ := Option.bind_eq_some_iff.1 ex
  cases ex
  cases nc : isNaN c
  · obtain ⟨n1, h1⟩ := foldMin_toE (List.mem_of_getElem? hc) nc
    obtain ⟨n2, h2⟩ := foldMax_toE (List.mem_of_getElem? hc) nc
    exact span_upTo n1 nc n2 h1 h2
  · obtain rfl : c = FP.nan := by cases c <;> first | rfl | cases nc
    rw [nan_sub, mul_nan]
    exact Or.inr (Or.inl rfl)

/-- C77: on every input the binary64 `stc` is NaN, `+∞` or between 0 and `100 + 2^-46`. -/
theorem stc_range64 (close out : List F64) (w short long : ℕ) (hw : 1 ≤ w) (e : stc close w short long = some out) :
    ∀ y ∈ out, y = inf false ∨ InRange 0 (100 + 2 ^ (-46 : ℤ)) y := by
  unfold stc at e
  obtain ⟨l1, -, e⟩ := Option.bind_eq_some_iff.1 e
  obtain ⟨w1, -, e⟩ := Option.bind_eq_some_iff.1 e
  obtain ⟨m, -, e⟩ := Option.bind_eq_some_iff.1 e
  obtain ⟨s1, -, e⟩ := Option.bind_eq_some_iff.1 e
  obtain ⟨s2, e2, e⟩ := Option.bind_eq_some_iff.1 e
  cases e
  intro y hy
  rcases List.mem_append.1 hy with hy | hy
  · exact Or.inr (Or.inl (List.eq_of_mem_replicate hy))
  · exact stcRaw_upTo hw e2 y (List.mem_of_mem_drop hy)

/-! ## The bounds are met -/

theorem over_mean : fsum (List.replicate 3 (100 * ((0.3 : F64) - 0.1) / (0.3 - 0.1))) / flt 3 ⇓ 100 + 2 ^ (-46 : ℤ) := by
  have h := over03 diff03 diff03
  generalize 100 * ((0.3 : F64) - 0.1) / (0.3 - 0.1) = q at h
  show (0 + q + q + q) / flt 3 ⇓ _
  have h1 : 0 + q ⇓ 100 + 2 ^ (-46 : ℤ) :=
    is64 (rounds_add isZero h) (by rw [zero_add]; exact rnd64_over) (le_trans (by norm_num) large_le_max64)
  have h2 := is64 (rounds_add h1 h) rnd64_over2 (le_trans (by norm_num) large_le_max64)
  have h3 := is64 (rounds_add h2 h) rnd64_over3 (le_trans (by norm_num) large_le_max64)
  exact is64 (rounds_div h3 (isFlt (n := 3) (by norm_num)) (by norm_num)) (by push_cast; exact rnd64_third)
    (le_trans (by norm_num) large_le_max64)

theorem foldMax_one (x : F64) : Volatility.foldMax [x] = x := rfl
theorem foldMin_one (x : F64) : Volatility.foldMin [x] = x := rfl

/-- C77: `stochastic` exceeds 100. On bars with high 0.3, low 0.1 and close 0.3, %K is `100 + 2^-46`. -/
theorem stochastic_exceeds : ∃ out p, stochastic (List.replicate 5 (0.3 : F64)) (List.replicate 5 0.1) (List.replicate 5 0.3) 1 = some out ∧
    out[4]? = some p ∧ p.1 ⇓ 100 + 2 ^ (-46 : ℤ) := ⟨_, _, rfl, rfl, over_mean⟩

/-- C77: `rsi` overflows where its averages exceed `f64::MAX / 100`: on the bars 0 and `2^1020` with window 1 it is infinite. -/
theorem rsi_overflows : rsi ([fin 0, fin (2 ^ (1020 : ℤ))] : List F64) 1 = some [nan, inf false] := by
  have e : (2 : ℝ) ^ (1020 : ℤ) = 2 ^ 49 * 2 ^ 971 := by
    rw [show (1020 : ℤ) = ((1020 : ℕ) : ℤ) by norm_num, zpow_natCast, ← pow_add]
  have p0 : (0 : ℝ) < 2 ^ 971 := by positivity
  have hle : (2 : ℝ) ^ (1020 : ℤ) ≤ max64 := by
    rw [e, max64]
    generalize (2 : ℝ) ^ 971 = p at p0
    nlinarith
  have xp : (0 : ℝ) < 2 ^ (1020 : ℤ) := two_zpow_pos _
  have hd : (fin (2 ^ (1020 : ℤ)) : F64) - fin 0 ⇓ 2 ^ (1020 : ℤ) := by
    have := rounds_sub (ρ := Rounding.binary64) (is_fin (2 ^ (1020 : ℤ))) (is_fin 0)
    rw [sub_zero] at this
    exact exact64 this (m := 1) (e := 1020) (by rw [Int.cast_one, one_mul]) (by norm_num) (by norm_num) (by rw [abs_of_pos xp]; exact hle)
  have h1 := is_fmax (isZero (ρ := Rounding.binary64)) hd
  rw [max_eq_right xp.le] at h1
  have h2 := is_abs (is_fmin (isZero (ρ := Rounding.binary64)) hd)
  rw [min_eq_left xp.le, abs_zero] at h2
  have h3 := rounds_add h1 h2
  rw [add_zero] at h3
  have h4 := exact64 h3 (m := 1) (e := 1020) (by rw [Int.cast_one, one_mul]) (by norm_num) (by norm_num) (by rw [abs_of_pos xp]; exact hle)
  show some [nan, 100 * fmax 0 ((fin (2 ^ (1020 : ℤ)) : F64) - fin 0) /
    (fmax 0 ((fin (2 ^ (1020 : ℤ)) : F64) - fin 0) + fabs (fmin 0 ((fin (2 ^ (1020 : ℤ)) : F64) - fin 0)))] = _
  have hm := rounds_mul (isLit (ρ := Rounding.binary64) 100 (by norm_num)) h1
  have hr : rnd64 (100 * 2 ^ (1020 : ℤ)) = 100 * 2 ^ (1020 : ℤ) := by
    have := rnd64_exact (m := 100) (e := 1020) (by norm_num) (by norm_num)
    rwa [show ((100 : ℤ) : ℝ) = 100 by norm_num] at this
  rcases hm.cases with ⟨f, -⟩ | ⟨-, i⟩
  · exfalso
    have f' : |rnd64 (100 * 2 ^ (1020 : ℤ))| ≤ max64 := f
    rw [hr, abs_of_pos (mul_pos (by norm_num) xp), e, max64] at f'
    generalize (2 : ℝ) ^ 971 = p at p0 f'
    nlinarith
  · rw [decide_eq_false (not_lt.2 (by positivity))] at i
    rw [i, inf_div h4 xp]

/-! ## The hypotheses are met -/

theorem range64_example : Bounded 7 ([1, 5, 3, 7] : List F64) ∧ tiny64 ≤ 7 ∧ 1000 * ((2 : ℕ) : ℝ) * 7 ≤ max64 :=
  ⟨error_example.1, error_example.2.1, le_trans (by norm_num) large_le_max64⟩

example : ReportsP 4 2 (fun _ y => InRange 0 (100 + 2 ^ (-46 : ℤ)) y) (rsi ([1, 5, 3, 7] : List F64) 2) :=
  rsi_bounded64 _ 2 (by norm_num) (by norm_num) (by simp) range64_example.2.1 range64_example.2.2 range64_example.1

example : ReportsP 4 2 (fun _ y => y = inf false ∨ InRange 0 (100 + 2 ^ (-46 : ℤ)) y) (rsi ([1, FP.nan, inf false, 7] : List F64) 2) :=
  rsi_range64 _ 2 (by norm_num) (by norm_num) (by simp)

example : ReportsP 4 1 (fun _ y => y = inf false ∨ InRange 0 (100 + 2 ^ (-46 : ℤ)) y) (tii ([1, 5, 3, 7] : List F64) 3) :=
  tii_range64 _ 3 (by norm_num) (by simp)

example : ReportsP 5 3 (fun _ y => y = inf false ∨ InRange 0 100 y) (crsi ([1, 5, 3, 7, 8] : List F64) 2 2 3) :=
  crsi_range64 _ 2 2 3 (by norm_num) (by norm_num) (by norm_num) (by simp) (by simp) (by simp) (by norm_num) (by norm_num) (by norm_num)

example : ∃ out, stc ([1, 5, 3, 7, 8, 2, 4, 9] : List F64) 2 2 3 = some out ∧
    ∀ y ∈ out, y = inf false ∨ InRange 0 (100 + 2 ^ (-46 : ℤ)) y := by
  obtain ⟨out, e, -⟩ := stc_aligned ([1, 5, 3, 7, 8, 2, 4, 9] : List F64) 2 2 3 (by norm_num) (by norm_num) (by norm_num) (by simp) (by simp)
  exact ⟨out, e, stc_range64 _ _ 2 2 3 (by norm_num) e⟩

example (a b c : ℝ) (h1 : a ≤ b) (h2 : b ≤ c) :
    ∃ out, stochastic ((List.replicate 5 c).map (fin : ℝ → F64)) ((List.replicate 5 a).map fin) ((List.replicate 5 b).map fin) 2 = some out ∧
      out.length = 5 ∧
      ∀ p ∈ out, (p.1 = inf false ∨ InRange 0 (100 + 2 ^ (-46 : ℤ)) p.1) ∧ (p.2 = inf false ∨ InRange 0 (100 + 2 ^ (-46 : ℤ)) p.2) := by
  refine stochastic_range64 _ _ _ 2 (by norm_num) (by simp) (fins_map_fin _) (fins_map_fin _) (fins_map_fin _) ?_
  simp only [vals_map_fin]
  refine ⟨by simp, by simp, fun i l c' hl hc => ?_, fun i c' h hc hh => ?_⟩
  · obtain rfl := List.eq_of_mem_replicate (List.mem_of_getElem? hl)
    obtain rfl := List.eq_of_mem_replicate (List.mem_of_getElem? hc)
    exact h1
  · obtain rfl := List.eq_of_mem_replicate (List.mem_of_getElem? hc)
    obtain rfl := List.eq_of_mem_replicate (List.mem_of_getElem? hh)
    exact h2

end Momentum

end Traquer
