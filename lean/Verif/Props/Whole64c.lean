import Verif.Props.Whole64b
import Verif.Props.ErrorDispersion
/-! C90, continued: `krcc` in binary64. -/

namespace Traquer.Correlation
open FP FloatLit Distribution

section
variable {ρ : Rounding}

theorem whole_boolF (b : Bool) : Whole (boolF b : FP ρ) (if b then 1 else 0) 1 := by
  cases b
  · show Whole _ (if false = true then 1 else 0) 1; rw [if_neg (by simp)]; exact (Whole.zero (ρ := ρ)).mono (Nat.zero_le 1)
  · show Whole _ (if true = true then 1 else 0) 1; rw [if_pos rfl]; exact Whole.one

theorem whole_boolF_dec (P : Prop) [Decidable P] : Whole (boolF (decide P) : FP ρ) (if P then 1 else 0) 1 := by
  simpa only [decide_eq_true_eq] using whole_boolF (ρ := ρ) (decide P)

/-- The counts of krcc are exact. -/
theorem krcc_counts_whole {l : List ((FP ρ × FP ρ) × FP ρ × FP ρ)} {s : KrccState (FP ρ)} {a b c d : ℝ} {m : ℕ}
    (hf : ∀ q ∈ l, q.1.1.Finite ∧ q.2.1.Finite ∧ q.1.2.Finite ∧ q.2.2.Finite)
    (hz : ∀ q ∈ l, q.1.2.val ≠ q.2.2.val ∨ q.1.2 ≠ negz) (hm : m + l.length ≤ 2 ^ 53)
    (h1 : Whole s.nc a m) (h2 : Whole s.xTie b m) (h3 : Whole s.yTie c m) (h4 : Whole s.xyTie d m) :
    Whole (l.foldl krccPt s).nc (a + (l.countP fun q => decide ((q.1.1.val < q.2.1.val ∧ q.1.2.val < q.2.2.val) ∨
      (q.2.1.val < q.1.1.val ∧ q.2.2.val ≤ q.1.2.val)) : ℕ)) (m + l.length) ∧
    Whole (l.foldl krccPt s).xTie (b + (l.countP fun q => decide (q.1.1.val = q.2.1.val) : ℕ)) (m + l.length) ∧
    Whole (l.foldl krccPt s).yTie (c + (l.countP fun q => decide (q.1.2.val = q.2.2.val) : ℕ)) (m + l.length) ∧
    Whole (l.foldl krccPt s).xyTie (d + (l.countP fun q => decide (q.1.1.val = q.2.1.val ∧ q.1.2.val = q.2.2.val) : ℕ)) (m + l.length) := by
  induction l generalizing s a b c d m with
  | nil => simpa using ⟨h1, h2, h3, h4⟩
  | cons q l ih =>
    obtain ⟨⟨x, y⟩, x', y'⟩ := q
    obtain ⟨fx, fx', fy, fy'⟩ := hf _ (List.mem_cons_self ..)
    have hzq := hz _ (List.mem_cons_self ..)
    dsimp only at fx fx' fy fy' hzq
    have hc : ((signum (x - x') ==. signum (y - y')) && !(x ==. x')) =
        decide ((x.val < x'.val ∧ y.val < y'.val) ∨ (x'.val < x.val ∧ y'.val ≤ y.val)) := by
      rw [is_feq fx.is fx'.is]
      by_cases hx : x.val = x'.val
      · simp [hx]
      · rw [is_feq (signum_diff fx.is fx'.is (.inl hx)) (signum_diff fy.is fy'.is hzq)]
        rcases lt_or_gt_of_ne hx with h | h <;> by_cases hy : y.val < y'.val <;>
          simp [h, h.not_gt, hx, hy, not_lt.1] <;> (norm_num; try linarith)
    rw [List.length_cons] at hm
    have k := ih (s := krccPt s ((x, y), x', y')) (a := a + if ((x.val < x'.val ∧ y.val < y'.val) ∨
        (x'.val < x.val ∧ y'.val ≤ y.val)) then 1 else 0)
      (b := b + if x.val = x'.val then 1 else 0) (c := c + if y.val = y'.val then 1 else 0)
      (d := d + if x.val = x'.val ∧ y.val = y'.val then 1 else 0) (m := m + 1)
      (fun q hq => hf q (by simp [hq])) (fun q hq => hz q (by simp [hq])) (by omega)
      (by simp only [krccPt, hc]; exact h1.add (whole_boolF_dec _) (by omega))
      (by simp only [krccPt, is_feq fx.is fx'.is]; exact h2.add (whole_boolF_dec _) (by omega))
      (by simp only [krccPt, is_feq fy.is fy'.is]; exact h3.add (whole_boolF_dec _) (by omega))
      (by simp only [krccPt, is_feq fx.is fx'.is, is_feq fy.is fy'.is, ← Bool.decide_and]; exact h4.add (whole_boolF_dec _) (by omega))
    simp only [List.countP_cons, decide_eq_true_eq, Nat.cast_add, Nat.cast_ite, Nat.cast_one, Nat.cast_zero, List.foldl_cons, List.length_cons]
    rw [show m + (l.length + 1) = m + 1 + l.length by omega]
    obtain ⟨k1, k2, k3, k4⟩ := k
    exact ⟨k1.congr (by ring), k2.congr (by ring), k3.congr (by ring), k4.congr (by ring)⟩

end

theorem is_half64 : (0.5 : F64) ⇓ 1 / 2 := by
  have e : rnd64 (1 / 2) = 1 / 2 := by
    have := rnd64_exact (m := 1) (e := -1) (by norm_num) (by norm_num)
    norm_num at this ⊢
    exact this
  have h : (mk false (OfScientific.ofScientific 5 true 1 : ℝ) : F64) ⇓ Rounding.binary64.rnd (OfScientific.ofScientific 5 true 1 : ℝ) := by
    refine mk_is ?_
    show |rnd64 _| ≤ max64
    rw [show (OfScientific.ofScientific 5 true 1 : ℝ) = 1 / 2 by norm_num, e, abs_of_pos (by norm_num)]
    refine le_trans ?_ max64_big
    calc (1 / 2 : ℝ) ≤ 2 ^ 0 := by norm_num
      _ ≤ 2 ^ 970 := pow_le_pow_right₀ (by norm_num) (by norm_num)
      _ ≤ _ := le_mul_of_one_le_left (by positivity) (by norm_num)
  refine Is.congr h ?_
  show rnd64 _ = _
  rw [show (OfScientific.ofScientific 5 true 1 : ℝ) = 1 / 2 by norm_num, e]

/-- `krcc` on a window of up to 13777 bars: the numerator is exact, the denominator is rounded once, so is the quotient. -/
theorem krccWin_rounded {xw yw : List F64} {w : ℕ} (hx : Fins xw) (hy : Fins yw) (lx : xw.length = w) (ly : yw.length = w) (hw : w ≤ 13777)
    (hz : (vals yw).Nodup) :
    ∃ y, krccWin w xw yw = some y ∧ (kendallDen (vals xw) (vals yw) ≠ 0 → ∃ (q : F64) (r : ℝ), Rounds q (kendallDen (vals xw) (vals yw)) ∧ (q ⇓ r) ∧ r ≠ 0 ∧
      Rounds y (((concordant (vals xw) (vals yw) : ℝ) - discordant (vals xw) (vals yw)) / r)) := by
  have hf := krcc_fold (F := F64) (xw := xw) (yw := yw) (by omega) ⟨0, 0, 0, 0⟩
  rw [lx] at hf
  have hq : ∀ q ∈ pairsOf (xw.zip yw), q.1.1.Finite ∧ q.2.1.Finite ∧ q.1.2.Finite ∧ q.2.2.Finite := fun q hq => by
    obtain ⟨a, b⟩ := pairsOf_mem hq
    exact ⟨hx _ (zip_mem a).1, hx _ (zip_mem b).1, hy _ (zip_mem a).2, hy _ (zip_mem b).2⟩
  have hzq : ∀ q ∈ pairsOf (xw.zip yw), q.1.2.val ≠ q.2.2.val ∨ q.1.2 ≠ negz := fun q hq => by
    left
    have h1 : (xw.zip yw).Pairwise fun p p' => p.2.val ≠ p'.2.val := by
      have e : (xw.zip yw).map (fun p => p.2.val) = vals yw := by
        rw [vals, ← List.map_snd_zip (l₁ := xw) (l₂ := yw) (by omega), List.map_map]
        congr 1
        simp [List.map_snd_zip (l₁ := xw) (l₂ := yw) (by omega)]
      rw [← e] at hz
      exact List.pairwise_map.1 hz
    exact pairsOf_pairwise h1 hq
  -- the number of pairs
  obtain ⟨T, hT⟩ : ∃ T : ℕ, w * (w - 1) = 2 * T := by
    rcases Nat.even_or_odd w with ⟨k, hk⟩ | ⟨k, hk⟩
    · exact ⟨k * (w - 1), by rw [← Nat.mul_assoc, ← (by omega : w = 2 * k)]⟩
    · exact ⟨w * k, by rw [show w - 1 = 2 * k by omega]; ring⟩
  have hTb : T ≤ 94895976 := by
    have : w * (w - 1) ≤ 13777 * 13776 := Nat.mul_le_mul hw (by omega)
    omega
  have hTr : (w * (w - 1) : ℝ) / 2 = T := by
    have : ((w * (w - 1) : ℕ) : ℝ) = 2 * T := by exact_mod_cast hT
    cases w with
    | zero => simp at this ⊢; exact_mod_cast this.symm
    | succ n => push_cast at this ⊢; simp at this ⊢; linarith
  have lp : (pairsOf (xw.zip yw)).length = T := by
    have := pairsOf_length (xw.zip yw)
    rw [List.length_zip, lx, ly, min_self, hTr] at this
    exact_mod_cast this
  have z0 := Whole.zero (ρ := Rounding.binary64)
  obtain ⟨k1, k2, k3, k4⟩ := krcc_counts_whole (s := ⟨0, 0, 0, 0⟩) (m := 0) hq hzq (by omega) z0 z0 z0 z0
  rw [zero_add, lp, Nat.zero_add] at k1 k2 k3 k4
  rw [← numPairs_vals fun x x' y y' => (x < x' ∧ y < y') ∨ (x' < x ∧ y' ≤ y)] at k1
  rw [← numPairs_vals fun x x' _ _ => x = x'] at k2
  rw [← numPairs_vals fun _ _ y y' => y = y'] at k3
  rw [← numPairs_vals fun x x' y y' => x = x' ∧ y = y'] at k4
  have ht : Whole (flt (w * (w - 1)) * (0.5 : F64)) T T := by
    have := rounds_mul (isFlt (ρ := Rounding.binary64) (n := w * (w - 1)) (by omega)) is_half64
    rw [hT] at this ⊢
    refine Whole.of_rounds ?_ ⟨T, by simp⟩ (by simp) (by omega)
    convert this using 1
    push_cast; ring
  have hnum := k1.sub ((((ht.sub k1 (by omega)).sub k2 (by omega)).sub k3 (by omega)).add k4 (by omega)) (by omega)
  have hle : ∀ P, (numPairs P (vals xw) (vals yw) : ℝ) ≤ T := fun P => by
    have := pairsOf_length ((vals xw).zip (vals yw))
    rw [List.length_zip, vals_length, vals_length, lx, ly, min_self, hTr] at this
    rw [← this, numPairs]
    exact_mod_cast List.countP_le_length
  have sx := ht.sub k2 (by omega)
  have sy := ht.sub k3 (by omega)
  have shr : ∀ {x : F64} {a : ℝ} {c : ℕ}, Whole x a c → 0 ≤ a → a ≤ T → Whole x a T := fun h h0 h1 => ⟨h.1, h.2.1, by rwa [abs_of_nonneg h0]⟩
  have sx' := shr sx (sub_nonneg.2 (hle _)) (sub_le_self _ (Nat.cast_nonneg _))
  have sy' := shr sy (sub_nonneg.2 (hle _)) (sub_le_self _ (Nat.cast_nonneg _))
  have hTT : T * T ≤ 2 ^ 53 := le_trans (Nat.mul_le_mul hTb hTb) (by norm_num)
  have pr := sx'.mul sy' hTT
  obtain ⟨z, hzp⟩ := pr.2.1
  have hd := rounds_sqrt pr.1 (mul_nonneg (sub_nonneg.2 (hle _)) (sub_nonneg.2 (hle _)))
  refine ⟨_, by simp only [krccWin, hf, Option.bind_eq_bind, Option.bind_some]; rfl, fun h0 => ?_⟩
  have lv : (vals xw).length = w := by simpa using lx
  have lv' : (vals yw).length = w := by simpa using ly
  obtain ⟨e1, e2, e3, e4⟩ := pairs_split hz (by rw [lv, lv'])
  have hden : kendallDen (vals xw) (vals yw) = Real.sqrt (((T : ℝ) - tiesX (vals xw) (vals yw)) * ((T : ℝ) - tiesY (vals xw) (vals yw))) := by
    rw [kendallDen, lv, hTr]
  have hd' : Rounds (sqrt ((flt (w * (w - 1)) * (0.5 : F64) - ((pairsOf (xw.zip yw)).foldl krccPt ⟨0, 0, 0, 0⟩).xTie) *
      (flt (w * (w - 1)) * (0.5 : F64) - ((pairsOf (xw.zip yw)).foldl krccPt ⟨0, 0, 0, 0⟩).yTie))) (kendallDen (vals xw) (vals yw)) := by
    rw [hden]; exact hd
  have den0 : 0 ≤ kendallDen (vals xw) (vals yw) := by rw [hden]; exact Real.sqrt_nonneg _
  have denle : kendallDen (vals xw) (vals yw) ≤ T := by
    rw [hden]
    refine Real.sqrt_le_iff.2 ⟨Nat.cast_nonneg _, ?_⟩
    rw [sq]
    exact mul_le_mul (sub_le_self _ (Nat.cast_nonneg _)) (sub_le_self _ (Nat.cast_nonneg _)) (sub_nonneg.2 (hle _)) (Nat.cast_nonneg _)
  have den1 : 1 ≤ kendallDen (vals xw) (vals yw) := by
    have hp : 0 < kendallDen (vals xw) (vals yw) := lt_of_le_of_ne den0 (Ne.symm h0)
    rw [hden] at hp ⊢
    have hpp := Real.sqrt_pos.1 hp
    refine Real.one_le_sqrt.2 ?_
    have e : ((T : ℝ) - tiesX (vals xw) (vals yw)) * ((T : ℝ) - tiesY (vals xw) (vals yw)) = z := hzp
    rw [e] at hpp ⊢
    have : 0 < z := by exact_mod_cast hpp
    exact_mod_cast this
  obtain ⟨r, hr, r0, -⟩ := hd'.between (n := T) (by omega) den0 denle
  have r1 : 1 ≤ r := by
    rcases hd'.cases with ⟨-, h⟩ | ⟨-, h⟩
    · rw [hr.unique h]
      have := Rounding.binary64.mono _ _ den1
      have e1 := Rounding.binary64.nat 1 (by norm_num)
      rw [Nat.cast_one] at e1
      rwa [e1] at this
    · rw [h] at hr; exact hr.1.elim
  refine ⟨_, r, hd', hr, by linarith, ?_⟩
  have := rounds_div hnum.1 hr (by linarith : r ≠ 0)
  convert this using 2
  rw [lv, hTr] at e4
  have c1 : numPairs (fun x x' y y' => (x < x' ∧ y < y') ∨ (x' < x ∧ y' ≤ y)) (vals xw) (vals yw) = concordant (vals xw) (vals yw) := e1
  have c2 : numPairs (fun x x' _ _ => x = x') (vals xw) (vals yw) = tiesX (vals xw) (vals yw) := rfl
  have c3 : numPairs (fun _ _ y y' => y = y') (vals xw) (vals yw) = 0 := e2
  have c4 : numPairs (fun x x' y y' => x = x' ∧ y = y') (vals xw) (vals yw) = 0 := e3
  rw [c1, c2, c3, c4, ← e4]
  push_cast
  ring

variable (s1 s2 : List F64) (w : ℕ) (h : s2.length = s1.length) (hw : 1 ≤ w) (hn : w ≤ s1.length + 1) (h1 : Fins s1) (h2 : Fins s2) (hw' : w ≤ 13777)
include h hw hn h1 h2 hw'

/-- C90: `krcc` in binary64 on windows of up to 13777 points, if no window of the second series has ties: Kendall's tau-b with the
denominator rounded once and the quotient rounded once. -/
theorem krcc_rounded (hd : ∀ i, w ≤ i + 1 → i < s1.length → (recent (vals s2) w i).Nodup) :
    ReportsP s1.length (w - 1) (fun i y =>
      let den := kendallDen (recent (vals s1) w i) (recent (vals s2) w i)
      den ≠ 0 → ∃ (q : F64) (r : ℝ), Rounds q den ∧ (q ⇓ r) ∧ r ≠ 0 ∧
        Rounds y (((concordant (recent (vals s1) w i) (recent (vals s2) w i) : ℝ) - discordant (recent (vals s1) w i) (recent (vals s2) w i)) / r))
      (krcc s1 s2 w) := by
  refine (krcc_aligned s1 s2 w h hw hn).reportsP fun out e i y hi hy => ?_
  have := items_windows2 (f := fun ((xw, yw) : List F64 × List F64) => krccWin w xw yw) (d := (FP.nan : F64))
    (P := fun i (y : F64) => kendallDen (recent (vals s1) w i) (recent (vals s2) w i) ≠ 0 → ∃ (q : F64) (r : ℝ),
        Rounds q (kendallDen (recent (vals s1) w i) (recent (vals s2) w i)) ∧ (q ⇓ r) ∧ r ≠ 0 ∧
        Rounds y (((concordant (recent (vals s1) w i) (recent (vals s2) w i) : ℝ) - discordant (recent (vals s1) w i) (recent (vals s2) w i)) / r))
    hw h hn fun i hi hl => by
      have lx : (recent s1 w i).length = w := recent_length hi hl
      have ly : (recent s2 w i).length = w := recent_length hi (by omega)
      have hd' := hd i hi hl
      rw [← recent_vals] at hd'
      rw [← recent_vals, ← recent_vals]
      exact krccWin_rounded (w := w) (h1.recent w i) (h2.recent w i) lx ly hw' hd'
  obtain ⟨o, eo, -, ho⟩ := this
  have e' : krcc s1 s2 w = some o := by
    rw [← eo]
    run_model [krcc]
    rfl
  cases e.symm.trans e'
  exact ho i y hi hy

/-- C90: without ties in either series `krcc` in binary64 is the exact share of concordant minus discordant pairs, rounded once. -/
theorem krcc_untied_rounded (h2w : 2 ≤ w) (hd1 : ∀ i, w ≤ i + 1 → i < s1.length → (recent (vals s1) w i).Nodup)
    (hd : ∀ i, w ≤ i + 1 → i < s1.length → (recent (vals s2) w i).Nodup) :
    ReportsP s1.length (w - 1) (fun i y => Rounds y
      (((concordant (recent (vals s1) w i) (recent (vals s2) w i) : ℝ) - discordant (recent (vals s1) w i) (recent (vals s2) w i)) / ((w * (w - 1) : ℝ) / 2)))
      (krcc s1 s2 w) := by
  refine ReportsP.mono (krcc_rounded s1 s2 w h hw hn h1 h2 hw' hd) fun i y hi hl hy => ?_
  have lx : (recent (vals s1) w i).length = w := recent_length (by omega) (by simpa using hl)
  have ly : (recent (vals s2) w i).length = w := recent_length (by omega) (by rw [vals_length]; omega)
  have n1 := hd1 i (by omega) hl
  have n2 := hd i (by omega) hl
  have tx : tiesX (recent (vals s1) w i) (recent (vals s2) w i) = 0 := by
    refine List.countP_eq_zero.2 fun q hq => ?_
    have h1 : ((recent (vals s1) w i).zip (recent (vals s2) w i)).Pairwise fun p p' => p.1 ≠ p'.1 := by
      have e : ((recent (vals s1) w i).zip (recent (vals s2) w i)).map (·.1) = recent (vals s1) w i := List.map_fst_zip (by omega)
      rw [← e] at n1
      exact List.pairwise_map.1 n1
    simpa using pairsOf_pairwise h1 hq
  obtain ⟨-, ty, -, -⟩ := pairs_split n2 (by rw [lx, ly])
  have w1 : (2 : ℝ) ≤ w := by exact_mod_cast h2w
  have T0 : (0 : ℝ) < (w * (w - 1) : ℝ) / 2 := by
    have : (0 : ℝ) < w * (w - 1) := mul_pos (by linarith) (by linarith)
    linarith
  have den : kendallDen (recent (vals s1) w i) (recent (vals s2) w i) = (w * (w - 1) : ℝ) / 2 := by
    rw [kendallDen, tx, ty, lx]
    simp only [Nat.cast_zero, sub_zero]
    exact Real.sqrt_mul_self T0.le
  obtain ⟨q, r, hq, hr, hr0, hy⟩ := hy (by rw [den]; exact T0.ne')
  have : r = (w * (w - 1) : ℝ) / 2 := by
    rw [den] at hq
    obtain ⟨T, hT⟩ : ∃ T : ℕ, w * (w - 1) = 2 * T := by
      rcases Nat.even_or_odd w with ⟨k, hk⟩ | ⟨k, hk⟩
      · exact ⟨k * (w - 1), by rw [← Nat.mul_assoc, ← (by omega : w = 2 * k)]⟩
      · exact ⟨w * k, by rw [show w - 1 = 2 * k by omega]; ring⟩
    have hTb : T ≤ 94895976 := by
      have : w * (w - 1) ≤ 13777 * 13776 := Nat.mul_le_mul hw' (by omega)
      omega
    have hTr : (w * (w - 1) : ℝ) / 2 = T := by
      have e : ((w * (w - 1) : ℕ) : ℝ) = 2 * T := by exact_mod_cast hT
      rw [Nat.cast_mul, Nat.cast_sub (by omega), Nat.cast_one] at e
      linarith
    rw [hTr] at hq ⊢
    exact hr.unique (Whole.of_rounds (c := T) hq ⟨T, by simp⟩ (by simp) (by omega)).1
  rwa [this] at hy

end Traquer.Correlation

namespace Traquer
open FP

/-! The hypotheses are met by quotes in whole cents and whole volumes. -/

private noncomputable abbrev centsOf (l : List ℕ) : List F64 := l.map fun n : ℕ => fin (n : ℝ)

private theorem whole_cents (l : List ℕ) {c : ℕ} (h : ∀ n ∈ l, n ≤ c) : Wholes c (centsOf l) := by
  intro x hx
  obtain ⟨n, hn, rfl⟩ := List.mem_map.1 hx
  exact ⟨trivial, ⟨n, by simp [FP.val]⟩, by simpa [FP.val] using h n hn⟩

private theorem fins_cents (l : List ℕ) : Fins (centsOf l) := fun x hx => by
  obtain ⟨n, -, rfl⟩ := List.mem_map.1 hx
  trivial

private theorem no_negz (l : List ℕ) : ∀ x ∈ centsOf l, x ≠ negz := fun x hx => by
  obtain ⟨n, -, rfl⟩ := List.mem_map.1 hx
  simp

private theorem vals_cents (l : List ℕ) : vals (centsOf l) = l.map fun n : ℕ => (n : ℝ) := by
  simp [vals, centsOf, FP.val, Function.comp_def]

private abbrev hi : List ℕ := [19203, 19425, 19986, 19926, 20119]
private abbrev lo : List ℕ := [18801, 19052, 19104, 19033, 19205]
private abbrev cl : List ℕ := [18902, 19324, 19225, 19193, 19999]
private abbrev vo : List ℕ := [1200300, 900100, 750000, 0, 88100]

private theorem wh : Wholes 25000 (centsOf hi) := whole_cents _ (by decide)
private theorem wl : Wholes 25000 (centsOf lo) := whole_cents _ (by decide)
private theorem wc : Wholes 25000 (centsOf cl) := whole_cents _ (by decide)
private theorem wv : Wholes 2000000 (centsOf vo) := whole_cents _ (by decide)

example := Smooth.sma_rounded _ 3 _ (by norm_num) (by simp) wc (by norm_num) (by norm_num)
example := Volume.obv_exact (centsOf cl) _ _ (by simp) (by simp) (fins_cents _) wv (no_negz _) (by simp)
example := Volume.tvi_exact (centsOf cl) _ (fin (5 : ℝ)) _ _ (by simp) (by simp) wc (by norm_num) wv trivial (by simp)
example := Volume.vwma_rounded _ _ 3 _ _ (by simp) (by norm_num) (by simp) wc wv (by norm_num) (by norm_num)
example : (lastOf (bar (vals (centsOf vo))) 3 4).sum ≠ 0 := by
  rw [vals_cents]
  norm_num [lastOf, bar, List.range_succ]
example := Momentum.psych_rounded (centsOf cl) 3 (by norm_num) (by simp) (by norm_num) (fins_cents _) (no_negz _)
example := Momentum.cmo_rounded _ 3 _ (by simp) (by simp) wc (by simp)
example : (rises (recent (vals (centsOf cl)) 4 4)).sum + (falls (recent (vals (centsOf cl)) 4 4)).sum ≠ 0 := by
  rw [vals_cents]
  norm_num [recent, rises, falls, pairs]
example := Momentum.cog_rounded _ 3 _ (by norm_num) (by simp) wc (by norm_num) (by norm_num)
example : (recent (vals (centsOf cl)) 3 4).sum ≠ 0 := by
  rw [vals_cents]
  norm_num [recent]
example := Trend.shinohara_rounded _ _ _ 3 _ (by simp) (by simp) (by norm_num) (by simp) wh wl wc (by norm_num)
example : windowSum (vals (centsOf cl)) 3 3 - windowSum (vals (centsOf lo)) 3 4 ≠ 0 := by
  rw [vals_cents, vals_cents]
  norm_num [windowSum, recent]
example := Trend.vortex_rounded _ _ _ 3 _ (by simp) (by simp) (by norm_num) (by simp) wh wl wc (by norm_num)
example : (lastOf (trAt (vals (centsOf hi)) (vals (centsOf lo)) (vals (centsOf cl))) 3 4).sum ≠ 0 := by
  rw [vals_cents, vals_cents, vals_cents]
  norm_num [lastOf, bar, List.range_succ, trAt, trueRangeOf, abs_of_pos, abs_of_neg]
example := Volatility.vhf_rounded _ _ _ 3 _ (by simp) (by simp) (by norm_num) (by simp) wh wl wc (by norm_num)
example : (lastOf (fun j => |bar (vals (centsOf cl)) j - bar (vals (centsOf cl)) (j - 1)|) 3 4).sum ≠ 0 := by
  rw [vals_cents]
  norm_num [lastOf, bar, List.range_succ]
example := Volatility.donchian_rounded _ _ 3 _ (by simp) (by norm_num) (by simp) wh wl (by norm_num)
example : ∀ i, 3 ≤ i + 1 → i < (centsOf hi).length → (recent (vals (centsOf cl)) 3 i).Nodup := by
  rw [vals_cents]
  intro i h1 h2
  have h5 : i < 5 := h2
  interval_cases i <;> norm_num [recent]
example (h1 : ∀ i, 3 ≤ i + 1 → i < (centsOf hi).length → (recent (vals (centsOf hi)) 3 i).Nodup)
    (h2 : ∀ i, 3 ≤ i + 1 → i < (centsOf hi).length → (recent (vals (centsOf cl)) 3 i).Nodup) :=
  Correlation.krcc_untied_rounded (centsOf hi) (centsOf cl) 3 (by simp) (by norm_num) (by simp) (fins_cents _) (fins_cents _) (by norm_num) (by norm_num) h1 h2

end Traquer
