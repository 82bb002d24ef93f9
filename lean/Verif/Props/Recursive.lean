import Verif.Spec.Recursive
import Verif.Props.Composed
import Verif.Props.FlatWindow
import Verif.Lemmas.Witness
/-!
# C69: the recursive averages are the published recursions
-/

namespace Traquer.Smooth
open FP FloatLit
open Traquer.Trend (is_bar)

/-- C69: `mdma` is McGinley's recursion, from the first bar on, for prices other than 0 as long as the average is not 0. -/
theorem mdma_reports (data : List XF) (w : ℕ) (hw : 1 ≤ w) (hn : 1 ≤ data.length) (hd : Fins data) (h0 : ∀ x ∈ data, ¬ x ⇓ 0)
    (hm : ∀ i, i + 1 < data.length → mcginley w (bar (vals data)) i ≠ 0) :
    Reports data.length 0 (mcginley w (bar (vals data))) (mdma data w) := by
  have e0 := getElem?_of_lt hn
  have s1 : sliceFrom data 1 = some (data.drop 1) := sliceFrom_of_le hn
  simp only [mdma, e0, s1, Option.bind_eq_bind, Option.bind_some]
  refine ⟨_, rfl, by simp; omega, fun i hi => by omega, fun i _ hi => ?_⟩
  have hlt : i < (data[0] :: scanS (fun state x => state + (x - state) / (0.6 * flt w * powi (x / state) 4)) data[0] (data.drop 1)).length := by
    simp; omega
  refine ⟨_, getElem?_of_lt hlt, ?_⟩
  cases i with
  | zero => exact is_bar hd e0
  | succ i =>
    rw [List.getElem_cons_succ]
    simp only [List.length_cons, scanS_length, List.length_drop] at hlt
    refine scan_idx (I := fun i s => s ⇓ mcginley w (bar (vals data)) i) (P := fun i y => y ⇓ mcginley w (bar (vals data)) (i + 1)) ?_
      (is_bar hd e0) i _ (getElem?_of_lt (l := scanS _ _ _) (by simp; omega))
    intro i s x hx hs
    rw [List.getElem?_drop, show 1 + i = i + 1 by omega] at hx
    have hil := (List.getElem?_eq_some_iff.1 hx).1
    have hxb := is_bar hd hx
    have hs0 := hm i hil
    have hx0 : bar (vals data) (i + 1) ≠ 0 := fun hz => h0 x (List.mem_of_getElem? hx) (hxb.congr hz)
    have hw0 : (w : ℝ) ≠ 0 := by positivity
    have := is_add hs (is_div (is_sub hxb hs) (is_mul (is_mul (is_sci 6 true 1) (is_flt w)) (is_powi 4 (is_div hxb hs hs0)))
      (mul_ne_zero (mul_ne_zero (by norm_num) hw0) (pow_ne_zero _ (div_ne_zero hx0 hs0))))
    exact ⟨this, this⟩

/-- C69: `hwma` is the Holt-Winters recursion with the three factors limited to 0..1; it reports level plus trend plus half the
acceleration. -/
theorem hwma_reports (data : List XF) (alpha beta gamma : Option XF) (a b g : ℝ) (hn : 1 ≤ data.length) (hd : Fins data)
    (ha : alpha.getD 0.2 ⇓ a) (hb : beta.getD 0.1 ⇓ b) (hg : gamma.getD 0.1 ⇓ g) :
    Reports data.length 0 (fun i => (holtWinters (max 0 (min a 1)) (max 0 (min b 1)) (max 0 (min g 1)) (bar (vals data)) i).1 +
      (holtWinters (max 0 (min a 1)) (max 0 (min b 1)) (max 0 (min g 1)) (bar (vals data)) i).2.1 +
      (holtWinters (max 0 (min a 1)) (max 0 (min b 1)) (max 0 (min g 1)) (bar (vals data)) i).2.2 / 2) (hwma data alpha beta gamma) := by
  have hA := is_clampLit ha is_zero is_one zero_le_one
  have hB := is_clampLit hb is_zero is_one zero_le_one
  have hG := is_clampLit hg is_zero is_one zero_le_one
  set A := max 0 (min a 1)
  set B := max 0 (min b 1)
  set G := max 0 (min g 1)
  have e0 := getElem?_of_lt hn
  simp only [hwma, e0, Option.bind_eq_bind, Option.bind_some]
  refine ⟨_, rfl, by simp, fun i hi => by omega, fun i _ hi => ?_⟩
  refine ⟨_, getElem?_of_lt (by simpa using hi), ?_⟩
  have half : (0.5 : XF) ⇓ (1 / 2 : ℝ) := (is_sci 5 true 1).congr (by norm_num)
  refine scan_idx (I := fun i (s : XF × XF × XF) => ∃ u v z, s.1 ⇓ u ∧ s.2.1 ⇓ v ∧ s.2.2 ⇓ z ∧
      holtWinters A B G (bar (vals data)) i = holtWinters.holtStep A B G (u, v, z) (bar (vals data) i))
    (P := fun i y => y ⇓ (holtWinters A B G (bar (vals data)) i).1 + (holtWinters A B G (bar (vals data)) i).2.1 +
      (holtWinters A B G (bar (vals data)) i).2.2 / 2) ?_
    ⟨_, _, _, is_bar hd e0, is_zero, is_zero, rfl⟩ i _ (getElem?_of_lt (by simpa using hi))
  rintro i ⟨s1, s2, s3⟩ x hx ⟨u, v, z, h1, h2, h3, e⟩
  simp only at h1 h2 h3
  have hxb := is_bar hd hx
  have q1 := is_add (is_mul (is_sub is_one hA) (is_add (is_add h1 h2) (is_mul half h3))) (is_mul hA hxb)
  have q2 := is_add (is_mul (is_sub is_one hB) (is_add h2 h3)) (is_mul hB (is_sub q1 h1))
  have q3 := is_add (is_mul (is_sub is_one hG) h3) (is_mul hG (is_sub q2 h2))
  have p1 := q1.congr (b := (holtWinters A B G (bar (vals data)) i).1) (by rw [e]; simp only [holtWinters.holtStep]; ring)
  have p2 := q2.congr (b := (holtWinters A B G (bar (vals data)) i).2.1) (by rw [e]; simp only [holtWinters.holtStep]; ring)
  have p3 := q3.congr (b := (holtWinters A B G (bar (vals data)) i).2.2) (by rw [e]; simp only [holtWinters.holtStep]; ring)
  exact ⟨⟨_, _, _, p1, p2, p3, rfl⟩, (is_add (is_add p1 p2) (is_mul half p3)).congr (by ring)⟩

/-- C69: `ssf` is the two pole super smoother, from bar 2 on, or the three pole one, from bar 3 on. -/
theorem ssf_reports (data : List XF) (w : ℕ) (tri : Option Bool) (hw : 1 ≤ w) (hn : 3 ≤ data.length) (hd : Fins data) :
    Reports data.length (if tri.getD false then 3 else 2)
      (if tri.getD false then smoother3 w (bar (vals data)) else smoother2 w (bar (vals data))) (ssf data w tri) := by
  have g0 := getElem?_of_lt (show 0 < data.length by omega)
  have g1 := getElem?_of_lt (show 1 < data.length by omega)
  have g2 := getElem?_of_lt (show 2 < data.length by omega)
  have hw0 := (natCast_pos hw).ne'
  cases ht : tri.getD false
  · have s2 : sliceFrom data 2 = some (data.drop 2) := sliceFrom_of_le (by omega)
    simp only [ssf, ht, g0, g1, s2, Option.bind_eq_bind, Option.bind_some, Bool.false_eq_true, if_false]
    have hx : (FloatOps.pi * sqrt 2 / flt w : XF) ⇓ _ := is_div (is_mul is_pi (is_sqrt (is_lit 2) (by norm_num))) (is_flt w) hw0
    have hy := is_exp (is_neg hx)
    have hC := is_mul (is_neg hy) hy
    have hB := is_mul (is_mul (is_lit 2) hy) (is_cos hx)
    have hA := is_sub (is_sub is_one hB) hC
    refine reports_nans (by simp; omega) fun i hi => ⟨_, getElem?_of_lt hi, ?_⟩
    refine scan_idx (I := fun i (s : XF × XF) => s.1 ⇓ smoother2 w (bar (vals data)) i ∧ s.2 ⇓ smoother2 w (bar (vals data)) (i + 1))
      (P := fun i y => y ⇓ smoother2 w (bar (vals data)) (2 + i)) ?_ ⟨is_bar hd g0, is_bar hd g1⟩ i _ (getElem?_of_lt hi)
    rintro i ⟨s0, s1⟩ x hx ⟨q1, q2⟩
    rw [List.getElem?_drop, show 2 + i = i + 2 by omega] at hx
    rw [show 2 + i = i + 2 by omega]
    have q3 := (is_add (is_add (is_mul hA (is_bar hd hx)) (is_mul hB q2)) (is_mul hC q1)).congr
      (b := smoother2 w (bar (vals data)) (i + 2)) (by rw [smoother2]; ring)
    exact ⟨⟨q2, q3⟩, q3⟩
  · have s3 : sliceFrom data 3 = some (data.drop 3) := sliceFrom_of_le (by omega)
    simp only [ssf, ht, g0, g1, g2, s3, Option.bind_eq_bind, Option.bind_some, if_true]
    have hx : (FloatOps.pi / flt w : XF) ⇓ _ := is_div is_pi (is_flt w) hw0
    have hy := is_exp (is_neg hx)
    have hy2 := is_mul hy hy
    have hz := is_mul (is_mul (is_lit 2) hy) (is_cos (is_mul (is_sqrt (is_lit 3) (by norm_num)) hx))
    have hD := is_mul hy2 hy2
    have hC := is_mul (is_neg hy2) (is_add is_one hz)
    have hB := is_add hy2 hz
    have hA := is_sub (is_sub (is_sub is_one hB) hC) hD
    refine reports_nans (by simp; omega) fun i hi => ⟨_, getElem?_of_lt hi, ?_⟩
    refine scan_idx (I := fun i (s : XF × XF × XF) => s.1 ⇓ smoother3 w (bar (vals data)) i ∧
        s.2.1 ⇓ smoother3 w (bar (vals data)) (i + 1) ∧ s.2.2 ⇓ smoother3 w (bar (vals data)) (i + 2))
      (P := fun i y => y ⇓ smoother3 w (bar (vals data)) (3 + i)) ?_ ⟨is_bar hd g0, is_bar hd g1, is_bar hd g2⟩ i _ (getElem?_of_lt hi)
    rintro i ⟨s0, s1, s2⟩ x hx ⟨q1, q2, q3⟩
    rw [List.getElem?_drop, show 3 + i = i + 3 by omega] at hx
    rw [show 3 + i = i + 3 by omega]
    have q4 := (is_add (is_add (is_add (is_mul hA (is_bar hd hx)) (is_mul hB q3)) (is_mul hC q2)) (is_mul hD q1)).congr
      (b := smoother3 w (bar (vals data)) (i + 3)) (by rw [smoother3]; ring)
    exact ⟨⟨q2, q3, q4⟩, q4⟩

/-! ## frama -/

theorem foldl_max_seed {l : List ℝ} {m : ℝ} (hl : l ≠ []) (h : ∀ x ∈ l, m ≤ x) : l.foldl max m = maxOf l := by
  obtain ⟨h1, h2⟩ := foldl_max_spec l m
  refine le_antisymm ?_ (h2 _ (List.mem_cons_of_mem _ (maxOf_mem hl)))
  rcases List.mem_cons.1 h1 with e | e
  · rw [e]; exact h _ (maxOf_mem hl)
  · exact le_maxOf e

theorem foldl_min_seed {l : List ℝ} {m : ℝ} (hl : l ≠ []) (h : ∀ x ∈ l, x ≤ m) : l.foldl min m = minOf l := by
  rw [foldl_min_neg, minOf_neg, foldl_max_seed (by simpa using hl) (by
    intro x hx
    obtain ⟨y, hy, rfl⟩ := List.mem_map.1 hx
    exact neg_le_neg (h y hy))]

theorem maxOf_reverse (l : List ℝ) : maxOf l.reverse = maxOf l := by
  by_cases h : l = []
  · subst h; rfl
  · exact maxOf_eq (List.mem_reverse.2 (maxOf_mem h)) fun x hx => le_maxOf (List.mem_reverse.1 hx)

theorem minOf_reverse (l : List ℝ) : minOf l.reverse = minOf l := by
  by_cases h : l = []
  · subst h; rfl
  · exact minOf_eq (List.mem_reverse.2 (minOf_mem h)) fun x hx => minOf_le (List.mem_reverse.1 hx)

theorem maxOf_append {l m : List ℝ} (hl : l ≠ []) (hm : m ≠ []) : maxOf (l ++ m) = max (maxOf l) (maxOf m) := by
  refine maxOf_eq ?_ fun x hx => ?_
  · rcases max_choice (maxOf l) (maxOf m) with e | e <;> rw [e]
    · exact List.mem_append_left _ (maxOf_mem hl)
    · exact List.mem_append_right _ (maxOf_mem hm)
  · rcases List.mem_append.1 hx with h | h
    · exact (le_maxOf h).trans (le_max_left _ _)
    · exact (le_maxOf h).trans (le_max_right _ _)

theorem minOf_append {l m : List ℝ} (hl : l ≠ []) (hm : m ≠ []) : minOf (l ++ m) = min (minOf l) (minOf m) := by
  refine minOf_eq ?_ fun x hx => ?_
  · rcases min_choice (minOf l) (minOf m) with e | e <;> rw [e]
    · exact List.mem_append_left _ (minOf_mem hl)
    · exact List.mem_append_right _ (minOf_mem hm)
  · rcases List.mem_append.1 hx with h | h
    · exact (min_le_left _ _).trans (minOf_le h)
    · exact (min_le_right _ _).trans (minOf_le h)

theorem rangeOf_nonneg (l : List ℝ) : 0 ≤ rangeOf l := by
  by_cases h : l = []
  · subst h; simp [rangeOf, maxOf, minOf]
  · exact sub_nonneg.2 (minOf_le (maxOf_mem h))

theorem frama_fold (a b : List XF) (hl : a.length = b.length) (s : XF × XF × XF × XF) :
    (a.zip b).foldl (fun (st : XF × XF × XF × XF) (x : XF × XF) =>
      (fmax st.1 x.1, fmin st.2.1 x.1, fmax st.2.2.1 x.2, fmin st.2.2.2 x.2)) s =
    (a.foldl fmax s.1, a.foldl fmin s.2.1, b.foldl fmax s.2.2.1, b.foldl fmin s.2.2.2) := by
  induction a generalizing b s with
  | nil => cases b with
    | nil => rfl
    | cons _ _ => simp at hl
  | cons x a ih => cases b with
    | nil => simp at hl
    | cons y b =>
      rw [List.zip_cons_cons, List.foldl_cons, ih b (by simpa using hl)]
      rfl

/-- The gain of a window whose halves are flat but different. -/
theorem gain_flat_halves {s t : XF} {r : ℝ} (hs : s ⇓ 0) (ht : t ⇓ r) :
    clampLit (Traquer.exp ((-4.6 : XF) * ((Traquer.ln s - t) / Traquer.ln 2 - 1))) 0.01 1 ⇓ 1 := by
  have e1 : Traquer.ln s = FP.inf true := by
    show logWith Real.log s = _
    rcases is_iff.1 hs with rfl | ⟨rfl, -⟩ <;> simp [logWith]
  have sub_inf : ∀ (b : Bool) (x : XF) (u : ℝ), x ⇓ u → (FP.inf b : XF) - x = FP.inf b := by
    intro b x u hx
    rcases is_iff.1 hx with rfl | ⟨rfl, -⟩ <;> rw [sub_def, neg]
    · split <;> rfl
    · rfl
  have e2 : (FP.inf true : XF) / Traquer.ln 2 = FP.inf true := by
    have l2 := is_ln (is_lit 2) (by norm_num : (0 : ℝ) < OfNat.ofNat 2)
    have p : 0 < Real.log (OfNat.ofNat 2) := Real.log_pos (by norm_num)
    rcases is_iff.1 l2 with h | ⟨-, h⟩
    · rw [h]
      show (inf (true != sgn (fin _ : XF))) = _
      simp only [sgn, not_lt.2 p.le, decide_false, Bool.bne_false]
    · exact absurd h p.ne'
  have e3 : (-4.6 : XF) * FP.inf true = FP.inf false := by
    have c46 : (-4.6 : XF) ⇓ (-4.6 : ℝ) := is_neg (is_sci 46 true 1)
    rcases is_iff.1 c46 with h | ⟨-, h⟩
    · rw [h, mul_def, mul]
      · have : (-4.6 : ℝ) < 0 := by norm_num
        simp [sgn, this, this.ne]
      · intro h; cases h
      · intro a h; cases h
    · norm_num at h
  rw [e1, sub_inf _ _ _ ht, e2, sub_inf _ _ _ is_one, e3]
  have e4 : Traquer.exp (FP.inf false : XF) = FP.inf false := rfl
  rw [e4, clampLit]
  have n1 : ((FP.inf false : XF) <. 0.01) = false := by
    rcases is_iff.1 (is_sci 1 true 2 : (0.01 : XF) ⇓ _) with h | ⟨h, -⟩ <;> rw [h, lt_def] <;> simp [lt, toE]
  have n2 : ((1 : XF) <. FP.inf false) = true := by
    rcases is_iff.1 is_one with h | ⟨-, h⟩
    · rw [h, lt_def]; simp [lt, toE]
      exact ⟨⟨rfl, rfl⟩, decide_eq_true (EReal.coe_lt_top 1)⟩
    · norm_num at h
  rw [n1, n2]
  exact is_one

/-- The gain of one window. -/
theorem framaAlpha_is {l : List XF} {w : ℕ} (hw : 2 ≤ w) (he : w % 2 = 0) (hl : l.length = w) (hf : Fins l)
    (hb : ∀ x ∈ vals l, |x| ≤ f64Max) (hr : rangeOf (vals l) ≠ 0) : framaAlpha w (w / 2) l ⇓ fractalGain (vals l) := by
  set h := w / 2 with hh
  have h1 : 1 ≤ h := by omega
  have hw2 : w - h = h := by omega
  set a := vals (l.take h) with ha
  set b := vals (l.drop h) with hb'
  have hab : vals l = a ++ b := by rw [ha, hb', vals_take, vals_drop, List.take_append_drop]
  have la : a.length = h := by simp [ha, hl]; omega
  have lb : b.length = h := by simp [hb', hl]; omega
  have na : a ≠ [] := List.ne_nil_of_length_pos (by omega)
  have nb : b ≠ [] := List.ne_nil_of_length_pos (by omega)
  have hrev : l.reverse.take h = (l.drop h).reverse := by rw [List.take_reverse, hl, hw2]
  have hM : ((2 : ℝ) - 2 ^ (-52 : ℤ)) * 2 ^ (1023 : ℤ) = f64Max := rfl
  have ba : ∀ x ∈ a, |x| ≤ f64Max := fun x hx => hb x (by rw [hab]; exact List.mem_append_left _ hx)
  have bb : ∀ x ∈ b.reverse, |x| ≤ f64Max := fun x hx => hb x (by rw [hab]; exact List.mem_append_right _ (List.mem_reverse.1 hx))
  have vr : vals (l.drop h).reverse = b.reverse := by simp [vals, hb']
  have f1 : (l.take h).foldl fmax (-maxValue) ⇓ maxOf a := (foldl_fmax_is (hf.take h) (is_neg is_maxValue)).congr
    (foldl_max_seed na fun x hx => (abs_le.1 (ba x hx)).1)
  have f2 : (l.take h).foldl fmin maxValue ⇓ minOf a := (foldl_fmin_is (hf.take h) is_maxValue).congr
    (foldl_min_seed na fun x hx => (abs_le.1 (ba x hx)).2)
  have hfr : Fins (l.drop h).reverse := fun x hx => hf.drop h x (List.mem_reverse.1 hx)
  have f3 : (l.drop h).reverse.foldl fmax (-maxValue) ⇓ maxOf b := (foldl_fmax_is hfr (is_neg is_maxValue)).congr (by
    rw [vr, ← maxOf_reverse]
    exact foldl_max_seed (by simpa using nb) fun x hx => (abs_le.1 (bb x hx)).1)
  have f4 : (l.drop h).reverse.foldl fmin maxValue ⇓ minOf b := (foldl_fmin_is hfr is_maxValue).congr (by
    rw [vr, ← minOf_reverse]
    exact foldl_min_seed (by simpa using nb) fun x hx => (abs_le.1 (bb x hx)).2)
  simp only [framaAlpha, hrev]
  rw [frama_fold _ _ (by simp [hl]; omega)]
  simp only
  have hr0 : (h : ℝ) ≠ 0 := by positivity
  have hwr : (w : ℝ) ≠ 0 := by positivity
  have n1 : _ ⇓ rangeOf a / h := is_div (is_sub f1 f2) (is_flt h) hr0
  have n2 : _ ⇓ rangeOf b / h := is_div (is_sub f3 f4) (is_flt h) hr0
  have n3 : _ ⇓ rangeOf (vals l) / w := (is_div (is_sub (is_fmax f1 f3) (is_fmin f2 f4)) (is_flt w) hwr).congr (by
    rw [rangeOf, hab, maxOf_append na nb, minOf_append na nb])
  have hl' : (vals l).length = w := by simpa using hl
  have pr : 0 < rangeOf (vals l) := lt_of_le_of_ne (rangeOf_nonneg _) (Ne.symm hr)
  have l3 := is_ln n3 (div_pos pr (by positivity))
  have l2 := is_ln (is_lit 2) (by norm_num : (0 : ℝ) < OfNat.ofNat 2)
  have hlog : Real.log (OfNat.ofNat 2) ≠ 0 := (Real.log_pos (by norm_num)).ne'
  have c1 : (0.01 : XF) ⇓ (0.01 : ℝ) := is_sci 1 true 2
  have c46 : (-4.6 : XF) ⇓ (-4.6 : ℝ) := is_neg (is_sci 46 true 1)
  rw [fractalGain, hl', ← hh]
  rw [← vals_take, ← vals_drop, ← ha, ← hb']
  split
  · rename_i hz
    have z := (is_add n1 n2).congr (b := 0) (by rw [hz.1, hz.2]; simp)
    exact gain_flat_halves z l3
  · rename_i hz
    have ps : 0 < rangeOf a / h + rangeOf b / h := by
      have q1 := rangeOf_nonneg a
      have q2 := rangeOf_nonneg b
      rcases lt_or_eq_of_le q1 with q | q
      · have : 0 < rangeOf a / h := by positivity
        have : 0 ≤ rangeOf b / h := by positivity
        linarith
      · rcases lt_or_eq_of_le q2 with q' | q'
        · have : 0 ≤ rangeOf a / h := by positivity
          have : 0 < rangeOf b / h := by positivity
          linarith
        · exact absurd ⟨q.symm, q'.symm⟩ hz
    have l1 := is_ln (is_add n1 n2) ps
    refine (is_clampLit (is_exp (is_mul c46 (is_sub (is_div (is_sub l1 l3) l2 hlog) is_one))) c1 is_one (by norm_num)).congr ?_
    rw [fractalDim, hl', ← hh, ← vals_take, ← vals_drop, ← ha, ← hb']

/-- C69: `frama` is the adaptive average whose gain is that of the fractal dimension of the window, provided no window is flat. It starts
from 0 at bar `w - 1`. The bound holds for every finite `f64`. -/
theorem frama_reports (data : List XF) (w : ℕ) (hw : 2 ≤ w) (he : w % 2 = 0) (hn : w ≤ data.length + 1) (hd : Fins data)
    (hb : ∀ x ∈ vals data, |x| ≤ f64Max) (hr : ∀ i, w ≤ i + 1 → i < data.length → rangeOf (recent (vals data) w i) ≠ 0) :
    ∃ out, frama data w = some (.ok out) ∧ Reports data.length (w - 1)
      (adaptive (w - 1) (fun i => fractalGain (recent (vals data) w i)) (bar (vals data))) (some out) := by
  set G : ℕ → ℝ := fun i => fractalGain (recent (vals data) w i) with hG
  obtain ⟨o, eo, ho⟩ := scanM_idx_some (f := fun (state : XF) x => do
      let alpha := framaAlpha w (w / 2) x
      let last ← x.getLast?
      let state := alpha * last + (1 - alpha) * state
      some (state, state)) (s := (0 : XF)) (l := windowsOf w data)
    (I := fun i s => s ⇓ adaptive (w - 1) G (bar (vals data)) (w - 1 + i - 1))
    (P := fun i s => s ⇓ adaptive (w - 1) G (bar (vals data)) (w - 1 + i)) (by
      intro i s x hx hs
      have hil := (List.getElem?_eq_some_iff.1 hx).1
      simp only [windowsOf_length] at hil
      have hx' : x = recent data w (w - 1 + i) := by
        have := windowsOf_recent (l := data) (w := w) (i := w - 1 + i) (by omega) (by omega) (by omega)
        rw [show w - 1 + i - (w - 1) = i by omega, hx] at this
        exact Option.some.inj this
      have hlx : x.length = w := by rw [hx']; exact recent_length (by omega) (by omega)
      have hfx : Fins x := by rw [hx']; exact hd.recent _ _
      have hvx : vals x = recent (vals data) w (w - 1 + i) := by rw [hx', recent_vals]
      have e1 := getElem?_of_lt (show x.length - 1 < x.length by omega)
      have hlast : x[x.length - 1] ⇓ bar (vals data) (w - 1 + i) := by
        refine is_bar hd ?_
        rw [← e1, hlx, hx', recent, List.getElem?_take_of_lt (by omega), List.getElem?_drop]
        congr 1; omega
      have ga := framaAlpha_is hw he hlx hfx (fun y hy => hb y (by
        rw [hvx] at hy
        exact List.mem_of_mem_drop (List.mem_of_mem_take hy))) (by rw [hvx]; exact hr _ (by omega) (by omega))
      refine ⟨_, _, by simp only [List.getLast?_eq_getElem?, e1, Option.bind_eq_bind, Option.bind_some]; rfl, ?_⟩
      have key := is_add (is_mul ga hlast) (is_mul (is_sub is_one ga) hs)
      have : adaptive (w - 1) G (bar (vals data)) (w - 1 + i) = _ := adaptive_succ (by omega)
      rw [show w - 1 + (i + 1) - 1 = w - 1 + i by omega]
      have key := key.congr (b := adaptive (w - 1) G (bar (vals data)) (w - 1 + i)) (by rw [this, hG, hvx]; ring)
      exact ⟨key, key⟩) (is_zero.congr adaptive_start.symm)
  have lo := scanM_length eo
  simp only [windowsOf_length] at lo
  refine ⟨nans (w - 1) ++ o, ?_, reports_nans (by omega) fun i hi => ⟨_, getElem?_of_lt hi, ho i _ (getElem?_of_lt hi)⟩⟩
  simp only [frama, he, ne_eq, not_true_eq_false, if_false, usub_of_le (show 1 ≤ w by omega), windows_eq data (show 1 ≤ w by omega), Option.bind_eq_bind, Option.bind_some]
  simp only [Option.bind_eq_bind] at eo
  rw [eo]
  rfl

/-- A short series. -/
noncomputable def rc4 : List XF := [2, 5, 3, 4].map fin

example : ValueAt (mdma rc4 1) 1 (2 + 3 / (0.6 * 1 * (5 / 2) ^ 4)) :=
  (mdma_reports rc4 1 (by decide) (by simp [rc4]) (fins_map_fin _) (nonzero_map_fin (by simp)) (by
    intro i hi
    rw [rc4, vals_map_fin]
    rcases i with _ | _ | _ | i
    · norm_num [mcginley, bar]
    · norm_num [mcginley, bar]
    · norm_num [mcginley, bar]
    · exact absurd hi (by simp [rc4]))).value 1 (by decide) (by simp [rc4]) (by rw [rc4, vals_map_fin]; norm_num [mcginley, bar])
example : ValueAt (hwma rc4 (some (fin (1 / 2))) (some (fin (1 / 2))) (some 5)) 1 (2 + 3 / 2 + 3 / 4 + 3 / 8) :=
  (hwma_reports rc4 (some (fin (1 / 2))) (some (fin (1 / 2))) (some 5) (1 / 2) (1 / 2) 5 (by simp [rc4]) (fins_map_fin _) (is_fin _) (is_fin _)
    (is_lit 5)).value 1 (by decide) (by simp [rc4]) (by rw [rc4, vals_map_fin]; norm_num [holtWinters, holtWinters.holtStep, bar])
example := ssf_reports rc4 2 none (by decide) (by simp [rc4]) (fins_map_fin _)
example : ∃ out, frama rc4 2 = some (.ok out) ∧ ValueAt (some out) 2 3 := by
  obtain ⟨out, e, h⟩ := frama_reports rc4 2 (by decide) (by decide) (by simp [rc4]) (fins_map_fin _) (by
      have h5 : (5 : ℝ) ≤ f64Max := by
        have : (2 : ℝ) ^ (3 : ℤ) ≤ 2 ^ (1023 : ℤ) := zpow_le_zpow_right₀ (by norm_num) (by norm_num)
        rw [f64Max]
        generalize (2 : ℝ) ^ (1023 : ℤ) = z at this
        norm_num at this ⊢
        linarith
      rw [rc4, vals_map_fin]
      simp only [List.mem_cons, List.not_mem_nil, or_false, forall_eq_or_imp, forall_eq]
      norm_num
      refine ⟨?_, h5, ?_, ?_⟩ <;> linarith) (by
    intro i hi hn
    rw [rc4, vals_map_fin]
    rcases i with _ | _ | _ | _ | i
    · omega
    · norm_num [rangeOf, recent, maxOf, minOf]
    · norm_num [rangeOf, recent, maxOf, minOf]
    · norm_num [rangeOf, recent, maxOf, minOf]
    · exact absurd hn (by simp [rc4]))
  refine ⟨out, e, h.value 2 (by decide) (by simp [rc4]) ?_⟩
  rw [rc4, vals_map_fin]
  norm_num [adaptive, fractalGain, rangeOf, recent, maxOf, minOf, bar]

end Traquer.Smooth
