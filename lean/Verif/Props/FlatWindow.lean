import Verif.Props.Adaptive2
/-!
# C26: a flat window poisons the adaptive averages

`kama`: for every rounding, `f64` included. `vma`, `vidya`, `frama`: exact arithmetic.
-/

namespace Traquer
open FP FloatLit
variable {ρ : Rounding}

namespace FP

theorem mk_zero (s : Bool) : (mk s 0 : FP ρ) ⇓ 0 := by
  have h : ρ.rnd 0 = 0 := by simpa using ρ.nat 0 (by simp)
  rw [mk, if_pos h]
  split
  · exact is_negz
  · exact is_fin 0

/-- In every rounding the difference of two equal finite numbers is a zero. -/
theorem is_sub_same {x y : FP ρ} {c : ℝ} (hx : x ⇓ c) (hy : y ⇓ c) : x - y ⇓ 0 := by
  rcases is_iff.1 hx with rfl | ⟨rfl, rfl⟩ <;> rcases is_iff.1 hy with rfl | ⟨rfl, hc⟩ <;> rw [sub_def]
  · rw [neg]
    split
    · subst_vars; exact mk_zero false
    · rw [add, add_neg_cancel]; exact mk_zero false
  · subst hc; rw [neg, add, add_zero]; exact mk_zero false
  · rw [neg]; simp only [if_true]; exact is_negz
  · exact mk_zero false

theorem is_add_zeros {x y : FP ρ} (hx : x ⇓ 0) (hy : y ⇓ 0) : x + y ⇓ 0 := by
  rcases is_iff.1 hx with rfl | ⟨rfl, -⟩ <;> rcases is_iff.1 hy with rfl | ⟨rfl, -⟩ <;> rw [add_def, add]
  · rw [add_zero]; exact mk_zero false
  · exact mk_zero false
  · exact mk_zero false
  · exact is_negz

theorem is_zero' : (0 : FP ρ) ⇓ 0 := by
  have : (0 : FP ρ) = mk false ((0 : ℕ) : ℝ) := rfl
  rw [this, Nat.cast_zero]; exact mk_zero false

theorem zeros_div {x y : FP ρ} (hx : x ⇓ 0) (hy : y ⇓ 0) : x / y = FP.nan := by
  rcases is_iff.1 hx with rfl | ⟨rfl, -⟩ <;> rcases is_iff.1 hy with rfl | ⟨rfl, -⟩ <;> simp [div_def, FP.div, val]

end FP

theorem isNaN_nan : isNaN (FP.nan : FP ρ) = true := rfl

end Traquer

namespace Traquer.Smooth
open FP FloatLit
variable {ρ : Rounding}

theorem effRatio_flat {l : List (FP ρ)} {c : ℝ} (h : ∀ x ∈ l, x ⇓ c) (hl : l ≠ []) : effRatio l = some FP.nan := by
  have hp := List.length_pos_iff.2 hl
  have e0 := getElem?_of_lt hp
  have e1 := getElem?_of_lt (show l.length - 1 < l.length by omega)
  have hs : (pairs l).foldl (fun acc p => acc + fabs (p.1 - p.2)) 0 ⇓ 0 := by
    have : ∀ (ps : List (FP ρ × FP ρ)) (a : FP ρ), a ⇓ 0 → (∀ p ∈ ps, p.1 ⇓ c ∧ p.2 ⇓ c) →
        ps.foldl (fun acc p => acc + fabs (p.1 - p.2)) a ⇓ 0 := by
      intro ps
      induction ps with
      | nil => intro a ha _; exact ha
      | cons p ps ih =>
        intro a ha hps
        have := hps p (by simp)
        exact ih _ (is_add_zeros ha ((is_abs (is_sub_same this.1 this.2)).congr (by simp))) fun q hq => hps q (by simp [hq])
    refine this _ _ is_zero' fun p hp => ?_
    have := mem_pairs hp
    exact ⟨h _ this.1, h _ this.2⟩
  simp only [effRatio, e0, e1, Option.bind_eq_bind, Option.bind_some]
  rw [zeros_div ((is_abs (is_sub_same (h _ (List.getElem_mem _)) (h _ (List.getElem_mem _)))).congr (by simp)) hs]

/-- C26: once all values of a window are equal, every later value of `kama` is NaN, whatever the later data
(any rounding). -/
theorem kama_poisoned (data : List (FP ρ)) (w : ℕ) (short long : Option ℕ) (i : ℕ) (c : ℝ) (hw : 1 ≤ w) (h1 : w ≤ i + 1)
    (h2 : i < data.length) (hf : ∀ x ∈ recent data w i, x ⇓ c) :
    ∃ out, kama data w short long = some out ∧ out.length = data.length ∧ ∀ j y, i ≤ j → out[j]? = some y → y = FP.nan := by
  obtain ⟨out, e, l, -⟩ := kama_aligned data w short long hw (by omega)
  refine ⟨out, e, l, ?_⟩
  run_at e [kama]
  obtain ⟨r, hr, e⟩ := Option.bind_eq_some_iff.1 e
  cases e
  have hx := windowsOf_recent hw h1 h2
  have hp := scanM_poison (P := fun s => isNaN s = true) (Q := fun y => isNaN y = true) ?_ ?_ hx hr
  · intro j y hj hy
    rw [List.getElem?_append_right (by simp; omega), nans_length] at hy
    exact isNaN_iff.1 (hp _ y (by omega) hy)
  · intro s x s' y hf hs
    obtain ⟨er, -, hf⟩ := Option.bind_eq_some_iff.1 hf
    obtain ⟨la, -, hf⟩ := Option.bind_eq_some_iff.1 hf
    simp only [Option.some.injEq, Prod.mk.injEq] at hf
    obtain ⟨rfl, rfl⟩ := hf
    exact ⟨by nanp, by nanp⟩
  · intro s s' y hf'
    rw [effRatio_flat hf (by rw [← List.length_pos_iff, recent_length h1 h2]; omega)] at hf'
    obtain ⟨er, he, hf'⟩ := Option.bind_eq_some_iff.1 hf'
    cases he
    obtain ⟨la, -, hf'⟩ := Option.bind_eq_some_iff.1 hf'
    simp only [Option.some.injEq, Prod.mk.injEq] at hf'
    obtain ⟨rfl, rfl⟩ := hf'
    have h0 := isNaN_nan (ρ := ρ)
    have : isNaN (powi (FP.nan * (2 / flt (short.getD 2 + 1) - 2 / flt (long.getD 30 + 1)) + 2 / flt (long.getD 30 + 1) : FP ρ) 2) = true := by
      rw [powi_two]; nanp
    exact ⟨by nanp, by nanp⟩

/-- Five equal prices, then anything: `kama` with window 3 is NaN from bar 2 on. -/
example (a b : ℝ) : ∃ out, kama ([7, 7, 7, a, b].map (fin : ℝ → FP ρ)) 3 none none = some out ∧ out.length = 5 ∧
    ∀ j y, 2 ≤ j → out[j]? = some y → y = FP.nan :=
  kama_poisoned _ 3 none none 2 7 (by decide) (by decide) (by simp) (by intro x hx; simp [recent] at hx; rw [hx]; exact is_fin 7)

/-! ## vma -/

theorem gainsOf_flat {l : List ℝ} (h : Flat l) : gainsOf l = 0 ∧ lossesOf l = 0 := by
  constructor <;> apply List.sum_eq_zero <;> intro x hx <;> obtain ⟨p, hp, rfl⟩ := List.mem_map.1 hx <;>
    have := mem_pairs hp <;> simp [h _ this.1 _ this.2]

/-- C26: once ten consecutive prices are equal, every later value of `vma` is NaN. -/
theorem vma_poisoned (data : List XF) (w i : ℕ) (hw : w ≤ data.length) (h1 : max w 9 ≤ i) (h2 : i < data.length) (hd : Fins data)
    (hf : Flat (recent (vals data) 10 i)) :
    ∃ out, vma data w = some out ∧ out.length = data.length ∧ ∀ j y, i ≤ j → out[j]? = some y → y = FP.nan := by
  obtain ⟨out, e, l, -⟩ := vma_aligned data w (by omega)
  refine ⟨out, e, l, ?_⟩
  simp only [vma, Option.bind_eq_bind] at e
  obtain ⟨vi, hvi, e⟩ := Option.bind_eq_some_iff.1 e
  cases e
  obtain ⟨a, b, e1, ha, hb⟩ := cmoRaw_is data 9 hd (by omega) vi hvi (i - 9) (by omega)
  rw [show i - 9 + 9 = i by omega] at ha hb
  rw [(gainsOf_flat hf).1, (gainsOf_flat hf).2] at ha hb
  rw [zeros_div (ha.congr (by simp)) (hb.congr (by simp))] at e1
  intro j y hj hy
  rw [List.getElem?_append_right (by simp; omega), nans_length, List.getElem?_drop] at hy
  have hz : (vi.zip (data.drop 9))[i - 9]? = some (FP.nan, data[i]) := by
    rw [List.getElem?_zip_eq_some]
    refine ⟨e1, ?_⟩
    rw [List.getElem?_drop, show 9 + (i - 9) = i by omega]
    exact getElem?_of_lt h2
  refine isNaN_iff.1 (scanS_poison (P := fun s => isNaN s = true) ?_ ?_ hz 0 _ y (by omega) hy)
  · rintro s ⟨v, d⟩ hs; nanp
  · intro s
    have h0 := isNaN_nan (ρ := Rounding.exact)
    nanp

/-! ## vidya -/

theorem flat_sub {l m : List ℝ} (h : Flat l) (hm : ∀ x ∈ m, x ∈ l) : Flat m := fun x hx y hy => h x (hm x hx) y (hm y hy)

theorem recent_sub {α : Type} {l : List α} {w w' i j : ℕ} (h1 : w ≤ j + 1) (h2 : j ≤ i) (h3 : i + 1 - w' ≤ j + 1 - w) (h4 : w' ≤ i + 1)
    {x : α} (hx : x ∈ recent l w j) : x ∈ recent l w' i := by
  obtain ⟨k, hk⟩ := List.mem_iff_getElem?.1 hx
  rw [recent, List.getElem?_take] at hk
  split at hk
  · rw [List.getElem?_drop] at hk
    refine List.mem_iff_getElem?.2 ⟨j + 1 - w + k - (i + 1 - w'), ?_⟩
    rw [recent, List.getElem?_take_of_lt (by omega), List.getElem?_drop, ← hk]
    congr 1; omega
  · cases hk

/-- C26: once 24 consecutive prices are equal, every later value of `vidya` is NaN. -/
theorem vidya_poisoned (data : List XF) (w i : ℕ) (h1 : 23 ≤ i) (h2 : i < data.length) (hd : Fins data)
    (hf : Flat (recent (vals data) 24 i)) :
    ∃ out, vidya data w = some out ∧ out.length = data.length ∧ ∀ j y, i ≤ j → out[j]? = some y → y = FP.nan := by
  obtain ⟨items, e, l, h⟩ := vidya_items data w (by omega) hd
  refine ⟨_, e, by simp [l]; omega, ?_⟩
  obtain ⟨s20, s5, d, e1, q5, q20, ed⟩ := h (i - 23) (by omega)
  have z : ∀ k, i - 19 ≤ k → k ≤ i → stdDev (recent (vals data) 5 k) = 0 := fun k h1 h2 =>
    stdDev_eq_zero.2 (flat_sub hf fun x hx => recent_sub (by omega) (by omega) (by omega) (by omega) hx)
  rw [z _ (by omega) (by omega)] at q5
  have m0 : mean ((List.range 20).map fun j => stdDev (recent (vals data) 5 (i - 23 + 4 + j))) = 0 := by
    rw [mean, List.sum_eq_zero, zero_div]
    intro x hx
    obtain ⟨j, hj, rfl⟩ := List.mem_map.1 hx
    rw [List.mem_range] at hj
    exact z _ (by omega) (by omega)
  rw [m0] at q20
  intro j y hj hy
  rw [List.getElem?_append_right (by simp; omega), nans_length] at hy
  refine isNaN_iff.1 (scanS_poison (P := fun s => isNaN s = true) ?_ ?_ e1 0 _ y (by omega) hy)
  · intro s x hs; nanp
  · intro s
    have h0 : isNaN (s5 / s20) = true := by rw [zeros_div q5 q20]; rfl
    nanp

/-! ## frama -/

/-- The largest finite `f64`. -/
noncomputable def f64Max : ℝ := (2 - 2 ^ (-52 : ℤ)) * 2 ^ (1023 : ℤ)

theorem f64Max_ge : (1000 : ℝ) ≤ f64Max := by
  have h1 : (2 : ℝ) ^ (10 : ℤ) ≤ 2 ^ (1023 : ℤ) := zpow_le_zpow_right₀ (by norm_num) (by norm_num)
  have h2 : (1 : ℝ) ≤ 2 - 2 ^ (-52 : ℤ) := by
    have : (2 : ℝ) ^ (-52 : ℤ) ≤ 2 ^ (0 : ℤ) := zpow_le_zpow_right₀ (by norm_num) (by norm_num)
    rw [zpow_zero] at this
    linarith
  have h3 : (2 : ℝ) ^ (10 : ℤ) = 1024 := by norm_num
  rw [f64Max]
  calc (1000 : ℝ) ≤ 1 * 2 ^ (10 : ℤ) := by rw [h3]; norm_num
    _ ≤ (2 - 2 ^ (-52 : ℤ)) * 2 ^ (1023 : ℤ) := by gcongr

theorem framaAlpha_flat {l : List XF} {c : ℝ} {w : ℕ} (hw : 2 ≤ w) (hl : l.length = w) (hc : |c| ≤ f64Max)
    (h : ∀ x ∈ l, x ⇓ c) : framaAlpha w (w / 2) l = FP.nan := by
  have hm : (w / 2 : ℕ) ≠ 0 := by omega
  set items := (l.take (w / 2)).zip (l.reverse.take (w / 2)) with hi
  have hlen : items ≠ [] := by
    rw [← List.length_pos_iff, hi]; simp; omega
  have hmem : ∀ p ∈ items, p.1 ⇓ c ∧ p.2 ⇓ c := by
    intro p hp
    have := List.of_mem_zip hp
    exact ⟨h _ (List.mem_of_mem_take this.1), h _ (List.mem_reverse.1 (List.mem_of_mem_take this.2))⟩
  have hfold : ∀ (ps : List (XF × XF)) (st : XF × XF × XF × XF) (a b a' b' : ℝ), st.1 ⇓ a → st.2.1 ⇓ b → st.2.2.1 ⇓ a' → st.2.2.2 ⇓ b' →
      a ≤ c → a' ≤ c → c ≤ b → c ≤ b' → ps ≠ [] → (∀ p ∈ ps, p.1 ⇓ c ∧ p.2 ⇓ c) →
      (fun r : XF × XF × XF × XF => r.1 ⇓ c ∧ r.2.1 ⇓ c ∧ r.2.2.1 ⇓ c ∧ r.2.2.2 ⇓ c)
        (ps.foldl (fun (st : XF × XF × XF × XF) (x : XF × XF) =>
          (fmax st.1 x.1, fmin st.2.1 x.1, fmax st.2.2.1 x.2, fmin st.2.2.2 x.2)) st) := by
    intro ps
    induction ps with
    | nil => intro _ _ _ _ _ _ _ _ _ _ _ _ _ h; exact absurd rfl h
    | cons p ps ih =>
      intro st a b a' b' q1 q2 q3 q4 i1 i2 i3 i4 _ hp
      have hp0 := hp p (by simp)
      have g1 := (is_fmax q1 hp0.1).congr (max_eq_right i1)
      have g2 := (is_fmin q2 hp0.1).congr (min_eq_right i3)
      have g3 := (is_fmax q3 hp0.2).congr (max_eq_right i2)
      have g4 := (is_fmin q4 hp0.2).congr (min_eq_right i4)
      by_cases hps : ps = []
      · subst hps; exact ⟨g1, g2, g3, g4⟩
      · exact ih _ c c c c g1 g2 g3 g4 le_rfl le_rfl le_rfl le_rfl hps fun q hq => hp q (by simp [hq])
  have hb := abs_le.1 hc
  obtain ⟨f1, f2, f3, f4⟩ := hfold items (-maxValue, maxValue, -maxValue, maxValue) _ _ _ _ (is_neg is_maxValue) is_maxValue
    (is_neg is_maxValue) is_maxValue hb.1 hb.1 hb.2 hb.2 hlen hmem
  have hmr : ((w / 2 : ℕ) : ℝ) ≠ 0 := by exact_mod_cast hm
  have hwr : (w : ℝ) ≠ 0 := by positivity
  simp only [framaAlpha]
  rw [← hi]
  generalize items.foldl _ _ = r at f1 f2 f3 f4 ⊢
  have n1 := (is_div (is_sub f1 f2) (is_flt (w / 2)) hmr).congr (b := 0) (by simp)
  have n2 := (is_div (is_sub f3 f4) (is_flt (w / 2)) hmr).congr (b := 0) (by simp)
  have n3 := (is_div (is_sub (is_fmax f1 f3) (is_fmin f2 f4)) (is_flt w) hwr).congr (b := 0) (by simp)
  have lnz : ∀ x : XF, x ⇓ 0 → Traquer.ln x = FP.inf true := by
    intro x hx
    show logWith Real.log x = _
    rcases is_iff.1 hx with rfl | ⟨rfl, -⟩ <;> simp [logWith]
  have e1 := lnz _ ((is_add n1 n2).congr (by simp))
  have e2 := lnz _ n3
  have hnan : Traquer.ln ((r.1 - r.2.1) / flt (w / 2) + (r.2.2.1 - r.2.2.2) / flt (w / 2)) -
      Traquer.ln ((fmax r.1 r.2.2.1 - fmin r.2.1 r.2.2.2) / flt w) = FP.nan := by
    rw [e1, e2]; rfl
  rw [hnan]
  have he : ∀ x : XF, isNaN x = true → isNaN (Traquer.exp x) = true := by
    intro x hx; rw [isNaN_iff] at hx; subst hx; rfl
  have h0 := isNaN_nan (ρ := Rounding.exact)
  have hfin : isNaN (Traquer.exp ((-4.6 : XF) * (FP.nan / Traquer.ln 2 - 1))) = true := he _ (by nanp)
  rw [isNaN_iff.1 hfin, clampLit_nan]

/-- C26: once all values of a window are equal, every later value of `frama` is NaN. The bound on `|c|` holds for
every finite `f64`. -/
theorem frama_poisoned (data : List XF) (w i : ℕ) (c : ℝ) (hw : 2 ≤ w) (he : w % 2 = 0) (h1 : w ≤ i + 1) (h2 : i < data.length)
    (hc : |c| ≤ f64Max) (hf : ∀ x ∈ recent data w i, x ⇓ c) :
    ∃ out, frama data w = some (.ok out) ∧ out.length = data.length ∧ ∀ j y, i ≤ j → out[j]? = some y → y = FP.nan := by
  obtain ⟨out, e, _, e2, l, -⟩ := frama_aligned data w hw he (by omega)
  cases e2
  refine ⟨out, e, l, ?_⟩
  rw [frama, if_neg (by simp [he])] at e
  run_at e [frama]
  obtain ⟨r, hr, e⟩ := Option.bind_eq_some_iff.1 e
  cases e
  have hx := windowsOf_recent (by omega) h1 h2
  have hp := scanM_poison (P := fun s => isNaN s = true) (Q := fun y => isNaN y = true) ?_ ?_ hx hr
  · intro j y hj hy
    rw [List.getElem?_append_right (by simp; omega), nans_length] at hy
    exact isNaN_iff.1 (hp _ y (by omega) hy)
  · intro s x s' y hf hs
    obtain ⟨la, -, hf⟩ := Option.bind_eq_some_iff.1 hf
    simp only [Option.some.injEq, Prod.mk.injEq] at hf
    obtain ⟨rfl, rfl⟩ := hf
    exact ⟨by nanp, by nanp⟩
  · intro s s' y hf'
    obtain ⟨la, -, hf'⟩ := Option.bind_eq_some_iff.1 hf'
    simp only [Option.some.injEq, Prod.mk.injEq] at hf'
    obtain ⟨rfl, rfl⟩ := hf'
    rw [framaAlpha_flat hw (recent_length h1 h2) hc hf]
    have h0 := isNaN_nan (ρ := Rounding.exact)
    exact ⟨by nanp, by nanp⟩

example (a : ℝ) : ∃ out, frama ([7, 7, 7, 7, a].map (fin : ℝ → XF)) 4 = some (.ok out) ∧ out.length = 5 ∧
    ∀ j y, 3 ≤ j → out[j]? = some y → y = FP.nan :=
  frama_poisoned _ 4 3 7 (by decide) (by decide) (by decide) (by simp)
    (by rw [abs_of_pos (by norm_num)]; linarith [f64Max_ge])
    (by intro x hx; simp [recent] at hx; rw [hx]; exact is_fin 7)

end Traquer.Smooth
