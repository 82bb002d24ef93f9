import Verif.Spec.Entropy
import Verif.Lemmas.Bars
import Verif.Lemmas.Indexed
import Verif.Lemmas.Sign
import Verif.Props.ShapeStats
import Verif.Props.Dispersion
/-!
# C53: the entropies and their 8-bit counters
-/

namespace Traquer.Distribution
open FP FloatLit

/-! ## Templates -/

theorem foldMax_le {l : List ℝ} (hl : l ≠ []) (t : ℝ) : maxOf l ≤ t ↔ ∀ x ∈ l, x ≤ t :=
  ⟨fun h _ hx => (le_maxOf hx).trans h, fun h => h _ (maxOf_mem hl)⟩

theorem vals_bar {ts : List XF} {i : ℕ} {x : XF} (h : ts[i]? = some x) : bar (vals ts) i = x.val := by
  simp [bar, vals, h]

/-- Two templates match if and only if they are within the tolerance everywhere. -/
theorem templMatch_iff {ts : List XF} {m i j : ℕ} {tol : XF} {t : ℝ} (hf : Fins ts) (ht : tol ⇓ t) (hm : 1 ≤ m)
    (hi : i + m ≤ ts.length) (hj : j + m ≤ ts.length) : templMatch ts m tol i j = true ↔ Near (vals ts) m t i j := by
  set l := (((ts.drop i).take m).zip ((ts.drop j).take m)).map (fun p => fabs (p.1 - p.2)) with hl
  have hg : ∀ k, k < m → ∃ y, l[k]? = some y ∧ y ⇓ |bar (vals ts) (i + k) - bar (vals ts) (j + k)| := by
    intro k hk
    have e1 : ts[i + k]? = some ts[i + k] := List.getElem?_eq_getElem (by omega)
    have e2 : ts[j + k]? = some ts[j + k] := List.getElem?_eq_getElem (by omega)
    refine ⟨fabs (ts[i + k] - ts[j + k]), ?_, ?_⟩
    · rw [hl, List.getElem?_map, List.getElem?_zip_eq_some (z := (ts[i + k], ts[j + k])).2 ⟨?_, ?_⟩]
      · rfl
      · rw [List.getElem?_take, if_pos hk, List.getElem?_drop, e1]
      · rw [List.getElem?_take, if_pos hk, List.getElem?_drop, e2]
    · rw [vals_bar e1, vals_bar e2]
      exact is_abs (is_sub (hf _ (List.getElem_mem _)).is (hf _ (List.getElem_mem _)).is)
  have hlen : l.length = m := by simp [hl]; omega
  have hfl : Fins l := by
    intro y hy
    obtain ⟨k, hk⟩ := List.mem_iff_getElem?.1 hy
    have hk' := (List.getElem?_eq_some_iff.1 hk).1
    obtain ⟨z, e, hz⟩ := hg k (by omega)
    rw [hk] at e; cases e
    exact hz.finite
  have hne : l ≠ [] := by rintro h; rw [h] at hlen; simp at hlen; omega
  have := is_le (foldMax_is hfl hne) ht
  rw [show templMatch ts m tol i j = (Volatility.foldMax l <=. tol) from rfl, this, decide_eq_true_iff,
    foldMax_le (by simpa [vals] using hne)]
  constructor
  · intro h k hk
    obtain ⟨y, e, hy⟩ := hg k hk
    have := h y.val (List.mem_map_of_mem (List.mem_of_getElem? e))
    rwa [hy.2] at this
  · intro h x hx
    obtain ⟨y, hy, rfl⟩ := List.mem_map.1 hx
    obtain ⟨k, hk⟩ := List.mem_iff_getElem?.1 hy
    have hk' := (List.getElem?_eq_some_iff.1 hk).1
    obtain ⟨z, e, hz⟩ := hg k (by omega)
    rw [hk] at e; cases e
    rw [hz.2]
    exact h k (by omega)

/-- Templates of length 0 are never counted as matching, not even with themselves. -/
theorem templMatch_zero (ts : List XF) (tol : XF) (i j : ℕ) : templMatch ts 0 tol i j = false := by
  cases tol <;> simp [templMatch] <;> rfl

/-- The number of matches of a template. -/
theorem count_is {ts : List XF} {m i : ℕ} {tol : XF} {t : ℝ} (hf : Fins ts) (ht : tol ⇓ t) (hm : 1 ≤ m)
    (hml : m ≤ ts.length) (hi : i < stretches (vals ts) m) :
    ((List.range (ts.length - m + 1)).map (templMatch ts m tol i)).count true = matchesOf (vals ts) m t i := by
  classical
  rw [matchesOf, ← Nat.count_eq_card_filter_range, Nat.count, List.count_eq_countP, List.countP_map]
  have hs : stretches (vals ts) m = ts.length - m + 1 := by simp [stretches, vals]
  rw [hs] at hi ⊢
  refine List.countP_congr fun j hj => ?_
  rw [List.mem_range] at hj
  simp only [Function.comp, beq_true, decide_eq_true_eq]
  rw [templMatch_iff hf ht hm (by omega) (by omega)]

theorem ltPairs_nodup (n : ℕ) : (ltPairs n).Nodup := by
  rw [ltPairs, List.nodup_flatMap]
  refine ⟨fun i _ => ?_, ?_⟩
  · exact ((List.nodup_range).sublist (List.drop_sublist _ _)).map (fun a b h => by simpa using h)
  · refine (List.nodup_range (n := n)).imp ?_
    intro a b hab
    simp only [Function.onFun, List.disjoint_left, List.mem_map]
    rintro x ⟨_, _, rfl⟩ ⟨_, _, h⟩
    exact hab (by simpa using (congrArg Prod.fst h).symm)

/-- The number of matching pairs. -/
theorem pairCount_is {ts : List XF} {m : ℕ} {tol : XF} {t : ℝ} (hf : Fins ts) (ht : tol ⇓ t) (hm : 1 ≤ m)
    (hml : m ≤ ts.length) :
    ((ltPairs (ts.length - m + 1)).map fun p => templMatch ts m tol p.1 p.2).count true = pairMatches (vals ts) m t := by
  classical
  rw [pairMatches, List.count_eq_countP, List.countP_map, List.countP_eq_length_filter,
    ← List.toFinset_card_of_nodup ((ltPairs_nodup _).filter _)]
  congr 1
  ext ⟨i, j⟩
  simp only [List.mem_toFinset, List.mem_filter, Correlation.mem_ltPairs, Function.comp, beq_true, Finset.mem_filter,
    Finset.mem_product, Finset.mem_range, stretches, vals, List.length_map]
  constructor
  · rintro ⟨⟨h1, h2⟩, h3⟩
    exact ⟨⟨by omega, h2⟩, h1, (templMatch_iff hf ht hm (by omega) (by omega)).1 h3⟩
  · rintro ⟨⟨h1, h2⟩, h3, h4⟩
    exact ⟨⟨h3, h2⟩, (templMatch_iff hf ht hm (by omega) (by omega)).2 h4⟩

theorem matchesOf_pos {ts : List ℝ} {m i : ℕ} {t : ℝ} (ht : 0 ≤ t) (hi : i < stretches ts m) : 0 < matchesOf ts m t i := by
  classical
  rw [matchesOf, Finset.card_pos]
  exact ⟨i, Finset.mem_filter.2 ⟨Finset.mem_range.2 hi, fun k _ => by simpa using ht⟩⟩

/-! ## One window -/

theorem phi_none {ts : List XF} {m : ℕ} {tol : XF} {t : ℝ} (hf : Fins ts) (ht : tol ⇓ t) (hm : 1 ≤ m) (hml : m ≤ ts.length) :
    phi ts m tol = none ↔ ∃ i, i < stretches (vals ts) m ∧ 255 < matchesOf (vals ts) m t i := by
  have e : phi ts m tol = none ↔
      mapP (fun i => countU8 ((List.range (ts.length - m + 1)).map (templMatch ts m tol i))) (List.range (ts.length - m + 1)) = none := by
    run_model [phi]
    cases mapP (fun i => countU8 ((List.range (ts.length - m + 1)).map (templMatch ts m tol i))) (List.range (ts.length - m + 1)) <;> simp
  rw [e, mapP_none_iff]
  have hs : stretches (vals ts) m = ts.length - m + 1 := by simp [stretches, vals]
  constructor
  · rintro ⟨i, hi, h⟩
    rw [List.mem_range] at hi
    refine ⟨i, by omega, ?_⟩
    rw [countU8_eq, count_is hf ht hm hml (by omega)] at h
    by_contra hc
    rw [if_pos (by omega)] at h
    simp at h
  · rintro ⟨i, hi, h⟩
    refine ⟨i, by rw [List.mem_range]; omega, ?_⟩
    rw [countU8_eq, count_is hf ht hm hml (by omega), if_neg (by omega)]

theorem phi_is {ts : List XF} {m : ℕ} {tol : XF} {t : ℝ} {y : XF} (hf : Fins ts) (ht : tol ⇓ t) (h0 : 0 ≤ t) (hm : 1 ≤ m)
    (hml : m ≤ ts.length) (h : phi ts m tol = some y) : y ⇓ phiOf (vals ts) m t := by
  have hs : stretches (vals ts) m = ts.length - m + 1 := by simp [stretches, vals]
  simp only [phi, usub_of_le hml, Option.bind_eq_bind, Option.bind_some] at h
  obtain ⟨c, hc, h⟩ := Option.bind_eq_some_iff.1 h
  cases h
  have hc' : c = (List.range (ts.length - m + 1)).map (matchesOf (vals ts) m t) := by
    apply List.ext_getElem?
    intro i
    rw [mapP_getElem? hc, List.getElem?_map]
    by_cases hi : i < ts.length - m + 1
    · have hne : countU8 ((List.range (ts.length - m + 1)).map (templMatch ts m tol i)) ≠ none := fun hn => by
        rw [mapP_none_iff.2 ⟨i, List.mem_range.2 hi, hn⟩] at hc; simp at hc
      rw [List.getElem?_range hi]
      simp only [Option.bind_some, Option.map_some]
      rw [countU8_eq, count_is hf ht hm hml (by omega)] at hne ⊢
      rw [if_pos]
      by_contra hc
      rw [if_neg hc] at hne
      exact hne rfl
    · rw [List.getElem?_eq_none (by simpa using hi)]; rfl
  have hpos : (0 : ℝ) < ((ts.length - m + 1 : ℕ) : ℝ) := by positivity
  rw [hc', List.foldl_map]
  have := foldl_add_is (t := fun i => ln (flt (matchesOf (vals ts) m t i) / flt (ts.length - m + 1)))
    (v := fun i => Real.log (matchesOf (vals ts) m t i / stretches (vals ts) m)) (l := List.range (ts.length - m + 1)) is_zero (by
      intro i hi
      rw [List.mem_range] at hi
      have hp : (0 : ℝ) < (matchesOf (vals ts) m t i : ℝ) := Nat.cast_pos.2 (matchesOf_pos h0 (by omega))
      rw [hs]
      exact is_ln (is_div (is_flt _) (is_flt _) hpos.ne') (by positivity))
  refine (is_div this (is_flt _) hpos.ne').congr ?_
  simp [phiOf, mean, hs]

theorem matchCount_none {ts : List XF} {m : ℕ} {tol : XF} {t : ℝ} (hf : Fins ts) (ht : tol ⇓ t) (hm : 1 ≤ m) (hml : m ≤ ts.length) :
    matchCount ts m tol = none ↔ 255 < pairMatches (vals ts) m t := by
  run_model [matchCount, countU8_eq, pairCount_is hf ht hm hml]
  by_cases h : pairMatches (vals ts) m t ≤ 255
  · simp [h]
  · simp [h]; omega

theorem matchCount_is {ts : List XF} {m : ℕ} {tol : XF} {t : ℝ} {y : XF} (hf : Fins ts) (ht : tol ⇓ t) (hm : 1 ≤ m)
    (hml : m ≤ ts.length) (h : matchCount ts m tol = some y) : y ⇓ pairScore (vals ts) m t := by
  simp only [matchCount, usub_of_le hml, Option.bind_eq_bind, Option.bind_some, countU8_eq, pairCount_is hf ht hm hml] at h
  by_cases hc : pairMatches (vals ts) m t ≤ 255
  · rw [if_pos hc] at h
    cases h
    exact is_add (is_mul (is_lit 2) (is_flt _)) is_epsilon
  · rw [if_neg hc] at h; simp at h

theorem pairScore_pos (ts : List ℝ) (m : ℕ) (t : ℝ) : 0 < pairScore ts m t := by
  have : (0 : ℝ) ≤ 2 * (pairMatches ts m t : ℝ) := by positivity
  have h2 : (0 : ℝ) < 2 ^ (-52 : ℤ) := by positivity
  rw [pairScore]; linarith

theorem tolOr_is {data : List XF} {tol : Option XF} (hf : Fins data) (ht : ∀ x, tol = some x → x.Finite)
    (h : tol ≠ none ∨ 1 ≤ data.length) : ∃ τ, tolOr data tol = some τ ∧ τ ⇓ toleranceOf (vals data) (tol.map FP.val) := by
  cases tol with
  | some x => exact ⟨x, rfl, (ht x rfl).is⟩
  | none =>
    have h : 1 ≤ data.length := by simpa using h
    have e : windowsOf data.length data = [data] := by
      have h1 : (windowsOf data.length data).length = 1 := by simp
      obtain ⟨a, ha⟩ := List.length_eq_one_iff.1 h1
      have := windowsOf_recent (l := data) (w := data.length) (i := data.length - 1) h (by omega) (by omega)
      rw [ha] at this ⊢
      simp [recent, show data.length - 1 + 1 - data.length = 0 by omega] at this
      rw [this]
    refine ⟨stdDevWin data.length data * 0.2, by run_model [tolOr, stdDevRaw]; rw [e]; rfl, ?_⟩
    refine (is_mul (stdDevWin_is hf rfl h) (is_sci 2 true 1)).congr ?_
    simp only [Option.map_none, toleranceOf]; norm_num [div_eq_mul_inv]

theorem near_mono {ts : List ℝ} {m i j : ℕ} {t : ℝ} (h : Near ts (m + 1) t i j) : Near ts m t i j := fun k hk => h k (by omega)

theorem matchesOf_mono {ts : List ℝ} {m : ℕ} (t : ℝ) (i : ℕ) : matchesOf ts (m + 1) t i ≤ matchesOf ts m t i := by
  classical
  refine Finset.card_le_card fun j hj => ?_
  rw [Finset.mem_filter, Finset.mem_range] at hj ⊢
  refine ⟨?_, near_mono hj.2⟩
  have := hj.1
  simp only [stretches] at this ⊢
  omega

theorem pairMatches_mono {ts : List ℝ} {m : ℕ} (t : ℝ) : pairMatches ts (m + 1) t ≤ pairMatches ts m t := by
  classical
  refine Finset.card_le_card fun j hj => ?_
  simp only [Finset.mem_filter, Finset.mem_product, Finset.mem_range, stretches] at hj ⊢
  exact ⟨⟨by omega, by omega⟩, hj.2.1, near_mono hj.2.2⟩

/-! ## The series -/

section
variable (data : List XF) (window : ℕ) (run : Option ℕ) (tol : Option XF)

theorem mapP_windows_none {f : List XF → Option XF} (hw : 1 ≤ window) :
    mapP f (windowsOf window data) = none ↔ ∃ i, window ≤ i + 1 ∧ i < data.length ∧ f (recent data window i) = none := by
  rw [mapP_none_iff]
  constructor
  · rintro ⟨x, hx, e⟩
    obtain ⟨i, hi, rfl⟩ := windowsOf_mem_iff.1 hx
    exact ⟨i + window - 1, by omega, by omega, by rwa [recent, show i + window - 1 + 1 - window = i by omega]⟩
  · rintro ⟨i, h1, h2, e⟩
    exact ⟨_, recent_mem_windowsOf hw h1 h2, e⟩

section
variable (hf : Fins data) (ht : ∀ x, tol = some x → x.Finite) (hd : tol ≠ none ∨ 1 ≤ data.length)
  (hm : 1 ≤ run.getD 2) (hw : run.getD 2 + 1 ≤ window)
include hf ht hd hm hw

/-- C53: with overflow checks, `approx_entropy` panics exactly if in some window a stretch has more than 255 matches. -/
theorem approx_entropy_panics : approx_entropy data window run tol = none ↔
    ∃ i, window ≤ i + 1 ∧ i < data.length ∧ ∃ j, j < stretches (recent (vals data) window i) (run.getD 2) ∧
      255 < matchesOf (recent (vals data) window i) (run.getD 2) (toleranceOf (vals data) (tol.map FP.val)) j := by
  obtain ⟨τ, e, hτ⟩ := tolOr_is hf ht hd
  have e2 : approx_entropy data window run tol = none ↔ mapP (fun w => do
      let a ← phi w (run.getD 2 + 1) τ
      let b ← phi w (run.getD 2) τ
      some (fabs (a - b))) (windowsOf window data) = none := by
    run_model [approx_entropy, e]
    generalize mapP _ _ = x
    cases x <;> simp
  rw [e2, mapP_windows_none _ _ (by omega)]
  refine exists_congr fun i => and_congr_right fun h1 => and_congr_right fun h2 => ?_
  have hl : (recent data window i).length = window := recent_length h1 h2
  have hr := hf.recent window i
  rw [← recent_vals]
  have n1 := phi_none hr hτ (m := run.getD 2 + 1) (by omega) (by omega)
  have n2 := phi_none hr hτ (m := run.getD 2) (by omega) (by omega)
  rw [← n2]
  constructor
  · intro h
    by_contra hc
    have hc1 : phi (recent data window i) (run.getD 2 + 1) τ ≠ none := by
      intro h3
      obtain ⟨j, hj, h4⟩ := n1.1 h3
      refine hc (n2.2 ⟨j, ?_, h4.trans_le (matchesOf_mono _ _)⟩)
      simp only [stretches] at hj ⊢; omega
    obtain ⟨a, ha⟩ := Option.ne_none_iff_exists'.1 hc1
    obtain ⟨b, hb⟩ := Option.ne_none_iff_exists'.1 hc
    rw [ha, hb] at h
    simp at h
  · intro h
    rw [h]
    cases phi (recent data window i) (run.getD 2 + 1) τ <;> rfl

/-- C53: with overflow checks, `sample_entropy` panics exactly if some window has more than 255 matching pairs. -/
theorem sample_entropy_panics : sample_entropy data window run tol = none ↔
    ∃ i, window ≤ i + 1 ∧ i < data.length ∧
      255 < pairMatches (recent (vals data) window i) (run.getD 2) (toleranceOf (vals data) (tol.map FP.val)) := by
  obtain ⟨τ, e, hτ⟩ := tolOr_is hf ht hd
  have e2 : sample_entropy data window run tol = none ↔ mapP (fun w => do
      let a ← matchCount w (run.getD 2 + 1) τ
      let b ← matchCount w (run.getD 2) τ
      some (-(ln (a / b)))) (windowsOf window data) = none := by
    run_model [sample_entropy, e]
    generalize mapP _ _ = x
    cases x <;> simp
  rw [e2, mapP_windows_none _ _ (by omega)]
  refine exists_congr fun i => and_congr_right fun h1 => and_congr_right fun h2 => ?_
  have hl : (recent data window i).length = window := recent_length h1 h2
  have hr := hf.recent window i
  rw [← recent_vals]
  have n1 := matchCount_none hr hτ (m := run.getD 2 + 1) (by omega) (by omega)
  have n2 := matchCount_none hr hτ (m := run.getD 2) (by omega) (by omega)
  rw [← n2]
  constructor
  · intro h
    by_contra hc
    have hc1 : matchCount (recent data window i) (run.getD 2 + 1) τ ≠ none := fun h3 =>
      hc (n2.2 ((n1.1 h3).trans_le (pairMatches_mono _)))
    obtain ⟨a, ha⟩ := Option.ne_none_iff_exists'.1 hc1
    obtain ⟨b, hb⟩ := Option.ne_none_iff_exists'.1 hc
    rw [ha, hb] at h
    simp at h
  · intro h
    rw [h]
    cases matchCount (recent data window i) (run.getD 2 + 1) τ <;> rfl

/-- C53: without such a window, `approx_entropy` is the distance between the mean logs of the matching shares at the two run lengths. -/
theorem approx_entropy_reports (hn : window ≤ data.length + 1) (h0 : 0 ≤ toleranceOf (vals data) (tol.map FP.val))
    (hc : ∀ i, window ≤ i + 1 → i < data.length → ∀ j, j < stretches (recent (vals data) window i) (run.getD 2) →
      matchesOf (recent (vals data) window i) (run.getD 2) (toleranceOf (vals data) (tol.map FP.val)) j ≤ 255) :
    Reports data.length (window - 1) (fun i =>
      |phiOf (recent (vals data) window i) (run.getD 2 + 1) (toleranceOf (vals data) (tol.map FP.val)) -
        phiOf (recent (vals data) window i) (run.getD 2) (toleranceOf (vals data) (tol.map FP.val))|)
      (approx_entropy data window run tol) := by
  obtain ⟨τ, e, hτ⟩ := tolOr_is hf ht hd
  run_model [approx_entropy, e]
  refine reportsP_mapP_windows (by omega) hn fun i h1 h2 => ?_
  have hl : (recent data window i).length = window := recent_length h1 h2
  have hr := hf.recent window i
  have hc := hc i h1 h2
  beta_reduce
  rw [← recent_vals] at hc ⊢
  obtain ⟨a, ha⟩ := Option.ne_none_iff_exists'.1 fun h3 => by
    obtain ⟨j, hj, h4⟩ := (phi_none hr hτ (m := run.getD 2 + 1) (by omega) (by omega)).1 h3
    have := hc j (by simp only [stretches] at hj ⊢; omega)
    have := matchesOf_mono (ts := vals (recent data window i)) (m := run.getD 2) (toleranceOf (vals data) (tol.map FP.val)) j
    omega
  obtain ⟨b, hb⟩ := Option.ne_none_iff_exists'.1 fun h3 => by
    obtain ⟨j, hj, h4⟩ := (phi_none hr hτ (m := run.getD 2) (by omega) (by omega)).1 h3
    have := hc j hj
    omega
  rw [ha, hb]
  exact ⟨_, rfl, is_abs (is_sub (phi_is hr hτ h0 (by omega) (by omega) ha) (phi_is hr hτ h0 (by omega) (by omega) hb))⟩

/-- C53: without such a window, `sample_entropy` is minus the log of the ratio of the numbers of matching pairs. -/
theorem sample_entropy_reports (hn : window ≤ data.length + 1)
    (hc : ∀ i, window ≤ i + 1 → i < data.length →
      pairMatches (recent (vals data) window i) (run.getD 2) (toleranceOf (vals data) (tol.map FP.val)) ≤ 255) :
    Reports data.length (window - 1) (fun i =>
      -Real.log (pairScore (recent (vals data) window i) (run.getD 2 + 1) (toleranceOf (vals data) (tol.map FP.val)) /
        pairScore (recent (vals data) window i) (run.getD 2) (toleranceOf (vals data) (tol.map FP.val))))
      (sample_entropy data window run tol) := by
  obtain ⟨τ, e, hτ⟩ := tolOr_is hf ht hd
  run_model [sample_entropy, e]
  refine reportsP_mapP_windows (by omega) hn fun i h1 h2 => ?_
  have hl : (recent data window i).length = window := recent_length h1 h2
  have hr := hf.recent window i
  have hc := hc i h1 h2
  beta_reduce
  rw [← recent_vals] at hc ⊢
  obtain ⟨a, ha⟩ := Option.ne_none_iff_exists'.1 fun h3 => by
    have := (matchCount_none hr hτ (m := run.getD 2 + 1) (by omega) (by omega)).1 h3
    have := pairMatches_mono (ts := vals (recent data window i)) (m := run.getD 2) (toleranceOf (vals data) (tol.map FP.val))
    omega
  obtain ⟨b, hb⟩ := Option.ne_none_iff_exists'.1 fun h3 => by
    have := (matchCount_none hr hτ (m := run.getD 2) (by omega) (by omega)).1 h3
    omega
  rw [ha, hb]
  have i1 := matchCount_is hr hτ (by omega) (by omega) ha
  have i2 := matchCount_is hr hτ (by omega) (by omega) hb
  have p1 := pairScore_pos (vals (recent data window i)) (run.getD 2 + 1) (toleranceOf (vals data) (tol.map FP.val))
  have p2 := pairScore_pos (vals (recent data window i)) (run.getD 2) (toleranceOf (vals data) (tol.map FP.val))
  exact ⟨_, rfl, is_neg (is_ln (is_div i1 i2 p2.ne') (by positivity))⟩

/-- `sample_entropy` is never negative, apart from rounding: longer stretches match less often. -/
theorem sample_entropy_nonneg (hn : window ≤ data.length + 1)
    (hc : ∀ i, window ≤ i + 1 → i < data.length →
      pairMatches (recent (vals data) window i) (run.getD 2) (toleranceOf (vals data) (tol.map FP.val)) ≤ 255) :
    ReportsP data.length (window - 1) (fun _ y => y.Finite ∧ 0 ≤ y.val) (sample_entropy data window run tol) := by
  obtain ⟨out, e, h1, h2, h3⟩ := sample_entropy_reports data window run tol hf ht hd hm hw hn hc
  refine ⟨out, e, h1, h2, fun i hi hl => ?_⟩
  obtain ⟨y, ey, hy⟩ := h3 i hi hl
  refine ⟨y, ey, hy.finite, ?_⟩
  rw [hy.2, Left.nonneg_neg_iff]
  have p1 := pairScore_pos (recent (vals data) window i) (run.getD 2 + 1) (toleranceOf (vals data) (tol.map FP.val))
  have p2 := pairScore_pos (recent (vals data) window i) (run.getD 2) (toleranceOf (vals data) (tol.map FP.val))
  refine Real.log_nonpos (by positivity) ((div_le_one p2).2 ?_)
  have : (pairMatches (recent (vals data) window i) (run.getD 2 + 1) (toleranceOf (vals data) (tol.map FP.val)) : ℝ) ≤
    pairMatches (recent (vals data) window i) (run.getD 2) (toleranceOf (vals data) (tol.map FP.val)) := by
    exact_mod_cast pairMatches_mono _
  simp only [pairScore]
  linarith

end

end

/-! ## The thresholds are sharp: a constant series -/

theorem near_const {c t : ℝ} {n m i j : ℕ} (ht : 0 ≤ t) (hi : i + m ≤ n) (hj : j + m ≤ n) : Near (List.replicate n c) m t i j := by
  intro k hk
  simp [bar, List.getElem?_replicate, show i + k < n by omega, show j + k < n by omega, ht]

theorem matchesOf_const {c t : ℝ} {n m i : ℕ} (ht : 0 ≤ t) (hm : m ≤ n) (hi : i < n - m + 1) :
    matchesOf (List.replicate n c) m t i = n - m + 1 := by
  classical
  rw [matchesOf, Finset.filter_true_of_mem, Finset.card_range]
  · simp [stretches]
  · intro j hj
    rw [Finset.mem_range] at hj
    simp [stretches] at hj
    exact near_const ht (by omega) (by omega)

theorem pairMatches_const {c t : ℝ} {n m : ℕ} (ht : 0 ≤ t) (hm : m + 23 ≤ n) : 255 < pairMatches (List.replicate n c) m t := by
  classical
  have h24 : ((Finset.range 24 ×ˢ Finset.range 24).filter fun p => p.1 < p.2).card = 276 := by decide +kernel
  have : ((Finset.range 24 ×ˢ Finset.range 24).filter fun p => p.1 < p.2).card ≤ pairMatches (List.replicate n c) m t := by
    refine Finset.card_le_card fun p hp => ?_
    simp only [Finset.mem_filter, Finset.mem_product, Finset.mem_range, stretches, List.length_replicate] at hp ⊢
    exact ⟨⟨by omega, by omega⟩, hp.2, near_const ht (by omega) (by omega)⟩
  omega

theorem fins_replicate (n : ℕ) (c : ℝ) : Fins (List.replicate n (fin c : XF)) := fun x hx => by
  rw [List.mem_replicate] at hx; rw [hx.2]; trivial

theorem vals_replicate (n : ℕ) (c : ℝ) : vals (List.replicate n (fin c : XF)) = List.replicate n c := by simp [vals, FP.val]

theorem recent_replicate {α : Type} {n w i : ℕ} (c : α) (h1 : w ≤ i + 1) (h2 : i < n) :
    recent (List.replicate n c) w i = List.replicate w c := by
  simp only [recent, List.drop_replicate, List.take_replicate]; congr 1; omega

/-- C53: from 256 stretches per window on, a constant series makes `approx_entropy` panic; `approx_entropy_aligned` rules this out for
fewer. -/
theorem approx_entropy_const_panics (c t : ℝ) (ht : 0 ≤ t) (n window m : ℕ) (hm : 1 ≤ m) (hw : m + 255 ≤ window) (hn : window ≤ n) :
    approx_entropy (List.replicate n (fin c : XF)) window (some m) (some (fin t)) = none := by
  rw [approx_entropy_panics _ _ (some m) _ (fins_replicate _ _) (by rintro _ ⟨⟩; trivial) (by simp) hm (by simp; omega)]
  refine ⟨n - 1, by omega, by simp; omega, 0, ?_, ?_⟩
  · simp [stretches]
  · rw [vals_replicate, recent_replicate _ (by omega) (by omega)]
    simp only [Option.map_some, toleranceOf, FP.val, Option.getD_some]
    rw [matchesOf_const ht (by omega) (by omega)]; omega

/-- C53: from 24 stretches per window on, a constant series makes `sample_entropy` panic; `sample_entropy_aligned` rules this out for
fewer. -/
theorem sample_entropy_const_panics (c t : ℝ) (ht : 0 ≤ t) (n window m : ℕ) (hm : 1 ≤ m) (hw : m + 23 ≤ window) (hn : window ≤ n) :
    sample_entropy (List.replicate n (fin c : XF)) window (some m) (some (fin t)) = none := by
  rw [sample_entropy_panics _ _ (some m) _ (fins_replicate _ _) (by rintro _ ⟨⟩; trivial) (by simp) hm (by simp; omega)]
  refine ⟨n - 1, by omega, by simp; omega, ?_⟩
  rw [vals_replicate, recent_replicate _ (by omega) (by omega)]
  simp only [Option.map_some, toleranceOf, FP.val, Option.getD_some]
  exact pairMatches_const ht hw

/-! ## Without overflow checks -/

theorem countWrap_from (l : List Bool) (c : ℕ) (hc : c < 256) :
    l.foldl (fun c b => (c + if b then 1 else 0) % 256) c = (c + l.count true) % 256 := by
  induction l generalizing c with
  | nil => simp; omega
  | cons b l ih =>
    rw [List.foldl_cons, ih _ (Nat.mod_lt _ (by omega)), List.count_cons]
    cases b <;> simp <;> omega

/-- C53: without overflow checks the counters hold the number of matches modulo 256. -/
theorem countWrap_eq (l : List Bool) : countWrap l = l.count true % 256 := by
  rw [countWrap, countWrap_from _ _ (by omega)]; simp

theorem countWrap_of_countU8 {l : List Bool} {c : ℕ} (h : countU8 l = some c) : countWrap l = c := by
  rw [countU8_eq] at h
  split at h
  · cases h; rw [countWrap_eq]; omega
  · simp at h

section anyF
variable {F : Type} [FloatOps F]

theorem phiRelease_eq {ts : List F} {m : ℕ} {tol y : F} (h : phi ts m tol = some y) : phiRelease ts m tol = some y := by
  obtain ⟨d, hd, h⟩ := Option.bind_eq_some_iff.1 h
  obtain ⟨c, hc, h⟩ := Option.bind_eq_some_iff.1 h
  have : c = (List.range (d + 1)).map fun i => countWrap ((List.range (d + 1)).map (templMatch ts m tol i)) := by
    apply List.ext_getElem?
    intro i
    rw [mapP_getElem? hc, List.getElem?_map]
    cases hi : (List.range (d + 1))[i]? with
    | none => rfl
    | some j =>
      have hg := mapP_getElem? hc i
      rw [hi] at hg
      simp only [Option.bind_some, Option.map_some]
      have hlt := (List.getElem?_eq_some_iff.1 hi).1
      rw [← mapP_length hc] at hlt
      rw [List.getElem?_eq_getElem hlt] at hg
      rw [Option.bind_some] at hg
      rw [← hg, countWrap_of_countU8 hg.symm]
  rw [← h, this]
  simp only [phiRelease, hd, Option.bind_eq_bind, Option.bind_some]

theorem matchCountRelease_eq {ts : List F} {m : ℕ} {tol y : F} (h : matchCount ts m tol = some y) :
    matchCountRelease ts m tol = some y := by
  obtain ⟨d, hd, h⟩ := Option.bind_eq_some_iff.1 h
  obtain ⟨c, hc, h⟩ := Option.bind_eq_some_iff.1 h
  rw [← h]
  simp only [matchCountRelease, hd, Option.bind_eq_bind, Option.bind_some, countWrap_of_countU8 hc]

theorem mapP_refines {α β : Type} {f g : α → Option β} {l : List α} {o : List β} (h : mapP f l = some o)
    (hfg : ∀ x y, f x = some y → g x = some y) : mapP g l = some o := by
  rw [mapP_eq_some_iff] at h ⊢
  rw [← h]
  refine List.map_congr_left fun x hx => ?_
  have hm : f x ∈ l.map f := List.mem_map_of_mem hx
  rw [h] at hm
  obtain ⟨y, -, hy⟩ := List.mem_map.1 hm
  rw [hfg x y hy.symm, hy]

/-- C53: wherever a build with overflow checks returns, a build without them returns the same values. -/
theorem approx_entropyRelease_eq (data : List F) (window : ℕ) (run : Option ℕ) (tol : Option F) {out : List F}
    (h : approx_entropy data window run tol = some out) : approx_entropyRelease data window run tol = some out := by
  obtain ⟨τ, e1, h⟩ := Option.bind_eq_some_iff.1 h
  obtain ⟨k, e2, h⟩ := Option.bind_eq_some_iff.1 h
  obtain ⟨ws, e3, h⟩ := Option.bind_eq_some_iff.1 h
  obtain ⟨r, e4, h⟩ := Option.bind_eq_some_iff.1 h
  have := mapP_refines e4 (g := fun w => do
    let a ← phiRelease w (run.getD 2 + 1) τ
    let b ← phiRelease w (run.getD 2) τ
    some (fabs (a - b))) (by
    intro w y hy
    obtain ⟨a, ha, hy⟩ := Option.bind_eq_some_iff.1 hy
    obtain ⟨b, hb, hy⟩ := Option.bind_eq_some_iff.1 hy
    rw [phiRelease_eq ha, phiRelease_eq hb]
    exact hy)
  rw [← h]
  simp only [Option.bind_eq_bind] at this
  simp only [approx_entropyRelease, e1, e2, e3, Option.bind_eq_bind, Option.bind_some, this]

theorem sample_entropyRelease_eq (data : List F) (window : ℕ) (run : Option ℕ) (tol : Option F) {out : List F}
    (h : sample_entropy data window run tol = some out) : sample_entropyRelease data window run tol = some out := by
  obtain ⟨τ, e1, h⟩ := Option.bind_eq_some_iff.1 h
  obtain ⟨k, e2, h⟩ := Option.bind_eq_some_iff.1 h
  obtain ⟨ws, e3, h⟩ := Option.bind_eq_some_iff.1 h
  obtain ⟨r, e4, h⟩ := Option.bind_eq_some_iff.1 h
  have := mapP_refines e4 (g := fun w => do
    let a ← matchCountRelease w (run.getD 2 + 1) τ
    let b ← matchCountRelease w (run.getD 2) τ
    some (-(ln (a / b)))) (by
    intro w y hy
    obtain ⟨a, ha, hy⟩ := Option.bind_eq_some_iff.1 hy
    obtain ⟨b, hb, hy⟩ := Option.bind_eq_some_iff.1 hy
    rw [matchCountRelease_eq ha, matchCountRelease_eq hb]
    exact hy)
  rw [← h]
  simp only [Option.bind_eq_bind] at this
  simp only [sample_entropyRelease, e1, e2, e3, Option.bind_eq_bind, Option.bind_some, this]

end anyF

theorem phiRelease_const {c t : ℝ} {n m : ℕ} (ht : 0 ≤ t) (hm : 1 ≤ m) (hn : m ≤ n) :
    phiRelease (List.replicate n (fin c : XF)) m (fin t) = some ((List.range (n - m + 1)).foldl
      (fun (cm : XF) _ => cm + ln (flt ((n - m + 1) % 256) / flt (n - m + 1))) 0 / flt (n - m + 1)) := by
  have e : (List.range (n - m + 1)).map (fun i => countWrap ((List.range (n - m + 1)).map
      (templMatch (List.replicate n (fin c : XF)) m (fin t) i))) = (List.range (n - m + 1)).map fun _ => (n - m + 1) % 256 := by
    refine List.map_congr_left fun i hi => ?_
    rw [List.mem_range] at hi
    have := count_is (fins_replicate n c) (is_fin t) hm (by simpa using hn) (i := i) (by simp [stretches, vals]; omega)
    simp only [List.length_replicate] at this
    rw [countWrap_eq, this, vals_replicate, matchesOf_const ht hn hi]
  simp only [phiRelease, List.length_replicate, usub_of_le hn, Option.bind_eq_bind, Option.bind_some]
  rw [e, List.foldl_map]

/-- C53: what wrapping does. With 256 stretches of the longer run per window every counter of a constant series wraps to 0, and the
reported entropy is infinite, although nothing varies. -/
theorem approx_entropyRelease_wraps (c t : ℝ) (ht : 0 ≤ t) (n m : ℕ) (hm : 1 ≤ m) (hn : m + 256 ≤ n) (i : ℕ) (h1 : m + 256 ≤ i + 1)
    (h2 : i < n) : ∃ out, approx_entropyRelease (List.replicate n (fin c : XF)) (m + 256) (some m) (some (fin t)) = some out ∧
      out[i]? = some (FP.inf false) := by
  have ea := phiRelease_const (c := c) (n := m + 256) (m := m + 1) ht (by omega) (by omega)
  have eb := phiRelease_const (c := c) (n := m + 256) (m := m) ht hm (by omega)
  rw [show m + 256 - (m + 1) + 1 = 256 by omega] at ea
  rw [show m + 256 - m + 1 = 257 by omega] at eb
  have l0 : ln (flt (256 % 256) / flt 256 : XF) = FP.inf true := by
    have : (flt (256 % 256) / flt 256 : XF) = FP.fin 0 := by
      rw [show (256 % 256 : ℕ) = 0 by norm_num]
      rw [ofNat_def 0, Nat.cast_zero, mk_exact]
      exact zero_div_flt (n := 256) (by norm_num)
    rw [this]
    exact if_pos rfl
  have hf : ∀ (l : List ℕ), l ≠ [] → l.foldl (fun (cm : XF) _ => cm + FP.inf true) 0 = FP.inf true := by
    intro l hl
    have key : ∀ l : List ℕ, l.foldl (fun (cm : XF) _ => cm + FP.inf true) (FP.inf true) = FP.inf true := by
      intro l
      induction l with
      | nil => rfl
      | cons a l ih => rw [List.foldl_cons, show (FP.inf true + FP.inf true : XF) = FP.inf true by simp [add_def, add], ih]
    cases l with
    | nil => exact absurd rfl hl
    | cons a l =>
      rw [List.foldl_cons, show (0 + FP.inf true : XF) = FP.inf true by rw [zero_lit]; rfl, key]
  rw [l0, hf _ (by simp)] at ea
  have ea : phiRelease (List.replicate (m + 256) (fin c : XF)) (m + 1) (fin t) = some (FP.inf true) := by
    rw [ea, ofNat_def]
    have := is_flt 256
    rcases is_iff.1 this with h | ⟨_, h⟩
    · rw [ofNat_def] at h; rw [h, div_def]; simp [div, FP.sgn]
    · norm_num at h
  obtain ⟨b, hb, hb'⟩ : ∃ b : XF, phiRelease (List.replicate (m + 256) (fin c : XF)) m (fin t) = some b ∧ b.Finite := by
    refine ⟨_, eb, ?_⟩
    have h1 : ln (flt (257 % 256) / flt 257 : XF) ⇓ Real.log (((257 % 256 : ℕ) : ℝ) / ((257 : ℕ) : ℝ)) :=
      is_ln (is_div (is_flt _) (is_flt _) (by norm_num)) (by norm_num)
    exact (is_div (foldl_add_is (v := fun _ => _) is_zero fun _ _ => h1) (is_flt _) (by norm_num)).finite
  have hw : ∀ w ∈ windowsOf (m + 256) (List.replicate n (fin c : XF)), w = List.replicate (m + 256) (fin c) := by
    intro w hw
    obtain ⟨j, hj, rfl⟩ := windowsOf_mem_iff.1 hw
    simp at hj
    simp only [List.drop_replicate, List.take_replicate]; congr 1; omega
  have hm : mapP (fun w : List XF => do
      let a ← phiRelease w (m + 1) (fin t)
      let b ← phiRelease w m (fin t)
      some (fabs (a - b))) (windowsOf (m + 256) (List.replicate n (fin c : XF))) =
      some ((windowsOf (m + 256) (List.replicate n (fin c : XF))).map fun _ => FP.inf false) := by
    rw [mapP_eq_some_iff, List.map_map]
    refine List.map_congr_left fun w hw' => ?_
    rw [hw w hw', ea, hb]
    cases b with
    | nan => exact hb'.elim
    | inf _ => exact hb'.elim
    | negz => rfl
    | fin r =>
      by_cases h : r = 0
      · simp [h, sub_def, neg, add, abs_def, FP.abs]
      · simp [h, sub_def, neg, add, abs_def, FP.abs]
  simp only [Option.bind_eq_bind] at hm
  refine ⟨nans (m + 256 - 1) ++ (windowsOf (m + 256) (List.replicate n (fin c : XF))).map fun _ => FP.inf false, ?_, ?_⟩
  · simp only [approx_entropyRelease, tolOr, usub_of_le (show 1 ≤ m + 256 by omega), windows_eq _ (show 1 ≤ m + 256 by omega),
      Option.bind_eq_bind, Option.bind_some, Option.getD_some, hm]
  rw [List.getElem?_append_right (by simp; omega), List.getElem?_map, List.getElem?_eq_getElem (by simp; omega)]
  rfl

/-! ## Examples -/

/-- Two values apart from the first: the pair of runs starting at 1 and 2 matches. -/
example : Near [0, 5, 5, 5] 2 1 1 2 ∧ ¬Near [0, 5, 5, 5] 2 1 0 1 := by
  constructor
  · intro k hk
    match k, hk with
    | 0, _ => norm_num [bar]
    | 1, _ => norm_num [bar]
  · intro h
    have := h 0 (by norm_num)
    norm_num [bar] at this

example : Reports 5 3 (fun i => |phiOf (recent [1, 2, 3, 2, 7] 4 i) 3 1 - phiOf (recent [1, 2, 3, 2, 7] 4 i) 2 1|)
    (approx_entropy [fin 1, fin 2, fin 3, fin 2, (fin 7 : XF)] 4 none (some (fin 1))) := by
  have := approx_entropy_reports [fin 1, fin 2, fin 3, fin 2, (fin 7 : XF)] 4 none (some (fin 1)) (by simp [Fins, FP.Finite])
    (by rintro _ ⟨⟩; trivial) (by simp) (by simp) (by simp) (by simp) (by simp [toleranceOf, FP.val]) (by
      classical
      intro i h1 h2 j _
      refine (Finset.card_filter_le _ _).trans ?_
      simp [stretches, recent, vals]
      omega)
  simpa [vals, FP.val, toleranceOf] using this

example : sample_entropy (List.replicate 30 (fin 4 : XF)) 25 (some 2) (some (fin 0)) = none :=
  sample_entropy_const_panics 4 0 le_rfl 30 25 2 (by norm_num) (by norm_num) (by norm_num)

end Traquer.Distribution
