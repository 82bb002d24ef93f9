import Verif.Props.PanicSmooth
import Verif.Props.PanicVolume
import Verif.Props.ShapeStats
import Verif.Props.RankModes
/-!
# C15 (statistics, correlation): the arguments the functions answer

The functions that rank or select have arguments they refuse because of the values, not only because of the lengths: those theorems are
about `FP ρ`, where it is known which values are NaN.
-/

namespace Traquer.Distribution
open FloatLit
section
variable {F : Type} [FloatOps F] {data : List F} {n w : Nat}

theorem variance_answers (hn : data.length = n) : AnswersIff (1 ≤ w) (max n (w - 1)) (variance data w) := by
  answers [variance]

theorem zscore_answers (hn : data.length = n) : AnswersIff (1 ≤ w) (max n (w - 1)) (zscore data w) := by
  answers [zscore]
  rename_i h
  intro x hx
  have := h x hx
  simp (disch := omega)

theorem mad_answers (hn : data.length = n) : AnswersIff (1 ≤ w) (max n (w - 1)) (mad data w) := by
  answers [mad]

theorem cv_answers (hn : data.length = n) : AnswersIff (1 ≤ w) (max n (w - 1)) (cv data w) := by
  answers [cv]

theorem kurtosis_answers (hn : data.length = n) : AnswersIff (3 ≤ w) (max n (w - 1)) (kurtosis data w) := by
  answers [kurtosis]

/-- A window of one bar is refused only when there is a bar. -/
theorem skew_answers (hn : data.length = n) : AnswersIff (1 ≤ w ∧ (n = 0 ∨ 2 ≤ w)) (max n (w - 1)) (skew data w) := by
  unfold skew
  rcases Nat.eq_zero_or_pos w with rfl | hw
  · exact ⟨fun h => by omega, fun _ => rfl⟩
  simp only [Option.bind_eq_bind, usub_of_le hw, Option.bind_some]
  by_cases hc : n = 0 ∨ 2 ≤ w
  · simp only [eq_true hc, and_true]
    answers []
    rename_i t ht h
    intro x hx
    rcases hc with hc | hc
    · have := List.length_pos_of_mem hx
      omega
    · simp (disch := omega) only [usub_of_le, Option.bind_some, Option.some.injEq, exists_eq']
  · refine ⟨fun h => absurd h.2 hc, fun _ => ?_⟩
    have hw1 : w = 1 := by omega
    subst hw1
    obtain ⟨x, hx⟩ := List.exists_mem_of_length_pos (show 0 < (windowsOf 1 data).length by simp; omega)
    simp only [windows, Nat.one_ne_zero, if_false, Option.bind_some]
    rw [Volume.mapP_fails hx (by simp [usub])]
    rfl

theorem rank_answers (srt : Sorter F) (hs : srt.Valid) (mode : Option RankMode) (hn : data.length = n) :
    AnswersIff (sortPanics data = false ∧ (data = [] → mode = some .ordinal)) n (rank srt data mode) := by
  subst hn
  refine ⟨fun ⟨h1, h2⟩ => ?_, fun h => ?_⟩
  · by_cases he : data = []
    · rw [h2 he, he]
      exact ⟨[], rank_empty_ordinal srt, rfl⟩
    · exact rank_yields srt hs data mode h1 he
  · cases hp : sortPanics data with
    | true => rw [rank, if_pos hp]
    | false =>
      simp only [hp, true_and, Classical.not_imp] at h
      rw [h.1]
      exact rank_empty_panics srt hs mode h.2

omit [FloatOps F] in
/-- The k-th smallest element exists if there are more than `k` elements, whatever they are. -/
theorem quickselect_answers (lt : F → F → Bool) (k : Nat) : (∃ r, quickselect lt data k = some r) ↔ k < data.length := by
  constructor
  · rintro ⟨r, h⟩
    by_contra hc
    rw [quickselect_panics lt data k (by omega)] at h
    cases h
  · intro h
    obtain ⟨P, x, Q, e, -⟩ := quickselect_spec lt data k h
    exact ⟨_, e⟩
end

section
variable {ρ : Rounding} {data : List (FP ρ)} {n w : Nat}

/-- A NaN makes the sort fail if there are at least two values. -/
theorem sortPanics_false_iff : sortPanics data = false ↔ data.length ≤ 1 ∨ NoNaN data := by
  constructor
  · intro h
    by_contra hc
    simp only [NoNaN, not_or, not_forall, Bool.not_eq_false] at hc
    obtain ⟨h1, x, hx, hn⟩ := hc
    rw [sortPanics, Bool.and_eq_false_iff] at h
    rcases h with h | h
    · simp at h; omega
    · rw [List.any_eq_false] at h
      refine h x hx ?_
      have : x = FP.nan := by cases x <;> simp_all [Traquer.isNaN, FloatOps.isNaN, FP.isNaN]
      subst this
      rfl
  · rintro (h | h)
    · simp [sortPanics]; omega
    · exact sortPanics_of_noNaN h

/-- In every mode: no NaN among two or more values, and at least one value unless the ranks are ordinal. -/
theorem rank_answers_nan (srt : Sorter (FP ρ)) (hs : srt.Valid) (mode : Option RankMode) (hn : data.length = n) :
    AnswersIff ((n ≤ 1 ∨ NoNaN data) ∧ (n = 0 → mode = some .ordinal)) n (rank srt data mode) := by
  refine (rank_answers srt hs mode hn).congr ?_ fun _ => rfl
  rw [sortPanics_false_iff, hn, ← hn, List.length_eq_zero_iff]

/-- Whatever the percentile asked for, NaN and infinities included. -/
theorem quantile_answers (q : FP ρ) (hw' : w ≤ 2 ^ 53) (hn : data.length = n) :
    AnswersIff (1 ≤ w) (max n (w - 1)) (quantile data w q) := by
  subst hn
  refine ⟨fun hw => ?_, fun h => ?_⟩
  · by_cases hd : w ≤ data.length + 1
    · obtain ⟨o, e, l, -⟩ := quantile_aligned data w q hw hw' hd
      exact ⟨o, e, by omega⟩
    · have : windowsOf w data = [] := List.length_eq_zero_iff.1 (by simp; omega)
      refine ⟨nans (w - 1), ?_, by simp; omega⟩
      run_model [quantile, quantileT, this]
      simp [mapP]
  · obtain rfl : w = 0 := by omega
    rfl

theorem median_answers (hw' : w ≤ 2 ^ 53) (hn : data.length = n) : AnswersIff (1 ≤ w) (max n (w - 1)) (median data w) :=
  quantile_answers 50 hw' hn
end
end Traquer.Distribution

namespace Traquer.Correlation
open FloatLit
section
variable {F : Type} [FloatOps F] {s1 s2 : List F} {n m w : Nat}

theorem pcc_answers (hn : s1.length = n) (hm : s2.length = m) : AnswersIff (1 ≤ w) (max (min n m) (w - 1)) (pcc s1 s2 w) := by
  answers [pcc]

theorem rsq_answers (hn : s1.length = n) (hm : s2.length = m) : AnswersIff (1 ≤ w) (max (min n m) (w - 1)) (rsq s1 s2 w) := by
  unfold rsq
  refine (Ans.bind (pcc_answers hn hm) fun r hr => Ans.some (by simpa using hr)).congr (by simp) fun _ => rfl

theorem dcor_answers (hn : s1.length = n) (hm : s2.length = m) : AnswersIff (1 ≤ w) (max (min n m) (w - 1)) (dcor s1 s2 w) := by
  answers [dcor]

theorem mic_answers (ho : HashOrder) (hn : s1.length = n) (hm : s2.length = m) :
    AnswersIff (1 ≤ w) (max (min n m) (w - 1)) (mic ho s1 s2 w) := by
  answers [mic]

theorem krcc_answers (hn : s1.length = n) (hm : s2.length = m) : AnswersIff (1 ≤ w) (max (min n m) (w - 1)) (krcc s1 s2 w) := by
  answers [krcc]
  rename_i h1 _ _ h2
  rintro ⟨x, y⟩ hx
  obtain ⟨m1, m2⟩ := List.of_mem_zip hx
  exact krccWin_isSome (h1 _ m1).2 (h2 _ m2).2

theorem beta_answers (hn : s1.length = n) (hm : s2.length = m) : AnswersIff (1 ≤ w) (max (min n m) (2 * w - 1)) (beta s1 s2 w) := by
  answers [beta, returns]
  rename_i h1 _ _ h2
  rintro ⟨x, y⟩ hx
  obtain ⟨m1, m2⟩ := List.of_mem_zip hx
  obtain ⟨hw, l1⟩ := h1 _ m1
  obtain ⟨-, l2⟩ := h2 _ m2
  simp (disch := omega)

theorem perf_answers (hn : s1.length = n) (hm : s2.length = m) : AnswersIff (1 ≤ w) (min n m) (perf s1 s2 w) := by
  answers [perf]
end

section
open Traquer.Distribution (Sorter NoNaN rank_answers_nan)
variable {ρ : Rounding} {s1 s2 : List (FP ρ)} {n m w : Nat}

/-- The windows a function of two series sees cover the bars the two have in common. -/
theorem forall_windows_iff {α : Type} {P Q : α → Prop} {a b : List α} (hw : 1 ≤ w) (hk : w ≤ min a.length b.length) :
    (∀ p ∈ (windowsOf w a).zip (windowsOf w b), (∀ x ∈ p.1, P x) ∧ ∀ y ∈ p.2, Q y) ↔
      (∀ x ∈ a.take (min a.length b.length), P x) ∧ ∀ y ∈ b.take (min a.length b.length), Q y := by
  have win : ∀ i, i + w ≤ min a.length b.length → ((a.drop i).take w, (b.drop i).take w) ∈ (windowsOf w a).zip (windowsOf w b) := by
    intro i hi
    refine List.mem_iff_getElem?.2 ⟨i, ?_⟩
    rw [List.getElem?_zip_eq_some]
    exact ⟨windowsOf_getElem? (by omega), windowsOf_getElem? (by omega)⟩
  constructor
  · intro h
    constructor
    · intro x hx
      obtain ⟨j, hj⟩ := List.mem_iff_getElem?.1 hx
      rw [List.getElem?_take] at hj
      split at hj
      · rename_i hlt
        refine (h _ (win (min j (min a.length b.length - w)) (by omega))).1 x (List.mem_iff_getElem?.2 ⟨j - min j (min a.length b.length - w), ?_⟩)
        dsimp only
        rw [List.getElem?_take, if_pos (by omega), List.getElem?_drop, ← hj]
        congr 1
        omega
      · cases hj
    · intro x hx
      obtain ⟨j, hj⟩ := List.mem_iff_getElem?.1 hx
      rw [List.getElem?_take] at hj
      split at hj
      · rename_i hlt
        refine (h _ (win (min j (min a.length b.length - w)) (by omega))).2 x (List.mem_iff_getElem?.2 ⟨j - min j (min a.length b.length - w), ?_⟩)
        dsimp only
        rw [List.getElem?_take, if_pos (by omega), List.getElem?_drop, ← hj]
        congr 1
        omega
      · cases hj
  · rintro ⟨h1, h2⟩ ⟨u, v⟩ hp
    obtain ⟨i, hi⟩ := List.mem_iff_getElem?.1 hp
    rw [List.getElem?_zip_eq_some] at hi
    obtain ⟨e1, e2⟩ := hi
    have d1 := (List.getElem?_eq_some_iff.1 e1).1
    have d2 := (List.getElem?_eq_some_iff.1 e2).1
    simp only [windowsOf_length] at d1 d2
    dsimp only at e1 e2
    rw [windowsOf_getElem? (by omega), Option.some.injEq] at e1 e2
    subst e1 e2
    constructor
    · intro x hx
      obtain ⟨j, hj⟩ := List.mem_iff_getElem?.1 hx
      dsimp only at hj
      rw [List.getElem?_take] at hj
      split at hj
      · rw [List.getElem?_drop] at hj
        exact h1 x (List.mem_iff_getElem?.2 ⟨i + j, by rw [List.getElem?_take, if_pos (by omega), hj]⟩)
      · cases hj
    · intro x hx
      obtain ⟨j, hj⟩ := List.mem_iff_getElem?.1 hx
      dsimp only at hj
      rw [List.getElem?_take] at hj
      split at hj
      · rw [List.getElem?_drop] at hj
        exact h2 x (List.mem_iff_getElem?.2 ⟨i + j, by rw [List.getElem?_take, if_pos (by omega), hj]⟩)
      · cases hj

theorem Ans.mapP_all {α β : Type} {f : α → Option β} {Q : α → Prop} {l : List α} {m : Nat} (hl : l.length = m)
    (h : ∀ x ∈ l, (∃ y, f x = some y) ↔ Q x) : AnswersIff (∀ x ∈ l, Q x) m (mapP f l) := by
  refine ⟨fun hq => (Ans.mapP hl fun x hx => (h x hx).2 (hq x hx)).1 trivial, fun hq => ?_⟩
  simp only [not_forall] at hq
  obtain ⟨x, hx, hn⟩ := hq
  refine mapP_none_iff.2 ⟨x, hx, ?_⟩
  cases e : f x with
  | none => rfl
  | some y => exact absurd ((h x hx).1 ⟨y, e⟩) hn

theorem srcc_answers (srt : Sorter (FP ρ)) (hs : srt.Valid) (hn : s1.length = n) (hm : s2.length = m) :
    AnswersIff (1 ≤ w ∧ (2 ≤ w → w ≤ min n m → NoNaN (s1.take (min n m)) ∧ NoNaN (s2.take (min n m)))) (max (min n m) (w - 1))
      (srcc srt s1 s2 w) := by
  subst hn hm
  rcases Nat.eq_zero_or_pos w with rfl | hw
  · exact ⟨fun h => by omega, fun _ => rfl⟩
  simp only [srcc, windows, Option.bind_eq_bind, usub_of_le hw, Option.bind_some, if_neg (show w ≠ 0 by omega)]
  have key : ∀ p ∈ (windowsOf w s1).zip (windowsOf w s2), (∃ y, ((fun (p : List (FP ρ) × List (FP ρ)) => (Distribution.rank srt p.1 none).bind fun rx =>
      (Distribution.rank srt p.2 none).bind fun ry => (Distribution.cov_stdev rx ry).bind fun q => some (q.1 / (q.2.1 * q.2.2))) p) = some y) ↔
      (w ≤ 1 ∨ NoNaN p.1 ∧ NoNaN p.2) := by
    rintro ⟨x, y⟩ hx
    obtain ⟨m1, m2⟩ := List.of_mem_zip hx
    have l1 := windowsOf_mem_length m1
    have l2 := windowsOf_mem_length m2
    have a1 := rank_answers_nan srt hs none l1
    have a2 := rank_answers_nan srt hs none l2
    simp only [show w ≠ 0 by omega, false_implies, and_true] at a1 a2
    constructor
    · rintro ⟨v, hv⟩
      dsimp only at hv
      rw [Option.bind_eq_some_iff] at hv
      obtain ⟨r1, h1, hv⟩ := hv
      rw [Option.bind_eq_some_iff] at hv
      obtain ⟨r2, h2, -⟩ := hv
      have := (a1.cond h1).1
      have := (a2.cond h2).1
      tauto
    · intro h
      obtain ⟨r1, h1, d1⟩ := a1.1 (by tauto)
      obtain ⟨r2, h2, d2⟩ := a2.1 (by tauto)
      simp (disch := omega) only [h1, h2, Option.bind_some, Distribution.cov_stdev, Option.bind_eq_bind, usub_of_le, Option.some.injEq,
        exists_eq']
  refine (Ans.bind (Ans.mapP_all rfl key) fun r hr => Ans.some (Len.append (Len.nans _) hr)).congr ?_ ?_
  · rw [and_true, and_iff_right (show 1 ≤ w from hw)]
    constructor
    · intro h h2 hk
      exact (forall_windows_iff hw hk).1 fun p hp => (h p hp).resolve_left (by omega)
    · intro h p hp
      rcases Nat.lt_or_ge 1 w with h2 | h2
      · obtain ⟨m1, m2⟩ := List.of_mem_zip hp
        have := List.length_pos_of_mem m1
        have := List.length_pos_of_mem m2
        simp only [windowsOf_length] at *
        exact .inr ((forall_windows_iff hw (by omega)).2 (h h2 (by omega)) p hp)
      · exact .inl h2
  · intro _; simp; omega

theorem hoeffd_answers (srt : Sorter (FP ρ)) (hs : srt.Valid) (hn : s1.length = n) (hm : s2.length = m) :
    AnswersIff (1 ≤ w ∧ (w ≤ min n m → (4 ≤ w ∧ w ≤ 7133) ∧ NoNaN (s1.take (min n m)) ∧ NoNaN (s2.take (min n m)))) (max (min n m) (w - 1))
      (hoeffd srt s1 s2 w) := by
  subst hn hm
  rcases Nat.eq_zero_or_pos w with rfl | hw
  · exact ⟨fun h => by omega, fun _ => rfl⟩
  simp only [hoeffd, windows, Option.bind_eq_bind, usub_of_le hw, Option.bind_some, if_neg (show w ≠ 0 by omega)]
  have key : ∀ p ∈ (windowsOf w s1).zip (windowsOf w s2), (∃ y, ((fun (p : List (FP ρ) × List (FP ρ)) => hoeffdWin srt w p.1 p.2) p) = some y) ↔
      ((4 ≤ w ∧ w ≤ 7133) ∧ NoNaN p.1 ∧ NoNaN p.2) := by
    rintro ⟨x, y⟩ hx
    obtain ⟨m1, m2⟩ := List.of_mem_zip hx
    have l1 := windowsOf_mem_length m1
    have l2 := windowsOf_mem_length m2
    have a1 := rank_answers_nan srt hs (some .average) l1
    have a2 := rank_answers_nan srt hs (some .average) l2
    simp only [show w ≠ 0 by omega, false_implies, and_true] at a1 a2
    simp only [hoeffdWin, Option.bind_eq_bind]
    constructor
    · rintro ⟨v, hv⟩
      rw [Option.bind_eq_some_iff] at hv
      obtain ⟨r1, h1, hv⟩ := hv
      rw [Option.bind_eq_some_iff] at hv
      obtain ⟨r2, h2, hv⟩ := hv
      have h4 : 4 ≤ w := by
        by_contra hc
        simp only [usub, hc, if_false, Option.bind_none, Option.bind_fun_none] at hv
        simp at hv
      have h5 : w ≤ 7133 := by
        by_contra hc
        simp only [usub_of_le (show 1 ≤ w by omega), usub_of_le (show 2 ≤ w by omega), usub_of_le (show 3 ≤ w by omega), usub_of_le h4, Option.bind_some] at hv
        rw [five_factors_overflow (by omega)] at hv
        cases hv
      exact ⟨⟨h4, h5⟩, (a1.cond h1).1.resolve_left (by omega), (a2.cond h2).1.resolve_left (by omega)⟩
    · rintro ⟨⟨h4, h5⟩, h⟩
      obtain ⟨r1, h1, d1⟩ := a1.1 (by tauto)
      obtain ⟨r2, h2, d2⟩ := a2.1 (by tauto)
      simp (disch := omega) only [h1, h2, Option.bind_some, usub_of_le]
      rw [five_factors h5]
      exact ⟨_, rfl⟩
  refine (Ans.bind (Ans.mapP_all rfl key) fun r hr => Ans.some (Len.append (Len.nans _) hr)).congr ?_ ?_
  · rw [and_true, and_iff_right (show 1 ≤ w from hw)]
    constructor
    · intro h hk
      refine ⟨?_, (forall_windows_iff hw hk).1 fun p hp => (h p hp).2⟩
      obtain ⟨p, hp⟩ := List.exists_mem_of_length_pos (show 0 < ((windowsOf w s1).zip (windowsOf w s2)).length by simp; omega)
      exact (h p hp).1
    · intro h p hp
      obtain ⟨m1, m2⟩ := List.of_mem_zip hp
      have := List.length_pos_of_mem m1
      have := List.length_pos_of_mem m2
      simp only [windowsOf_length] at *
      have h' := h (by omega)
      exact ⟨h'.1, (forall_windows_iff hw (by omega)).2 h'.2 p hp⟩
  · intro _; simp; omega
end
end Traquer.Correlation

namespace Traquer.Regression
variable {F : Type} [FloatOps F] {data estimate : List F} {n m : Nat}

theorem mda_answers (hn : data.length = n) (hm : estimate.length = m) : AnswersIff (1 ≤ n ∧ 1 ≤ m) (min n m) (mda data estimate) := by
  answers [mda]
end Traquer.Regression
