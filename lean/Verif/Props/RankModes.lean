import Verif.Props.Rank
import Verif.Props.ShapeStats
import Verif.Props.CausalStats
import Verif.Lemmas.RoundsTo
import Mathlib.Data.List.Sort
/-!
# C41, C42, C06: the ranks, and the rank based correlations
-/

namespace Traquer.Distribution
open FP FloatLit

/-- What `sort_unstable_by` guarantees: when it does not panic, it returns some ordering of the indices along which the values
do not decrease. Equal values may come in any order. -/
def Sorter.Valid {F : Type} [FloatOps F] (srt : Sorter F) : Prop :=
  ∀ data, sortPanics data = false → IsArgsort (fun x y => x <. y) data (srt.sort data)

section
variable {F : Type} [FloatOps F]

/-! ## Totality, in every arithmetic -/

theorem sortedRanks_isSome (mode : Option RankMode) (fl : List Bool) (n : ℕ) (hn : n = fl.length + 1) :
    ∃ o : List F, sortedRanks mode (true :: fl) n = some o ∧ o.length = n := by
  have hcount : ∀ k st b, (true :: fl)[k]? = some b → st = ((true :: fl).take k).count true →
      1 ≤ (if b then st + 1 else st) ∧ (if b then st + 1 else st) < (tieStarts (true :: fl) n).length ∧
        (if b then st + 1 else st) = ((true :: fl).take (k + 1)).count true := by
    intro k st b hb hst
    have hc := take_count_succ (true :: fl) k b hb
    rw [← hst] at hc
    rw [← hc]
    refine ⟨by simp, ?_, rfl⟩
    rw [tieStarts_eq, List.length_append, starts_length]
    have : ((true :: fl).take (k + 1)).count true ≤ (true :: fl).count true := List.Sublist.count_le _ (List.take_sublist ..)
    simp only [List.length_singleton]
    omega
  unfold sortedRanks
  split
  · exact ⟨_, rfl, by simp [scanS, hn]⟩
  · obtain ⟨o, ho, -⟩ := scanM_idx_some (f := fun (st : ℕ) (take : Bool) => do
      let st := if take then st + 1 else st
      let a ← (tieStarts (true :: fl) n)[st]?
      let p ← usub st 1
      let b ← (tieStarts (true :: fl) n)[p]?
      some (st, (flt (1 + a + b) / 2 : F))) (I := fun k st => st = ((true :: fl).take k).count true) (P := fun _ _ => True)
      (l := true :: fl) (fun k st b hb hst => by
        obtain ⟨h1, h2, h3⟩ := hcount k st b hb hst
        refine ⟨if b then st + 1 else st, flt (1 + (tieStarts (true :: fl) n)[if b then st + 1 else st] +
          (tieStarts (true :: fl) n)[(if b then st + 1 else st) - 1]) / 2, ?_, h3, trivial⟩
        simp only [List.getElem?_eq_getElem h2, usub_of_le h1, Option.bind_eq_bind, Option.bind_some]
        rw [List.getElem?_eq_getElem (by omega)]
        rfl) (s := 0) (by simp)
    exact ⟨o, ho, by rw [scanM_length ho, hn]; rfl⟩
  · obtain ⟨o, ho, -⟩ := scanM_idx_some (f := fun (st : ℕ) (take : Bool) => do
      let st := if take then st + 1 else st
      let a ← (tieStarts (true :: fl) n)[st]?
      some (st, (flt a : F))) (I := fun k st => st = ((true :: fl).take k).count true) (P := fun _ _ => True)
      (l := true :: fl) (fun k st b hb hst => by
        obtain ⟨h1, h2, h3⟩ := hcount k st b hb hst
        refine ⟨if b then st + 1 else st, flt (tieStarts (true :: fl) n)[if b then st + 1 else st], ?_, h3, trivial⟩
        simp only [List.getElem?_eq_getElem h2, Option.bind_eq_bind, Option.bind_some]) (s := 0) (by simp)
    exact ⟨o, ho, by rw [scanM_length ho, hn]; rfl⟩
  · exact ⟨_, rfl, by simp [scanS, hn]⟩

/-- C06: one rank per value for non-empty data without NaN (or a single value), in every mode, however ties are ordered. -/
theorem rank_yields (srt : Sorter F) (hs : srt.Valid) (data : List F) (mode : Option RankMode) (hp : sortPanics data = false)
    (hne : data ≠ []) : Yields data.length (rank srt data mode) := by
  have h := hs data hp
  unfold rank
  rw [if_neg (by simp [hp])]
  have hm : ∀ i ∈ srt.sort data, i < data.length := fun i hi => by simpa using h.perm.mem_iff.1 hi
  obtain ⟨sorted, e⟩ := mapP_isSome (f := fun i => data[i]?) (l := srt.sort data) fun i hi => by simp [hm i hi]
  have hl : sorted.length = data.length := by rw [mapP_length e, h.perm.length_eq, List.length_range]
  unfold rankWith
  split
  · exact ⟨_, rfl, scatter_length ..⟩
  · cases sorted with
    | nil => exact absurd (List.length_eq_zero_iff.1 hl.symm) hne
    | cons x1 rest =>
      obtain ⟨o, ho, hol⟩ := sortedRanks_isSome (F := F) mode (scan (fun st x => (x, !(st ==. x))) x1 rest) data.length
        (by rw [← hl]; simp)
      exact ⟨scatter data.length o (srt.sort data), by simp only [e, uniqFlags, ho, Option.bind_eq_bind, Option.bind_some], scatter_length ..⟩

/-- C15: ranking data with two or more values of which one is NaN panics, in every mode. -/
theorem rank_nan_panics (srt : Sorter F) (data : List F) (mode : Option RankMode) (h2 : 2 ≤ data.length)
    (x : F) (hx : x ∈ data) (hn : comparable x x = false) : rank srt data mode = none := by
  unfold rank
  rw [if_pos]
  simp only [sortPanics, h2, decide_true, Bool.true_and, List.any_eq_true]
  exact ⟨x, hx, by simp [hn]⟩

/-- C15: ranking no data panics, except for ordinal ranks. -/
theorem rank_empty_panics (srt : Sorter F) (hs : srt.Valid) (mode : Option RankMode) (hm : mode ≠ some .ordinal) :
    rank srt ([] : List F) mode = none := by
  have h := hs [] rfl
  have e : srt.sort [] = [] := by simpa using h.perm
  unfold rank
  rw [if_neg (by simp [sortPanics]), e]
  unfold rankWith
  split
  · exact absurd rfl hm
  · rfl

theorem rank_empty_ordinal (srt : Sorter F) : rank srt ([] : List F) (some .ordinal) = some [] := rfl
end

/-! ## The values, in every rounding -/

variable {ρ : Rounding}

/-- No value is NaN (infinities are allowed). -/
def NoNaN (data : List (FP ρ)) : Prop := ∀ x ∈ data, Traquer.isNaN x = false

theorem NoNaN.of_fins {data : List (FP ρ)} (h : Fins data) : NoNaN data := fun x hx => (h x hx).is.not_nan

theorem toE_feq {x y : FP ρ} (hx : Traquer.isNaN x = false) (hy : Traquer.isNaN y = false) :
    (x ==. y) = decide (x.toE = y.toE) := by
  rw [isNaN_def] at hx hy
  simp [feq_def, feq, hx, hy]

theorem comparable_of {x y : FP ρ} (hx : Traquer.isNaN x = false) (hy : Traquer.isNaN y = false) : comparable x y = true := by
  rw [comparable, toE_lt hx hy, toE_lt hy hx, toE_feq hx hy]
  rcases lt_trichotomy x.toE y.toE with h | h | h <;> simp [h]

theorem sortPanics_of_noNaN {data : List (FP ρ)} (h : NoNaN data) : sortPanics data = false := by
  rw [sortPanics, Bool.and_eq_false_iff]
  refine .inr (List.any_eq_false.2 fun x hx => ?_)
  simp [comparable_of (h x hx) (h x hx)]

theorem keyed_of_noNaN {data : List (FP ρ)} (h : NoNaN data) :
    Keyed FP.toE (fun x y : FP ρ => x <. y) (fun x y => !(x ==. y)) data where
  lt_iff x hx y hy := by rw [toE_lt (h x hx) (h y hy), decide_eq_true_eq]
  ne_iff x hx y hy := by rw [toE_feq (h x hx) (h y hy)]; simp

/-- The number of values below `x`. -/
noncomputable def numBelow (data : List (FP ρ)) (x : FP ρ) : ℕ := data.countP fun y => y <. x

/-- The number of values not above `x`. -/
noncomputable def numUpTo (data : List (FP ρ)) (x : FP ρ) : ℕ := data.countP fun y => y <=. x

open Classical in
/-- The number of different values below `x` (`0` and `-0` count once). -/
noncomputable def numDistinctBelow (data : List (FP ρ)) (x : FP ρ) : ℕ :=
  (((data.filter fun y => y <. x).map FP.toE).toFinset).card

theorem below_eq {data : List (FP ρ)} (h : NoNaN data) {x : FP ρ} (hx : x ∈ data) :
    below (data.map FP.toE) x.toE = numBelow data x := by
  rw [below, List.countP_map, numBelow]
  refine List.countP_congr fun y hy => ?_
  rw [toE_lt (h y hy) (h x hx)]; simp

theorem upto_eq {data : List (FP ρ)} (h : NoNaN data) {x : FP ρ} (hx : x ∈ data) :
    upto (data.map FP.toE) x.toE = numUpTo data x := by
  rw [upto, List.countP_map, numUpTo]
  refine List.countP_congr fun y hy => ?_
  rw [toE_le (h y hy) (h x hx)]; simp

theorem distinctBelow_eq {data : List (FP ρ)} (h : NoNaN data) {x : FP ρ} (hx : x ∈ data) :
    distinctBelow (data.map FP.toE) x.toE = numDistinctBelow data x := by
  classical
  rw [distinctBelow, numDistinctBelow, List.countP_eq_length_filter]
  have nd : ((data.map FP.toE).dedup.filter fun y => decide (y < x.toE)).Nodup := (List.nodup_dedup _).filter _
  rw [← List.toFinset_card_of_nodup nd]
  congr 1
  ext e
  simp only [List.mem_toFinset, List.mem_filter, List.mem_dedup, List.mem_map, decide_eq_true_eq]
  constructor
  · rintro ⟨⟨y, hy, rfl⟩, hlt⟩
    exact ⟨y, ⟨hy, by rw [toE_lt (h y hy) (h x hx)]; simpa using hlt⟩, rfl⟩
  · rintro ⟨y, ⟨hy, hlt⟩, rfl⟩
    rw [toE_lt (h y hy) (h x hx), decide_eq_true_eq] at hlt
    exact ⟨⟨y, hy, rfl⟩, hlt⟩

section
variable (srt : Sorter (FP ρ)) (hs : srt.Valid) (data : List (FP ρ)) (hd : NoNaN data) (hne : data ≠ [])
include hd

theorem rank_eq (mode : Option RankMode) : rank srt data mode = rankWith (fun x y => !(x ==. y)) data mode (srt.sort data) := by
  rw [rank, if_neg (by simp [sortPanics_of_noNaN hd])]

include hs hne

/-- C41: mode `Min`, and the default: one more than the number of smaller values. -/
theorem rank_min (mode : Option RankMode) (hm : mode = none ∨ mode = some .min) :
    ∃ out, rank srt data mode = some out ∧ out.length = data.length ∧
      ∀ (i : ℕ) x, data[i]? = some x → out[i]? = some (flt (numBelow data x + 1)) := by
  rw [rank_eq srt data hd]
  obtain ⟨out, e, hl, h⟩ := rankWith_min (F := FP ρ) (keyed_of_noNaN hd) (hs data (sortPanics_of_noNaN hd)) hne hm
  exact ⟨out, e, hl, fun i x hx => by rw [h i x hx, below_eq hd (List.mem_of_getElem? hx)]⟩

/-- C41: mode `Max`: the number of values not above. -/
theorem rank_max : ∃ out, rank srt data (some .max) = some out ∧ out.length = data.length ∧
    ∀ (i : ℕ) x, data[i]? = some x → out[i]? = some (flt (numUpTo data x)) := by
  rw [rank_eq srt data hd]
  obtain ⟨out, e, hl, h⟩ := rankWith_max (F := FP ρ) (keyed_of_noNaN hd) (hs data (sortPanics_of_noNaN hd)) hne
  exact ⟨out, e, hl, fun i x hx => by rw [h i x hx, upto_eq hd (List.mem_of_getElem? hx)]⟩

/-- C41: mode `Dense`: one more than the number of different smaller values. -/
theorem rank_dense : ∃ out, rank srt data (some .dense) = some out ∧ out.length = data.length ∧
    ∀ (i : ℕ) x, data[i]? = some x → out[i]? = some (flt (numDistinctBelow data x + 1)) := by
  rw [rank_eq srt data hd]
  obtain ⟨out, e, hl, h⟩ := rankWith_dense (F := FP ρ) (keyed_of_noNaN hd) (hs data (sortPanics_of_noNaN hd)) hne
  exact ⟨out, e, hl, fun i x hx => by rw [h i x hx, distinctBelow_eq hd (List.mem_of_getElem? hx)]⟩

/-- C41: mode `Average`: half of the sum of the `Min` and `Max` ranks. -/
theorem rank_average : ∃ out, rank srt data (some .average) = some out ∧ out.length = data.length ∧
    ∀ (i : ℕ) x, data[i]? = some x → out[i]? = some (flt ((numBelow data x + 1) + numUpTo data x) / 2) := by
  rw [rank_eq srt data hd]
  obtain ⟨out, e, hl, h⟩ := rankWith_average (F := FP ρ) (keyed_of_noNaN hd) (hs data (sortPanics_of_noNaN hd)) hne
  refine ⟨out, e, hl, fun i x hx => ?_⟩
  rw [h i x hx, upto_eq hd (List.mem_of_getElem? hx), below_eq hd (List.mem_of_getElem? hx)]
  congr 3
  omega
end

/-- C41: mode `Ordinal`: the numbers 1 to `n`, each once, larger values getting larger numbers. -/
theorem rank_ordinal (srt : Sorter (FP ρ)) (hs : srt.Valid) (data : List (FP ρ)) (hd : NoNaN data) :
    ∃ r : List ℕ, r.Perm (List.range' 1 data.length) ∧ rank srt data (some .ordinal) = some (r.map fun n => flt n) ∧
      ∀ (i j : ℕ) x y a b, data[i]? = some x → data[j]? = some y → r[i]? = some a → r[j]? = some b → (x <. y) = true → a < b := by
  rw [rank_eq srt data hd]
  obtain ⟨r, h1, h2, h3⟩ := rankWith_ordinal (F := FP ρ) (keyed_of_noNaN hd) (hs data (sortPanics_of_noNaN hd))
  refine ⟨r, h1, h2, fun i j x y a b hx hy ha hb hxy => h3 i j x y a b hx hy ha hb ?_⟩
  rwa [toE_lt (hd x (List.mem_of_getElem? hx)) (hd y (List.mem_of_getElem? hy)), decide_eq_true_eq] at hxy

/-- The ranks other than ordinal do not depend on how the sort orders equal values. -/
theorem rank_deterministic (s₁ s₂ : Sorter (FP ρ)) (h₁ : s₁.Valid) (h₂ : s₂.Valid) (data : List (FP ρ)) (hd : NoNaN data)
    (mode : Option RankMode) (hm : mode ≠ some .ordinal) : rank s₁ data mode = rank s₂ data mode := by
  by_cases hne : data = []
  · subst hne
    rw [rank_empty_panics s₁ h₁ mode hm, rank_empty_panics s₂ h₂ mode hm]
  have key : ∀ (g : FP ρ → FP ρ), (∃ out, rank s₁ data mode = some out ∧ out.length = data.length ∧
      ∀ (i : ℕ) x, data[i]? = some x → out[i]? = some (g x)) → (∃ out, rank s₂ data mode = some out ∧ out.length = data.length ∧
      ∀ (i : ℕ) x, data[i]? = some x → out[i]? = some (g x)) → rank s₁ data mode = rank s₂ data mode := by
    rintro g ⟨o₁, e₁, l₁, v₁⟩ ⟨o₂, e₂, l₂, v₂⟩
    rw [e₁, e₂]
    congr 1
    apply List.ext_getElem?
    intro i
    by_cases hi : i < data.length
    · rw [v₁ i _ (List.getElem?_eq_getElem hi), v₂ i _ (List.getElem?_eq_getElem hi)]
    · rw [List.getElem?_eq_none (by omega), List.getElem?_eq_none (by omega)]
  match mode, hm with
  | none, _ => exact key _ (rank_min s₁ h₁ data hd hne none (.inl rfl)) (rank_min s₂ h₂ data hd hne none (.inl rfl))
  | some .min, _ => exact key _ (rank_min s₁ h₁ data hd hne _ (.inr rfl)) (rank_min s₂ h₂ data hd hne _ (.inr rfl))
  | some .max, _ => exact key _ (rank_max s₁ h₁ data hd hne) (rank_max s₂ h₂ data hd hne)
  | some .dense, _ => exact key _ (rank_dense s₁ h₁ data hd hne) (rank_dense s₂ h₂ data hd hne)
  | some .average, _ => exact key _ (rank_average s₁ h₁ data hd hne) (rank_average s₂ h₂ data hd hne)

/-! ## Admissible sorts exist; ties may come in either order -/

open Classical in
/-- A stable sort (ties in input order for `rev = false`, in reverse input order for `rev = true`). -/
noncomputable def tieSorter (rev : Bool) : Sorter (FP ρ) where
  sort data := (if rev then (List.range data.length).reverse else List.range data.length).mergeSort
    fun a b => decide ((data[a]?.getD FP.nan).toE ≤ (data[b]?.getD FP.nan).toE)

theorem tieSorter_valid (rev : Bool) : (tieSorter rev : Sorter (FP ρ)).Valid := by
  intro data hp
  have hperm : ((tieSorter rev : Sorter (FP ρ)).sort data).Perm (List.range data.length) := by
    refine (List.mergeSort_perm _ _).trans ?_
    cases rev
    · exact List.Perm.refl _
    · exact List.reverse_perm _
  refine ⟨hperm, ?_⟩
  by_cases h2 : 2 ≤ data.length
  · have hn : ∀ x ∈ data, Traquer.isNaN x = false := fun x hx => by
      have : ¬ (!(comparable x x)) = true := by
        have := hp
        simp only [sortPanics, h2, decide_true, Bool.true_and] at this
        exact List.any_eq_false.1 this x hx
      by_contra hc
      have hxn : x = FP.nan := isNaN_iff.1 (by simpa using hc)
      subst hxn
      exact this rfl
    have := List.pairwise_mergeSort (le := fun a b => decide ((data[a]?.getD FP.nan).toE ≤ (data[b]?.getD FP.nan).toE))
      (fun a b c h1 h2 => by simp only [decide_eq_true_eq] at *; exact h1.trans h2)
      (fun a b => by simp only [Bool.or_eq_true, decide_eq_true_eq]; exact le_total _ _)
      (if rev then (List.range data.length).reverse else List.range data.length)
    refine List.Pairwise.imp ?_ this
    intro a b hab x y hx hy
    rw [hx, hy] at hab
    simp only [Option.getD_some, decide_eq_true_eq] at hab
    show (y <. x) = false
    rw [toE_lt (hn y (List.mem_of_getElem? hy)) (hn x (List.mem_of_getElem? hx))]
    simpa using hab
  · have hl : ((tieSorter rev : Sorter (FP ρ)).sort data).length ≤ 1 := by
      rw [hperm.length_eq, List.length_range]; omega
    match e : (tieSorter rev : Sorter (FP ρ)).sort data with
    | [] => exact List.Pairwise.nil
    | [a] => exact List.pairwise_singleton _ _
    | _ :: _ :: _ => rw [e] at hl; simp at hl

/-- C42: the documentation says that ordinal ranks follow the order in which the values occur in the input. An admissible
result of the unstable sort gives two equal values the ranks 2, 1. -/
theorem rank_ordinal_ties : ∃ (srt : Sorter (FP ρ)), srt.Valid ∧ rank srt [1, 1] (some .ordinal) = some [flt 2, flt 1] := by
  refine ⟨tieSorter true, tieSorter_valid true, ?_⟩
  have hn : NoNaN [(1 : FP ρ), 1] := NoNaN.of_fins fun x hx => by simp at hx; subst hx; exact isOne.finite
  rw [rank_eq _ _ hn]
  have : (tieSorter true : Sorter (FP ρ)).sort [1, 1] = [1, 0] := by
    simp [tieSorter, List.mergeSort, List.range_succ]
  rw [this]
  rfl

/-- Another admissible result gives 1, 2. -/
theorem rank_ordinal_ties' : ∃ (srt : Sorter (FP ρ)), srt.Valid ∧ rank srt [1, 1] (some .ordinal) = some [flt 1, flt 2] := by
  refine ⟨tieSorter false, tieSorter_valid false, ?_⟩
  have hn : NoNaN [(1 : FP ρ), 1] := NoNaN.of_fins fun x hx => by simp at hx; subst hx; exact isOne.finite
  rw [rank_eq _ _ hn]
  have : (tieSorter false : Sorter (FP ρ)).sort [1, 1] = [0, 1] := by
    simp [tieSorter, List.mergeSort, List.range_succ]
  rw [this]
  rfl

/-- The hypotheses are met by data with ties: the four ranks of `[1, 2, 1]`. -/
example : ∃ out, rank (tieSorter true : Sorter (FP ρ)) [1, 2, 1] none = some out ∧ out.length = 3 ∧
    ∀ (i : ℕ) (x : FP ρ), [1, 2, 1][i]? = some x → out[i]? = some (flt (numBelow [1, 2, 1] x + 1)) :=
  rank_min _ (tieSorter_valid true) _ (NoNaN.of_fins fun x hx => by
    simp at hx
    rcases hx with rfl | rfl | rfl
    · exact isOne.finite
    · exact (isLit 2 (by norm_num)).finite
    · exact isOne.finite) (by simp) none (.inl rfl)

/-- no look-ahead -/
theorem quantile_noLookahead (w : ℕ) (q : FP ρ) (hw : 1 ≤ w) (hw' : w ≤ 2 ^ 53) :
    NoLookahead (w - 1) fun l : List (FP ρ) => quantile l w q :=
  noLookahead_of (fun l hl => (quantile_aligned l w q hw hw' (by omega)).yields) (quantile_causal w q)

theorem median_noLookahead (w : ℕ) (hw : 1 ≤ w) (hw' : w ≤ 2 ^ 53) :
    NoLookahead (w - 1) fun l : List (FP ρ) => median l w :=
  noLookahead_of (fun l hl => (median_aligned l w hw hw' (by omega)).yields) (median_causal w)

end Traquer.Distribution

namespace Traquer.Correlation
open FP FloatLit
open Traquer.Distribution (rank rank_yields rank_nan_panics Sorter sortPanics NoNaN sortPanics_of_noNaN)
variable {ρ : Rounding}

theorem noNaN_window {l x : List (FP ρ)} {w : ℕ} (h : NoNaN l) (hx : x ∈ windowsOf w l) : NoNaN x := by
  obtain ⟨i, -, rfl⟩ := List.mem_map.1 hx
  exact fun y hy => h y (List.mem_of_mem_drop (List.mem_of_mem_take hy))

/-- C06/C07: one Spearman correlation per bar for series without NaN. -/
theorem srcc_aligned (srt : Sorter (FP ρ)) (hs : srt.Valid) (s1 s2 : List (FP ρ)) (window : ℕ) (h : s2.length = s1.length)
    (hw : 1 ≤ window) (hn : window ≤ s1.length + 1) (h1 : NoNaN s1) (h2 : NoNaN s2) :
    Aligned s1.length (window - 1) (srcc srt s1 s2 window) := by
  run_model [srcc]
  refine aligned_mapP ?_ (by simp; omega) (by omega)
  rintro ⟨x, y⟩ hx
  obtain ⟨m1, m2⟩ := List.of_mem_zip hx
  have l1 := windowsOf_mem_length m1
  have l2 := windowsOf_mem_length m2
  obtain ⟨r1, e1, d1⟩ := rank_yields srt hs x none (sortPanics_of_noNaN (noNaN_window h1 m1)) (by rintro rfl; simp at l1; omega)
  obtain ⟨r2, e2, d2⟩ := rank_yields srt hs y none (sortPanics_of_noNaN (noNaN_window h2 m2)) (by rintro rfl; simp at l2; omega)
  simp only [e1, e2, Option.bind_some, Distribution.cov_stdev, Option.bind_eq_bind]
  rw [usub_of_le (by omega), usub_of_le (by omega)]
  rfl

/-- The product in the denominator of Hoeffding's D fits into 64 bits for windows of up to 7133 bars. -/
theorem five_factors {α : Type} {w : ℕ} (hw : w ≤ 7133) (g : ℕ → Option α) :
    ((umul w (w - 1)).bind fun p1 => (umul p1 (w - 2)).bind fun p2 => (umul p2 (w - 3)).bind fun p3 => (umul p3 (w - 4)).bind g) =
      g (w * (w - 1) * (w - 2) * (w - 3) * (w - 4)) := by
  have m1 : w * (w - 1) ≤ 7133 * 7132 := Nat.mul_le_mul hw (by omega)
  have m2 : w * (w - 1) * (w - 2) ≤ 7133 * 7132 * 7131 := Nat.mul_le_mul m1 (by omega)
  have m3 : w * (w - 1) * (w - 2) * (w - 3) ≤ 7133 * 7132 * 7131 * 7130 := Nat.mul_le_mul m2 (by omega)
  have m4 : w * (w - 1) * (w - 2) * (w - 3) * (w - 4) ≤ 7133 * 7132 * 7131 * 7130 * 7129 := Nat.mul_le_mul m3 (by omega)
  simp only [umul]
  rw [if_pos (by omega), Option.bind_some, if_pos (by omega), Option.bind_some, if_pos (by omega), Option.bind_some, if_pos (by omega),
    Option.bind_some]

/-- For larger windows it does not. -/
theorem five_factors_overflow {α : Type} {w : ℕ} (hw : 7134 ≤ w) (g : ℕ → Option α) :
    ((umul w (w - 1)).bind fun p1 => (umul p1 (w - 2)).bind fun p2 => (umul p2 (w - 3)).bind fun p3 => (umul p3 (w - 4)).bind g) = none := by
  have m1 : 7134 * 7133 ≤ w * (w - 1) := Nat.mul_le_mul hw (by omega)
  have m2 : 7134 * 7133 * 7132 ≤ w * (w - 1) * (w - 2) := Nat.mul_le_mul m1 (by omega)
  have m3 : 7134 * 7133 * 7132 * 7131 ≤ w * (w - 1) * (w - 2) * (w - 3) := Nat.mul_le_mul m2 (by omega)
  have m4 : 7134 * 7133 * 7132 * 7131 * 7130 ≤ w * (w - 1) * (w - 2) * (w - 3) * (w - 4) := Nat.mul_le_mul m3 (by omega)
  simp only [umul]
  split
  swap; · rfl
  rw [Option.bind_some]
  split
  swap; · rfl
  rw [Option.bind_some]
  split
  swap; · rfl
  rw [Option.bind_some, if_neg (by omega)]
  rfl

/-- C06/C07: one value of Hoeffding's D per bar for series without NaN and windows of four to 7133 bars. -/
theorem hoeffd_aligned (srt : Sorter (FP ρ)) (hs : srt.Valid) (s1 s2 : List (FP ρ)) (window : ℕ) (h : s2.length = s1.length)
    (hw : 4 ≤ window) (hw' : window ≤ 7133) (hn : window ≤ s1.length + 1) (h1 : NoNaN s1) (h2 : NoNaN s2) :
    Aligned s1.length (window - 1) (hoeffd srt s1 s2 window) := by
  run_model [hoeffd]
  refine aligned_mapP ?_ (by simp; omega) (by omega)
  rintro ⟨x, y⟩ hx
  obtain ⟨m1, m2⟩ := List.of_mem_zip hx
  have l1 := windowsOf_mem_length m1
  have l2 := windowsOf_mem_length m2
  obtain ⟨r1, e1, d1⟩ := rank_yields srt hs x (some .average) (sortPanics_of_noNaN (noNaN_window h1 m1)) (by rintro rfl; simp at l1; omega)
  obtain ⟨r2, e2, d2⟩ := rank_yields srt hs y (some .average) (sortPanics_of_noNaN (noNaN_window h2 m2)) (by rintro rfl; simp at l2; omega)
  simp only [hoeffdWin, e1, e2, Option.bind_some, Option.bind_eq_bind]
  rw [usub_of_le (by omega), usub_of_le (by omega), usub_of_le (by omega), usub_of_le (by omega)]
  simp only [Option.bind_some]
  rw [five_factors hw']
  rfl

/-- no look-ahead, for series without NaN -/
theorem srcc_noLookahead (srt : Sorter (FP ρ)) (hs : srt.Valid) (window : ℕ) (hw : 1 ≤ window) (p1 p2 f1 f2 : List (FP ρ))
    (hp : p2.length = p1.length) (hf : f2.length = f1.length) (hn : window ≤ p1.length + 1)
    (h1 : NoNaN (p1 ++ f1)) (h2 : NoNaN (p2 ++ f2)) :
    ∃ out out', srcc srt p1 p2 window = some out ∧ srcc srt (p1 ++ f1) (p2 ++ f2) window = some out' ∧
      out.length = p1.length ∧ out'.length = p1.length + f1.length ∧ out <+: out' := by
  obtain ⟨o, e, l, -⟩ := srcc_aligned srt hs p1 p2 window hp hw hn (fun x hx => h1 x (by simp [hx])) (fun x hx => h2 x (by simp [hx]))
  obtain ⟨o', e', l', -⟩ := srcc_aligned srt hs (p1 ++ f1) (p2 ++ f2) window (by simp [hp, hf]) hw (by simp; omega) h1 h2
  have := srcc_causal srt window (p1.zip p2) (f1.zip f2) o o'
    (by dsimp only; rw [List.map_fst_zip (by omega), List.map_snd_zip (by omega)]; exact e)
    (by dsimp only; rw [List.map_append, List.map_append, List.map_fst_zip (by omega), List.map_snd_zip (by omega),
        List.map_fst_zip (by omega), List.map_snd_zip (by omega)]; exact e')
  exact ⟨o, o', e, e', l, by simp [l'], this⟩

theorem hoeffd_noLookahead (srt : Sorter (FP ρ)) (hs : srt.Valid) (window : ℕ) (hw : 4 ≤ window) (hw' : window ≤ 7133) (p1 p2 f1 f2 : List (FP ρ))
    (hp : p2.length = p1.length) (hf : f2.length = f1.length) (hn : window ≤ p1.length + 1)
    (h1 : NoNaN (p1 ++ f1)) (h2 : NoNaN (p2 ++ f2)) :
    ∃ out out', hoeffd srt p1 p2 window = some out ∧ hoeffd srt (p1 ++ f1) (p2 ++ f2) window = some out' ∧
      out.length = p1.length ∧ out'.length = p1.length + f1.length ∧ out <+: out' := by
  obtain ⟨o, e, l, -⟩ := hoeffd_aligned srt hs p1 p2 window hp hw hw' hn (fun x hx => h1 x (by simp [hx])) (fun x hx => h2 x (by simp [hx]))
  obtain ⟨o', e', l', -⟩ := hoeffd_aligned srt hs (p1 ++ f1) (p2 ++ f2) window (by simp [hp, hf]) hw hw' (by simp; omega) h1 h2
  have := hoeffd_causal srt window (p1.zip p2) (f1.zip f2) o o'
    (by dsimp only; rw [List.map_fst_zip (by omega), List.map_snd_zip (by omega)]; exact e)
    (by dsimp only; rw [List.map_append, List.map_append, List.map_fst_zip (by omega), List.map_snd_zip (by omega),
        List.map_fst_zip (by omega), List.map_snd_zip (by omega)]; exact e')
  exact ⟨o, o', e, e', l, by simp [l'], this⟩

end Traquer.Correlation
