import Verif.Props.ScaleStats
import Verif.Props.RankModes
import Verif.Model.Correlation
/-!
# C78: a change of units, correlation

The two series may be quantities of any degrees `p` and `q`: both in the same currency (`p = q = 1`), or only one of them converted
(`p = 1`, `q = 0`).
-/

namespace Traquer.Correlation
open FP FloatLit
open Traquer.Distribution (rank cov_stdev RankMode Sorter ltPairs)
variable {ρ : Rounding} {k : ℝ} [ρ.Scales k] {p q : ℤ} {s1 s1' s2 s2' : List (FP ρ)}

/-- The sums of pcc. -/
structure PccUnits (k : ℝ) (p q : ℤ) (s s' : PccSums (FP ρ)) : Prop where
  xy : Scaled k (p + q) s.xy s'.xy
  x : Scaled k p s.x s'.x
  y : Scaled k q s.y s'.y
  x2 : Scaled k (p + p) s.x2 s'.x2
  y2 : Scaled k (q + q) s.y2 s'.y2

theorem pccSums_units (h : Each (Scaled k p) s1 s1') (g : Each (Scaled k q) s2 s2') : PccUnits k p q (pccSums s1 s2) (pccSums s1' s2') := by
  refine foldl_rel (X := PccUnits k p q) ⟨.zero, .zero, .zero, .zero, .zero⟩ (each_zip h g) ?_
  rintro s s' ⟨h1, h2, h3, h4, h5⟩ b b' ⟨hx, hy⟩
  exact ⟨h1.add (hx.mul hy rfl), h2.add hx, h3.add hy, h4.add (hx.mul hx rfl), h5.add (hy.mul hy rfl)⟩

theorem pccWin_units (window : ℕ) (h : Each (Scaled k p) s1 s1') (g : Each (Scaled k q) s2 s2') :
    Scaled k 0 (pccWin window s1 s2) (pccWin window s1' s2') := by
  obtain ⟨h1, h2, h3, h4, h5⟩ := pccSums_units h g
  simp only [pccWin]
  refine Scaled.div (n := p + q) (m := p + q) ?_ (Scaled.mul (n := p) (m := q) ?_ ?_ rfl) (by omega)
  · exact (Scaled.lit.mul h1 (by omega)).sub (h2.mul h3 rfl)
  · exact Scaled.sqrt ((Scaled.lit.mul h4 (by omega)).sub (h2.mul h2 rfl)) (by omega) (by omega)
  · exact Scaled.sqrt ((Scaled.lit.mul h5 (by omega)).sub (h3.mul h3 rfl)) (by omega) (by omega)

/-- what every windowed correlation shares -/
theorem pairWindows_units {f : List (FP ρ) → List (FP ρ) → Option (FP ρ)} (window : ℕ) (h : Each (Scaled k p) s1 s1') (g : Each (Scaled k q) s2 s2')
    (hf : ∀ w w', Each (Scaled k p) w w' → ∀ v v', Each (Scaled k q) v v' → Alike (Scaled k 0) (f w v) (f w' v')) :
    Alike (Each (Scaled k 0))
      ((usub window 1).bind fun n => (windows window s1).bind fun xs => (windows window s2).bind fun ys =>
        (mapP (fun x : List (FP ρ) × List (FP ρ) => f x.1 x.2) (xs.zip ys)).bind fun r => some (nans n ++ r))
      ((usub window 1).bind fun n => (windows window s1').bind fun xs => (windows window s2').bind fun ys =>
        (mapP (fun x : List (FP ρ) × List (FP ρ) => f x.1 x.2) (xs.zip ys)).bind fun r => some (nans n ++ r)) :=
  Alike.bind .same (forall_eq_rel fun n => Alike.bind (.windows h) fun _ _ hx => Alike.bind (.windows g) fun _ _ hy =>
    Alike.bind (Alike.mapP (each_zip hx hy) fun _ _ h => hf _ _ h.1 _ _ h.2) fun _ _ h => .answer (each_append (each_nans _) h))

theorem pcc_units (h : Each (Scaled k p) s1 s1') (g : Each (Scaled k q) s2 s2') (window : ℕ) :
    Alike (Each (Scaled k 0)) (pcc s1 s2 window) (pcc s1' s2' window) := by
  simp only [pcc, Option.bind_eq_bind]
  exact Alike.bind .same (forall_eq_rel fun n => Alike.bind (.windows h) fun _ _ hx => Alike.bind (.windows g) fun _ _ hy =>
    .answer (each_append (each_nans _) (each_map (each_zip hx hy) fun _ _ h => pccWin_units window h.1 h.2)))

theorem rsq_units (h : Each (Scaled k p) s1 s1') (g : Each (Scaled k q) s2 s2') (window : ℕ) :
    Alike (Each (Scaled k 0)) (rsq s1 s2 window) (rsq s1' s2' window) := by
  simp only [rsq, Option.bind_eq_bind]
  exact Alike.bind (pcc_units h g window) fun _ _ h => .answer (each_map h fun _ _ h => h.mul h rfl)

theorem returns_units (h : Each (Scaled k p) s1 s1') : returns s1 = returns s1' :=
  each_zero.1 (each_map (each_pairs h) fun _ _ h => (h.2.div h.1 (by omega)).sub .lit : Each (Scaled k 0) _ _)

theorem beta_units (h : Each (Scaled k p) s1 s1') (g : Each (Scaled k q) s2 s2') (window : ℕ) :
    Alike (Each (Scaled k 0)) (beta s1 s2 window) (beta s1' s2' window) := by
  simp only [beta, returns_units h, returns_units g]
  exact Alike.refl fun _ => each_lit

theorem perf_units (h : Each (Scaled k p) s1 s1') (g : Each (Scaled k q) s2 s2') (window : ℕ) :
    Alike (Each (Scaled k 0)) (perf s1 s2 window) (perf s1' s2' window) := by
  simp only [perf, Option.bind_eq_bind]
  refine Alike.bind (Smooth.sma_units h window) fun _ _ hx => Alike.bind (Smooth.sma_units g window) fun _ _ hy =>
    .answer (each_map (each_zip4 h g hx hy) fun _ _ e => ?_)
  exact (e.1.div e.2.1 rfl).mul (e.2.2.2.div e.2.2.1 rfl) (by omega)

/-- a ratio of prices: changing both currencies alike changes nothing -/
theorem rsc_units (h : Each (Scaled k p) s1 s1') (g : Each (Scaled k q) s2 s2') : Each (Scaled k (p - q)) (rsc s1 s2) (rsc s1' s2') :=
  each_map (each_zip h g) fun _ _ e => e.1.div e.2 rfl


theorem krccStep_units (h : Each (Scaled k p) s1 s1') (g : Each (Scaled k q) s2 s2') (s : KrccState (FP ρ)) (i : ℕ × ℕ) :
    krccStep s1 s2 s i = krccStep s1' s2' s i := by
  refine Alike.eq_of (P := Eq) (fun _ _ h => h) ?_
  simp only [krccStep, Option.bind_eq_bind]
  refine Alike.bind (.getElem? h rfl) fun a a' ha => Alike.bind (.getElem? h rfl) fun b b' hb => Alike.bind (.getElem? g rfl) fun c c' hc =>
    Alike.bind (.getElem? g rfl) fun d d' hd => .answer ?_
  have e1 := Scaled.iff_zero.1 (ha.sub hb).signum
  have e2 := Scaled.iff_zero.1 (hc.sub hd).signum
  rw [e1, e2, ha.feq hb, hc.feq hd]

theorem krccWin_units (window : ℕ) (h : Each (Scaled k p) s1 s1') (g : Each (Scaled k q) s2 s2') : krccWin window s1 s2 = krccWin window s1' s2' := by
  have : krccStep s1 s2 = krccStep s1' s2' := funext fun s => funext fun i => krccStep_units h g s i
  simp only [krccWin, this]

theorem krcc_units (h : Each (Scaled k p) s1 s1') (g : Each (Scaled k q) s2 s2') (window : ℕ) :
    Alike (Each (Scaled k 0)) (krcc s1 s2 window) (krcc s1' s2' window) := by
  simp only [krcc, Option.bind_eq_bind]
  exact pairWindows_units window h g fun _ _ h _ _ g => by rw [krccWin_units window h g]; exact Alike.refl fun _ => .lit

end Traquer.Correlation

/-! ## Ranks -/

namespace Traquer.Distribution
open FP FloatLit
variable {ρ : Rounding} {k : ℝ} [ρ.Scales k] {p q : ℤ} {data data' : List (FP ρ)}

theorem sortPanics_units (h : Each (Scaled k p) data data') : sortPanics data = sortPanics data' := by
  have : ∀ l l' : List (FP ρ), Each (Scaled k p) l l' → (l.any fun x => !(comparable x x)) = (l'.any fun x => !(comparable x x)) := by
    intro l l' h
    induction h with
    | nil => rfl
    | cons h _ ih => rw [List.any_cons, List.any_cons, ih, comparable, comparable, h.lt h, h.feq h]
  rw [sortPanics, sortPanics, h.length, this _ _ h]

theorem uniqFlags_units (h : Each (Scaled k p) data data') :
    uniqFlags (fun x y : FP ρ => !(x ==. y)) data = uniqFlags (fun x y => !(x ==. y)) data' := by
  cases h with
  | nil => rfl
  | cons h t =>
    simp only [uniqFlags, Option.some.injEq, List.cons.injEq, true_and]
    have e := each_scan (X := Scaled k p) (Q := Eq) (f := fun st x => (x, !(st ==. x))) (g := fun st x => (x, !(st ==. x))) h t
      fun _ _ a _ _ b => ⟨b, by simp only [a.feq b]⟩
    exact List.forall₂_eq_eq_eq ▸ e

theorem rankWith_units (h : Each (Scaled k p) data data') (mode : Option RankMode) (idx : List ℕ) :
    rankWith (F := FP ρ) (fun x y : FP ρ => !(x ==. y)) data mode idx = rankWith (fun x y => !(x ==. y)) data' mode idx := by
  have key : (mapP (fun i => data[i]?) idx).bind (uniqFlags fun x y : FP ρ => !(x ==. y)) =
      (mapP (fun i => data'[i]?) idx).bind (uniqFlags fun x y => !(x ==. y)) := by
    refine Alike.eq_of (P := Eq) (fun _ _ h => h) ?_
    refine Alike.bind (P := Each (Scaled k p)) (Alike.mapP each_eq (forall_eq_rel fun i => .getElem? h rfl)) fun _ _ h => ?_
    rw [uniqFlags_units h]
    exact .same
  have all : (mapP (fun i => data[i]?) idx).bind (fun s => (uniqFlags (fun x y : FP ρ => !(x ==. y)) s).bind fun f =>
        (sortedRanks mode f data.length).bind fun r => some (scatter data.length r idx)) =
      (mapP (fun i => data'[i]?) idx).bind (fun s => (uniqFlags (fun x y : FP ρ => !(x ==. y)) s).bind fun f =>
        (sortedRanks mode f data'.length).bind fun r => some (scatter (F := FP ρ) data'.length r idx)) := by
    have e : ∀ (o : Option (List (FP ρ))) (n : ℕ), (o.bind fun s => (uniqFlags (fun x y : FP ρ => !(x ==. y)) s).bind fun f =>
        (sortedRanks mode f n).bind fun r => some (scatter (F := FP ρ) n r idx)) =
        (o.bind (uniqFlags fun x y : FP ρ => !(x ==. y))).bind fun f => (sortedRanks mode f n).bind fun r => some (scatter n r idx) := by
      intro o n; cases o <;> rfl
    rw [e, e, key, h.length]
  unfold rankWith
  split
  · rw [h.length]
  · exact all

theorem isArgsort_units (h : Each (Scaled k p) data data') (idx : List ℕ) :
    IsArgsort (fun x y : FP ρ => x <. y) data idx ↔ IsArgsort (fun x y : FP ρ => x <. y) data' idx := by
  have get := (each_iff.1 h).2
  have hl := h.length
  constructor
  · rintro ⟨hp, hs⟩
    refine ⟨hl ▸ hp, hs.imp fun {a b} e x' y' hx hy => ?_⟩
    obtain ⟨x, hx1⟩ : ∃ x, data[a]? = some x := by
      have := (List.getElem?_eq_some_iff.1 hx).1
      exact ⟨_, List.getElem?_eq_getElem (by omega)⟩
    obtain ⟨y, hy1⟩ : ∃ y, data[b]? = some y := by
      have := (List.getElem?_eq_some_iff.1 hy).1
      exact ⟨_, List.getElem?_eq_getElem (by omega)⟩
    rw [← (get _ _ _ hy1 hy).lt (get _ _ _ hx1 hx)]
    exact e x y hx1 hy1
  · rintro ⟨hp, hs⟩
    refine ⟨hl ▸ hp, hs.imp fun {a b} e x y hx hy => ?_⟩
    obtain ⟨x', hx1⟩ : ∃ x, data'[a]? = some x := by
      have := (List.getElem?_eq_some_iff.1 hx).1
      exact ⟨_, List.getElem?_eq_getElem (by omega)⟩
    obtain ⟨y', hy1⟩ : ∃ y, data'[b]? = some y := by
      have := (List.getElem?_eq_some_iff.1 hy).1
      exact ⟨_, List.getElem?_eq_getElem (by omega)⟩
    rw [(get _ _ _ hy hy1).lt (get _ _ _ hx hx1)]
    exact e x' y' hx1 hy1

/-- The ranks other than ordinal are the same. (Ordinal ranks depend on how the sort orders ties.) -/
theorem rank_units (srt : Sorter (FP ρ)) (hs : srt.Valid) (h : Each (Scaled k p) data data') (mode : Option RankMode) (hm : mode ≠ some .ordinal) :
    rank srt data mode = rank srt data' mode := by
  classical
  by_cases hp : sortPanics data = true
  · rw [rank, rank, if_pos hp, if_pos (sortPanics_units h ▸ hp)]
  have hp' : sortPanics data' = false := by rw [← sortPanics_units h]; simpa using hp
  have hp0 : sortPanics data = false := by simpa using hp
  have e2 : rank srt data' mode = rankWith (F := FP ρ) (fun x y => !(x ==. y)) data mode (srt.sort data') := by
    rw [rank, if_neg (by simp [hp']), rankWith_units h]
  by_cases h1 : data.length ≤ 1
  · have a := (hs data hp0).perm
    have b := (hs data' hp').perm
    rw [← h.length] at b
    have c : srt.sort data = srt.sort data' := by
      rcases (by omega : data.length = 0 ∨ data.length = 1) with e | e
      · rw [e] at a b
        rw [List.perm_nil.1 a, List.perm_nil.1 b]
      · rw [e] at a b
        rw [List.perm_singleton.1 a, List.perm_singleton.1 b]
    rw [e2, ← c, rank, if_neg (by simp [hp0])]
  · have nn : NoNaN data := by
      intro x hx
      have : comparable x x = true := by
        rw [sortPanics, Bool.and_eq_false_iff] at hp0
        rcases hp0 with e | e
        · simp at e; omega
        · simpa using List.any_eq_false.1 e x hx
      by_contra hn
      rw [Bool.not_eq_false] at hn
      rcases x with _ | b | _ | r
      · simp [comparable, lt_def, feq_def, FP.lt, FP.feq, FP.isNaN] at this
      all_goals simp [isNaN_def, FP.isNaN] at hn
    let s₂ : Sorter (FP ρ) := ⟨fun d => if d = data then srt.sort data' else srt.sort d⟩
    have hs₂ : s₂.Valid := by
      intro d hd
      show IsArgsort _ d (if d = data then _ else _)
      split
      · next e => rw [e, isArgsort_units h]; exact hs data' hp'
      · exact hs d hd
    rw [rank_deterministic srt s₂ hs hs₂ data nn mode hm, e2, rank, if_neg (by simp [hp0])]
    show rankWith _ data mode (if data = data then _ else _) = _
    rw [if_pos rfl]

end Traquer.Distribution

namespace Traquer.Correlation
open FP FloatLit
open Traquer.Distribution (rank cov_stdev RankMode Sorter ltPairs rank_units)
variable {ρ : Rounding} {k : ℝ} [ρ.Scales k] {p q : ℤ} {s1 s1' s2 s2' : List (FP ρ)}

theorem srcc_units (srt : Sorter (FP ρ)) (hs : srt.Valid) (h : Each (Scaled k p) s1 s1') (g : Each (Scaled k q) s2 s2') (window : ℕ) :
    Alike (Each (Scaled k 0)) (srcc srt s1 s2 window) (srcc srt s1' s2' window) := by
  simp only [srcc, Option.bind_eq_bind]
  refine pairWindows_units (f := fun xw yw => (rank srt xw none).bind fun rx => (rank srt yw none).bind fun ry =>
    (cov_stdev rx ry).bind fun x => some (x.1 / (x.2.1 * x.2.2))) window h g fun _ _ h _ _ g => ?_
  rw [rank_units srt hs h none (by simp), rank_units srt hs g none (by simp)]
  exact Alike.refl fun _ => .lit

theorem hoeffd_units (srt : Sorter (FP ρ)) (hs : srt.Valid) (h : Each (Scaled k p) s1 s1') (g : Each (Scaled k q) s2 s2') (window : ℕ) :
    Alike (Each (Scaled k 0)) (hoeffd srt s1 s2 window) (hoeffd srt s1' s2' window) := by
  simp only [hoeffd, Option.bind_eq_bind]
  refine pairWindows_units (f := hoeffdWin srt window) window h g fun _ _ h _ _ g => ?_
  simp only [hoeffdWin, rank_units srt hs h (some .average) (by simp), rank_units srt hs g (some .average) (by simp)]
  exact Alike.refl fun _ => .lit

/-! ### dcor -/

theorem distCell_units (h : Each (Scaled k p) s1 s1') (i j : ℕ) : Scaled k p (distCell s1 i j) (distCell s1' i j) := by
  have get : ∀ n, Scaled k p (s1.getD n nan) (s1'.getD n nan) := by
    intro n
    rw [List.getD_eq_getElem?_getD, List.getD_eq_getElem?_getD]
    have := Alike.getElem? h (rfl : n = n)
    generalize s1[n]? = o at this
    generalize s1'[n]? = o' at this
    cases this with
    | panic => exact .nan
    | answer h => exact h
  exact ((get _).sub (get _)).fabs

theorem rowMean_units (h : Each (Scaled k p) s1 s1') (i : ℕ) : Scaled k p (rowMean s1 i) (rowMean s1' i) := by
  rw [rowMean, rowMean, h.length]
  exact Scaled.div (Scaled.fsum (each_map each_eq (forall_eq_rel fun j => distCell_units h i j))) .lit (by omega)

theorem matrixMean_units (h : Each (Scaled k p) s1 s1') : Scaled k p (matrixMean s1) (matrixMean s1') := by
  simp only [matrixMean, h.length]
  refine Scaled.div (n := p) (m := 0) (Scaled.sub ?_ ?_) .lit (by omega)
  · exact foldl_rel (X := Scaled k p) .zero each_eq fun _ _ hs => forall_eq_rel fun i => hs.add ((distCell_units h _ _).mul .lit (by omega))
  · exact foldl_rel (X := Scaled k p) .zero each_eq fun _ _ hs => forall_eq_rel fun i => hs.add (distCell_units h _ _)

theorem centredMatrix_units (h : Each (Scaled k p) s1 s1') : Each (Scaled k p) (centredMatrix s1) (centredMatrix s1') := by
  have cell : ∀ i j, Scaled k p (centredCell s1 i j) (centredCell s1' i j) := fun i j =>
    (distCell_units h i j).add (((rowMean_units h _).neg.sub (rowMean_units h _)).add (matrixMean_units h))
  rw [centredMatrix, centredMatrix, h.length]
  generalize s1'.length = n
  generalize hm : List.range n = m
  have row : ∀ i, Each (Scaled k p) (m.map fun j => centredCell s1 i j) (m.map fun j => centredCell s1' i j) := fun i =>
    each_map each_eq (forall_eq_rel fun j => cell i j)
  have : ∀ l : List ℕ, Each (Scaled k p) (l.flatMap fun i => m.map fun j => centredCell s1 i j) (l.flatMap fun i => m.map fun j => centredCell s1' i j) := by
    intro l
    induction l with
    | nil => exact .nil
    | cons i l ih => rw [List.flatMap_cons, List.flatMap_cons]; exact each_append (row i) ih
  exact this m

/-- The distance correlation takes a square root of products of distances, so the factor has to be a square: degrees `2 p` and `2 q`. -/
theorem dcorWin_units (window : ℕ) (h : Each (Scaled k (2 * p)) s1 s1') (g : Each (Scaled k (2 * q)) s2 s2') :
    Scaled k 0 (dcorWin window s1 s2) (dcorWin window s1' s2') := by
  have hx := centredMatrix_units h
  have hy := centredMatrix_units g
  have a : Scaled k (2 * p + 2 * q) (fsum (((centredMatrix s1).zip (centredMatrix s2)).map fun x => x.1 * x.2) / flt (window ^ 2))
      (fsum (((centredMatrix s1').zip (centredMatrix s2')).map fun x => x.1 * x.2) / flt (window ^ 2)) :=
    Scaled.div (Scaled.fsum (each_map (each_zip hx hy) fun _ _ e => e.1.mul e.2 rfl)) .lit (by omega)
  have b : Scaled k (2 * p + 2 * p) (fsum ((centredMatrix s1).map fun x => x * x) / flt (window ^ 2))
      (fsum ((centredMatrix s1').map fun x => x * x) / flt (window ^ 2)) :=
    Scaled.div (Scaled.fsum (each_map hx fun _ _ e => e.mul e rfl)) .lit (by omega)
  have c : Scaled k (2 * q + 2 * q) (fsum ((centredMatrix s2).map fun x => x * x) / flt (window ^ 2))
      (fsum ((centredMatrix s2').map fun x => x * x) / flt (window ^ 2)) :=
    Scaled.div (Scaled.fsum (each_map hy fun _ _ e => e.mul e rfl)) .lit (by omega)
  exact Scaled.div (n := p + q) (m := p + q) (Scaled.sqrt a (by omega) (by omega))
    (Scaled.sqrt (n := 2 * p + 2 * q) ((Scaled.sqrt b (by omega) (by omega : _ = 2 * p)).mul (Scaled.sqrt c (by omega) (by omega : _ = 2 * q)) rfl)
      (by omega) (by omega)) (by omega)

theorem dcor_units (h : Each (Scaled k (2 * p)) s1 s1') (g : Each (Scaled k (2 * q)) s2 s2') (window : ℕ) :
    Alike (Each (Scaled k 0)) (dcor s1 s2 window) (dcor s1' s2' window) := by
  simp only [dcor, Option.bind_eq_bind]
  exact Alike.bind .same (forall_eq_rel fun n => Alike.bind (.windows h) fun _ _ hx => Alike.bind (.windows g) fun _ _ hy =>
    .answer (each_append (each_nans _) (each_map (each_zip hx hy) fun _ _ h => dcorWin_units window h.1 h.2)))

end Traquer.Correlation
