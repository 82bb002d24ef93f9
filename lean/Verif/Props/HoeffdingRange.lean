import Verif.Props.Hoeffding
import Mathlib.Data.Fintype.Pi
import Mathlib.Order.Interval.Finset.Fin
import Mathlib.Data.Finset.Sort
/-!
# C73: the range of Hoeffding's measure of dependence

Without ties the measure of `n` points is the average of the measures of the sets of `n - 1` of them, so it stays in the range of the measure
of five points.
-/

namespace Traquer.HoeffdingRange

/-- 1 if the proposition holds, else 0. -/
noncomputable def ind (p : Prop) : ℝ := open Classical in if p then 1 else 0

section
variable {ι : Type} (x y : ι → ℝ)

noncomputable def below (f : ι → ℝ) (S : Finset ι) (p : ι) : ℝ := ∑ q ∈ S, ind (f q < f p)
noncomputable def bothBelow (S : Finset ι) (p : ι) : ℝ := ∑ q ∈ S, ind (x q < x p) * ind (y q < y p)

/-- The term of a point with `a` points below it in one coordinate, `b` in the other and `c` in both, among `n`. -/
noncomputable def term (n a b c : ℝ) : ℝ := (n - 2) * (n - 3) * (c * (c - 1)) + a * (a - 1) * (b * (b - 1)) - 2 * (n - 2) * ((a - 1) * (b - 1) * c)

noncomputable def total (S : Finset ι) : ℝ := ∑ p ∈ S, term S.card (below x S p) (below y S p) (bothBelow x y S p)

theorem ind_cases (p : Prop) : ind p = 0 ∨ ind p = 1 := by unfold ind; split_ifs <;> simp

theorem ind_irrefl (a : ℝ) : ind (a < a) = 0 := if_neg (lt_irrefl a)

/-- What a term becomes when a point is removed. -/
theorem term_step (n a b c : ℝ) {u v : ℝ} (hu : u = 0 ∨ u = 1) (hv : v = 0 ∨ v = 1) : term (n - 1) (a - u) (b - v) (c - u * v) =
    term (n - 1) a b c + u * (term (n - 1) (a - 1) b c - term (n - 1) a b c) + v * (term (n - 1) a (b - 1) c - term (n - 1) a b c) +
      u * v * (term (n - 1) (a - 1) (b - 1) (c - 1) - term (n - 1) (a - 1) b c - term (n - 1) a (b - 1) c + term (n - 1) a b c) := by
  rcases hu with rfl | rfl <;> rcases hv with rfl | rfl <;> simp <;> ring

open Classical in
theorem sum_erase_total (S : Finset ι) (hS : 0 < S.card) : ∑ i ∈ S, total x y (S.erase i) = (S.card - 5) * total x y S := by
  have hc : ∀ i ∈ S, (((S.erase i).card : ℕ) : ℝ) = S.card - 1 := fun i hi => by
    rw [Finset.card_erase_of_mem hi, Nat.cast_sub hS, Nat.cast_one]
  have e1 : ∑ i ∈ S, total x y (S.erase i) = ∑ i ∈ S, ∑ p ∈ S.erase i, term (S.card - 1) (below x S p - ind (x i < x p)) (below y S p - ind (y i < y p))
      (bothBelow x y S p - ind (x i < x p) * ind (y i < y p)) := by
    refine Finset.sum_congr rfl fun i hi => Finset.sum_congr rfl fun p hp => ?_
    rw [hc i hi, below, below, bothBelow, Finset.sum_erase_eq_sub hi, Finset.sum_erase_eq_sub hi, Finset.sum_erase_eq_sub hi]
    rfl
  have e2 : ∀ f : ι → ι → ℝ, ∑ i ∈ S, ∑ p ∈ S.erase i, f i p = ∑ p ∈ S, ∑ i ∈ S.erase p, f i p := fun f => by
    refine Finset.sum_comm' fun i p => ?_
    simp only [Finset.mem_erase]
    tauto
  rw [e1, e2, total, Finset.mul_sum]
  refine Finset.sum_congr rfl fun p hp => ?_
  rw [Finset.sum_erase_eq_sub hp, ind_irrefl, ind_irrefl]
  simp only [term_step _ _ _ _ (ind_cases _) (ind_cases _)]
  rw [Finset.sum_add_distrib, Finset.sum_add_distrib, Finset.sum_add_distrib, ← Finset.sum_mul, ← Finset.sum_mul, ← Finset.sum_mul, Finset.sum_const,
    nsmul_eq_mul]
  change _ + below x S p * _ + below y S p * _ + bothBelow x y S p * _ - _ = _
  generalize below x S p = a
  generalize below y S p = b
  generalize bothBelow x y S p = c
  generalize (S.card : ℝ) = n
  simp only [term, sub_zero, mul_zero]
  ring

/-- Rank functions of an injective labelling by five indices. -/
theorem exists_rank {n : ℕ} {f : Fin n → ℝ} (hf : Function.Injective f) : ∃ σ : Fin n → Fin n, ∀ i j, f i < f j ↔ σ i < σ j := by
  have hc : (Finset.univ.image f).card = n := by rw [Finset.card_image_of_injective _ hf]; simp
  let o := (Finset.univ.image f).orderIsoOfFin hc
  refine ⟨fun i => o.symm ⟨f i, Finset.mem_image_of_mem f (Finset.mem_univ i)⟩, fun i j => ?_⟩
  rw [OrderIso.lt_iff_lt]
  rfl

/-- Four times the measure of five points, in terms of the ranks in one coordinate of the points in the order of the other. -/
def five (σ : Fin 5 → Fin 5) : ℤ :=
  ∑ p : Fin 5,
    let a : ℤ := ∑ q : Fin 5, if q < p then 1 else 0
    let b : ℤ := ∑ q : Fin 5, if σ q < σ p then 1 else 0
    let c : ℤ := ∑ q : Fin 5, if q < p ∧ σ q < σ p then 1 else 0
    6 * (c * (c - 1)) + a * (a - 1) * (b * (b - 1)) - 6 * ((a - 1) * (b - 1) * c)

/-- The base of the induction below: all orders of five points. -/
theorem five_range : ∀ a b c d e : Fin 5, [a, b, c, d, e].Nodup → -2 ≤ five ![a, b, c, d, e] ∧ five ![a, b, c, d, e] ≤ 4 := by
  decide +kernel

/-- Five points sorted by their first coordinate. -/
theorem exists_sorted {n : ℕ} {S : Finset ι} (hS : S.card = n) (hx : Set.InjOn x S) :
    ∃ e : Fin n → ι, Function.Injective e ∧ (∀ i, e i ∈ S) ∧ (∀ i j, x (e i) < x (e j) ↔ i < j) ∧
      ∀ f : ι → ℝ, ∑ p ∈ S, f p = ∑ i, f (e i) := by
  classical
  have hc : (S.image x).card = n := by rw [Finset.card_image_of_injOn hx, hS]
  have hm : ∀ i, ∃ p ∈ S, x p = (S.image x).orderEmbOfFin hc i := fun i => Finset.mem_image.1 (Finset.orderEmbOfFin_mem _ hc i)
  choose e he hv using hm
  have hlt : ∀ i j, x (e i) < x (e j) ↔ i < j := fun i j => by rw [hv, hv, OrderEmbedding.lt_iff_lt]
  have hi : Function.Injective e := fun i j h => by
    rcases lt_trichotomy i j with h' | h' | h'
    · exact absurd ((hlt i j).2 h') (by rw [h]; exact lt_irrefl _)
    · exact h'
    · exact absurd ((hlt j i).2 h') (by rw [h]; exact lt_irrefl _)
  refine ⟨e, hi, he, hlt, fun f => ?_⟩
  have : S = Finset.univ.image e := by
    refine (Finset.eq_of_subset_of_card_le (fun p hp => ?_) ?_).symm
    · obtain ⟨i, -, rfl⟩ := Finset.mem_image.1 hp
      exact he i
    · rw [Finset.card_image_of_injective _ hi, hS]; simp
  rw [this, Finset.sum_image fun i _ j _ h => hi h]

theorem total_five {S : Finset ι} (hS : S.card = 5) (hx : Set.InjOn x S) (hy : Set.InjOn y S) : -2 ≤ total x y S ∧ total x y S ≤ 4 := by
  obtain ⟨e, he, hm, hlt, hsum⟩ := exists_sorted x hS hx
  obtain ⟨σ, hσ⟩ := exists_rank (f := fun i => y (e i)) fun i j h => he (hy (hm i) (hm j) h)
  have ht : total x y S = (five σ : ℤ) := by
    rw [total, hsum, hS, five]
    push_cast
    refine Finset.sum_congr rfl fun p _ => ?_
    rw [below, below, bothBelow, hsum, hsum, hsum]
    simp only [ind, hlt, hσ, term]
    have e3 : ∀ q, ((if q < p then (1 : ℝ) else 0) * if σ q < σ p then 1 else 0) = if q < p ∧ σ q < σ p then 1 else 0 := fun q => by
      by_cases h1 : q < p <;> by_cases h2 : σ q < σ p <;> simp [h1, h2]
    simp only [e3]
    norm_num
  have hinj : Function.Injective σ := fun i j h => by
    have h1 : ¬ y (e i) < y (e j) := fun h' => by rw [hσ, h] at h'; exact lt_irrefl _ h'
    have h2 : ¬ y (e j) < y (e i) := fun h' => by rw [hσ, h] at h'; exact lt_irrefl _ h'
    exact he (hy (hm i) (hm j) (le_antisymm (not_lt.1 h2) (not_lt.1 h1)))
  have hl : σ = ![σ 0, σ 1, σ 2, σ 3, σ 4] := by
    funext i
    fin_cases i <;> rfl
  have := five_range (σ 0) (σ 1) (σ 2) (σ 3) (σ 4) (by simp [hinj.eq_iff])
  rw [← hl] at this
  rw [ht]
  exact ⟨by exact_mod_cast this.1, by exact_mod_cast this.2⟩

noncomputable def desc (n : ℝ) : ℝ := n * (n - 1) * (n - 2) * (n - 3) * (n - 4)

theorem total_range {n : ℕ} (hn : 5 ≤ n) : ∀ {S : Finset ι}, S.card = n → Set.InjOn x S → Set.InjOn y S →
    -(desc n / 60) ≤ total x y S ∧ total x y S ≤ desc n / 30 := by
  classical
  induction n, hn using Nat.le_induction with
  | base =>
    intro S hS hx hy
    have := total_five x y hS hx hy
    norm_num [desc]
    constructor <;> linarith
  | succ n hn ih =>
    intro S hS hx hy
    have hsum := sum_erase_total x y S (by omega)
    have hb : ∀ i ∈ S, -(desc n / 60) ≤ total x y (S.erase i) ∧ total x y (S.erase i) ≤ desc n / 30 := fun i hi =>
      ih (by rw [Finset.card_erase_of_mem hi]; omega) (hx.mono (by simp)) (hy.mono (by simp))
    have h1 : (S.card : ℝ) * -(desc n / 60) ≤ ∑ i ∈ S, total x y (S.erase i) := by
      rw [← nsmul_eq_mul]; exact Finset.card_nsmul_le_sum _ _ _ fun i hi => (hb i hi).1
    have h2 : ∑ i ∈ S, total x y (S.erase i) ≤ (S.card : ℝ) * (desc n / 30) := by
      rw [← nsmul_eq_mul]; exact Finset.sum_le_card_nsmul _ _ _ fun i hi => (hb i hi).2
    rw [hsum, hS] at h1 h2
    have h5 : (5 : ℝ) ≤ n := by exact_mod_cast hn
    have hd : desc ((n + 1 : ℕ) : ℝ) * (((n + 1 : ℕ) : ℝ) - 5) = ((n + 1 : ℕ) : ℝ) * desc n := by
      rw [desc, desc]; push_cast; ring
    have hp : (0 : ℝ) < ((n + 1 : ℕ) : ℝ) - 5 := by push_cast; linarith
    constructor
    · refine le_of_mul_le_mul_left ?_ hp
      linarith
    · refine le_of_mul_le_mul_left ?_ hp
      linarith

end
end Traquer.HoeffdingRange

namespace Traquer
open HoeffdingRange

theorem hoeffdingD_total {X Y : List ℝ} (hl : Y.length = X.length) (hX : X.Nodup) (hY : Y.Nodup) : ∃ S : Finset (ℝ × ℝ),
    S.card = X.length ∧ Set.InjOn Prod.fst (S : Set (ℝ × ℝ)) ∧ Set.InjOn Prod.snd (S : Set (ℝ × ℝ)) ∧
      hoeffdingD (X.zip Y) = 30 * total Prod.fst Prod.snd S / desc X.length := by
  classical
  have m1 : (X.zip Y).map Prod.fst = X := List.map_fst_zip (by omega)
  have m2 : (X.zip Y).map Prod.snd = Y := List.map_snd_zip (by omega)
  have hz : (X.zip Y).length = X.length := by simp [hl]
  generalize X.zip Y = ps at m1 m2 hz
  subst m1 m2
  have hn : ps.Nodup := List.Nodup.of_map _ hX
  have i1 : Set.InjOn Prod.fst (ps.toFinset : Set (ℝ × ℝ)) := fun p hp q hq h =>
    List.inj_on_of_nodup_map hX (by simpa using hp) (by simpa using hq) h
  have i2 : Set.InjOn Prod.snd (ps.toFinset : Set (ℝ × ℝ)) := fun p hp q hq h =>
    List.inj_on_of_nodup_map hY (by simpa using hp) (by simpa using hq) h
  have hs : ∀ g : ℝ × ℝ → ℝ, (ps.map g).sum = ∑ p ∈ ps.toFinset, g p := fun g => (List.sum_toFinset g hn).symm
  have hc : ps.toFinset.card = ps.length := List.toFinset_card_of_nodup hn
  refine ⟨ps.toFinset, by rw [hc, hz], i1, i2, ?_⟩
  have hh : ∀ (f : ℝ × ℝ → ℝ), Set.InjOn f (ps.toFinset : Set (ℝ × ℝ)) → ∀ p ∈ ps, ∀ q ∈ ps,
      halfBelow (f q) (f p) = ind (f q < f p) + if q = p then 1 / 2 else 0 := by
    intro f hf p hp q hq
    have : f q = f p ↔ q = p := ⟨fun h => hf (by simpa using hq) (by simpa using hp) h, fun h => by rw [h]⟩
    simp only [halfBelow, ind, this]
    by_cases h : q = p
    · simp [h]
    · simp [h]
  have hr : ∀ (f : ℝ × ℝ → ℝ), Set.InjOn f (ps.toFinset : Set (ℝ × ℝ)) → ∀ p ∈ ps, midRank (ps.map f) (f p) = below f ps.toFinset p + 1 := by
    intro f hf p hp
    rw [midRank, List.map_map, hs]
    simp only [Function.comp_def]
    rw [Finset.sum_congr (s₁ := ps.toFinset) rfl (g := fun q => ind (f q < f p) + if q = p then 1 / 2 else 0)
      fun q hq => show halfBelow (f q) (f p) = _ from hh f hf p hp q (by simpa using hq), Finset.sum_add_distrib, Finset.sum_ite_eq' _ p, if_pos (by simpa using hp), below]
    ring
  have hj : ∀ p ∈ ps, jointRank ps p = bothBelow Prod.fst Prod.snd ps.toFinset p + 1 := by
    intro p hp
    rw [jointRank, hs, Finset.sum_congr rfl (g := fun q => ind (q.1 < p.1) * ind (q.2 < p.2) + if q = p then 1 / 4 else 0) fun q hq => ?_,
      Finset.sum_add_distrib, Finset.sum_ite_eq' _ p, if_pos (by simpa using hp), bothBelow]
    · ring
    · rw [hh Prod.fst i1 p hp q (by simpa using hq), hh Prod.snd i2 p hp q (by simpa using hq)]
      by_cases h : q = p
      · subst h; rw [ind_irrefl, ind_irrefl, if_pos rfl, if_pos rfl]; norm_num
      · simp [h]
  rw [hoeffdingD, hoeffdingOf_congr fun p hp => ⟨hj p hp, hr _ i1 p hp, hr _ i2 p hp⟩, hoeffdingOf, hs, hs, hs, total, hc, hz]
  rw [desc]
  congr 2
  rw [Finset.mul_sum, Finset.mul_sum, ← Finset.sum_add_distrib, ← Finset.sum_sub_distrib]
  refine Finset.sum_congr rfl fun p _ => ?_
  rw [term]
  ring

/-- Without ties Hoeffding's D is between -1/2 and 1. -/
theorem hoeffdingD_range {X Y : List ℝ} (hl : Y.length = X.length) (hX : X.Nodup) (hY : Y.Nodup) (h5 : 5 ≤ X.length) :
    -1 / 2 ≤ hoeffdingD (X.zip Y) ∧ hoeffdingD (X.zip Y) ≤ 1 := by
  obtain ⟨S, hS, i1, i2, e⟩ := hoeffdingD_total hl hX hY
  obtain ⟨b1, b2⟩ := total_range Prod.fst Prod.snd h5 hS i1 i2
  have hp : 0 < desc X.length := by
    have h5' : (5 : ℝ) ≤ X.length := by exact_mod_cast h5
    have h1 : (0 : ℝ) < X.length - 1 := by linarith
    have h2 : (0 : ℝ) < X.length - 2 := by linarith
    have h3 : (0 : ℝ) < X.length - 3 := by linarith
    have h4 : (0 : ℝ) < X.length - 4 := by linarith
    have h0 : (0 : ℝ) < X.length := by linarith
    rw [desc]
    positivity
  rw [e, le_div_iff₀ hp, div_le_one hp]
  constructor <;> linarith

end Traquer

namespace Traquer.Correlation
open FP FloatLit
open Traquer.Distribution

/-- C73: with a window of five to 7133 bars, wherever neither window repeats a value `hoeffd` is between -1/2 and 1. -/
theorem hoeffd_range (srt : Sorter XF) (hs : srt.Valid) (s1 s2 : List XF) (w : ℕ) (h : s2.length = s1.length) (hw : 5 ≤ w ∧ w ≤ 7133)
    (hn : w ≤ s1.length + 1) (h1 : Fins s1) (h2 : Fins s2) :
    ReportsP s1.length (w - 1) (fun i y => (recent (vals s1) w i).Nodup → (recent (vals s2) w i).Nodup → ∃ d, y ⇓ d ∧ -1 / 2 ≤ d ∧ d ≤ 1)
      (hoeffd srt s1 s2 w) := by
  refine (hoeffd_reports srt hs s1 s2 w h hw hn h1 h2).toP fun i y hi hl hy d1 d2 => ⟨_, hy, ?_⟩
  have l1 : (recent (vals s1) w i).length = w := recent_length (by omega) (by simpa using hl)
  have l2 : (recent (vals s2) w i).length = w := recent_length (by omega) (by simpa [h] using hl)
  exact hoeffdingD_range (by omega) d1 d2 (by omega)

example : (recent [1, 4, 3, 2, 5] 5 4 : List ℝ).Nodup := by norm_num [recent]

/-- The lower end of the range is met. -/
example : ValueAt (hoeffd (tieSorter true) ([1, 2, 3, 4, 5].map (fin (ρ := Rounding.exact))) ([1, 4, 3, 2, 5].map fin) 5) 4 (-1 / 2) := by
  refine (hoeffd_reports (tieSorter true) (tieSorter_valid true) ([1, 2, 3, 4, 5].map (fin (ρ := Rounding.exact))) ([1, 4, 3, 2, 5].map fin) 5
    (by simp) (by decide) (by simp) (fins_map_fin _) (fins_map_fin _)).value 4 (by decide) (by simp) ?_
  simp only [vals_map_fin]
  norm_num [recent, hoeffdingD, hoeffdingOf, jointRank, midRank, halfBelow]

end Traquer.Correlation
