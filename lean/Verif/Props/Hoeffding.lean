import Verif.Spec.Dependence
import Verif.Props.Pearson
import Verif.Lemmas.Witness
import Mathlib.Tactic.IntervalCases
/-!
# C73: Hoeffding's measure of dependence
-/

namespace Traquer
open FP FloatLit

theorem halfBelow_nonneg (a b : ℝ) : 0 ≤ halfBelow a b := by unfold halfBelow; split_ifs <;> norm_num

theorem sum_halfBelow (xs : List ℝ) (x : ℝ) : (xs.map fun a => halfBelow a x).sum =
    ((xs.countP fun a => decide (a < x) : ℕ) + (xs.countP fun a => decide (a ≤ x) : ℕ)) / 2 := by
  induction xs with
  | nil => simp
  | cons a xs ih =>
    rw [List.map_cons, List.sum_cons, ih, List.countP_cons, List.countP_cons, halfBelow]
    rcases lt_trichotomy a x with h | h | h
    · simp only [h, h.le, if_true, decide_true]; push_cast; ring
    · subst h; simp; ring
    · simp only [h.not_gt, h.ne', h.not_ge, if_false, decide_false, Bool.false_eq_true]; push_cast; ring

/-- Ranks order like values. -/
theorem midRank_lt_iff {xs : List ℝ} {x y : ℝ} (hx : x ∈ xs) (hy : y ∈ xs) : midRank xs x < midRank xs y ↔ x < y := by
  have key : ∀ {x y : ℝ}, x ∈ xs → x < y → midRank xs x < midRank xs y := by
    intro x y hx h
    rw [midRank, midRank]
    refine add_lt_add_right (List.sum_lt_sum _ _ (fun a _ => ?_) ⟨x, hx, ?_⟩) _
    · unfold halfBelow
      rcases lt_trichotomy a x with h1 | h1 | h1
      · rw [if_pos h1, if_pos (h1.trans h)]
      · rw [if_neg (by rw [h1]; exact lt_irrefl _), if_pos h1, if_pos (by rw [h1]; exact h)]; norm_num
      · rw [if_neg h1.not_gt, if_neg h1.ne']; split_ifs <;> norm_num
    · unfold halfBelow
      simp [h]
      norm_num
  constructor
  · intro h
    by_contra hc
    rcases lt_or_eq_of_le (not_lt.1 hc) with h' | h'
    · exact absurd (key hy h') (not_lt.2 h.le)
    · rw [h'] at h; exact lt_irrefl _ h
  · exact key hx

theorem midRank_eq_iff {xs : List ℝ} {x y : ℝ} (hx : x ∈ xs) (hy : y ∈ xs) : midRank xs x = midRank xs y ↔ x = y := by
  constructor
  · intro h
    rcases lt_trichotomy x y with h' | h' | h'
    · exact absurd h ((midRank_lt_iff hx hy).2 h').ne
    · exact h'
    · exact absurd h ((midRank_lt_iff hy hx).2 h').ne'
  · rintro rfl; rfl

theorem halfBelow_midRank {xs : List ℝ} {x y : ℝ} (hx : x ∈ xs) (hy : y ∈ xs) : halfBelow (midRank xs x) (midRank xs y) = halfBelow x y := by
  unfold halfBelow
  simp only [midRank_lt_iff hx hy, midRank_eq_iff hx hy]

/-- A fold that adds a term per item. -/
theorem foldl_term {β : Type} {f : XF → β → XF} {t : β → ℝ} {l : List β} (h : ∀ s u x, x ∈ l → s ⇓ u → f s x ⇓ u + t x) {s : XF} {u : ℝ}
    (hs : s ⇓ u) : l.foldl f s ⇓ u + (l.map t).sum := by
  induction l generalizing s u with
  | nil => simpa using hs
  | cons x l ih =>
    rw [List.foldl_cons, List.map_cons, List.sum_cons, ← add_assoc]
    exact ih (fun s u y hy => h s u y (by simp [hy])) (h s u x (by simp) hs)

end Traquer

namespace Traquer.Correlation
open FP FloatLit
open Traquer.Distribution

theorem rank_midRank (srt : Sorter XF) (hs : srt.Valid) {xw : List XF} (hx : Fins xw) (hne : xw ≠ []) :
    ∃ r, rank srt xw (some .average) = some r ∧ Fins r ∧ vals r = (vals xw).map (midRank (vals xw)) ∧ r.length = xw.length := by
  obtain ⟨r, e, l, h⟩ := rank_average srt hs xw (NoNaN.of_fins hx) hne
  have hr : r = xw.map fun x => flt ((numBelow xw x + 1) + numUpTo xw x) / 2 := by
    apply List.ext_getElem?
    intro i
    by_cases hi : i < xw.length
    · rw [h i _ (List.getElem?_eq_getElem hi)]; simp [hi]
    · rw [List.getElem?_eq_none (by omega), List.getElem?_eq_none (by simp; omega)]
  have hv : ∀ x ∈ xw, (flt ((numBelow xw x + 1) + numUpTo xw x) / 2 : XF) ⇓ midRank (vals xw) x.val := by
    intro x hx'
    refine (is_div (is_flt _) (is_lit 2) (by norm_num)).congr ?_
    rw [midRank, sum_halfBelow, vals, List.countP_map, List.countP_map]
    have e1 : numBelow xw x = xw.countP ((fun a => decide (a < x.val)) ∘ val) := List.countP_congr fun y hy => by
      rw [is_lt (hx y hy).is (hx x hx').is]; rfl
    have e2 : numUpTo xw x = xw.countP ((fun a => decide (a ≤ x.val)) ∘ val) := List.countP_congr fun y hy => by
      rw [is_le (hx y hy).is (hx x hx').is]; rfl
    rw [e1, e2, show (OfNat.ofNat 2 : ℝ) = 2 from rfl]
    push_cast
    ring
  refine ⟨r, e, ?_, ?_, l⟩
  · intro y hy
    rw [hr] at hy
    obtain ⟨x, hx', rfl⟩ := List.mem_map.1 hy
    exact (hv x hx').finite
  · rw [hr, vals, vals, List.map_map, List.map_map]
    exact List.map_congr_left fun x hx' => (hv x hx').val_eq

theorem hoeffdQ_is {rx ry : List XF} (fx : Fins rx) (fy : Fins ry) {x y : XF} {a b : ℝ} (hx : x ⇓ a) (hy : y ⇓ b) :
    hoeffdQ rx ry x y ⇓ jointRank ((vals rx).zip (vals ry)) (a, b) := by
  have h1 : ∀ s u (p : XF × XF), p ∈ rx.zip ry → s ⇓ u →
      (s + boolF ((p.1 <. x) && (p.2 <. y)) + 0.25 * boolF ((p.1 ==. x) && (p.2 ==. y)) +
        0.5 * boolF (((p.1 ==. x) && (p.2 <. y)) || ((p.1 <. x) && (p.2 ==. y))) : XF) ⇓
      u + halfBelow p.1.val a * halfBelow p.2.val b := by
    intro s u p hp hs
    have ip := (fx _ (List.of_mem_zip hp).1).is
    have iq := (fy _ (List.of_mem_zip hp).2).is
    rw [is_lt ip hx, is_lt iq hy, is_feq ip hx, is_feq iq hy]
    refine (is_add (is_add (is_add hs (is_boolF _)) (is_mul (is_sci 25 true 2) (is_boolF _))) (is_mul (is_sci 5 true 1) (is_boolF _))).congr ?_
    unfold halfBelow
    have tri : ∀ c d : ℝ, (c < d ∧ ¬ c = d) ∨ (¬ c < d ∧ c = d) ∨ (¬ c < d ∧ ¬ c = d) := fun c d => by
      rcases lt_trichotomy c d with h | h | h
      · exact .inl ⟨h, h.ne⟩
      · exact .inr (.inl ⟨h.not_lt, h⟩)
      · exact .inr (.inr ⟨h.not_gt, h.ne'⟩)
    rcases tri p.1.val a with ⟨h1, h2⟩ | ⟨h1, h2⟩ | ⟨h1, h2⟩ <;> rcases tri p.2.val b with ⟨h3, h4⟩ | ⟨h3, h4⟩ | ⟨h3, h4⟩ <;>
      simp only [h1, h2, h3, h4, decide_true, decide_false, if_true, if_false, Bool.and_true, Bool.and_false, Bool.or_false, Bool.or_true,
        Bool.false_eq_true] <;> norm_num
  have := foldl_term (l := rx.zip ry) (f := fun (q : XF) (p : XF × XF) => q + boolF ((p.1 <. x) && (p.2 <. y)) +
    0.25 * boolF ((p.1 ==. x) && (p.2 ==. y)) + 0.5 * boolF (((p.1 ==. x) && (p.2 <. y)) || ((p.1 <. x) && (p.2 ==. y))))
    (t := fun p => halfBelow p.1.val a * halfBelow p.2.val b) h1 is_one
  refine (is_sub this (is_sci 25 true 2)).congr ?_
  rw [jointRank, zip_vals, List.map_map]
  congr 1
  norm_num

end Traquer.Correlation

namespace Traquer

theorem hoeffdingOf_map {α β : Type} (n : ℝ) (g : α → β) (ps : List α) (q r s : β → ℝ) :
    hoeffdingOf n (ps.map g) q r s = hoeffdingOf n ps (q ∘ g) (r ∘ g) (s ∘ g) := by
  simp only [hoeffdingOf, List.map_map, Function.comp_def]

theorem hoeffdingOf_congr {α : Type} {n : ℝ} {ps : List α} {q r s q' r' s' : α → ℝ} (h : ∀ p ∈ ps, q p = q' p ∧ r p = r' p ∧ s p = s' p) :
    hoeffdingOf n ps q r s = hoeffdingOf n ps q' r' s' := by
  have e1 : (ps.map fun p => (q p - 1) * (q p - 2)) = ps.map fun p => (q' p - 1) * (q' p - 2) :=
    List.map_congr_left fun p hp => by rw [(h p hp).1]
  have e2 : (ps.map fun p => (r p - 1) * (r p - 2) * (s p - 1) * (s p - 2)) = ps.map fun p => (r' p - 1) * (r' p - 2) * (s' p - 1) * (s' p - 2) :=
    List.map_congr_left fun p hp => by rw [(h p hp).2.1, (h p hp).2.2]
  have e3 : (ps.map fun p => (r p - 2) * (s p - 2) * (q p - 1)) = ps.map fun p => (r' p - 2) * (s' p - 2) * (q' p - 1) :=
    List.map_congr_left fun p hp => by rw [(h p hp).1, (h p hp).2.1, (h p hp).2.2]
  rw [hoeffdingOf, hoeffdingOf, e1, e2, e3]

theorem jointRank_map {f g : ℝ → ℝ} {ps : List (ℝ × ℝ)} {p : ℝ × ℝ} (h : ∀ q ∈ ps, halfBelow (f q.1) (f p.1) = halfBelow q.1 p.1 ∧
    halfBelow (g q.2) (g p.2) = halfBelow q.2 p.2) : jointRank (ps.map fun q => (f q.1, g q.2)) (f p.1, g p.2) = jointRank ps p := by
  rw [jointRank, jointRank, List.map_map]
  congr 3
  exact List.map_congr_left fun q hq => by
    show halfBelow (f q.1) (f p.1) * halfBelow (g q.2) (g p.2) = _
    rw [(h q hq).1, (h q hq).2]

/-- The measure computed from ranks is the measure. -/
theorem hoeffding_ranks {X Y : List ℝ} (hl : Y.length = X.length) :
    hoeffdingOf X.length ((X.map (midRank X)).zip (Y.map (midRank Y))) (jointRank ((X.map (midRank X)).zip (Y.map (midRank Y)))) Prod.fst Prod.snd =
      hoeffdingD (X.zip Y) := by
  have e : (X.map (midRank X)).zip (Y.map (midRank Y)) = (X.zip Y).map fun q => (midRank X q.1, midRank Y q.2) := by
    rw [List.zip_map]; rfl
  rw [e, hoeffdingOf_map, hoeffdingD, List.map_fst_zip (by omega), List.map_snd_zip (by omega), List.length_zip, hl, min_self]
  refine hoeffdingOf_congr fun p hp => ⟨?_, rfl, rfl⟩
  exact jointRank_map fun q hq => ⟨halfBelow_midRank (List.of_mem_zip hq).1 (List.of_mem_zip hp).1,
    halfBelow_midRank (List.of_mem_zip hq).2 (List.of_mem_zip hp).2⟩

theorem zip3_map {α β : Type} (Q : α × β → γ) (a : List α) (b : List β) :
    zip3 ((a.zip b).map Q) a b = (a.zip b).map fun p => (Q p, p.1, p.2) := by
  induction a generalizing b with
  | nil => simp [zip3]
  | cons x a ih =>
    cases b with
    | nil => simp [zip3]
    | cons y b =>
      have := ih b
      simpa [zip3] using this

end Traquer

namespace Traquer.Correlation
open FP FloatLit
open Traquer.Distribution

theorem hoeffdWin_is (srt : Sorter XF) (hs : srt.Valid) {xw yw : List XF} {w : ℕ} (hx : Fins xw) (hy : Fins yw) (lx : xw.length = w)
    (ly : yw.length = w) (hw : 5 ≤ w ∧ w ≤ 7133) : ∃ y, hoeffdWin srt w xw yw = some y ∧ y ⇓ hoeffdingD ((vals xw).zip (vals yw)) := by
  obtain ⟨rx, e1, f1, v1, m1⟩ := rank_midRank srt hs hx (by rintro rfl; simp at lx; omega)
  obtain ⟨ry, e2, f2, v2, m2⟩ := rank_midRank srt hs hy (by rintro rfl; simp at ly; omega)
  simp only [hoeffdWin, e1, e2, Option.bind_some, Option.bind_eq_bind]
  rw [usub_of_le (by omega), usub_of_le (by omega), usub_of_le (by omega), usub_of_le (by omega)]
  simp only [Option.bind_some]
  rw [five_factors hw.2]
  refine ⟨_, rfl, ?_⟩
  have key := hoeffding_ranks (X := vals xw) (Y := vals yw) (by simp [lx, ly])
  rw [← v1, ← v2] at key
  rw [← key]
  have qp : ∀ p ∈ rx.zip ry, hoeffdQ rx ry p.1 p.2 ⇓ jointRank ((vals rx).zip (vals ry)) (p.1.val, p.2.val) := fun p hp =>
    hoeffdQ_is f1 f2 (f1 _ (List.of_mem_zip hp).1).is (f2 _ (List.of_mem_zip hp).2).is
  have ip : ∀ p ∈ rx.zip ry, p.1 ⇓ p.1.val ∧ p.2 ⇓ p.2.val := fun p hp =>
    ⟨(f1 _ (List.of_mem_zip hp).1).is, (f2 _ (List.of_mem_zip hp).2).is⟩
  generalize hJ : jointRank ((vals rx).zip (vals ry)) = J at qp ⊢
  rw [zip3_map, List.foldl_map, List.foldl_map, zip_vals, hoeffdingOf_map, show (vals xw).length = w by simp [lx]]
  have D1 := foldl_term (l := rx.zip ry) (f := fun (acc : XF) (p : XF × XF) => acc + (hoeffdQ rx ry p.1 p.2 - 1) * (hoeffdQ rx ry p.1 p.2 - 2))
    (t := fun p => (J (p.1.val, p.2.val) - 1) * (J (p.1.val, p.2.val) - 2))
    (fun s u p hp h => is_add h (is_mul (is_sub (qp p hp) is_one) (is_sub (qp p hp) (is_lit 2)))) is_zero
  have D2 := foldl_term (l := rx.zip ry) (f := fun (acc : XF) (p : XF × XF) => acc + (p.1 - 1) * (p.1 - 2) * (p.2 - 1) * (p.2 - 2))
    (t := fun p => (p.1.val - 1) * (p.1.val - 2) * (p.2.val - 1) * (p.2.val - 2))
    (fun s u p hp h => is_add h (is_mul (is_mul (is_mul (is_sub (ip p hp).1 is_one) (is_sub (ip p hp).1 (is_lit 2))) (is_sub (ip p hp).2 is_one))
      (is_sub (ip p hp).2 (is_lit 2)))) is_zero
  have D3 := foldl_term (l := rx.zip ry) (f := fun (acc : XF) (p : XF × XF) => acc + (p.1 - 2) * (p.2 - 2) * (hoeffdQ rx ry p.1 p.2 - 1))
    (t := fun p => (p.1.val - 2) * (p.2.val - 2) * (J (p.1.val, p.2.val) - 1))
    (fun s u p hp h => is_add h (is_mul (is_mul (is_sub (ip p hp).1 (is_lit 2)) (is_sub (ip p hp).2 (is_lit 2))) (is_sub (qp p hp) is_one))) is_zero
  have hne : ((w * (w - 1) * (w - 2) * (w - 3) * (w - 4) : ℕ) : ℝ) ≠ 0 := by
    have : 0 < w * (w - 1) * (w - 2) * (w - 3) * (w - 4) := by
      have h1 : 0 < w - 1 := by omega
      have h2 : 0 < w - 2 := by omega
      have h3 : 0 < w - 3 := by omega
      have h4 : 0 < w - 4 := by omega
      have h0 : 0 < w := by omega
      positivity
    exact_mod_cast this.ne'
  refine (is_div (is_mul (is_lit 30) (is_sub (is_add (is_mul (is_flt _) D1) D2) (is_mul (is_mul (is_lit 2) (is_flt _)) D3))) (is_flt _) hne).congr ?_
  rw [hoeffdingOf]
  simp only [Function.comp_def, zero_add]
  push_cast [Nat.cast_sub (show 1 ≤ w by omega), Nat.cast_sub (show 2 ≤ w by omega), Nat.cast_sub (show 3 ≤ w by omega), Nat.cast_sub (show 4 ≤ w by omega)]
  rfl

/-- C73: with a window of five to 7133 bars, `hoeffd` is Hoeffding's D of the points of the last `w` steps, whatever the order the unstable sort
gives ties. -/
theorem hoeffd_reports (srt : Sorter XF) (hs : srt.Valid) (s1 s2 : List XF) (w : ℕ) (h : s2.length = s1.length) (hw : 5 ≤ w ∧ w ≤ 7133)
    (hn : w ≤ s1.length + 1) (h1 : Fins s1) (h2 : Fins s2) :
    Reports s1.length (w - 1) (fun i => hoeffdingD ((recent (vals s1) w i).zip (recent (vals s2) w i))) (hoeffd srt s1 s2 w) := by
  have it : Items s1.length (w - 1) (fun i y => y ⇓ hoeffdingD ((recent (vals s1) w i).zip (recent (vals s2) w i))) (hoeffd srt s1 s2 w) := by
    run_model [hoeffd]
    refine items_windows2 (d := FP.nan) (by omega) h hn fun i hi hl => ?_
    rw [← recent_vals, ← recent_vals]
    exact hoeffdWin_is srt hs (h1.recent w i) (h2.recent w i) (recent_length hi hl) (recent_length hi (by omega)) hw
  refine (hoeffd_aligned srt hs s1 s2 w h (by omega) hw.2 hn (NoNaN.of_fins h1) (NoNaN.of_fins h2)).reportsP ?_
  obtain ⟨o, e, l, hi⟩ := it
  intro out eo
  cases e.symm.trans eo
  exact hi

end Traquer.Correlation

namespace Traquer

theorem jointRank_swap (ps : List (ℝ × ℝ)) (p : ℝ × ℝ) : jointRank (ps.map Prod.swap) p.swap = jointRank ps p := by
  rw [jointRank, jointRank, List.map_map]
  congr 3
  exact List.map_congr_left fun q _ => mul_comm _ _

theorem hoeffdingOf_swap {α : Type} (n : ℝ) (ps : List α) (q r s : α → ℝ) : hoeffdingOf n ps q s r = hoeffdingOf n ps q r s := by
  have e2 : (ps.map fun p => (s p - 1) * (s p - 2) * (r p - 1) * (r p - 2)) = ps.map fun p => (r p - 1) * (r p - 2) * (s p - 1) * (s p - 2) :=
    List.map_congr_left fun p _ => by ring
  have e3 : (ps.map fun p => (s p - 2) * (r p - 2) * (q p - 1)) = ps.map fun p => (r p - 2) * (s p - 2) * (q p - 1) :=
    List.map_congr_left fun p _ => by ring
  rw [hoeffdingOf, hoeffdingOf, e2, e3]

theorem hoeffdingD_swap (X Y : List ℝ) : hoeffdingD (Y.zip X) = hoeffdingD (X.zip Y) := by
  rw [← List.zip_swap X Y, hoeffdingD, hoeffdingOf_map, List.length_map, List.map_map, List.map_map, ← hoeffdingOf_swap, hoeffdingD]
  refine hoeffdingOf_congr fun p _ => ⟨jointRank_swap _ p, rfl, rfl⟩

theorem halfBelow_strictMono {f : ℝ → ℝ} (hf : StrictMono f) (a b : ℝ) : halfBelow (f a) (f b) = halfBelow a b := by
  simp only [halfBelow, hf.lt_iff_lt, hf.injective.eq_iff]

theorem midRank_strictMono {f : ℝ → ℝ} (hf : StrictMono f) (xs : List ℝ) (x : ℝ) : midRank (xs.map f) (f x) = midRank xs x := by
  rw [midRank, midRank, List.map_map]
  simp only [Function.comp_def, halfBelow_strictMono hf]

theorem hoeffdingD_strictMono {f g : ℝ → ℝ} (hf : StrictMono f) (hg : StrictMono g) (X Y : List ℝ) :
    hoeffdingD ((X.map f).zip (Y.map g)) = hoeffdingD (X.zip Y) := by
  rw [List.zip_map, hoeffdingD, hoeffdingOf_map, List.length_map, hoeffdingD, List.map_map, List.map_map]
  refine hoeffdingOf_congr fun p _ => ⟨jointRank_map fun q _ => ⟨halfBelow_strictMono hf _ _, halfBelow_strictMono hg _ _⟩, ?_, ?_⟩
  · have := midRank_strictMono hf ((X.zip Y).map Prod.fst) p.1
    rwa [List.map_map] at this
  · have := midRank_strictMono hg ((X.zip Y).map Prod.snd) p.2
    rwa [List.map_map] at this

/-- Without ties, summing over the ranks is summing over `1 .. n`. -/
theorem sum_over_ranks (f : ℝ → ℝ) (S : Finset ℝ) :
    ∑ x ∈ S, f (1 / 2 + ∑ a ∈ S, halfBelow a x) = ∑ k ∈ Finset.range S.card, f (k + 1) := by
  induction S using Finset.induction_on_max with
  | empty => simp
  | insert m S hm ih =>
    have hn : m ∉ S := fun h => lt_irrefl _ (hm m h)
    rw [Finset.sum_insert hn, Finset.card_insert_of_notMem hn, Finset.sum_range_succ, ← ih, add_comm]
    congr 1
    · refine Finset.sum_congr rfl fun x hx => ?_
      rw [Finset.sum_insert hn, halfBelow, if_neg (hm x hx).not_gt, if_neg (hm x hx).ne', zero_add]
    · rw [Finset.sum_insert hn, halfBelow, if_neg (lt_irrefl _), if_pos rfl,
        Finset.sum_congr rfl (g := fun _ => (1 : ℝ)) fun x hx => by rw [halfBelow, if_pos (hm x hx)]]
      rw [Finset.sum_const, nsmul_eq_mul]
      congr 1
      ring

theorem sum_midRank {X : List ℝ} (hX : X.Nodup) (f : ℝ → ℝ) :
    (X.map fun x => f (midRank X x)).sum = ∑ k ∈ Finset.range X.length, f (k + 1) := by
  have e : ∀ g : ℝ → ℝ, (X.map g).sum = ∑ x ∈ X.toFinset, g x := fun g => (List.sum_toFinset g hX).symm
  rw [e, ← List.toFinset_card_of_nodup hX, ← sum_over_ranks]
  refine Finset.sum_congr rfl fun x _ => ?_
  rw [midRank, e]

theorem sum_d1 (n : ℕ) : ∑ k ∈ Finset.range n, ((k : ℝ) + 1 - 1) * (k + 1 - 2) = n * (n - 1) * (n - 2) / 3 := by
  induction n with
  | zero => simp
  | succ n ih => rw [Finset.sum_range_succ, ih]; push_cast; ring

theorem sum_d2 (n : ℕ) : ∑ k ∈ Finset.range n, ((k : ℝ) + 1 - 1) * (k + 1 - 2) * (k + 1 - 1) * (k + 1 - 2) =
    n * (n - 1) * (n - 2) * (3 * n ^ 2 - 6 * n + 1) / 15 := by
  induction n with
  | zero => simp
  | succ n ih => rw [Finset.sum_range_succ, ih]; push_cast; ring

theorem sum_d3 (n : ℕ) : ∑ k ∈ Finset.range n, ((k : ℝ) + 1 - 2) * (k + 1 - 2) * (k + 1 - 1) = n * (n - 1) * (n - 2) * (3 * n - 5) / 12 := by
  induction n with
  | zero => simp
  | succ n ih => rw [Finset.sum_range_succ, ih]; push_cast; ring

theorem descending_ne {n : ℕ} (h : 5 ≤ n) : (n : ℝ) * (n - 1) * (n - 2) * (n - 3) * (n - 4) ≠ 0 := by
  have h5 : (5 : ℝ) ≤ n := by exact_mod_cast h
  have h1 : (0 : ℝ) < n - 1 := by linarith
  have h2 : (0 : ℝ) < n - 2 := by linarith
  have h3 : (0 : ℝ) < n - 3 := by linarith
  have h4 : (0 : ℝ) < n - 4 := by linarith
  have h0 : (0 : ℝ) < n := by linarith
  positivity

theorem halfBelow_sq_sum {X : List ℝ} (hX : X.Nodup) {x : ℝ} (hx : x ∈ X) :
    (X.map fun a => halfBelow a x * halfBelow a x).sum = (X.map fun a => halfBelow a x).sum - 1 / 4 := by
  have key : ∀ l : List ℝ, (l.map fun a => halfBelow a x * halfBelow a x).sum = (l.map fun a => halfBelow a x).sum - l.count x / 4 := by
    intro l
    induction l with
    | nil => simp
    | cons a l ih =>
      rw [List.map_cons, List.map_cons, List.sum_cons, List.sum_cons, ih, List.count_cons, halfBelow]
      rcases lt_trichotomy a x with h | h | h
      · simp [h, h.ne]; ring
      · subst h; simp; ring
      · simp [h.not_gt, h.ne']
  rw [key, List.count_eq_one_of_mem hX hx, Nat.cast_one]

/-- Hoeffding's D of points on an increasing curve, without ties, is 1. -/
theorem hoeffdingD_increasing {X : List ℝ} (hX : X.Nodup) (hl : 5 ≤ X.length) {f : ℝ → ℝ} (hf : StrictMono f) :
    hoeffdingD (X.zip (X.map f)) = 1 := by
  have e := hoeffdingD_strictMono strictMono_id hf X X
  rw [List.map_id] at e
  have ez : X.zip X = X.map fun x => (x, x) := by induction X with
    | nil => rfl
    | cons a l ih => simp [List.zip_eq_zipWith, List.zipWith_self]
  rw [e, ez, hoeffdingD, hoeffdingOf_map, List.length_map, List.map_map, List.map_map,
    show (Prod.fst ∘ fun x : ℝ => (x, x)) = id from rfl, show (Prod.snd ∘ fun x : ℝ => (x, x)) = id from rfl, List.map_id]
  refine (hoeffdingOf_congr (q' := midRank X) (r' := midRank X) (s' := midRank X) fun x hx => ⟨?_, rfl, rfl⟩).trans ?_
  rotate_left
  · rw [hoeffdingOf, sum_midRank hX fun r => (r - 1) * (r - 2), sum_midRank hX fun r => (r - 1) * (r - 2) * (r - 1) * (r - 2),
      sum_midRank hX fun r => (r - 2) * (r - 2) * (r - 1), sum_d1, sum_d2, sum_d3, div_eq_one_iff_eq (descending_ne hl)]
    ring
  · show jointRank _ (x, x) = _
    rw [jointRank, List.map_map, midRank]
    have := halfBelow_sq_sum hX hx
    simp only [Function.comp_def]
    rw [this]
    ring

theorem hoeffdingD_flat {n : ℕ} (hn : 5 ≤ n) (a b : ℝ) :
    hoeffdingD ((List.replicate n a).zip (List.replicate n b)) = -(30 * (n - 1)) / (16 * (n - 2) * (n - 4)) := by
  have h5 : (5 : ℝ) ≤ n := by exact_mod_cast hn
  have h1 : (n : ℝ) - 1 ≠ 0 := by linarith
  have h2 : (n : ℝ) - 2 ≠ 0 := by linarith
  have h3 : (n : ℝ) - 3 ≠ 0 := by linarith
  have h4 : (n : ℝ) - 4 ≠ 0 := by linarith
  have h0 : (n : ℝ) ≠ 0 := by linarith
  rw [List.zip_replicate, min_self, hoeffdingD, hoeffdingOf]
  simp only [List.map_replicate, List.sum_replicate, List.length_replicate, jointRank, midRank, halfBelow, lt_irrefl, if_false, if_true, nsmul_eq_mul]
  field_simp
  ring

end Traquer

namespace Traquer.Correlation
open FP FloatLit
open Traquer.Distribution

section
variable {srt : Sorter XF} (hs : srt.Valid) {s1 s2 : List XF} {w : ℕ} (h : s2.length = s1.length) (hw : 5 ≤ w ∧ w ≤ 7133)
  (hn : w ≤ s1.length + 1) (h1 : Fins s1) (h2 : Fins s2)
include hs h hw hn h1 h2

/-- C73: `hoeffd` gives the same values when the two series are swapped. -/
theorem hoeffd_symmetric (v : ℕ → ℝ) (hv : Reports s1.length (w - 1) v (hoeffd srt s1 s2 w)) :
    Reports s1.length (w - 1) v (hoeffd srt s2 s1 w) := by
  obtain ⟨o, e, l, n1, n2⟩ := hoeffd_reports srt hs s1 s2 w h hw hn h1 h2
  obtain ⟨o', e', l', m1, m2⟩ := hv
  cases e.symm.trans e'
  obtain ⟨p, e3, l3, p1, p2⟩ := hoeffd_reports srt hs s2 s1 w h.symm hw (by omega) h2 h1
  refine ⟨p, e3, by omega, fun i hi hl => p1 i hi (by omega), fun i hi hl => ?_⟩
  obtain ⟨y, hy, iy⟩ := p2 i hi (by omega)
  obtain ⟨a, ha, ia⟩ := n2 i hi hl
  obtain ⟨b, hb, ib⟩ := m2 i hi hl
  cases ha.symm.trans hb
  exact ⟨y, hy, iy.congr ((hoeffdingD_swap _ _).trans (ia.unique ib))⟩

omit h1 h2 in
/-- C73: the measure does not change when either series goes through a strictly increasing function. -/
theorem hoeffd_invariant {t1 t2 : List XF} {f g : ℝ → ℝ} (hf : StrictMono f) (hg : StrictMono g) (f1 : Fins t1) (f2 : Fins t2)
    (e1 : vals t1 = (vals s1).map f) (e2 : vals t2 = (vals s2).map g) :
    Reports s1.length (w - 1) (fun i => hoeffdingD ((recent (vals s1) w i).zip (recent (vals s2) w i))) (hoeffd srt t1 t2 w) := by
  have l1 : t1.length = s1.length := by simpa using congrArg List.length e1
  have l2 : t2.length = s2.length := by simpa using congrArg List.length e2
  have := hoeffd_reports srt hs t1 t2 w (by omega) hw (by omega) f1 f2
  rw [l1] at this
  refine this.congr fun i _ _ => ?_
  rw [e1, e2]
  have er : ∀ (f : ℝ → ℝ) (l : List ℝ), recent (l.map f) w i = (recent l w i).map f := fun f l => by
    rw [recent, recent, ← List.map_drop, ← List.map_take]
  rw [er, er, hoeffdingD_strictMono hf hg]

/-- C73: where the last `w` values of one series are distinct and the other is an increasing function of them, `hoeffd` is 1. -/
theorem hoeffd_increasing {f : ℝ → ℝ} (hf : StrictMono f) (e : vals s2 = (vals s1).map f) :
    ReportsP s1.length (w - 1) (fun i y => (recent (vals s1) w i).Nodup → y ⇓ 1) (hoeffd srt s1 s2 w) := by
  refine (hoeffd_reports srt hs s1 s2 w h hw hn h1 h2).toP fun i y hi hl hy hd => hy.congr ?_
  rw [e, show recent ((vals s1).map f) w i = (recent (vals s1) w i).map f by rw [recent, recent, ← List.map_drop, ← List.map_take]]
  exact hoeffdingD_increasing hd (by rw [recent_length (by omega) (by simpa using hl)]; exact hw.1) hf

/-- C73: where both windows are constant, `hoeffd` is `-30 (w-1) / (16 (w-2) (w-4))`; with a window of 5 to 8 that is below -1/2, the
least value the documentation of `hoeffd` allows. -/
theorem hoeffd_constant {a b : ℝ} : ReportsP s1.length (w - 1)
    (fun i y => recent (vals s1) w i = List.replicate w a → recent (vals s2) w i = List.replicate w b →
      (y ⇓ -(30 * (w - 1)) / (16 * (w - 2) * (w - 4))) ∧ (w ≤ 8 → -(30 * (w - 1)) / (16 * (w - 2) * (w - 4)) < (-1 / 2 : ℝ)))
    (hoeffd srt s1 s2 w) := by
  refine (hoeffd_reports srt hs s1 s2 w h hw hn h1 h2).toP fun i y hi hl hy ea eb => ⟨hy.congr ?_, fun h8 => ?_⟩
  · rw [ea, eb, hoeffdingD_flat hw.1]
  · obtain ⟨h5, -⟩ := hw
    interval_cases w <;> norm_num
end

/-- C73: with a window of 7134 bars or more the product `w (w-1) (w-2) (w-3) (w-4)` exceeds 64 bits: a build with overflow checks panics as
soon as there is one full window, whatever the data. -/
theorem hoeffd_overflows {ρ : Rounding} (srt : Sorter (FP ρ)) (s1 s2 : List (FP ρ)) (w : ℕ) (hw : 7134 ≤ w) (h1 : w ≤ s1.length)
    (h2 : w ≤ s2.length) : hoeffd srt s1 s2 w = none := by
  simp only [hoeffd, windows, Option.bind_eq_bind, usub_of_le (show 1 ≤ w by omega), Option.bind_some, if_neg (show w ≠ 0 by omega)]
  obtain ⟨p, hp⟩ := List.exists_mem_of_length_pos (show 0 < ((windowsOf w s1).zip (windowsOf w s2)).length by simp; omega)
  have key : ∀ x y, hoeffdWin srt w x y = none := fun x y => by
    simp only [hoeffdWin, Option.bind_eq_bind, usub_of_le (show 1 ≤ w by omega), usub_of_le (show 2 ≤ w by omega),
      usub_of_le (show 3 ≤ w by omega), usub_of_le (show 4 ≤ w by omega), Option.bind_some]
    simp only [five_factors_overflow hw, Option.bind_fun_none]
  rw [mapP_none_iff.2 ⟨p, hp, key _ _⟩]
  rfl

end Traquer.Correlation

namespace Traquer.Correlation
open FP FloatLit
open Traquer.Distribution

example : ValueAt (hoeffd (tieSorter true) ([1, 2, 3, 4, 5].map (fin (ρ := Rounding.exact))) ([2, 2, 4, 5, 3].map fin) 5) 4 (-3/8) := by
  refine (hoeffd_reports (tieSorter true) (tieSorter_valid true) ([1, 2, 3, 4, 5].map (fin (ρ := Rounding.exact))) ([2, 2, 4, 5, 3].map fin) 5
    (by simp) (by decide) (by simp) (fins_map_fin _) (fins_map_fin _)).value 4 (by decide) (by simp) ?_
  simp only [vals_map_fin]
  norm_num [recent, hoeffdingD, hoeffdingOf, jointRank, midRank, halfBelow]

example : ValueAt (hoeffd (tieSorter false) ([1, 2, 3, 4, 5, 0].map (fin (ρ := Rounding.exact))) ([3, 5, 7, 9, 11, 1].map fin) 5) 5 1 := by
  have := hoeffd_increasing (tieSorter_valid false) (s1 := [1, 2, 3, 4, 5, 0].map (fin (ρ := Rounding.exact))) (s2 := [3, 5, 7, 9, 11, 1].map fin)
    (w := 5) (by simp) (by decide) (by simp) (fins_map_fin _) (fins_map_fin _) (f := fun x => 2 * x + 1)
    (fun a b h => by simp only; linarith) (by rw [vals_map_fin, vals_map_fin]; norm_num)
  obtain ⟨o, e, -, -, h⟩ := this
  obtain ⟨y, hy, hv⟩ := h 5 (by decide) (by simp)
  exact ⟨o, y, e, hy, hv (by simp only [vals_map_fin]; norm_num [recent])⟩

example : ValueAt (hoeffd (tieSorter true) (List.replicate 5 (fin (ρ := Rounding.exact) 7)) (List.replicate 5 (fin 3)) 5) 4 (-5 / 2) := by
  have hf : ∀ r : ℝ, Fins (List.replicate 5 (fin (ρ := Rounding.exact) r)) := fun r x hx => by rw [(List.mem_replicate.1 hx).2]; trivial
  obtain ⟨o, e, -, -, h⟩ := hoeffd_constant (tieSorter_valid true) (s1 := List.replicate 5 (fin (ρ := Rounding.exact) 7)) (s2 := List.replicate 5 (fin 3))
    (w := 5) (a := 7) (b := 3) (by simp) (by decide) (by simp) (hf 7) (hf 3)
  obtain ⟨y, hy, hv⟩ := h 4 (by decide) (by simp)
  refine ⟨o, y, e, hy, (hv (by simp [recent, vals, val]) (by simp [recent, vals, val])).1.congr ?_⟩
  norm_num

end Traquer.Correlation
