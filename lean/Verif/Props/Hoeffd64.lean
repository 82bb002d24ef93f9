import Verif.Props.Corr64
import Verif.Props.Hoeffding
/-!
# C119: Hoeffding's D in binary64

Ranks are multiples of 1/2, joint ranks of 1/4, all products of them of 1/16. For windows up to 300 the whole numerator stays within `2^53` sixteenths
and is exact; what is left is one division.
-/

namespace Traquer.Correlation
open FP FloatLit
open Traquer.Distribution

theorem Grid.mono {j : ℕ} {x : F64} {a : ℝ} {c d : ℕ} (h : Grid j x a c) (hd : c ≤ d) : Grid j x a d := by
  obtain ⟨h, z, e, hz⟩ := h
  exact ⟨h, z, e, hz.trans (by exact_mod_cast hd)⟩

theorem Grid.congr {j : ℕ} {x : F64} {a b : ℝ} {c : ℕ} (h : Grid j x a c) (e : a = b) : Grid j x b c := e ▸ h

/-- A whole number on a finer grid. -/
theorem Grid.of_whole {j : ℕ} {x : F64} {a : ℝ} {c : ℕ} (h : Whole x a c) : Grid j x a (c * 2 ^ j) := by
  obtain ⟨h, ⟨z, rfl⟩, hc⟩ := h
  refine ⟨h, z * 2 ^ j, by push_cast; ring, ?_⟩
  have : |z| ≤ c := by exact_mod_cast hc
  rw [abs_mul, abs_of_pos (show (0 : ℤ) < 2 ^ j by positivity)]
  push_cast
  exact mul_le_mul_of_nonneg_right this (by positivity)

theorem whole_lit (n : ℕ) [n.AtLeastTwo] (h : n ≤ 2 ^ 53) : Whole (OfNat.ofNat n : F64) (OfNat.ofNat n : ℝ) n := by
  refine ⟨isLit n h, ⟨n, (Nat.cast_ofNat (n := n)).symm⟩, ?_⟩
  rw [abs_of_nonneg (Nat.ofNat_nonneg n)]
  exact le_of_eq (Nat.cast_ofNat (n := n)).symm

theorem is_quarter64 : (0.25 : F64) ⇓ 1 / 4 := by
  have e : rnd64 (1 / 4) = 1 / 4 := by
    have := rnd64_exact (m := 1) (e := -2) (by norm_num) (by norm_num)
    norm_num at this ⊢
    exact this
  have h : (mk false (OfScientific.ofScientific 25 true 2 : ℝ) : F64) ⇓ Rounding.binary64.rnd (OfScientific.ofScientific 25 true 2 : ℝ) := by
    refine mk_is ?_
    show |rnd64 _| ≤ max64
    rw [show (OfScientific.ofScientific 25 true 2 : ℝ) = 1 / 4 by norm_num, e]
    exact le_max64_of (by norm_num)
  refine Is.congr h ?_
  show rnd64 _ = _
  rw [show (OfScientific.ofScientific 25 true 2 : ℝ) = 1 / 4 by norm_num, e]

theorem grid_half : Grid 1 (0.5 : F64) (1 / 2) 1 := ⟨is_half64, 1, by norm_num, by norm_num⟩
theorem grid_quarter : Grid 2 (0.25 : F64) (1 / 4) 1 := ⟨is_quarter64, 1, by norm_num, by norm_num⟩

theorem grid_bool (b : Bool) (j : ℕ) : Grid j (boolF b : F64) (if b then 1 else 0) (2 ^ j) := by
  have := Grid.of_whole (j := j) (whole_boolF (ρ := Rounding.binary64) b)
  rwa [one_mul] at this

/-- A fold that adds a term per item. -/
theorem Grid.foldl_term {β : Type} {j c : ℕ} {f : F64 → β → F64} {t : β → ℝ} {l : List β}
    (h : ∀ s u x d, x ∈ l → Grid j s u d → d + c ≤ 2 ^ 53 → Grid j (f s x) (u + t x) (d + c)) {s : F64} {u : ℝ} {d : ℕ}
    (hs : Grid j s u d) (hb : d + l.length * c ≤ 2 ^ 53) : Grid j (l.foldl f s) (u + (l.map t).sum) (d + l.length * c) := by
  induction l generalizing s u d with
  | nil => simpa using hs
  | cons x l ih =>
    have e : d + (x :: l).length * c = d + c + l.length * c := by rw [List.length_cons, Nat.succ_mul]; omega
    rw [e] at hb ⊢
    rw [List.foldl_cons, List.map_cons, List.sum_cons, ← add_assoc]
    exact ih (fun s u y d hy => h s u y d (by simp [hy])) (h s u x d (by simp) hs (by omega)) hb

theorem rank_mid64 (srt : Sorter F64) (hs : srt.Valid) {xw : List F64} (hx : Fins xw) (hne : xw ≠ []) (hl : xw.length ≤ 300) :
    ∃ r, rank srt xw (some .average) = some r ∧ Fins r ∧ vals r = (vals xw).map (midRank (vals xw)) ∧ r.length = xw.length ∧ ∀ x ∈ r, Grid 1 x x.val 600 := by
  obtain ⟨r, e, l, h⟩ := rank_average srt hs xw (NoNaN.of_fins hx) hne
  have hr : r = xw.map fun x => flt ((numBelow xw x + 1) + numUpTo xw x) / 2 := by
    apply List.ext_getElem?
    intro i
    by_cases hi : i < xw.length
    · rw [h i _ (List.getElem?_eq_getElem hi)]; simp [hi]
    · rw [List.getElem?_eq_none (by omega), List.getElem?_eq_none (by simp; omega)]
  have hv : ∀ x ∈ xw, Grid 1 (flt ((numBelow xw x + 1) + numUpTo xw x) / 2 : F64) (midRank (vals xw) x.val) 600 := by
    intro x hx'
    have b1 : numBelow xw x < xw.length := by
      rw [numBelow]
      refine lt_of_le_of_ne List.countP_le_length fun he => ?_
      have := List.countP_eq_length.1 he x hx'
      rw [is_lt (hx x hx').is (hx x hx').is] at this
      simp at this
    have b2 : numUpTo xw x ≤ xw.length := List.countP_le_length
    have e : midRank (vals xw) x.val = (((numBelow xw x + 1) + numUpTo xw x : ℕ) : ℝ) / 2 := by
      rw [midRank, sum_halfBelow, vals, List.countP_map, List.countP_map]
      have e1 : numBelow xw x = xw.countP ((fun a => decide (a < x.val)) ∘ val) := List.countP_congr fun y hy => by
        rw [is_lt (hx y hy).is (hx x hx').is]; rfl
      have e2 : numUpTo xw x = xw.countP ((fun a => decide (a ≤ x.val)) ∘ val) := List.countP_congr fun y hy => by
        rw [is_le (hx y hy).is (hx x hx').is]; rfl
      rw [e1, e2]
      push_cast
      ring
    rw [e]
    have two : (2 : F64) ⇓ 2 := (whole_lit 2 (by norm_num)).1
    refine Grid.of_rounds (rounds_div (isFlt (by omega)) two (by norm_num)) (by norm_num)
      (z := ((numBelow xw x + 1) + numUpTo xw x : ℕ)) (by push_cast; ring) ?_ (by norm_num)
    rw [abs_of_nonneg (by positivity)]
    exact_mod_cast (by omega : numBelow xw x + 1 + numUpTo xw x ≤ 600)
  refine ⟨r, e, ?_, ?_, l, ?_⟩
  · intro y hy
    rw [hr] at hy
    obtain ⟨x, hx', rfl⟩ := List.mem_map.1 hy
    exact (hv x hx').1.finite
  · rw [hr, vals, vals, List.map_map, List.map_map]
    exact List.map_congr_left fun x hx' => (hv x hx').1.val_eq
  · intro y hy
    rw [hr] at hy
    obtain ⟨x, hx', rfl⟩ := List.mem_map.1 hy
    have := hv x hx'
    rwa [← this.1.val_eq] at this

theorem hoeffdQ_grid {rx ry : List F64} (fx : Fins rx) (fy : Fins ry) (l1 : rx.length ≤ 300) {x y : F64} {a b : ℝ} (hx : x ⇓ a) (hy : y ⇓ b) :
    Grid 2 (hoeffdQ rx ry x y) (jointRank ((vals rx).zip (vals ry)) (a, b)) 2105 := by
  have h1 : ∀ s u (p : F64 × F64) d, p ∈ rx.zip ry → Grid 2 s u d → d + 7 ≤ 2 ^ 53 →
      Grid 2 (s + boolF ((p.1 <. x) && (p.2 <. y)) + 0.25 * boolF ((p.1 ==. x) && (p.2 ==. y)) +
        0.5 * boolF (((p.1 ==. x) && (p.2 <. y)) || ((p.1 <. x) && (p.2 ==. y))) : F64)
      (u + halfBelow p.1.val a * halfBelow p.2.val b) (d + 7) := by
    intro s u p d hp hs hd
    have ip := (fx _ (List.of_mem_zip hp).1).is
    have iq := (fy _ (List.of_mem_zip hp).2).is
    rw [is_lt ip hx, is_lt iq hy, is_feq ip hx, is_feq iq hy]
    have s1 := hs.add (grid_bool (decide (p.1.val < a) && decide (p.2.val < b)) 2) (by norm_num) (by omega)
    have s2 := s1.add (grid_quarter.mul (grid_bool (decide (p.1.val = a) && decide (p.2.val = b)) 0) (by norm_num) (by norm_num)) (by norm_num) (by omega)
    have s3 := s2.add (grid_half.mul (grid_bool ((decide (p.1.val = a) && decide (p.2.val < b)) || (decide (p.1.val < a) && decide (p.2.val = b))) 1) (by norm_num) (by norm_num))
      (by norm_num) (by omega)
    refine (s3.mono (by omega)).congr ?_
    unfold halfBelow
    have tri : ∀ c d : ℝ, (c < d ∧ ¬ c = d) ∨ (¬ c < d ∧ c = d) ∨ (¬ c < d ∧ ¬ c = d) := fun c d => by
      rcases lt_trichotomy c d with h | h | h
      · exact .inl ⟨h, h.ne⟩
      · exact .inr (.inl ⟨h.not_lt, h⟩)
      · exact .inr (.inr ⟨h.not_gt, h.ne'⟩)
    rcases tri p.1.val a with ⟨h1, h2⟩ | ⟨h1, h2⟩ | ⟨h1, h2⟩ <;> rcases tri p.2.val b with ⟨h3, h4⟩ | ⟨h3, h4⟩ | ⟨h3, h4⟩ <;>
      simp only [h1, h2, h3, h4, decide_true, decide_false, if_true, if_false, Bool.and_true, Bool.and_false, Bool.or_false, Bool.or_true,
        Bool.false_eq_true] <;> norm_num
  have lz : (rx.zip ry).length ≤ 300 := by simp; omega
  have := Grid.foldl_term (l := rx.zip ry) (f := fun (q : F64) (p : F64 × F64) => q + boolF ((p.1 <. x) && (p.2 <. y)) +
    0.25 * boolF ((p.1 ==. x) && (p.2 ==. y)) + 0.5 * boolF (((p.1 ==. x) && (p.2 <. y)) || ((p.1 <. x) && (p.2 ==. y))))
    (t := fun p => halfBelow p.1.val a * halfBelow p.2.val b) h1 (Grid.of_whole (j := 2) Whole.one) (by omega)
  refine ((this.sub grid_quarter (by norm_num) (by omega)).mono (by omega)).congr ?_
  rw [jointRank, zip_vals, List.map_map]
  rfl

theorem hoeffdWin_rounded (srt : Sorter F64) (hs : srt.Valid) {xw yw : List F64} {w : ℕ} (hx : Fins xw) (hy : Fins yw) (lx : xw.length = w)
    (ly : yw.length = w) (hw : 5 ≤ w ∧ w ≤ 300) : ∃ y, hoeffdWin srt w xw yw = some y ∧ Rounds y (hoeffdingD ((vals xw).zip (vals yw))) := by
  obtain ⟨rx, e1, f1, v1, m1, g1⟩ := rank_mid64 srt hs hx (by rintro rfl; simp at lx; omega) (by omega)
  obtain ⟨ry, e2, f2, v2, m2, g2⟩ := rank_mid64 srt hs hy (by rintro rfl; simp at ly; omega) (by omega)
  simp only [hoeffdWin, e1, e2, Option.bind_some, Option.bind_eq_bind]
  rw [usub_of_le (by omega), usub_of_le (by omega), usub_of_le (by omega), usub_of_le (by omega)]
  simp only [Option.bind_some]
  rw [five_factors (by omega)]
  refine ⟨_, rfl, ?_⟩
  have key := hoeffding_ranks (X := vals xw) (Y := vals yw) (by simp [lx, ly])
  rw [← v1, ← v2] at key
  rw [← key]
  have qp : ∀ p ∈ rx.zip ry, Grid 2 (hoeffdQ rx ry p.1 p.2) (jointRank ((vals rx).zip (vals ry)) (p.1.val, p.2.val)) 2105 := fun p hp =>
    hoeffdQ_grid f1 f2 (by omega) (f1 _ (List.of_mem_zip hp).1).is (f2 _ (List.of_mem_zip hp).2).is
  have ip : ∀ p ∈ rx.zip ry, Grid 1 p.1 p.1.val 600 ∧ Grid 1 p.2 p.2.val 600 := fun p hp =>
    ⟨g1 _ (List.of_mem_zip hp).1, g2 _ (List.of_mem_zip hp).2⟩
  have lz : (rx.zip ry).length = w := by simp; omega
  generalize hJ : jointRank ((vals rx).zip (vals ry)) = J at qp ⊢
  rw [zip3_map, List.foldl_map, List.foldl_map, zip_vals, hoeffdingOf_map, show (vals xw).length = w by simp [lx]]
  have one : ∀ j, Grid j (1 : F64) 1 (2 ^ j) := fun j => by
    have := Grid.of_whole (j := j) (Whole.one (ρ := Rounding.binary64))
    rwa [one_mul] at this
  have two : ∀ j, Grid j (2 : F64) 2 (2 * 2 ^ j) := fun j => Grid.of_whole (whole_lit 2 (by norm_num))
  have D1 := Grid.foldl_term (j := 4) (c := 2109 * 2113) (l := rx.zip ry) (f := fun (acc : F64) (p : F64 × F64) => acc + (hoeffdQ rx ry p.1 p.2 - 1) * (hoeffdQ rx ry p.1 p.2 - 2))
    (t := fun p => (J (p.1.val, p.2.val) - 1) * (J (p.1.val, p.2.val) - 2))
    (fun s u p d hp h hd => h.add (((qp p hp).sub (one 2) (by norm_num) (by norm_num)).mul ((qp p hp).sub (two 2) (by norm_num) (by norm_num)) (by norm_num) (by norm_num)) (by norm_num) hd)
    Grid.zero (by rw [lz]; omega)
  have D2 := Grid.foldl_term (j := 4) (c := 602 * 604 * 602 * 604) (l := rx.zip ry) (f := fun (acc : F64) (p : F64 × F64) => acc + (p.1 - 1) * (p.1 - 2) * (p.2 - 1) * (p.2 - 2))
    (t := fun p => (p.1.val - 1) * (p.1.val - 2) * (p.2.val - 1) * (p.2.val - 2))
    (fun s u p d hp h hd => h.add ((((((ip p hp).1.sub (one 1) (by norm_num) (by norm_num)).mul ((ip p hp).1.sub (two 1) (by norm_num) (by norm_num)) (by norm_num) (by norm_num)).mul
      ((ip p hp).2.sub (one 1) (by norm_num) (by norm_num)) (by norm_num) (by norm_num)).mul ((ip p hp).2.sub (two 1) (by norm_num) (by norm_num)) (by norm_num) (by norm_num))) (by norm_num) hd)
    Grid.zero (by rw [lz]; omega)
  have D3 := Grid.foldl_term (j := 4) (c := 604 * 604 * 2109) (l := rx.zip ry) (f := fun (acc : F64) (p : F64 × F64) => acc + (p.1 - 2) * (p.2 - 2) * (hoeffdQ rx ry p.1 p.2 - 1))
    (t := fun p => (p.1.val - 2) * (p.2.val - 2) * (J (p.1.val, p.2.val) - 1))
    (fun s u p d hp h hd => h.add ((((ip p hp).1.sub (two 1) (by norm_num) (by norm_num)).mul ((ip p hp).2.sub (two 1) (by norm_num) (by norm_num)) (by norm_num) (by norm_num)).mul
      ((qp p hp).sub (one 2) (by norm_num) (by norm_num)) (by norm_num) (by norm_num)) (by norm_num) hd)
    Grid.zero (by rw [lz]; omega)
  rw [lz] at D1 D2 D3
  have hne : ((w * (w - 1) * (w - 2) * (w - 3) * (w - 4) : ℕ) : ℝ) ≠ 0 := by
    have : 0 < w * (w - 1) * (w - 2) * (w - 3) * (w - 4) := by
      have h1 : 0 < w - 1 := by omega
      have h2 : 0 < w - 2 := by omega
      have h3 : 0 < w - 3 := by omega
      have h4 : 0 < w - 4 := by omega
      have h0 : 0 < w := by omega
      positivity
    exact_mod_cast this.ne'
  have fits : w * (w - 1) * (w - 2) * (w - 3) * (w - 4) ≤ 2 ^ 53 := by
    calc w * (w - 1) * (w - 2) * (w - 3) * (w - 4) ≤ 300 * 300 * 300 * 300 * 300 :=
          Nat.mul_le_mul (Nat.mul_le_mul (Nat.mul_le_mul (Nat.mul_le_mul (by omega) (by omega)) (by omega)) (by omega)) (by omega)
      _ ≤ 2 ^ 53 := by norm_num
  have w23 : (w - 2) * (w - 3) ≤ 298 * 297 := Nat.mul_le_mul (by omega) (by omega)
  have F1 : Grid 0 (flt ((w - 2) * (w - 3)) : F64) (((w - 2) * (w - 3) : ℕ) : ℝ) (298 * 297) := by
    have := Grid.of_whole (j := 0) (Whole.nat (ρ := Rounding.binary64) (n := (w - 2) * (w - 3)) (by omega))
    rw [pow_zero, mul_one] at this
    exact this.mono w23
  have F2 : Grid 0 (flt (w - 2) : F64) ((w - 2 : ℕ) : ℝ) 298 := by
    have := Grid.of_whole (j := 0) (Whole.nat (ρ := Rounding.binary64) (n := w - 2) (by omega))
    rw [pow_zero, mul_one] at this
    exact this.mono (by omega)
  have thirty : Grid 0 (30 : F64) 30 30 := by
    have := Grid.of_whole (j := 0) (whole_lit 30 (by norm_num))
    rwa [pow_zero, mul_one] at this
  have D1 := D1.mono (d := 1336895100) (by omega)
  have D2 := D2.mono (d := 39663233299200) (by omega)
  have D3 := D3.mono (d := 230819083200) (by omega)
  have N := ((F1.mul D1 (by norm_num) (by norm_num)).add (D2.congr rfl) (by norm_num) (by norm_num)).sub
    (((two 0).mul F2 (by norm_num) (by norm_num)).mul D3 (by norm_num) (by norm_num)) (by norm_num) (by norm_num)
  have N := thirty.mul N (by norm_num) (by norm_num)
  have R := rounds_div N.1 (isFlt fits) hne
  convert R using 1
  rw [hoeffdingOf]
  simp only [Function.comp_def, zero_add]
  push_cast [Nat.cast_sub (show 1 ≤ w by omega), Nat.cast_sub (show 2 ≤ w by omega), Nat.cast_sub (show 3 ≤ w by omega), Nat.cast_sub (show 4 ≤ w by omega)]
  rfl

/-- C119: with a window of five to 300 bars, `hoeffd` of any finite prices is Hoeffding's D rounded once. -/
theorem hoeffd_rounded (srt : Sorter F64) (hs : srt.Valid) (s1 s2 : List F64) (w : ℕ) (h : s2.length = s1.length) (hw : 5 ≤ w ∧ w ≤ 300)
    (hn : w ≤ s1.length + 1) (h1 : Fins s1) (h2 : Fins s2) :
    ReportsP s1.length (w - 1) (fun i y => Rounds y (hoeffdingD ((recent (vals s1) w i).zip (recent (vals s2) w i)))) (hoeffd srt s1 s2 w) := by
  have it : Items s1.length (w - 1) (fun i y => Rounds y (hoeffdingD ((recent (vals s1) w i).zip (recent (vals s2) w i)))) (hoeffd srt s1 s2 w) := by
    run_model [hoeffd]
    refine items_windows2 (d := FP.nan) (by omega) h hn fun i hi hl => ?_
    rw [← recent_vals, ← recent_vals]
    exact hoeffdWin_rounded srt hs (h1.recent w i) (h2.recent w i) (recent_length hi hl) (recent_length hi (by omega)) hw
  refine (hoeffd_aligned srt hs s1 s2 w h (by omega) (by omega) hn (NoNaN.of_fins h1) (NoNaN.of_fins h2)).reportsP ?_
  obtain ⟨o, e, l, hi⟩ := it
  intro out eo
  cases e.symm.trans eo
  exact hi

example (srt : Sorter F64) (hs : srt.Valid) := hoeffd_rounded srt hs [fin 0.1, fin 7, fin 7, fin 2, fin 1000000.5, fin 3]
  [fin 3, fin 2, fin 5, fin 5, fin 1, fin 9] 5 (by simp) (by norm_num) (by simp)
  (by intro x hx; simp at hx; rcases hx with rfl | rfl | rfl | rfl | rfl <;> trivial) (by intro x hx; simp at hx; rcases hx with rfl | rfl | rfl | rfl | rfl <;> trivial)

end Traquer.Correlation
