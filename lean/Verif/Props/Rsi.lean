import Verif.Lemmas.Range
import Verif.Model.Momentum
/-!
# C29, C31: rsi, cmo and tsi (exact arithmetic)
-/

namespace Traquer.Momentum
open FP FloatLit

theorem pairs_finite {data : List XF} (hd : Fins data) {p : XF × XF} (hp : p ∈ pairs data) : p.1.Finite ∧ p.2.Finite :=
  ⟨hd _ (Smooth.mem_pairs hp).1, hd _ (Smooth.mem_pairs hp).2⟩

theorem map_pairs_is {data : List XF} (hd : Fins data) {f : XF × XF → XF} {g : ℝ × ℝ → ℝ}
    (h : ∀ p : XF × XF, p.1.Finite → p.2.Finite → f p ⇓ g (p.1.val, p.2.val)) :
    Fins ((pairs data).map f) ∧ vals ((pairs data).map f) = (pairs (vals data)).map g := by
  constructor
  · intro x hx
    obtain ⟨p, hp, rfl⟩ := List.mem_map.1 hx
    exact (h p (pairs_finite hd hp).1 (pairs_finite hd hp).2).1
  · rw [Smooth.pairs_vals, vals, List.map_map, List.map_map]
    refine List.map_congr_left fun p hp => ?_
    exact (h p (pairs_finite hd hp).1 (pairs_finite hd hp).2).2

theorem gains_is {data : List XF} (hd : Fins data) : Fins (gains data) ∧ vals (gains data) = rises (vals data) :=
  map_pairs_is hd fun _ h1 h2 => is_fmax is_zero (is_sub h2.is h1.is)

theorem losses_is {data : List XF} (hd : Fins data) : Fins (losses data) ∧ vals (losses data) = falls (vals data) :=
  map_pairs_is hd fun p h1 h2 => (is_abs (is_fmin is_zero (is_sub h2.is h1.is))).congr (by
    rw [abs_of_nonpos (min_le_left _ _)]
    rcases le_total (p.2.val - p.1.val) 0 with h | h
    · rw [min_eq_right h, max_eq_right (by linarith)]; ring
    · rw [min_eq_left h, max_eq_left (by linarith)]; ring)

theorem rises_nonneg {l : List ℝ} {x : ℝ} (h : x ∈ rises l) : 0 ≤ x := by
  obtain ⟨p, -, rfl⟩ := List.mem_map.1 h
  exact le_max_left _ _

theorem falls_nonneg {l : List ℝ} {x : ℝ} (h : x ∈ falls l) : 0 ≤ x := by
  obtain ⟨p, -, rfl⟩ := List.mem_map.1 h
  exact le_max_left _ _

theorem exists_within_nonneg (l : List ℝ) (h : ∀ x ∈ l, 0 ≤ x) : Within 0 l.sum l := fun x hx =>
  ⟨h x hx, List.single_le_sum h x hx⟩

theorem wilderOf_nonneg {w : ℕ} {l : List ℝ} (hw : 1 ≤ w) {i : ℕ} (h1 : w ≤ i + 1) (h2 : i < l.length) (h : ∀ x ∈ l, 0 ≤ x) :
    0 ≤ wilderOf w l i :=
  (wilderOf_within hw h1 h2 (exists_within_nonneg _ fun x hx => h x (List.mem_of_mem_take hx))).1

theorem ewmaOf_nonneg {w : ℕ} {l : List ℝ} (hw : 1 ≤ w) {i : ℕ} (h1 : w ≤ i + 1) (h2 : i < l.length) (h : ∀ x ∈ l, 0 ≤ x) :
    0 ≤ ewmaOf w l i :=
  (ewmaOf_within hw h1 h2 (exists_within_nonneg _ fun x hx => h x (List.mem_of_mem_take hx))).1

/-- The average of positive values is positive, of zeros is zero. -/
theorem wilderOf_pos {w : ℕ} {l : List ℝ} (hw : 1 ≤ w) {i : ℕ} (h1 : w ≤ i + 1) (h2 : i < l.length)
    (h : ∀ x ∈ l.take (i + 1), 0 < x) : 0 < wilderOf w l i := by
  have hne : l.take (i + 1) ≠ [] := by rw [← List.length_pos_iff]; simp; omega
  have := (wilderOf_within (lo := minOf (l.take (i + 1))) (hi := maxOf (l.take (i + 1))) hw h1 h2
    fun x hx => ⟨minOf_le hx, le_maxOf hx⟩).1
  exact lt_of_lt_of_le (h _ (minOf_mem hne)) this

theorem wilderOf_zero {w : ℕ} {l : List ℝ} (hw : 1 ≤ w) {i : ℕ} (h1 : w ≤ i + 1) (h2 : i < l.length)
    (h : ∀ x ∈ l.take (i + 1), x = 0) : wilderOf w l i = 0 := by
  have := wilderOf_within (lo := 0) (hi := 0) hw h1 h2 fun x hx => by rw [h x hx]; exact ⟨le_rfl, le_rfl⟩
  exact le_antisymm this.2 this.1

/-! ## rsi -/

/-- C29: `rsi` is NaN for `w` bars and then `100 * up / (up + down)`, where `up` and `down` are Wilder's averages of the
rises and falls (NaN if both are zero). -/
theorem rsi_reports (data : List XF) (w : ℕ) (hw : 1 ≤ w) (hn : w + 1 ≤ data.length) (hd : Fins data) :
    ReportsP data.length w (fun i y => QuotIs (100 * wilderOf w (rises (vals data)) (i - 1))
      (wilderOf w (rises (vals data)) (i - 1) + wilderOf w (falls (vals data)) (i - 1)) y) (rsi data w) := by
  obtain ⟨g1, g2⟩ := gains_is hd
  obtain ⟨l1, l2⟩ := losses_is hd
  have lg : (gains data).length = data.length - 1 := by simp [gains]
  have ll : (losses data).length = data.length - 1 := by simp [losses]
  obtain ⟨g, eg, rg, -⟩ := (wilder_is (gains data) w hw (by omega) g1).some
  obtain ⟨l, el, rl, -⟩ := (wilder_is (losses data) w hw (by omega) l1).some
  rw [g2, lg] at rg
  rw [l2, ll] at rl
  simp only [rsi, eg, el, Option.bind_eq_bind, Option.bind_some]
  refine ((Reports.zipP (f := fun p : XF × XF => 100 * p.1 / (p.1 + p.2)) rg rl (fun x y hx => by nanp)
    fun i x y hi hin hx hy => quotIs (is_mul (is_lit 100) hx) (is_add hx hy)).pad 1).cast (by omega) (by omega)

theorem rises_length (l : List ℝ) : (rises l).length = l.length - 1 := by simp [rises]
theorem falls_length (l : List ℝ) : (falls l).length = l.length - 1 := by simp [falls]
theorem vals_length {ρ : Rounding} (l : List (FP ρ)) : (vals l).length = l.length := by simp [vals]

/-- C29: every value of `rsi` from bar `w` on is NaN or between 0 and 100. -/
theorem rsi_range (data : List XF) (w : ℕ) (hw : 1 ≤ w) (hn : w + 1 ≤ data.length) (hd : Fins data) :
    ReportsP data.length w (fun _ y => InRange 0 100 y) (rsi data w) := by
  refine (rsi_reports data w hw hn hd).mono fun i y h1 h2 h => ?_
  have a1 := wilderOf_nonneg (l := rises (vals data)) (i := i - 1) hw (by omega)
    (by rw [rises_length, vals_length]; omega) fun x hx => rises_nonneg hx
  have a2 := wilderOf_nonneg (l := falls (vals data)) (i := i - 1) hw (by omega)
    (by rw [falls_length, vals_length]; omega) fun x hx => falls_nonneg hx
  exact h.share a1 (by linarith) (by norm_num)

theorem mem_take_map_pairs {l : List ℝ} {f : ℝ × ℝ → ℝ} {x : ℝ} {i : ℕ} (h : x ∈ ((pairs l).map f).take (i + 1)) :
    ∃ j a b, j ≤ i ∧ l[j]? = some a ∧ l[j + 1]? = some b ∧ x = f (a, b) := by
  obtain ⟨j, hj⟩ := List.mem_iff_getElem?.1 h
  rw [List.getElem?_take] at hj
  split at hj
  · rename_i hji
    rw [List.getElem?_map, pairs_getElem?] at hj
    cases ha : l[j]? with
    | none => simp [ha] at hj
    | some a =>
      cases hb : l[j + 1]? with
      | none => simp [ha, hb] at hj
      | some b =>
        simp [ha, hb] at hj
        exact ⟨j, a, b, by omega, ha, hb, hj.symm⟩
  · cases hj

/-- C29: while the series has only risen up to bar `i`, `rsi` is 100. -/
theorem rsi_only_gains (data : List XF) (w : ℕ) (hw : 1 ≤ w) (hn : w + 1 ≤ data.length) (hd : Fins data) :
    ReportsP data.length w (fun i y => (∀ (j : ℕ) a b, j < i → (vals data)[j]? = some a → (vals data)[j + 1]? = some b → a < b) → y ⇓ 100)
      (rsi data w) := by
  refine (rsi_reports data w hw hn hd).mono fun i y h1 h2 h hm => ?_
  have a1 := wilderOf_pos (l := rises (vals data)) (i := i - 1) hw (by omega)
    (by rw [rises_length, vals_length]; omega) fun x hx => by
      obtain ⟨j, a, b, hj, ha, hb, rfl⟩ := mem_take_map_pairs hx
      have := hm j a b (by omega) ha hb
      exact lt_max_of_lt_right (by simpa using this)
  have a2 := wilderOf_zero (l := falls (vals data)) (i := i - 1) hw (by omega)
    (by rw [falls_length, vals_length]; omega) fun x hx => by
      obtain ⟨j, a, b, hj, ha, hb, rfl⟩ := mem_take_map_pairs hx
      have := hm j a b (by omega) ha hb
      exact max_eq_left (by simpa using this.le)
  rw [a2, add_zero] at h
  exact (h.1 a1.ne').congr (by field_simp)

/-- C29: while the series has only fallen up to bar `i`, `rsi` is 0. -/
theorem rsi_only_losses (data : List XF) (w : ℕ) (hw : 1 ≤ w) (hn : w + 1 ≤ data.length) (hd : Fins data) :
    ReportsP data.length w (fun i y => (∀ (j : ℕ) a b, j < i → (vals data)[j]? = some a → (vals data)[j + 1]? = some b → b < a) → y ⇓ 0)
      (rsi data w) := by
  refine (rsi_reports data w hw hn hd).mono fun i y h1 h2 h hm => ?_
  have a1 := wilderOf_pos (l := falls (vals data)) (i := i - 1) hw (by omega)
    (by rw [falls_length, vals_length]; omega) fun x hx => by
      obtain ⟨j, a, b, hj, ha, hb, rfl⟩ := mem_take_map_pairs hx
      have := hm j a b (by omega) ha hb
      exact lt_max_of_lt_right (by simpa using this)
  have a2 := wilderOf_zero (l := rises (vals data)) (i := i - 1) hw (by omega)
    (by rw [rises_length, vals_length]; omega) fun x hx => by
      obtain ⟨j, a, b, hj, ha, hb, rfl⟩ := mem_take_map_pairs hx
      have := hm j a b (by omega) ha hb
      exact max_eq_left (by simpa using this.le)
  rw [a2, zero_add] at h
  exact (h.1 a1.ne').congr (by simp)

/-- C29: while the series has not moved, `rsi` is NaN. -/
theorem rsi_flat (data : List XF) (w : ℕ) (hw : 1 ≤ w) (hn : w + 1 ≤ data.length) (hd : Fins data) :
    ReportsP data.length w (fun i y => Flat ((vals data).take (i + 1)) → y = FP.nan) (rsi data w) := by
  refine (rsi_reports data w hw hn hd).mono fun i y h1 h2 h hm => ?_
  have hz : ∀ (j : ℕ) a b, j < i → (vals data)[j]? = some a → (vals data)[j + 1]? = some b → a = b := fun j a b hj ha hb =>
    hm a (Smooth.mem_take_of_getElem? ha (by omega)) b (Smooth.mem_take_of_getElem? hb (by omega))
  have a1 := wilderOf_zero (l := falls (vals data)) (i := i - 1) hw (by omega)
    (by rw [falls_length, vals_length]; omega) fun x hx => by
      obtain ⟨j, a, b, hj, ha, hb, rfl⟩ := mem_take_map_pairs hx
      rw [hz j a b (by omega) ha hb]; simp
  have a2 := wilderOf_zero (l := rises (vals data)) (i := i - 1) hw (by omega)
    (by rw [rises_length, vals_length]; omega) fun x hx => by
      obtain ⟨j, a, b, hj, ha, hb, rfl⟩ := mem_take_map_pairs hx
      rw [hz j a b (by omega) ha hb]; simp
  rw [a1, a2] at h
  exact h.2.1 (by simp) (by simp)

/-- Rises only: 100 at bars 2 and 3. -/
example : ∃ out a b, rsi ([1, 2, 4, 7].map (fin : ℝ → XF)) 2 = some out ∧ out[2]? = some a ∧ out[3]? = some b ∧ a ⇓ 100 ∧ b ⇓ 100 := by
  obtain ⟨out, e, hl, -, h⟩ := rsi_only_gains ([1, 2, 4, 7].map (fin : ℝ → XF)) 2 (by decide) (by simp) (fins_map_fin _)
  have hm : ∀ (j : ℕ) (a b : ℝ), j < 3 → ([1, 2, 4, 7] : List ℝ)[j]? = some a → ([1, 2, 4, 7] : List ℝ)[j + 1]? = some b → a < b := by
    intro j a b hj ha hb
    rcases (show j = 0 ∨ j = 1 ∨ j = 2 by omega) with rfl | rfl | rfl <;> simp at ha hb <;> subst ha hb <;> norm_num
  rw [vals_map_fin] at h
  obtain ⟨a, ea, ha⟩ := h 2 (by decide) (by simp)
  obtain ⟨b, eb, hb⟩ := h 3 (by decide) (by simp)
  exact ⟨out, a, b, e, ea, eb, ha fun j a b hj => hm j a b (by omega), hb fun j a b hj => hm j a b (by omega)⟩

/-! ## cmo -/

/-- C31: `cmo` at bar `i ≥ w` is `100 * (rises - falls) / (rises + falls)` over the last `w` changes, NaN if there was none;
so it is NaN or between −100 and 100. -/
theorem cmo_reports (data : List XF) (w : ℕ) (hn : w ≤ data.length) (h1 : 1 ≤ data.length) (hd : Fins data) :
    ReportsP data.length w (fun i y =>
      let up := (rises (recent (vals data) (w + 1) i)).sum
      let down := (falls (recent (vals data) (w + 1) i)).sum
      (up + down ≠ 0 → y ⇓ (up - down) / (up + down) * 100) ∧ (up + down = 0 → y = FP.nan)) (cmo data w) := by
  obtain ⟨c, ec, lc⟩ := Smooth.cmoRaw_length data w
  run_model [cmo, ec]
  refine ⟨_, rfl, by simp [lc]; omega, fun i hi _ => ?_, fun i hi hin => ?_⟩
  · rw [List.getElem?_append_left (by simpa using hi), nans, List.getElem?_replicate, if_pos hi]
  obtain ⟨a, b, e, ha, hb⟩ := Smooth.cmoRaw_is data w hd h1 c ec (i - w) (by omega)
  rw [show i - w + w = i by omega] at ha hb
  refine ⟨a / b * 100, by rw [List.getElem?_append_right (by simpa using hi), nans_length, List.getElem?_map, e]; rfl, ?_⟩
  have hu := gainsOf_nonneg (recent (vals data) (w + 1) i)
  have hl := lossesOf_nonneg (recent (vals data) (w + 1) i)
  have q := quotIs ha hb
  refine ⟨fun h => is_mul (q.1 h) (is_lit 100), fun h => ?_⟩
  have h' : gainsOf (recent (vals data) (w + 1) i) + lossesOf (recent (vals data) (w + 1) i) = 0 := h
  have := q.2.1 h (by linarith)
  rw [this]; rfl

theorem signed_share {g l : ℝ} (hg : 0 ≤ g) (hl : 0 ≤ l) (h : g + l ≠ 0) : -1 ≤ (g - l) / (g + l) ∧ (g - l) / (g + l) ≤ 1 := by
  have hp : 0 < g + l := lt_of_le_of_ne (by linarith) (Ne.symm h)
  constructor
  · rw [le_div_iff₀ hp]; linarith
  · rw [div_le_iff₀ hp]; linarith

/-- C31: `cmo` is NaN or between −100 and 100. -/
theorem cmo_range (data : List XF) (w : ℕ) (hn : w ≤ data.length) (h1 : 1 ≤ data.length) (hd : Fins data) :
    ReportsP data.length w (fun _ y => InRange (-100) 100 y) (cmo data w) := by
  refine (cmo_reports data w hn h1 hd).mono fun i y _ _ h => ?_
  obtain ⟨ha, hb⟩ := h
  by_cases h0 : (rises (recent (vals data) (w + 1) i)).sum + (falls (recent (vals data) (w + 1) i)).sum = 0
  · exact Or.inl (hb h0)
  · have hg : 0 ≤ (rises (recent (vals data) (w + 1) i)).sum := gainsOf_nonneg _
    have hl : 0 ≤ (falls (recent (vals data) (w + 1) i)).sum := lossesOf_nonneg _
    have := signed_share hg hl h0
    refine Or.inr ⟨_, ha h0, ?_, ?_⟩
    · linarith [this.1]
    · linarith [this.2]

/-- Rises 2 and 3, one fall of 1: (5 - 1) / 6. -/
example : ∃ out y, cmo ([1, 3, 2, 5].map (fin : ℝ → XF)) 3 = some out ∧ out[3]? = some y ∧ y ⇓ 200 / 3 := by
  obtain ⟨out, e, -, -, h⟩ := cmo_reports ([1, 3, 2, 5].map (fin : ℝ → XF)) 3 (by simp) (by simp) (fins_map_fin _)
  obtain ⟨y, ey, hy⟩ := h 3 (by decide) (by simp)
  refine ⟨out, y, e, ey, (hy.1 ?_).congr ?_⟩ <;> rw [vals_map_fin] <;> simp [recent, rises, falls, pairs] <;> norm_num

/-! ## tsi -/

/-- C31: `tsi` is NaN for `long + short - 1` bars and then 100 times the quotient of the doubly averaged changes and the
doubly averaged absolute changes. -/
theorem tsi_reports (data : List XF) (short long : ℕ) (hs : 1 ≤ short) (hl : 1 ≤ long) (hn : long + short ≤ data.length)
    (hd : Fins data) :
    ReportsP data.length (long + short - 1) (fun i y =>
      QuotIs (100 * ewmaOf short (ewmaSeries long (changes (vals data))) (i - long))
        (ewmaOf short (ewmaSeries long ((changes (vals data)).map fun x => |x|)) (i - long)) y) (tsi data short long) := by
  obtain ⟨f1, e1⟩ := map_pairs_is (f := fun p : XF × XF => p.2 - p.1) (g := fun p => p.2 - p.1) hd fun p h1 h2 => is_sub h2.is h1.is
  have f2 : Fins (((pairs data).map fun p : XF × XF => p.2 - p.1).map fabs) := fun x hx => by
    obtain ⟨y, hy, rfl⟩ := List.mem_map.1 hx
    exact (is_abs (f1 y hy).is).1
  have e2 : vals (((pairs data).map fun p : XF × XF => p.2 - p.1).map fabs) = (changes (vals data)).map fun x => |x| := by
    rw [changes, ← e1]
    generalize (pairs data).map (fun p : XF × XF => p.2 - p.1) = d at f1
    rw [vals, vals, List.map_map, List.map_map]
    refine List.map_congr_left fun y hy => ?_
    exact (is_abs (f1 y hy).is).2
  have ln : ((pairs data).map fun p : XF × XF => p.2 - p.1).length = data.length - 1 := by simp
  obtain ⟨o1, q1, d1, v1⟩ := ewma_drop _ long hl (by rw [ln]; omega) f1
  obtain ⟨o2, q2, d2, v2⟩ := ewma_drop _ long hl (by simp; omega) f2
  have l1 : (o1.drop (long - 1)).length = data.length - long := by
    rw [← vals_length, v1]; simp [ewmaSeries, vals]; omega
  have l2 : (o2.drop (long - 1)).length = data.length - long := by
    rw [← vals_length, v2]; simp [ewmaSeries, vals]; omega
  obtain ⟨o3, q3, r3, -⟩ := (ewma_is _ short hs (by rw [l1]; omega) d1).some
  obtain ⟨o4, q4, r4, -⟩ := (ewma_is _ short hs (by rw [l2]; omega) d2).some
  rw [v1, e1, l1] at r3
  rw [v2, e2, l2] at r4
  have hu : usub long 1 = some (long - 1) := by simp [usub, hl]
  simp only [tsi, hu, q1, q2, q3, q4, Option.bind_eq_bind, Option.bind_some]
  exact ((Reports.zipP (f := fun p : XF × XF => 100 * p.1 / p.2) r3 r4 (fun x y hx => by nanp)
    fun i x y hi hin hx hy => quotIs (is_mul (is_lit 100) hx) hy).pad long).cast (by omega) (by omega)

/-- C31: `tsi` is NaN or between −100 and 100. -/
theorem tsi_range (data : List XF) (short long : ℕ) (hs : 1 ≤ short) (hl : 1 ≤ long) (hn : long + short ≤ data.length)
    (hd : Fins data) : ReportsP data.length (long + short - 1) (fun _ y => InRange (-100) 100 y) (tsi data short long) := by
  refine (tsi_reports data short long hs hl hn hd).mono fun i y _ _ h => ?_
  have key : |ewmaOf short (ewmaSeries long (changes (vals data))) (i - long)| ≤
      ewmaOf short (ewmaSeries long ((changes (vals data)).map fun x => |x|)) (i - long) := by
    refine abs_ewmaOf_le hs ?_ _
    have h1 : List.Forall₂ (fun a b => |a| ≤ b) (changes (vals data)) ((changes (vals data)).map fun x => |x|) := by
      rw [List.forall₂_map_right_iff]
      exact List.forall₂_same.2 fun x _ => le_rfl
    rw [ewmaSeries, ewmaSeries, List.length_map, List.forall₂_map_right_iff, List.forall₂_map_left_iff]
    exact List.forall₂_same.2 fun j _ => abs_ewmaOf_le hl h1 _
  generalize ewmaOf short (ewmaSeries long (changes (vals data))) (i - long) = a at h key
  generalize ewmaOf short (ewmaSeries long ((changes (vals data)).map fun x => |x|)) (i - long) = b at h key
  refine h.inRange (fun hb => ?_) fun hb => ?_
  · rw [hb, abs_nonpos_iff] at key
    rw [key, mul_zero]
  · have hp : 0 < b := lt_of_le_of_ne ((abs_nonneg _).trans key) (Ne.symm hb)
    obtain ⟨k1, k2⟩ := abs_le.1 key
    constructor
    · rw [le_div_iff₀ hp]; linarith
    · rw [div_le_iff₀ hp]; linarith

/-- The hypotheses are met by any six finite prices with windows 2 and 3. -/
example (a b c d e f : ℝ) : ReportsP 6 4 (fun _ y => InRange (-100) 100 y) (tsi ([a, b, c, d, e, f].map (fin : ℝ → XF)) 2 3) :=
  tsi_range ([a, b, c, d, e, f].map (fin : ℝ → XF)) 2 3 (by decide) (by decide) (by simp) (fins_map_fin _)

end Traquer.Momentum
