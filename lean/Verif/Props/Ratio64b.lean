import Verif.Props.Ratio64
import Verif.Props.MomentumFormulas2
import Verif.Props.TrendFormulas
import Verif.Props.Percent

/-! C89, continued: `ultimate`, `vortex` and `roc` in binary64. -/

namespace Traquer
open FP FloatLit

/-- A quote, as used by `rel_diff`. -/
abbrev Quote (x : F64) (a : ℝ) : Prop := (x ⇓ a) ∧ Stored x ∧ |a| ≤ 2 ^ 900

theorem Quote.fmin {x y : F64} {a b : ℝ} (hx : Quote x a) (hy : Quote y b) : Quote (fmin x y) (min a b) := by
  have i := is_fmin hx.1 hy.1
  rcases min_choice a b with h | h
  · rw [h] at i ⊢
    exact ⟨i, fun r hr => by rw [hr.unique i]; exact hx.2.1 _ hx.1, hx.2.2⟩
  · rw [h] at i ⊢
    exact ⟨i, fun r hr => by rw [hr.unique i]; exact hy.2.1 _ hy.1, hy.2.2⟩

theorem Quote.fmax {x y : F64} {a b : ℝ} (hx : Quote x a) (hy : Quote y b) : Quote (fmax x y) (max a b) := by
  have i := is_fmax hx.1 hy.1
  rcases max_choice a b with h | h
  · rw [h] at i ⊢
    exact ⟨i, fun r hr => by rw [hr.unique i]; exact hx.2.1 _ hx.1, hx.2.2⟩
  · rw [h] at i ⊢
    exact ⟨i, fun r hr => by rw [hr.unique i]; exact hy.2.1 _ hy.1, hy.2.2⟩

/-- The larger of two approximate numbers that are not negative. -/
theorem Rel.fmax {x y : F64} {a b : ℝ} {k : ℕ} (hx : Rel x a k) (hy : Rel y b k) (ha : 0 ≤ a) (hb : 0 ≤ b) : Rel (Traquer.fmax x y) (max a b) k := by
  obtain ⟨t, hx, t1, t2, sx⟩ := hx
  obtain ⟨s, hy, s1, s2, sy⟩ := hy
  have i := is_fmax hx hy
  have o := off_pos k
  have oi := inv_pos.2 o
  have m0 : 0 ≤ max a b := le_max_of_le_left ha
  rcases m0.eq_or_lt with h0 | h0
  · have ea : a = 0 := le_antisymm ((le_max_left a b).trans h0.ge) ha
    have eb : b = 0 := le_antisymm ((le_max_right a b).trans h0.ge) hb
    exact ⟨t, i.congr (by simp [ea, eb]), t1, t2, stored_fmax sx sy⟩
  · refine ⟨max (a * t) (b * s) / max a b, i.congr (by field_simp), ?_, ?_, stored_fmax sx sy⟩
    · rw [le_div_iff₀ h0]
      rcases max_choice a b with h | h <;> rw [h]
      · exact le_max_of_le_left (by rw [mul_comm]; exact mul_le_mul_of_nonneg_left t1 ha)
      · exact le_max_of_le_right (by rw [mul_comm]; exact mul_le_mul_of_nonneg_left s1 hb)
    · rw [div_le_iff₀ h0, mul_comm (off k)]
      refine max_le ?_ ?_
      · exact mul_le_mul (le_max_left _ _) t2 (oi.le.trans t1) m0
      · exact mul_le_mul (le_max_right _ _) s2 (oi.le.trans s1) m0

/-- The share of one sum of distances in another. -/
theorem sums_share {v v' : List F64} {r r' : List ℝ} {w : ℕ} (h : List.Forall₂ (fun x a => Rel x a 1 ∧ 0 ≤ a ∧ a ≤ 2 ^ 968) v r)
    (h' : List.Forall₂ (fun x a => Rel x a 1 ∧ 0 ≤ a ∧ a ≤ 2 ^ 968) v' r') (hl : v.length = w) (hl' : v'.length = w) (hw : w < 2 ^ 32)
    (hle : r.sum ≤ r'.sum) (h0 : r'.sum ≠ 0) : Nearly 1 (fsum v / fsum v') (r.sum / r'.sum) 1 (4 * w + 7) := by
  obtain ⟨a1, a2⟩ := rel_sum h hl (by omega)
  obtain ⟨b1, b2⟩ := rel_sum h' hl' (by omega)
  have bp : 0 < r'.sum := lt_of_le_of_ne b2 (Ne.symm h0)
  have := a1.share b1 h0 (by rw [abs_of_nonneg (div_nonneg a2 b2), div_le_one bp]; exact hle) (by omega)
  refine this.mono sized_one le_rfl (le_of_eq ?_)
  push_cast
  ring

theorem lastOf_sum_le {f g : ℕ → ℝ} {w i n : ℕ} (h : ∀ j, 1 ≤ j → j < n → f j ≤ g j) (h1 : w ≤ i) (h2 : i < n) :
    (lastOf f w i).sum ≤ (lastOf g w i).sum := by
  unfold lastOf
  refine List.sum_le_sum fun j hj => ?_
  have := List.mem_range.1 hj
  exact h _ (by omega) (by omega)

end Traquer

namespace Traquer.Momentum
open FP FloatLit

/-- C89: `ultimate`, within `229 w1 + 115 w2 + 58 w3 + 1300` units of `2^-53`. -/
theorem ultimate_accurate (high low close : List F64) (w1 w2 w3 : ℕ)
    (h1 : w1 ≤ w3) (h2 : w2 ≤ w3) (hw : 1 ≤ w3) (h32 : w3 < 2 ^ 32) (hn : w3 ≤ high.length) (qh : Quotes high) (ql : Quotes low) (qc : Quotes close)
    (hs : SaneBars (vals high) (vals low) (vals close))
    (h0 : ∀ w ∈ [w1, w2, w3], ∀ i, w3 ≤ i → i < high.length → (lastOf (trueSpan (vals high) (vals low) (vals close)) w i).sum ≠ 0) :
    ReportsP high.length w3 (fun i y =>
      let share := fun w => (lastOf (buyingAt (vals low) (vals close)) w i).sum / (lastOf (trueSpan (vals high) (vals low) (vals close)) w i).sum
      Approx y (100 * (4 * share w1 + 2 * share w2 + share w3) / 7) ((229 * w1 + 115 * w2 + 58 * w3 + 1300) * unit64))
      (ultimate high low close w1 w2 w3) := by
  have hl : low.length = high.length := by simpa [vals] using hs.low_length
  have hc : close.length = high.length := by simpa [vals] using hs.close_length
  have hv : bpTr high low close = some ((zip4 (high.drop 1) (low.drop 1) (close.take (close.length - 1)) (close.drop 1)).map
      fun (h, l, prevc, c) => (c - fmin l prevc, fmax h prevc - fmin l prevc)) := by
    run_model [bpTr]
  set v : List (F64 × F64) := (zip4 (high.drop 1) (low.drop 1) (close.take (close.length - 1)) (close.drop 1)).map
      fun (h, l, prevc, c) => (c - fmin l prevc, fmax h prevc - fmin l prevc) with ev
  have lv : v.length = high.length - 1 := by simp [ev]; omega
  have sane : ∀ i, 1 ≤ i → i < high.length → bar (vals low) i ≤ bar (vals close) i ∧ bar (vals close) i ≤ bar (vals high) i := by
    intro i _ hi
    have e1 := getElem?_of_lt (show i < (vals low).length by rw [vals_length]; omega)
    have e2 := getElem?_of_lt (show i < (vals close).length by rw [vals_length]; omega)
    have e3 := getElem?_of_lt (show i < (vals high).length by rw [vals_length]; omega)
    simp only [bar, List.getD_eq_getElem?_getD, e1, e2, e3, Option.getD_some]
    exact ⟨hs.low_le i _ _ e1 e2, hs.le_high i _ _ e2 e3⟩
  have order : ∀ i, 1 ≤ i → i < high.length → 0 ≤ buyingAt (vals low) (vals close) i ∧
      buyingAt (vals low) (vals close) i ≤ trueSpan (vals high) (vals low) (vals close) i := by
    intro i h1 h2
    obtain ⟨a, b⟩ := sane i h1 h2
    have m1 := min_le_left (bar (vals low) i) (bar (vals close) (i - 1))
    have m2 := le_max_left (bar (vals high) i) (bar (vals close) (i - 1))
    simp only [buyingAt, trueSpan]
    constructor <;> linarith
  have el : ∀ i p, v[i]? = some p → (Rel p.1 (buyingAt (vals low) (vals close) (1 + i)) 1 ∧ 0 ≤ buyingAt (vals low) (vals close) (1 + i) ∧
      buyingAt (vals low) (vals close) (1 + i) ≤ 2 ^ 968) ∧ (Rel p.2 (trueSpan (vals high) (vals low) (vals close) (1 + i)) 1 ∧
      0 ≤ trueSpan (vals high) (vals low) (vals close) (1 + i) ∧ trueSpan (vals high) (vals low) (vals close) (1 + i) ≤ 2 ^ 968) := by
    intro i p e
    rw [ev, List.getElem?_map] at e
    obtain ⟨⟨h, l, pc, c⟩, e', rfl⟩ := Option.map_eq_some_iff.1 e
    obtain ⟨e1, e2, e3, e4⟩ := zip4_getElem?.1 e'
    have hi := (List.getElem?_eq_some_iff.1 e4).1
    rw [List.length_drop] at hi
    rw [List.getElem?_take_of_lt (by omega)] at e3
    rw [List.getElem?_drop] at e1 e2 e4
    obtain ⟨o1, o2⟩ := order (1 + i) (by omega) (by omega)
    have b := rel_diff (qc.bar e4) (Quote.fmin (ql.bar e2) (qc.bar e3))
    have t := rel_diff (Quote.fmax (qh.bar e1) (qc.bar e3)) (Quote.fmin (ql.bar e2) (qc.bar e3))
    have p : (2 : ℝ) ^ 901 ≤ 2 ^ 968 := pow_le_pow_right₀ (by norm_num) (by norm_num)
    rw [buyingAt, trueSpan, show 1 + i - 1 = i by omega] at *
    exact ⟨⟨b.1, o1, (le_abs_self _).trans (b.2.trans p)⟩, ⟨t.1, o1.trans o2, (le_abs_self _).trans (t.2.trans p)⟩⟩
  have part : ∀ {f : F64 × F64 → F64} {u : ℕ → ℝ}, (∀ i p, v[i]? = some p → Rel (f p) (u (1 + i)) 1 ∧ 0 ≤ u (1 + i) ∧ u (1 + i) ≤ 2 ^ 968) →
      ∀ w, w ≤ w3 → ∀ i, i + w3 ≤ v.length →
      List.Forall₂ (fun x a => Rel x a 1 ∧ 0 ≤ a ∧ a ≤ 2 ^ 968) (((recent v w3 (i + w3 - 1)).drop (w3 - w)).map f) (lastOf u w (i + w3)) ∧
      (((recent v w3 (i + w3 - 1)).drop (w3 - w)).map f).length = w := by
    intro f u hu w hw' i hi
    have hlen : (((recent v w3 (i + w3 - 1)).drop (w3 - w)).map f).length = w := by
      rw [List.length_map, List.length_drop, recent_length (by omega) (by omega)]; omega
    refine ⟨?_, hlen⟩
    rw [List.forall₂_iff_get]
    refine ⟨by rw [hlen]; simp [lastOf], fun j g1 g2 => ?_⟩
    have e : ((recent v w3 (i + w3 - 1)).drop (w3 - w))[j]? = v[i + w3 - w + j]? := by
      rw [List.getElem?_drop, recent, List.getElem?_take_of_lt (by omega), List.getElem?_drop]; congr 1; omega
    have e2 := getElem?_of_lt (show i + w3 - w + j < v.length by omega)
    have := hu _ _ e2
    rw [e2] at e
    simp only [List.get_eq_getElem, lastOf, List.getElem_map, List.getElem_range]
    have g : ((recent v w3 (i + w3 - 1)).drop (w3 - w))[j]'(by simpa using g1) = v[i + w3 - w + j]'(by omega) := by
      rw [List.getElem?_eq_getElem (by simpa using g1)] at e
      exact Option.some.inj e
    rw [g, show i + w3 + 1 - w + j = 1 + (i + w3 - w + j) by omega]
    exact this
  have share : ∀ w ∈ [w1, w2, w3], w ≤ w3 → ∀ i, i + w3 ≤ v.length →
      Nearly 1 (fsum (((recent v w3 (i + w3 - 1)).drop (w3 - w)).map Prod.fst) / fsum (((recent v w3 (i + w3 - 1)).drop (w3 - w)).map Prod.snd))
        ((lastOf (buyingAt (vals low) (vals close)) w (i + w3)).sum / (lastOf (trueSpan (vals high) (vals low) (vals close)) w (i + w3)).sum) 1 (4 * w + 7) := by
    intro w hm hw' i hi
    obtain ⟨a1, a2⟩ := part (f := Prod.fst) (fun i p hp => (el i p hp).1) w hw' i hi
    obtain ⟨b1, b2⟩ := part (f := Prod.snd) (fun i p hp => (el i p hp).2) w hw' i hi
    exact sums_share a1 b1 a2 b2 (by omega) (lastOf_sum_le (fun j g1 g2 => (order j g1 g2).2) (by omega) (by omega)) (h0 w hm _ (by omega) (by omega))
  run_model [ultimate, hv]
  have mem : ∀ i w, (windowsOf w3 v)[i]? = some w → w = recent v w3 (i + w3 - 1) ∧ i + w3 ≤ v.length := fun i w h => windowsOf_at hw h
  rw [mapP_eq_map (g := fun w => 100 * ((sumPair (w.drop (w3 - w1))).1 / (sumPair (w.drop (w3 - w1))).2 * 4 +
    (sumPair (w.drop (w3 - w2))).1 / (sumPair (w.drop (w3 - w2))).2 * 2 + (sumPair w).1 / (sumPair w).2) / (4 + 2 + 1 : F64)) fun w _ => rfl]
  simp only [Option.bind_some]
  refine reportsP_front (by simp; omega) fun i y hy => ?_
  rw [List.getElem?_map] at hy
  obtain ⟨w, e, rfl⟩ := Option.map_eq_some_iff.1 hy
  obtain ⟨rfl, hi⟩ := mem i w e
  have s1 := share w1 (by simp) h1 i hi
  have s2 := share w2 (by simp) h2 i hi
  have s3 := share w3 (by simp) le_rfl i hi
  rw [Nat.sub_self, List.drop_zero] at s3
  simp only [sumPair_fst]
  rw [Nat.add_comm w3 i]
  have c1 : (w1 : ℝ) < 2 ^ 32 := by exact_mod_cast (by omega : w1 < 2 ^ 32)
  have c2 : (w2 : ℝ) < 2 ^ 32 := by exact_mod_cast (by omega : w2 < 2 ^ 32)
  have c3 : (w3 : ℝ) < 2 ^ 32 := by exact_mod_cast (by omega : w3 < 2 ^ 32)
  have four : (4 : F64) ⇓ 4 := isLit 4 (by norm_num)
  have two : (2 : F64) ⇓ 2 := isLit 2 (by norm_num)
  have hund : (100 : F64) ⇓ 100 := isLit 100 (by norm_num)
  have seven : (4 + 2 + 1 : F64) ⇓ 7 := by
    have e6 : (4 + 2 : F64) ⇓ ((6 : ℕ) : ℝ) := Distribution.rounds_nat (rounds_add four two) (by norm_num) (by norm_num)
    exact (Distribution.rounds_nat (n := 7) (rounds_add e6 isOne) (by norm_num) (by norm_num)).congr (by norm_num)
  have p1 := (s1.mulr sized_one four (by norm_num; linarith) (by norm_num)).mono sized_one (c' := 4) (k' := 16 * w1 + 34) (by norm_num) (by norm_num; linarith)
  have p2 := (s2.mulr sized_one two (by norm_num; linarith) (by norm_num)).mono sized_one (c' := 2) (k' := 8 * w2 + 18) (by norm_num) (by norm_num; linarith)
  have p3 := ((p1.add sized_one p2 (by linarith) (by norm_num)).add sized_one s3 (by linarith) (by norm_num)).mono sized_one
    (c' := 7) (k' := 16 * w1 + 8 * w2 + 4 * w3 + 76) (by norm_num) (by linarith)
  have p4 := (p3.smul sized_one hund (by norm_num; linarith) (by norm_num)).mono sized_one (c' := 700)
    (k' := 1600 * w1 + 800 * w2 + 400 * w3 + 8302) (by norm_num) (by norm_num; linarith)
  have p5 := p4.div sized_one seven (by norm_num) (by rw [div_le_iff₀ (by norm_num)]; linarith) (by norm_num)
  have p6 := p5.approx.mono (e' := (229 * w1 + 115 * w2 + 58 * w3 + 1300) * unit64) (by
    rw [mul_one]
    refine mul_le_mul_of_nonneg_right ?_ unit64_pos.le
    have : (0 : ℝ) ≤ w1 := by positivity
    have : (0 : ℝ) ≤ w2 := by positivity
    have : (0 : ℝ) ≤ w3 := by positivity
    linarith)
  obtain ⟨r, hr, er⟩ := p6
  refine ⟨r, hr, le_of_eq_of_le ?_ er⟩
  congr 2
  ring

end Traquer.Momentum

namespace Traquer
open FP FloatLit

theorem SaneBars.at {high low close : List ℝ} (hs : SaneBars high low close) {i : ℕ} (hi : i < high.length) :
    bar low i ≤ bar close i ∧ bar close i ≤ bar high i := by
  have e1 := getElem?_of_lt (show i < low.length by rw [hs.low_length]; omega)
  have e2 := getElem?_of_lt (show i < close.length by rw [hs.close_length]; omega)
  have e3 := getElem?_of_lt hi
  simp only [bar, List.getD_eq_getElem?_getD, e1, e2, e3, Option.getD_some]
  exact ⟨hs.low_le i _ _ e1 e2, hs.le_high i _ _ e2 e3⟩

/-- A sum of distances that starts with the first of them. -/
theorem rel_reduce {x : F64} {v : List F64} {r : List ℝ} {k w : ℕ}
    (h : List.Forall₂ (fun x a => Rel x a k ∧ 0 ≤ a ∧ a ≤ 2 ^ 968) (x :: v) r) (hl : v.length + 1 = w)
    (hk : k + w ≤ 2 ^ 50) : Rel (v.foldl (· + ·) x) r.sum (k + w) ∧ 0 ≤ r.sum := by
  obtain ⟨-, h0⟩ := rel_sum h (by simpa using hl) hk
  refine ⟨?_, h0⟩
  obtain ⟨a, r', hx, hv, rfl⟩ := List.forall₂_cons_left_iff.1 h
  have hm : ∀ b ∈ a :: r', 0 ≤ b ∧ b ≤ 2 ^ 968 := fun b hb => by
    obtain ⟨i, hi⟩ := List.mem_iff_getElem?.1 hb
    obtain ⟨hlt, e⟩ := (List.getElem?_eq_some_iff.1 hi)
    have := (List.forall₂_iff_get.1 h).2 i (by rw [h.length_eq]; exact hlt) hlt
    simp only [List.get_eq_getElem] at this
    rw [← e]; exact this.2
  have hs : (a :: r').sum ≤ w * 2 ^ 968 := by
    have := List.sum_le_card_nsmul (a :: r') _ fun b hb => (hm b hb).2
    rw [← h.length_eq, List.length_cons, hl] at this
    simpa using this
  have hw : (w : ℝ) ≤ 2 ^ 50 := by exact_mod_cast (by omega : w ≤ 2 ^ 50)
  have := rel_foldl (k := k) (hv.imp fun _ _ p => ⟨p.1, p.2.1⟩) x a 0 hx.1 hx.2.1 (by
    have h1 : ((k + 0 + v.length : ℕ) : ℝ) ≤ 2 ^ 50 := by exact_mod_cast (by omega : k + 0 + v.length ≤ 2 ^ 50)
    have := mul_le_mul_of_nonneg_right h1 unit64_pos.le
    have e := unit64_eq
    linarith) (by
    rw [List.sum_cons] at hs
    refine le_trans ?_ max64_big
    have h2 : (2 : ℝ) * 2 ^ 968 ≤ 2 ^ 970 := by
      rw [← pow_succ']
      exact pow_le_pow_right₀ (by norm_num) (by norm_num)
    calc 2 * (a + r'.sum) ≤ 2 * (w * 2 ^ 968) := mul_le_mul_of_nonneg_left hs (by norm_num)
      _ = w * (2 * 2 ^ 968) := by ring
      _ ≤ 2 ^ 50 * (2 * 2 ^ 968) := mul_le_mul_of_nonneg_right hw (by positivity)
      _ ≤ 2 ^ 50 * 2 ^ 970 := mul_le_mul_of_nonneg_left h2 (by positivity))
  rw [List.sum_cons]
  exact this.mono (by omega)

theorem reduce3_cons {ρ : Rounding} {x : FP ρ × FP ρ × FP ρ} {l : List (FP ρ × FP ρ × FP ρ)} : Trend.reduce3 (x :: l) =
    some ((l.map (·.1)).foldl (· + ·) x.1, (l.map (·.2.1)).foldl (· + ·) x.2.1, (l.map (·.2.2)).foldl (· + ·) x.2.2) := by
  have key : ∀ (l : List (FP ρ × FP ρ × FP ρ)) (x : FP ρ × FP ρ × FP ρ),
      l.foldl (fun acc p => (acc.1 + p.1, acc.2.1 + p.2.1, acc.2.2 + p.2.2)) x =
      ((l.map (·.1)).foldl (· + ·) x.1, (l.map (·.2.1)).foldl (· + ·) x.2.1, (l.map (·.2.2)).foldl (· + ·) x.2.2) := by
    intro l
    induction l with
    | nil => exact fun _ => rfl
    | cons y l ih => exact fun x => ih _
  exact congrArg some (key l x)

end Traquer

namespace Traquer.Trend
open FP FloatLit

/-- C89: both lines of `vortex`, with a relative error of `4 w + 6` units of `2^-53`. -/
theorem vortex_accurate (high low close : List F64) (w : ℕ) (hw : 1 ≤ w) (h32 : w < 2 ^ 32) (hn : w ≤ high.length)
    (qh : Quotes high) (ql : Quotes low) (qc : Quotes close) (hs : SaneBars (vals high) (vals low) (vals close)) : Items high.length w (fun i y =>
      let plus := (lastOf (vmPlus (vals high) (vals low)) w i).sum
      let minus := (lastOf (vmMinus (vals high) (vals low)) w i).sum
      let range := (lastOf (trAt (vals high) (vals low) (vals close)) w i).sum
      range ≠ 0 → |plus / range| ≤ 2 ^ 900 → |minus / range| ≤ 2 ^ 900 →
        Approx y.1 (plus / range) ((4 * w + 6) * unit64 * |plus / range| + 2⁻¹ ^ 1075) ∧
        Approx y.2 (minus / range) ((4 * w + 6) * unit64 * |minus / range| + 2⁻¹ ^ 1075)) (vortex high low close w) := by
  have hl : low.length = high.length := by simpa [vals] using hs.low_length
  have hc : close.length = high.length := by simpa [vals] using hs.close_length
  obtain ⟨v, ev, lv⟩ := dmBars_yields high low close hl hc (by omega)
  have p : (2 : ℝ) ^ 901 ≤ 2 ^ 968 := pow_le_pow_right₀ (by norm_num) (by norm_num)
  have el : ∀ i b, v[i]? = some b →
      (Rel (vortexTerm b).1 (vmPlus (vals high) (vals low) (1 + i)) 1 ∧ 0 ≤ vmPlus (vals high) (vals low) (1 + i) ∧ vmPlus (vals high) (vals low) (1 + i) ≤ 2 ^ 968) ∧
      (Rel (vortexTerm b).2.1 (vmMinus (vals high) (vals low) (1 + i)) 1 ∧ 0 ≤ vmMinus (vals high) (vals low) (1 + i) ∧ vmMinus (vals high) (vals low) (1 + i) ≤ 2 ^ 968) ∧
      (Rel (vortexTerm b).2.2 (trAt (vals high) (vals low) (vals close) (1 + i)) 1 ∧ 0 ≤ trAt (vals high) (vals low) (vals close) (1 + i) ∧
        trAt (vals high) (vals low) (vals close) (1 + i) ≤ 2 ^ 968) := by
    run_at ev [dmBars]
    cases ev
    rintro i ⟨ph, h, pl, l, pc⟩ hb
    have hi := (List.getElem?_eq_some_iff.1 hb).1
    simp [hl, hc] at hi
    rw [zip5_getElem?] at hb
    obtain ⟨e1, e2, e3, e4, e5⟩ := hb
    rw [List.getElem?_take_of_lt (by omega)] at e1 e3 e5
    rw [List.getElem?_drop] at e2 e4
    have b1 := qh.bar e1
    have b2 := qh.bar e2
    have b3 := ql.bar e3
    have b4 := ql.bar e4
    have b5 := qc.bar e5
    have o := hs.at (i := 1 + i) (by rw [vals_length]; omega)
    have o' : 0 ≤ bar (vals high) (1 + i) - bar (vals low) (1 + i) := by linarith [o.1, o.2]
    rw [vmPlus, vmMinus, trAt, trueRangeOf, show 1 + i - 1 = i by omega]
    have d1 := rel_diff b2 b3
    have d2 := rel_diff b4 b1
    have d3 := rel_diff b2 b4
    have d4 := rel_diff b2 b5
    have d5 := rel_diff b4 b5
    refine ⟨⟨d1.1.abs, abs_nonneg _, d1.2.trans p⟩, ⟨d2.1.abs, abs_nonneg _, d2.2.trans p⟩, ?_, le_max_of_le_left o', ?_⟩
    · have := (d3.1.fmax d4.1.abs o' (abs_nonneg _)).fmax d5.1.abs (le_max_of_le_left o') (abs_nonneg _)
      rwa [max_assoc] at this
    · exact max_le ((le_abs_self _).trans (d3.2.trans p)) (max_le (d4.2.trans p) (d5.2.trans p))
  set z := v.map vortexTerm with hz
  have lz : z.length = high.length - 1 := by simp [hz, lv]
  have win : ∀ (g : F64 × F64 × F64 → F64) (f : ℕ → ℝ), (∀ i b, v[i]? = some b → Rel (g (vortexTerm b)) (f (1 + i)) 1 ∧ 0 ≤ f (1 + i) ∧ f (1 + i) ≤ 2 ^ 968) →
      ∀ i, i + w ≤ z.length → List.Forall₂ (fun x a => Rel x a 1 ∧ 0 ≤ a ∧ a ≤ 2 ^ 968) ((recent z w (i + w - 1)).map g) (lastOf f w (w + i)) := by
    intro g f hg i hi
    rw [List.forall₂_iff_get]
    have hlen := recent_length (l := z) (w := w) (i := i + w - 1) (by omega) (by omega)
    refine ⟨by rw [List.length_map, hlen]; simp [lastOf], fun j g1 g2 => ?_⟩
    rw [List.length_map] at g1
    have g1' : j < w := by rw [← hlen]; exact g1
    have e : (recent z w (i + w - 1))[j]? = z[i + j]? := by
      rw [recent, List.getElem?_take_of_lt (by omega), List.getElem?_drop]; congr 1; omega
    have e2 := getElem?_of_lt (show i + j < v.length by omega)
    have := hg _ _ e2
    rw [hz, List.getElem?_map, e2, ← hz, List.getElem?_eq_getElem g1] at e
    simp only [List.get_eq_getElem, lastOf, List.getElem_map, List.getElem_range]
    rw [Option.some.inj e, show w + i + 1 - w + j = 1 + (i + j) by omega]
    exact this
  run_model [vortex, ev]
  have tot : ∀ x ∈ windowsOf w z, ∃ p n t, reduce3 x = some (p, n, t) := by
    intro x hx
    have := windowsOf_mem_length hx
    cases x with
    | nil => simp at this; omega
    | cons y ys => exact ⟨_, _, _, rfl⟩
  obtain ⟨r, er⟩ := mapP_isSome (f := fun x => (reduce3 x).bind fun p => some (p.1 / p.2.2, p.2.1 / p.2.2)) (l := windowsOf w z) fun x hx => by
    obtain ⟨p, n, t, e⟩ := tot x hx
    simp [e]
  have lr := mapP_length er
  simp only [windowsOf_length] at lr
  erw [er]
  refine items_pad _ (by omega) fun i y hy => ?_
  rw [mapP_getElem? er] at hy
  obtain ⟨x, hx, hy⟩ := Option.bind_eq_some_iff.1 hy
  obtain ⟨rfl, hi⟩ := windowsOf_at hw hx
  have f1 := win (·.1) _ (fun i b hb => (el i b hb).1) i hi
  have f2 := win (·.2.1) _ (fun i b hb => (el i b hb).2.1) i hi
  have f3 := win (·.2.2) _ (fun i b hb => (el i b hb).2.2) i hi
  have hlen := recent_length (l := z) (w := w) (i := i + w - 1) (by omega) (by omega)
  generalize recent z w (i + w - 1) = q at *
  cases q with
  | nil => simp at hlen; omega
  | cons a q =>
    rw [reduce3_cons] at hy
    cases hy
    rw [List.length_cons] at hlen
    have g1 := (rel_reduce f1 (by simpa using hlen) (by omega)).1
    have g2 := (rel_reduce f2 (by simpa using hlen) (by omega)).1
    have g3 := (rel_reduce f3 (by simpa using hlen) (by omega)).1
    intro h0 h1 h2
    have k1 := g1.ratio g3 h0 h1 (by omega)
    have k2 := g2.ratio g3 h0 h2 (by omega)
    refine ⟨k1.mono (le_of_eq ?_), k2.mono (le_of_eq ?_)⟩ <;> push_cast <;> ring

end Traquer.Trend

namespace Traquer.Momentum
open FP FloatLit

/-- C89: `roc`, within 1000 units of `2^-53` of the larger of 1 and the price ratio. -/
theorem roc_accurate (data : List F64) (w : ℕ) (hw : 1 ≤ w) (hn : w ≤ data.length + 1) (qd : Quotes data) :
    ReportsP data.length (w - 1) (fun i y =>
      let ratio := bar (vals data) i / bar (vals data) (i - (w - 1))
      bar (vals data) (i - (w - 1)) ≠ 0 → |ratio| ≤ 2 ^ 800 →
      Approx y (100 * (ratio - 1)) (1000 * unit64 * (|ratio| + 1))) (roc data w) := by
  run_model [roc]
  refine reportsP_mapP_windows hw hn fun i h1 h2 => ?_
  have hl : (recent data w i).length = w := recent_length h1 h2
  have e0 := getElem?_of_lt (show i - (w - 1) < data.length by omega)
  have e1 := getElem?_of_lt h2
  have f0 : (recent data w i)[0]? = some data[i - (w - 1)] := by
    rw [← e0, recent, List.getElem?_take_of_lt (by omega), List.getElem?_drop]; congr 1; omega
  have f1 : (recent data w i)[w - 1]? = some data[i] := by
    rw [← e1, recent, List.getElem?_take_of_lt (by omega), List.getElem?_drop]; congr 1; omega
  refine ⟨_, by rw [hl, f0, f1]; rfl, ?_⟩
  have b1 := qd.bar e1
  have b0 := qd.bar e0
  intro h0 hq
  set ratio := bar (vals data) i / bar (vals data) (i - (w - 1)) with eratio
  set M := |ratio| + 1 with hM
  have a0 := abs_nonneg ratio
  have hS : Sized M := ⟨le_trans (pow_le_one₀ (by norm_num) (by norm_num)) (by linarith : (1 : ℝ) ≤ M), by
    have : (2 : ℝ) ^ 900 = 2 ^ 100 * 2 ^ 800 := by rw [← pow_add]
    rw [this]
    have h1 : (1 : ℝ) ≤ 2 ^ 800 := one_le_pow₀ (by norm_num)
    clear this b0 b1
    generalize (2 : ℝ) ^ 800 = A at *
    norm_num
    linarith⟩
  have q := (Rel.of_is b1.1 b1.2.1).ratio (Rel.of_is b0.1 b0.2.1) h0 (hq.trans (pow_le_pow_right₀ (by norm_num) (by norm_num))) (by norm_num)
  have n1 : Nearly M (data[i] / data[i - (w - 1)]) ratio 1 3 := by
    refine ⟨q.mono ?_, by rw [one_mul]; linarith⟩
    have t := tiny_products
    have u0 := unit64_pos
    have := mul_nonneg u0.le a0
    clear b0 b1 q
    show 2 * (((0 : ℕ) : ℝ) + (0 : ℕ) + 1) * unit64 * |ratio| + 2⁻¹ ^ 1075 ≤ _
    generalize (2⁻¹ ^ 1075 : ℝ) = d at *
    push_cast
    rw [hM]
    linarith
  have n2 : Nearly M (1 : F64) 1 1 0 := Nearly.exact isOne (by rw [one_mul, abs_one]; linarith)
  have n3 := (n1.sub hS n2 (by norm_num) (by norm_num)).smul hS (isLit 100 (by norm_num) : (100 : F64) ⇓ 100) (by norm_num) (by norm_num)
  refine n3.approx.mono ?_
  have := mul_nonneg unit64_pos.le hS.nonneg
  norm_num
  linarith

end Traquer.Momentum
