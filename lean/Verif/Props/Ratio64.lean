import Verif.Lemmas.Relative
import Verif.Lemmas.NearSeries
import Verif.Props.Stochastic
import Verif.Props.VolatilityFormulas
import Verif.Props.Oscillators
import Verif.Props.ErrorComposed
import Verif.Props.OneBar

/-! C89: indicators that divide one price distance by another keep their accuracy at every price level, in binary64. -/

namespace Traquer
open FP FloatLit
open Traquer.Volatility (foldMax foldMin)

/-- Finite binary64 numbers of magnitude at most `2^900`. Nothing is said about how large they are compared with their differences. -/
def Quotes (data : List F64) : Prop := ∀ x ∈ data, x.Finite ∧ Stored x ∧ |x.val| ≤ 2 ^ 900

namespace Quotes
variable {l : List F64} (h : Quotes l)
include h
theorem fins : Fins l := fun x hx => (h x hx).1
theorem recent (w i : ℕ) : Quotes (Traquer.recent l w i) := fun x hx => h x (List.mem_of_mem_drop (List.mem_of_mem_take hx))

theorem of_mem {r : ℝ} (hr : r ∈ vals l) {y : F64} (hy : y ⇓ r) : Stored y ∧ |r| ≤ 2 ^ 900 := by
  obtain ⟨x, hx, rfl⟩ := List.mem_map.1 hr
  obtain ⟨h1, h2, h3⟩ := h x hx
  refine ⟨fun s hs => ?_, h3⟩
  rw [hs.unique hy]
  exact h2 _ h1.is

theorem max (hl : l ≠ []) : (foldMax l ⇓ maxOf (vals l)) ∧ Stored (foldMax l) ∧ |maxOf (vals l)| ≤ 2 ^ 900 := by
  have i := foldMax_is h.fins hl
  exact ⟨i, h.of_mem (maxOf_mem (by simpa [vals] using hl)) i⟩

theorem min (hl : l ≠ []) : (foldMin l ⇓ minOf (vals l)) ∧ Stored (foldMin l) ∧ |minOf (vals l)| ≤ 2 ^ 900 := by
  have i := foldMin_is h.fins hl
  exact ⟨i, h.of_mem (minOf_mem (by simpa [vals] using hl)) i⟩

theorem bar {i : ℕ} {x : F64} (hx : l[i]? = some x) : (x ⇓ Traquer.bar (vals l) i) ∧ Stored x ∧ |Traquer.bar (vals l) i| ≤ 2 ^ 900 := by
  have i1 := bar_is h.fins hx
  refine ⟨i1, h.of_mem (r := Traquer.bar (vals l) i) ?_ i1⟩
  have : Traquer.bar (vals l) i = x.val := by simp [Traquer.bar, vals, hx]
  rw [this]
  exact List.mem_map.2 ⟨x, List.mem_of_getElem? hx, rfl⟩
end Quotes

theorem quote_room {c : ℝ} (hc : c ≤ 2 ^ 62 * 2 ^ 900) : c ≤ max64 := by
  have h4 : (2 : ℝ) ^ 1000 ≤ max64 := by
    unfold max64
    have : (2 : ℝ) ^ 1000 = 2 ^ 29 * 2 ^ 971 := by rw [← pow_add]
    rw [this]
    exact mul_le_mul_of_nonneg_right (by norm_num) (by positivity)
  refine hc.trans (le_trans ?_ h4)
  rw [← pow_add]
  exact pow_le_pow_right₀ (by norm_num) (by norm_num)

theorem max64_big : (2 : ℝ) ^ 50 * 2 ^ 970 ≤ max64 := by
  unfold max64
  calc (2 : ℝ) ^ 50 * 2 ^ 970 ≤ 2 ^ 50 * 2 ^ 971 :=
        mul_le_mul_of_nonneg_left (pow_le_pow_right₀ (by norm_num) (by norm_num)) (by positivity)
    _ ≤ _ := mul_le_mul_of_nonneg_right (by norm_num) (by positivity)

/-- The difference of two quotes is off by one rounding at most, whatever their size. -/
theorem rel_diff {x y : F64} {a b : ℝ} (hx : (x ⇓ a) ∧ Stored x ∧ |a| ≤ 2 ^ 900) (hy : (y ⇓ b) ∧ Stored y ∧ |b| ≤ 2 ^ 900) :
    Rel (x - y) (a - b) 1 ∧ |a - b| ≤ 2 ^ 901 := by
  have hb : |a - b| ≤ 2 ^ 901 := (abs_sub _ _).trans (by
    have := hx.2.2
    have := hy.2.2
    have h2 : (2 : ℝ) ^ 901 = 2 ^ 900 * 2 := pow_succ 2 900
    rw [h2]
    generalize (2 : ℝ) ^ 900 = A at *
    linarith)
  refine ⟨rel_sub_is hx.1 hy.1 hx.2.1 hy.2.1 (hb.trans ?_), hb⟩
  refine le_trans ?_ max64_big
  calc (2 : ℝ) ^ 901 ≤ 2 ^ 970 := pow_le_pow_right₀ (by norm_num) (by norm_num)
    _ ≤ _ := le_mul_of_one_le_left (by positivity) (by norm_num)

theorem max64_ge_small {c : ℝ} (hc : c ≤ 2 ^ 50) : c ≤ max64 := by
  refine hc.trans (le_trans ?_ max64_big)
  exact le_mul_of_one_le_right (by positivity) (one_le_pow₀ (by norm_num))

/-- A quotient of differences that is at most 1 in magnitude. -/
theorem Rel.share {x y : F64} {a b : ℝ} {k l : ℕ} (hx : Rel x a k) (hy : Rel y b l) (hb : b ≠ 0) (h1 : |a / b| ≤ 1) (hk : k + l + 1 ≤ 2 ^ 51) :
    Nearly 1 (x / y) (a / b) 1 (2 * (k + l + 1) + 1) := by
  have hk' : 2 * ((k + l + 1 : ℕ) : ℝ) * unit64 ≤ 1 := by
    have : ((k + l + 1 : ℕ) : ℝ) ≤ 2 ^ 51 := by exact_mod_cast hk
    have := mul_le_mul_of_nonneg_right this unit64_pos.le
    have e := unit64_eq
    linarith
  refine ⟨(hx.div hy hb hk' (max64_ge_small (by linarith))).mono ?_, by simpa using h1⟩
  have t := tiny_products
  have := mul_le_of_le_one_right (a := 2 * ((k + l + 1 : ℕ) : ℝ) * unit64) (mul_nonneg (by positivity) unit64_pos.le) h1
  have u0 := unit64_pos
  generalize (2⁻¹ ^ 1075 : ℝ) = d at *
  push_cast at this ⊢
  linarith

/-- A sum of up to `2^50` distances between quotes, each off by `k` roundings. -/
theorem rel_sum {v : List F64} {r : List ℝ} {k w : ℕ} (h : List.Forall₂ (fun x a => Rel x a k ∧ 0 ≤ a ∧ a ≤ 2 ^ 968) v r) (hl : v.length = w)
    (hk : k + w ≤ 2 ^ 50) : Rel (fsum v) r.sum (k + w) ∧ 0 ≤ r.sum := by
  have hm : ∀ a ∈ r, 0 ≤ a ∧ a ≤ 2 ^ 968 := fun a ha => by
    obtain ⟨i, hi⟩ := List.mem_iff_getElem?.1 ha
    obtain ⟨hlt, e⟩ := (List.getElem?_eq_some_iff.1 hi)
    have := (List.forall₂_iff_get.1 h).2 i (by rw [h.length_eq]; exact hlt) hlt
    simp only [List.get_eq_getElem] at this
    rw [← e]; exact this.2
  have hs : r.sum ≤ w * 2 ^ 968 := by
    have := List.sum_le_card_nsmul r _ fun a ha => (hm a ha).2
    rw [← h.length_eq, hl] at this
    simpa using this
  have hw : (w : ℝ) ≤ 2 ^ 50 := by exact_mod_cast (by omega : w ≤ 2 ^ 50)
  refine ⟨?_, List.sum_nonneg fun a ha => (hm a ha).1⟩
  rw [← hl]
  refine rel_fsum (h.imp fun _ _ p => ⟨p.1, p.2.1⟩) ?_ ?_
  · rw [hl]
    have h1 : ((k + w : ℕ) : ℝ) ≤ 2 ^ 50 := by exact_mod_cast hk
    have := mul_le_mul_of_nonneg_right h1 unit64_pos.le
    have e := unit64_eq
    linarith
  · refine le_trans ?_ max64_big
    have h2 : (2 : ℝ) * 2 ^ 968 ≤ 2 ^ 970 := by
      rw [← pow_succ']
      exact pow_le_pow_right₀ (by norm_num) (by norm_num)
    calc 2 * r.sum ≤ 2 * (w * 2 ^ 968) := by linarith
      _ = w * (2 * 2 ^ 968) := by ring
      _ ≤ 2 ^ 50 * (2 * 2 ^ 968) := mul_le_mul_of_nonneg_right hw (by positivity)
      _ ≤ 2 ^ 50 * 2 ^ 970 := mul_le_mul_of_nonneg_left h2 (by positivity)

/-- The last `w` items of a series of distances. -/
theorem forall_recent {ρ : Rounding} {n k w i : ℕ} {R : FP ρ → ℝ → Prop} {v : ℕ → ℝ} {m : List (FP ρ)} (h : ReportsP n k (fun i y => R y (v i)) (some m))
    (h1 : k + w ≤ i + 1) (h2 : i < n) : List.Forall₂ R (recent m w i) (lastOf v w i) ∧ (recent m w i).length = w := by
  obtain ⟨o, e, hl, -, h4⟩ := h
  cases e
  have hl' : (recent m w i).length = w := recent_length (by omega) (by omega)
  refine ⟨?_, hl'⟩
  rw [List.forall₂_iff_get]
  refine ⟨by simp [hl', lastOf], fun j g1 g2 => ?_⟩
  obtain ⟨y, e, hy⟩ := h4 (i + 1 - w + j) (by omega) (by omega)
  have : (recent m w i)[j]? = some y := by rw [recent, List.getElem?_take_of_lt (by omega), List.getElem?_drop]; exact e
  rw [List.getElem?_eq_getElem g1] at this
  simp only [List.get_eq_getElem, lastOf, List.getElem_map, List.getElem_range]
  cases this
  exact hy

theorem rel_window {n k w i j : ℕ} {v : ℕ → ℝ} {m : List F64} (h : ReportsP n k (fun i y => Rel y (v i) j ∧ 0 ≤ v i ∧ v i ≤ 2 ^ 901) (some m))
    (h1 : k + w ≤ i + 1) (h2 : i < n) (hk : j + w ≤ 2 ^ 50) :
    Rel (fsum (recent m w i)) (lastOf v w i).sum (j + w) ∧ 0 ≤ (lastOf v w i).sum := by
  obtain ⟨f, l⟩ := forall_recent (R := fun y a => Rel y a j ∧ 0 ≤ a ∧ a ≤ 2 ^ 901) h h1 h2
  exact rel_sum (f.imp fun _ _ p => ⟨p.1, p.2.1, p.2.2.trans (pow_le_pow_right₀ (by norm_num) (by norm_num))⟩) l hk

theorem room_hundred {z : ℝ} (h : |z| ≤ 2 ^ 901) : 2 * (((100 : ℕ) : ℝ) * |z|) ≤ max64 := by
  refine le_trans ?_ max64_big
  have e1 : (2 : ℝ) ^ 970 = 2 ^ 69 * 2 ^ 901 := by rw [← pow_add]
  have h0 := abs_nonneg z
  rw [e1]
  clear e1
  generalize (2 : ℝ) ^ 901 = A at *
  push_cast
  linarith

/-- Items after a padding of NaNs. -/
theorem reportsP_front {ρ : Rounding} {n k : ℕ} {P : ℕ → FP ρ → Prop} {r : List (FP ρ)} (hn : k + r.length = n)
    (h : ∀ i y, r[i]? = some y → P (k + i) y) : ReportsP n k P (some (nans k ++ r)) := by
  refine ⟨_, rfl, by simp; omega, fun i hi _ => ?_, fun i hi hin => ?_⟩
  · rw [List.getElem?_append_left (by simpa using hi), nans, List.getElem?_replicate, if_pos hi]
  · rw [List.getElem?_append_right (by simpa using hi), nans_length]
    have e := getElem?_of_lt (show i - k < r.length by omega)
    refine ⟨_, e, ?_⟩
    have := h _ _ e
    rwa [show k + (i - k) = i by omega] at this

/-- A quotient that need not be bounded. -/
theorem Rel.ratio {x y : F64} {a b : ℝ} {k l : ℕ} (hx : Rel x a k) (hy : Rel y b l) (hb : b ≠ 0) (hq : |a / b| ≤ 2 ^ 900) (hk : k + l + 1 ≤ 2 ^ 51) :
    Approx (x / y) (a / b) (2 * (k + l + 1) * unit64 * |a / b| + 2⁻¹ ^ 1075) := by
  have hk' : 2 * ((k + l + 1 : ℕ) : ℝ) * unit64 ≤ 1 := by
    have : ((k + l + 1 : ℕ) : ℝ) ≤ 2 ^ 51 := by exact_mod_cast hk
    have := mul_le_mul_of_nonneg_right this unit64_pos.le
    have e := unit64_eq
    linarith
  have := hx.div hy hb hk' (le_trans (mul_le_mul_of_nonneg_left hq (by norm_num)) (le_trans (by
    rw [← pow_succ']
    calc (2 : ℝ) ^ 901 ≤ 2 ^ 970 := pow_le_pow_right₀ (by norm_num) (by norm_num)
      _ ≤ _ := le_mul_of_one_le_left (by positivity) (by norm_num)) max64_big))
  push_cast at this
  exact this

end Traquer

namespace Traquer.Momentum
open FP FloatLit
open Traquer.Volatility (foldMax foldMin)

/-- C89: `wpr` is within `1000 * 2^-53` of its value, however large the prices are compared with the range. -/
theorem wpr_accurate (high low close : List F64) (w : ℕ) (hw : 1 ≤ w) (hn : w ≤ high.length + 1) (hh : Quotes high)
    (hl : Quotes low) (hc : Quotes close) (hs : SaneBars (vals high) (vals low) (vals close)) :
    ReportsP high.length (w - 1) (fun i y => maxOf (recent (vals high) w i) ≠ minOf (recent (vals low) w i) →
      Approx y (-100 * ((maxOf (recent (vals high) w i) - bar (vals close) i) / (maxOf (recent (vals high) w i) - minOf (recent (vals low) w i))))
        (1000 * unit64)) (wpr high low close w) := by
  have ll : low.length = high.length := by simpa [vals] using hs.low_length
  have lc : close.length = high.length := by simpa [vals] using hs.close_length
  run_model [wpr]
  refine reportsP_windows3 hw ll lc hn fun i x h1 h2 hx hne => ?_
  have i1 := (hh.recent w i).max (recent_ne_nil hw h1 h2)
  have i2 := (hl.recent w i).min (recent_ne_nil hw h1 (by omega))
  rw [recent_vals] at i1 i2
  have i3 := hc.bar hx
  have hm := hs.mem (w := w) (i := i) (c := x.val) hw h1 (by simpa [vals] using h2) (by rw [vals_getElem?, hx]; rfl)
  have ex : bar (vals close) i = x.val := by simp [bar, vals, hx]
  rw [← ex] at hm
  have hpos : 0 < maxOf (recent (vals high) w i) - minOf (recent (vals low) w i) :=
    sub_pos.2 (lt_of_le_of_ne (hm.1.trans hm.2) (Ne.symm hne))
  have q := (rel_diff i1 i3).1.share (rel_diff i1 i2).1 hpos.ne' (by
    rw [abs_of_nonneg (div_nonneg (by linarith [hm.2]) hpos.le), div_le_one hpos]
    linarith [hm.1]) (by norm_num)
  have h100 : Nearly 1 (-100 : F64) (-100) 100 0 := Nearly.exact ((is_neg (isLit 100 (by norm_num))).congr (by norm_num)) (by norm_num)
  have := h100.mul sized_one sized_one (by rw [mul_one]; exact sized_one) q (by norm_num) (by norm_num) (by norm_num)
  refine this.approx.mono ?_
  have u0 := unit64_pos
  push_cast
  linarith

/-- C89: both lines of the stochastic, within `101 s + 1410` and `202 s + 2000` units of `2^-53`. -/
theorem stoch_accurate (high low close : List F64) (w s : ℕ) (hw : 1 ≤ w) (hs' : 1 ≤ s) (h32 : s < 2 ^ 32)
    (hn : w - 1 + 2 * (s - 1) < high.length) (hh : Quotes high) (hl : Quotes low) (hc : Quotes close)
    (hs : SaneBars (vals high) (vals low) (vals close))
    (hne : ∀ i, w ≤ i + 1 → i < high.length → maxOf (recent (vals high) w i) ≠ minOf (recent (vals low) w i)) :
    ∃ out, stoch high low close w s = some out ∧
      ReportsP high.length (w - 1 + (s - 1)) (fun i y => Approx y (mean (lastOf (rawK (vals high) (vals low) (vals close) w) s i))
        ((101 * s + 1410) * unit64)) (some (out.map fun p => p.1)) ∧
      ReportsP high.length (w - 1 + 2 * (s - 1))
        (fun i y => Approx y (mean (lastOf (fun j => mean (lastOf (rawK (vals high) (vals low) (vals close) w) s j)) s i))
        ((202 * s + 2000) * unit64)) (some (out.map fun p => p.2)) := by
  have ll : low.length = high.length := by simpa [vals] using hs.low_length
  have lc : close.length = high.length := by simpa [vals] using hs.close_length
  have s1 : (s : ℝ) < 2 ^ 32 := by exact_mod_cast h32
  have h0 : NearS 1 high.length (w - 1) (rawK (vals high) (vals low) (vals close) w) 100 900
      (nans (w - 1) ++ (zip3 (windowsOf w high) (windowsOf w low) (close.drop (w - 1))).map fun (h, l, c) =>
        100 * (c - foldMin l) / (foldMax h - foldMin l)) := by
    refine reportsP_windows3 hw ll lc (by omega) fun i x h1 h2 hx => ?_
    have i1 := (hh.recent w i).max (recent_ne_nil hw h1 h2)
    have i2 := (hl.recent w i).min (recent_ne_nil hw h1 (by omega))
    rw [recent_vals] at i1 i2
    have i3 := hc.bar hx
    have hm := hs.mem (w := w) (i := i) (c := x.val) hw h1 (by simpa [vals] using h2) (by rw [vals_getElem?, hx]; rfl)
    have ex : bar (vals close) i = x.val := by simp [bar, vals, hx]
    rw [← ex] at hm
    have hpos : 0 < maxOf (recent (vals high) w i) - minOf (recent (vals low) w i) :=
      sub_pos.2 (lt_of_le_of_ne (hm.1.trans hm.2) (Ne.symm (hne i h1 h2)))
    have er : rawK (vals high) (vals low) (vals close) w i =
        ((100 : ℕ) : ℝ) * (bar (vals close) i - minOf (recent (vals low) w i)) / (maxOf (recent (vals high) w i) - minOf (recent (vals low) w i)) := by
      rw [rawK]; rfl
    have q0 : 0 ≤ (bar (vals close) i - minOf (recent (vals low) w i)) / (maxOf (recent (vals high) w i) - minOf (recent (vals low) w i)) :=
      div_nonneg (by linarith [hm.1]) hpos.le
    have q1 : (bar (vals close) i - minOf (recent (vals low) w i)) / (maxOf (recent (vals high) w i) - minOf (recent (vals low) w i)) ≤ 1 := by
      rw [div_le_one hpos]; linarith [hm.2]
    obtain ⟨d1, d2⟩ := rel_diff i3 i2
    have n1 := d1.nat_mul (c := 100) (n := 100) (isLit 100 (by norm_num)) (by unfold unit64; norm_num) (room_hundred d2)
    have ab : |((100 : ℕ) : ℝ) * (bar (vals close) i - minOf (recent (vals low) w i)) / (maxOf (recent (vals high) w i) - minOf (recent (vals low) w i))| ≤ 100 := by
      rw [mul_div_assoc, abs_mul, abs_of_nonneg q0]
      push_cast
      rw [abs_of_nonneg (by norm_num)]
      linarith
    have q := n1.ratio (rel_diff i1 i2).1 hpos.ne' (ab.trans (le_trans (by norm_num : (100 : ℝ) ≤ 2 ^ 7) (pow_le_pow_right₀ (by norm_num) (by norm_num)))) (by norm_num)
    show Nearly _ _ _ _ _
    rw [er]
    refine ⟨q.mono ?_, by simpa using ab⟩
    have t := tiny_products
    have u0 := unit64_pos
    have := mul_le_mul_of_nonneg_left ab (by linarith : 0 ≤ 8 * unit64)
    generalize (2⁻¹ ^ 1075 : ℝ) = d at *
    generalize |((100 : ℕ) : ℝ) * (bar (vals close) i - minOf (recent (vals low) w i)) / (maxOf (recent (vals high) w i) - minOf (recent (vals low) w i))| = z at *
    norm_num at this ⊢
    linarith
  set raw := (zip3 (windowsOf w high) (windowsOf w low) (close.drop (w - 1))).map fun (h, l, c) =>
        100 * (c - foldMin l) / (foldMax h - foldMin l) with eraw
  obtain ⟨fk, -, e1, r1, l1⟩ := h0.sma sized_one (w := s) (by norm_num) (by norm_num) hs' (by omega) (by omega) (by omega) (by linarith)
  rw [List.drop_left' (by simp)] at e1
  obtain ⟨kk, e2, e3, r2, l2⟩ := r1.sma sized_one (w := s) (by norm_num) (by linarith) hs' (by omega) (by omega) (by omega) (by linarith)
  have ed : (nans (w - 1) ++ fk).drop (w - 1 + (s - 1)) = fk.drop (s - 1) := by
    rw [← List.drop_drop, List.drop_left' (by simp)]
  rw [ed] at e2 e3
  have es : sliceFrom fk (s - 1) = some (fk.drop (s - 1)) := by rw [sliceFrom, if_pos (by omega)]
  have e1' : Smooth.sma ((zip3 (windowsOf w high) (windowsOf w low) (close.drop (w - 1))).map fun (h, l, c) =>
        100 * (c - foldMin l) / (foldMax h - foldMin l)) s = some fk := e1
  refine ⟨_, by run_model [stoch, e1', es, e3]; rfl, ?_, ?_⟩
  · rw [List.map_fst_zip (by simp; omega)]
    exact ReportsP.mono r1 fun i y _ _ hy => hy.approx.mono (by have := unit64_pos; nlinarith)
  · rw [List.map_snd_zip (by simp; omega)]
    have e : w - 1 + 2 * (s - 1) = w - 1 + (s - 1) + (s - 1) := by omega
    rw [e]
    exact ReportsP.mono r2 fun i y _ _ hy => hy.approx.mono (by have := unit64_pos; nlinarith)

/-- C89: `bal_power`, within `20 w + 28` units of `2^-53`. -/
theorem bal_power_accurate (openp high low close : List F64) (w : ℕ) (hh : high.length = openp.length) (hl : low.length = openp.length)
    (hc : close.length = openp.length) (hw : 1 ≤ w) (h32 : w < 2 ^ 32) (hn : w ≤ openp.length) (qo : Quotes openp) (qh : Quotes high) (ql : Quotes low)
    (qc : Quotes close) (h0 : ∀ i, i < openp.length → bar (vals low) i < bar (vals high) i ∧
      bar (vals low) i ≤ bar (vals openp) i ∧ bar (vals openp) i ≤ bar (vals high) i ∧
      bar (vals low) i ≤ bar (vals close) i ∧ bar (vals close) i ≤ bar (vals high) i) :
    ReportsP openp.length (w - 1) (fun i y => Approx y
      (ewmaFrom 0 w (fun i => (bar (vals close) i - bar (vals openp) i) / (bar (vals high) i - bar (vals low) i)) i) ((20 * w + 28) * unit64))
      (bal_power openp high low close w) := by
  have w1 : (w : ℝ) < 2 ^ 32 := by exact_mod_cast h32
  have r : NearS 1 openp.length 0 (fun i => (bar (vals close) i - bar (vals openp) i) / (bar (vals high) i - bar (vals low) i)) 1 7
      ((zip4 openp high low close).map fun (o, h, l, c) => (c - o) / (h - l)) := by
    refine reportsP_map (by simp; omega) (fun i b _ h => by omega) ?_
    rintro i ⟨o, h, l, c⟩ hi -
    rw [zip4_getElem?] at hi
    obtain ⟨g1, g2, g3, g4, g5⟩ := h0 i (List.getElem?_eq_some_iff.1 hi.1).1
    have := (rel_diff (qc.bar hi.2.2.2) (qo.bar hi.1)).1.share (rel_diff (qh.bar hi.2.1) (ql.bar hi.2.2.1)).1 (by linarith) (by
      rw [abs_div, abs_of_pos (sub_pos.2 g1), div_le_one (sub_pos.2 g1), abs_le]
      constructor <;> linarith) (by norm_num)
    exact this.mono sized_one le_rfl (by norm_num)
  obtain ⟨m, -, e, r', -⟩ := r.ewma sized_one (by norm_num) (by norm_num) hw (by omega) (by omega) (by linarith)
  rw [List.drop_zero] at e
  rw [bal_power, e]
  have r'' : NearS 1 openp.length (w - 1)
      (ewmaFrom 0 w fun i => (bar (vals close) i - bar (vals openp) i) / (bar (vals high) i - bar (vals low) i)) 1 (7 + 10 * ((w : ℝ) + 1) * (1 + 1)) m := by simpa [nans] using r'
  exact ReportsP.mono r'' fun i y _ _ hy => hy.approx.mono (by have := unit64_pos; nlinarith)

end Traquer.Momentum

namespace Traquer.Volatility
open FP FloatLit

/-- C89: `vhf`, with a relative error of `2 w + 6` units of `2^-53`. -/
theorem vhf_accurate (high low close : List F64) (w : ℕ) (hl : low.length = high.length) (hc : close.length = high.length)
    (hw : 1 ≤ w) (h32 : w < 2 ^ 32) (hn : w ≤ high.length) (qh : Quotes high) (ql : Quotes low) (qc : Quotes close) : ReportsP high.length w
      (fun i y =>
        let range := maxOf (recent (vals high) w i) - minOf (recent (vals low) w i)
        let travelled := (lastOf (fun j => |bar (vals close) j - bar (vals close) (j - 1)|) w i).sum
        travelled ≠ 0 → |range / travelled| ≤ 2 ^ 900 →
        Approx y (range / travelled) ((2 * w + 6) * unit64 * |range / travelled| + 2⁻¹ ^ 1075)) (vhf high low close w) := by
  have base : ReportsP close.length 1 (fun j y => Rel y |bar (vals close) j - bar (vals close) (j - 1)| 1 ∧
      0 ≤ |bar (vals close) j - bar (vals close) (j - 1)| ∧ |bar (vals close) j - bar (vals close) (j - 1)| ≤ 2 ^ 901)
      (some (nans 1 ++ (pairs close).map fun (prev, curr) => fabs (curr - prev))) := by
    refine reportsP_front (by simp; omega) fun i y hy => ?_
    rw [List.getElem?_map] at hy
    obtain ⟨⟨p, q⟩, hp, rfl⟩ := Option.map_eq_some_iff.1 hy
    obtain ⟨h1, h2⟩ := pairs_getElem?_some hp
    have := rel_diff (qc.bar h2) (qc.bar h1)
    rw [Nat.add_comm 1 i]
    exact ⟨this.1.abs, abs_nonneg _, this.2⟩
  run_model [vhf]
  refine reportsP_front (by simp [hl, hc]; omega) ?_
  intro i y hy
  rw [List.getElem?_map] at hy
  obtain ⟨⟨d, h, l⟩, hz, rfl⟩ := Option.map_eq_some_iff.1 hy
  rw [zip3_getElem?] at hz
  simp only [List.getElem?_drop] at hz
  obtain ⟨rfl, -⟩ := windowsOf_at hw hz.1
  obtain ⟨rfl, l2⟩ := windowsOf_at hw hz.2.1
  obtain ⟨rfl, l3⟩ := windowsOf_at hw hz.2.2
  have e : 1 + i + w - 1 = w + i := by omega
  rw [e]
  have hr := (rel_window (w := w) (i := w + i) base (by omega) (by omega) (by omega)).1
  have eq : recent (nans 1 ++ (pairs close).map fun (prev, curr) => fabs (curr - prev)) w (w + i) =
      recent ((pairs close).map fun (prev, curr) => fabs (curr - prev)) w (i + w - 1) := by
    rw [show w + i = 1 + (i + w - 1) by omega, ← recent_drop _ _ _ _ (by omega), List.drop_left' (by simp)]
  rw [eq] at hr
  intro hne hq
  have i1 := (qh.recent w (w + i)).max (recent_ne_nil hw (by omega) (by omega))
  have i2 := (ql.recent w (w + i)).min (recent_ne_nil hw (by omega) (by omega))
  rw [recent_vals] at i1 i2
  have := (rel_diff i1 i2).1.ratio hr hne hq (by omega)
  refine this.mono (le_of_eq ?_)
  push_cast
  ring

end Traquer.Volatility
