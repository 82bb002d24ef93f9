import Verif.Props.MirrorStats
import Verif.Props.Stochastic
import Verif.Props.MomentumFormulas2
/-!
# C80: the mirror image, oscillators between 0 and 100

In exact arithmetic an oscillator that measures the share of the rises gives the share of the falls for the mirror image.
-/

namespace Traquer
open FP FloatLit
variable {ρ : Rounding}

theorem sameNumber_of_is {x y : FP ρ} {r : ℝ} (hx : x ⇓ r) (hy : y ⇓ r) : SameNumber x y :=
  .inr (by rw [is_feq hx hy]; simp)

theorem fins_mirror {l : List (FP ρ)} (h : Fins l) : Fins (mirror l) := fun x hx => by
  obtain ⟨y, hy, rfl⟩ := List.mem_map.1 hx
  exact (is_neg (h y hy).is).1

theorem vals_mirror {l : List (FP ρ)} (h : Fins l) : vals (mirror l) = (vals l).map (-·) := by
  simp only [vals, mirror, List.map_map]
  exact List.map_congr_left fun x hx => (is_neg (h x hx).is).2

theorem mirror_length (l : List (FP ρ)) : (mirror l).length = l.length := by simp [mirror]

/-- Two reports of the same shape, compared bar by bar. -/
theorem ReportsP.alike {n k : ℕ} {P Q : ℕ → FP ρ → Prop} {R : FP ρ → FP ρ → Prop} {r r' : Option (List (FP ρ))} (h : ReportsP n k P r)
    (g : ReportsP n k Q r') (h0 : R nan nan) (hR : ∀ i x y, k ≤ i → i < n → P i x → Q i y → R x y) : Alike (Each R) r r' := by
  obtain ⟨o, rfl, l1, w1, v1⟩ := h
  obtain ⟨o', rfl, l2, w2, v2⟩ := g
  refine .answer (each_iff.2 ⟨by omega, fun i x y hx hy => ?_⟩)
  have hi : i < n := by rw [← l1]; exact (List.getElem?_eq_some_iff.1 hx).1
  by_cases hk : i < k
  · rw [w1 i hk hi] at hx
    rw [w2 i hk hi] at hy
    cases hx; cases hy; exact h0
  · obtain ⟨x', ex, px⟩ := v1 i (by omega) hi
    obtain ⟨y', ey, py⟩ := v2 i (by omega) hi
    rw [ex] at hx
    rw [ey] at hy
    cases hx; cases hy
    exact hR i _ _ (by omega) hi px py

theorem Reports.alike {n k : ℕ} {u v : ℕ → ℝ} {R : FP ρ → FP ρ → Prop} {r r' : Option (List (FP ρ))} (h : Reports n k u r)
    (g : Reports n k v r') (h0 : R nan nan) (hR : ∀ i x y, k ≤ i → i < n → x ⇓ u i → y ⇓ v i → R x y) : Alike (Each R) r r' :=
  ReportsP.alike (P := fun i y => y ⇓ u i) (Q := fun i y => y ⇓ v i) h g h0 hR

/-- `y` is what remains of `x` up to 100. -/
def Complement (x y : XF) : Prop := SameNumber (100 - x) y

theorem complement_nan : Complement nan nan := .inl ⟨by cases (100 : XF) <;> rfl, rfl⟩

/-- The shares of `a` and of `b` in `a + b` add up to 100 (or both are undefined). -/
theorem complement_share {a b : ℝ} {x y : XF} (ha : 0 ≤ a) (hb : 0 ≤ b) (hx : QuotIs (100 * a) (a + b) x) (hy : QuotIs (100 * b) (b + a) y) :
    Complement x y := by
  by_cases h : a + b = 0
  · have a0 : a = 0 := by linarith
    have b0 : b = 0 := by linarith
    rw [hx.2.1 h (by rw [a0, mul_zero]), hy.2.1 (by linarith) (by rw [b0, mul_zero])]
    exact complement_nan
  · refine sameNumber_of_is (is_sub (is_lit 100) (hx.1 h)) ((hy.1 (by rwa [add_comm])).congr ?_)
    rw [add_comm b a]
    field_simp
    push_cast
    ring

theorem maxOf_neg' (l : List ℝ) : maxOf (l.map (-·)) = -minOf l := by rw [minOf_neg, neg_neg]

theorem minOf_neg' (l : List ℝ) : minOf (l.map (-·)) = -maxOf l := by
  rw [minOf_neg, List.map_map]
  simp

theorem mean_compl {l l' : List ℝ} (h : List.Forall₂ (fun x y => y = 100 - x) l l') (hl : l ≠ []) : mean l' = 100 - mean l := by
  have key : l'.sum = 100 * l.length - l.sum := by
    clear hl
    induction h with
    | nil => simp
    | cons e _ ih => simp only [List.sum_cons, List.length_cons, ih, e]; push_cast; ring
  have hn : (l.length : ℝ) ≠ 0 := by
    have := List.length_pos_iff.2 hl
    positivity
  rw [mean, mean, key, ← h.length_eq, sub_div, mul_div_assoc, div_self hn, mul_one]

end Traquer

namespace Traquer.Momentum
open FP FloatLit

theorem rises_neg (l : List ℝ) : rises (l.map (-·)) = falls l := by
  simp only [rises, falls, pairs_map, List.map_map]
  exact List.map_congr_left fun p _ => by simp; ring_nf

theorem falls_neg (l : List ℝ) : falls (l.map (-·)) = rises l := by
  simp only [rises, falls, pairs_map, List.map_map]
  exact List.map_congr_left fun p _ => by simp; ring_nf

/-- `rsi` of the mirror image is the complement to 100. -/
theorem rsi_mirror (data : List XF) (w : ℕ) (hw : 1 ≤ w) (hn : w + 1 ≤ data.length) (hd : Fins data) :
    Alike (Each Complement) (rsi data w) (rsi (mirror data) w) := by
  have h := rsi_reports data w hw hn hd
  have g := rsi_reports (mirror data) w hw (by rw [mirror_length]; omega) (fins_mirror hd)
  rw [vals_mirror hd, rises_neg, falls_neg, mirror_length] at g
  refine ReportsP.alike h g complement_nan fun i x y h1 h2 hx hy => ?_
  exact complement_share
    (wilderOf_nonneg hw (by omega) (by rw [rises_length, vals_length]; omega) fun x hx => rises_nonneg hx)
    (wilderOf_nonneg hw (by omega) (by rw [falls_length, vals_length]; omega) fun x hx => falls_nonneg hx) hx hy

/-- Williams' %R of the mirror image is the complement to −100. -/
theorem wpr_mirror (high low close : List XF) (w : ℕ) (hw : 1 ≤ w) (hn : w ≤ high.length + 1) (hh : Fins high) (hl : Fins low)
    (hc : Fins close) (ll : low.length = high.length) (lc : close.length = high.length)
    (hne : ∀ i, w ≤ i + 1 → i < high.length → maxOf (recent (vals high) w i) ≠ minOf (recent (vals low) w i)) :
    Alike (Each fun x y => SameNumber (-100 - x) y) (wpr high low close w) (wpr (mirror low) (mirror high) (mirror close) w) := by
  have h := wpr_reports high low close w hw hn hh hl hc ll lc
  have g := wpr_reports (mirror low) (mirror high) (mirror close) w hw (by rw [mirror_length]; omega) (fins_mirror hl) (fins_mirror hh) (fins_mirror hc)
    (by simp only [mirror_length]; omega) (by simp only [mirror_length]; omega)
  rw [vals_mirror hh, vals_mirror hl, vals_mirror hc, mirror_length, ll] at g
  refine ReportsP.alike h g (.inl ⟨by generalize (-100 : XF) = z; cases z <;> rfl, rfl⟩) fun i x y h1 h2 hx hy => ?_
  obtain ⟨c, ec⟩ : ∃ c, (vals close)[i]? = some c := ⟨_, List.getElem?_eq_getElem (by rw [vals_length]; omega)⟩
  have e := hne i (by omega) h2
  have x1 := hx c ec e
  have y1 := hy (-c) (by rw [List.getElem?_map, ec]; rfl)
  rw [recent_map, recent_map, maxOf_neg', minOf_neg'] at y1
  generalize maxOf (recent (vals high) w i) = M at *
  generalize minOf (recent (vals low) w i) = m at *
  have y2 := y1 (by intro h; exact e (by linarith))
  refine sameNumber_of_is (is_sub (is_neg (is_lit 100)) x1) (y2.congr ?_)
  have hM : M - m ≠ 0 := sub_ne_zero.2 e
  rw [show -m - -M = M - m by ring]
  field_simp
  push_cast
  ring

theorem rawK_neg {high low close : List ℝ} {w i : ℕ} (hi : i < close.length) (hne : maxOf (recent high w i) ≠ minOf (recent low w i)) :
    rawK (low.map (-·)) (high.map (-·)) (close.map (-·)) w i = 100 - rawK high low close w i := by
  obtain ⟨c, ec⟩ : ∃ c, close[i]? = some c := ⟨_, List.getElem?_eq_getElem hi⟩
  simp only [rawK, List.getElem?_map, ec, Option.map_some, Option.getD_some]
  rw [recent_map, recent_map, maxOf_neg', minOf_neg']
  have hM := sub_ne_zero.2 hne
  rw [show -minOf (recent low w i) - -maxOf (recent high w i) = maxOf (recent high w i) - minOf (recent low w i) by ring]
  field_simp
  ring

theorem lastOf_compl {u v : ℕ → ℝ} {s i k : ℕ} (hs : k + s ≤ i + 1) (h : ∀ j, k ≤ j → j ≤ i → v j = 100 - u j) (h1 : 1 ≤ s) :
    mean (lastOf v s i) = 100 - mean (lastOf u s i) := by
  refine mean_compl ?_ (by rw [lastOf]; simp; omega)
  rw [lastOf, lastOf, List.forall₂_map_left_iff, List.forall₂_map_right_iff, List.forall₂_same]
  intro j hj
  rw [List.mem_range] at hj
  exact h _ (by omega) (by omega)

/-- %K and %D of the mirror image are the complements to 100. -/
theorem stoch_mirror (high low close : List XF) (w s : ℕ) (hw : 1 ≤ w) (hs' : 1 ≤ s) (hn : w - 1 + 2 * (s - 1) ≤ high.length)
    (hh : Fins high) (hl : Fins low) (hc : Fins close) (ll : low.length = high.length) (lc : close.length = high.length)
    (hne : ∀ i, w ≤ i + 1 → i < high.length → maxOf (recent (vals high) w i) ≠ minOf (recent (vals low) w i)) :
    Alike (Each (Both Complement Complement)) (stoch high low close w s) (stoch (mirror low) (mirror high) (mirror close) w s) := by
  obtain ⟨o, eo, k1, d1⟩ := stoch_reports high low close w s hw hs' hn hh hl hc ll lc hne
  obtain ⟨o', eo', k2, d2⟩ := stoch_reports (mirror low) (mirror high) (mirror close) w s hw hs' (by rw [mirror_length]; omega) (fins_mirror hl)
    (fins_mirror hh) (fins_mirror hc) (by simp only [mirror_length]; omega) (by simp only [mirror_length]; omega) (by
      intro i h1 h2
      rw [mirror_length] at h2
      rw [vals_mirror hh, vals_mirror hl, recent_map, recent_map, maxOf_neg', minOf_neg']
      intro h
      exact hne i h1 (by omega) (by linarith))
  rw [vals_mirror hh, vals_mirror hl, vals_mirror hc, mirror_length, ll] at k2 d2
  have raw : ∀ i, w ≤ i + 1 → i < high.length → rawK ((vals low).map (-·)) ((vals high).map (-·)) ((vals close).map (-·)) w i
      = 100 - rawK (vals high) (vals low) (vals close) w i := fun i h1 h2 =>
    rawK_neg (by rw [vals_length]; omega) (hne i h1 h2)
  have hk : ∀ i, w - 1 + (s - 1) ≤ i → i < high.length → mean (lastOf (rawK ((vals low).map (-·)) ((vals high).map (-·)) ((vals close).map (-·)) w) s i)
      = 100 - mean (lastOf (rawK (vals high) (vals low) (vals close) w) s i) := fun i h1 h2 =>
    lastOf_compl (k := w - 1) (by omega) (fun j a b => raw j (by omega) (by omega)) hs'
  have a1 := Reports.alike (R := Complement) k1 k2 complement_nan fun i x y h1 h2 hx hy => by
    rw [hk i h1 h2] at hy
    exact sameNumber_of_is (is_sub (is_lit 100) hx) (hy.congr (by push_cast; ring))
  have a2 := Reports.alike (R := Complement) d1 d2 complement_nan fun i x y h1 h2 hx hy => by
    rw [lastOf_compl (k := w - 1 + (s - 1)) (u := fun j => mean (lastOf (rawK (vals high) (vals low) (vals close) w) s j)) (by omega)
      (fun j a b => hk j a (by omega)) hs'] at hy
    exact sameNumber_of_is (is_sub (is_lit 100) hx) (hy.congr (by push_cast; ring))
  rw [eo, eo']
  refine .answer (each_iff.2 ?_)
  cases a1 with
  | answer a1 =>
    cases a2 with
    | answer a2 =>
      obtain ⟨l1, f1⟩ := each_iff.1 a1
      obtain ⟨l2, f2⟩ := each_iff.1 a2
      refine ⟨by simpa using l1, fun i x y hx hy => ⟨f1 i _ _ (by rw [List.getElem?_map, hx]; rfl) (by rw [List.getElem?_map, hy]; rfl),
        f2 i _ _ (by rw [List.getElem?_map, hx]; rfl) (by rw [List.getElem?_map, hy]; rfl)⟩⟩

theorem bar_neg (l : List ℝ) : bar (l.map (-·)) = fun i => -bar l i := by
  funext i
  rw [bar, bar, List.getD_eq_getElem?_getD, List.getD_eq_getElem?_getD, List.getElem?_map]
  cases l[i]? <;> simp

theorem deviation_neg (x : ℕ → ℝ) (w i : ℕ) : deviation (fun i => -x i) w i = -deviation x w i := by
  simp only [deviation, lastOf]
  split
  · rw [show (fun j => -x (i + 1 - w + j)) = (fun y => -y) ∘ fun j => x (i + 1 - w + j) from rfl, ← List.map_map]
    generalize (List.range w).map (fun j => x (i + 1 - w + j)) = l
    rw [mean, mean, List.length_map, show ((l.map fun y => -y).sum) = -l.sum by
      induction l with
      | nil => simp
      | cons a l ih => rw [List.map_cons, List.sum_cons, List.sum_cons, ih]; ring]
    ring
  · simp

/-- The trend intensity index of the mirror image is the complement to 100. -/
theorem tii_mirror (data : List XF) (w : ℕ) (hw : 1 ≤ w) (hn : w ≤ data.length + 1) (hd : Fins data) :
    Alike (Each Complement) (tii data w) (tii (mirror data) w) := by
  have h := tii_reports data w hw hn hd
  have g := tii_reports (mirror data) w hw (by rw [mirror_length]; omega) (fins_mirror hd)
  rw [vals_mirror hd, bar_neg, mirror_length] at g
  simp only [deviation_neg, neg_neg] at g
  refine ReportsP.alike h g complement_nan fun i x y h1 h2 hx hy => ?_
  exact complement_share (List.sum_nonneg fun x hx => by
      obtain ⟨j, -, rfl⟩ := List.mem_map.1 hx
      exact le_max_right _ _) (List.sum_nonneg fun x hx => by
      obtain ⟨j, -, rfl⟩ := List.mem_map.1 hx
      exact le_max_right _ _) hx hy

end Traquer.Momentum
