import Verif.Lemmas.Cycle
import Verif.Props.Order
import Verif.Props.Order64
import Verif.Props.Extremes3
import Verif.Props.TrendFormulas
import Verif.Props.LocalSmooth
import Verif.Props.LocalStats
import Verif.Props.LocalVolatility
/-!
# A cycle that fits the window disappears (C101)

When the data repeat every `w` bars, a window of `w` bars always holds the same values, in a turning order. Whatever does not depend on the order of
the bars of its window (C87) is therefore level from the first full window on: averaging over the period removes the cycle, and the reading shows
what is left.
-/

namespace Traquer
open FP
variable {ρ : Rounding} {β : Type}

theorem SameValue.symm' {y z : FP ρ} (h : SameValue y z) : SameValue z y := by
  rcases h with h | ⟨r, h1, h2⟩
  · exact .inl h.symm
  · exact .inr ⟨r, h2, h1⟩

theorem SameValue.trans' {x y z : FP ρ} (h : SameValue x y) (g : SameValue y z) : SameValue x z := by
  rcases h with rfl | ⟨r, h1, h2⟩
  · exact g
  · rcases g with rfl | ⟨s, g1, g2⟩
    · exact .inr ⟨r, h1, h2⟩
    · exact .inr ⟨r, h1, by rw [← h2.2, g1.2]; exact g2⟩

/-- Level from bar to bar is level. -/
theorem level_of_step {k : ℕ} {out : List (FP ρ)} (h : ∀ i y z, k ≤ i → out[i]? = some y → out[i + 1]? = some z → SameValue y z) :
    Level k (some out) := by
  have key : ∀ d i y z, k ≤ i → out[i]? = some y → out[i + d]? = some z → SameValue y z := by
    intro d
    induction d with
    | zero => intro i y z _ hy hz; exact .inl (Option.some.inj (hy.symm.trans hz))
    | succ d ih =>
      intro i y z hi hy hz
      have hb := (List.getElem?_eq_some_iff.1 hz).1
      have hm := List.getElem?_eq_getElem (l := out) (i := i + d) (by omega)
      exact (ih i y _ hi hy hm).trans' (h (i + d) _ z (by omega) hm hz)
  refine ⟨out, rfl, fun i j y z hi hj hy hz => ?_⟩
  rcases Nat.le_total i j with hij | hij
  · obtain ⟨d, rfl⟩ := Nat.exists_eq_add_of_le hij
    exact key d i y z hi hy hz
  · obtain ⟨d, rfl⟩ := Nat.exists_eq_add_of_le hij
    exact (key d j z y hj hz hy).symm'

theorem level_reports {n k : ℕ} {v : ℕ → ℝ} {r : Option (List (FP ρ))} (h : Reports n k v r) (e : ∀ i, k ≤ i → i + 1 < n → v i = v (i + 1)) :
    Level k r := by
  obtain ⟨o, rfl, l, -, f⟩ := h
  refine level_of_step fun i y z hi hy hz => ?_
  have hb : i + 1 < n := by rw [← l]; exact (List.getElem?_eq_some_iff.1 hz).1
  obtain ⟨y', hy', iy⟩ := f i hi (by omega)
  obtain ⟨z', hz', iz⟩ := f (i + 1) (by omega) hb
  cases hy.symm.trans hy'; cases hz.symm.trans hz'
  exact .inr ⟨_, iy, by rw [e i hi hb]; exact iz⟩

theorem level_reportsP {n k : ℕ} {P : ℕ → FP ρ → Prop} {r : Option (List (FP ρ))} (h : ReportsP n k P r)
    (e : ∀ i y z, k ≤ i → i + 1 < n → P i y → P (i + 1) z → SameValue y z) : Level k r := by
  obtain ⟨o, rfl, l, -, f⟩ := h
  refine level_of_step fun i y z hi hy hz => ?_
  have hb : i + 1 < n := by rw [← l]; exact (List.getElem?_eq_some_iff.1 hz).1
  obtain ⟨y', hy', iy⟩ := f i hi (by omega)
  obtain ⟨z', hz', iz⟩ := f (i + 1) (by omega) hb
  cases hy.symm.trans hy'; cases hz.symm.trans hz'
  exact e i y z hi hb iy iz

theorem recent_drop_one {w i : ℕ} (a : List β) (hw : w ≤ i + 1) : recent (a.drop 1) w i = recent a w (i + 1) := by
  rw [recent, recent, List.drop_drop, show 1 + (i + 1 - w) = i + 1 + 1 - w by omega]

/-- A function of the last `w` bars that does not depend on their order is level on a cycle of `w` bars. -/
theorem level_of_order {w : ℕ} {f : List β → Option (List (FP ρ))} (hl : DependsOnLast w f) {a : List β} {k : ℕ} (hr : Aligned a.length k (f a))
    (ho : ∀ i, w ≤ i + 1 → i + 1 < a.length → SameAt i (f a) (f (a.drop 1))) : Level (w - 1) (f a) := by
  obtain ⟨out, ea, hn, -⟩ := hr
  rw [ea]
  refine level_of_step fun i y z hi hy hz => ?_
  have hb := (List.getElem?_eq_some_iff.1 hz).1
  rw [hn] at hb
  obtain ⟨o, o', y1, y2, e1, e2, g1, g2, s⟩ := ho i (by omega) hb
  cases e1.symm.trans ea
  have := hl a (a.drop 1) (i + 1) i out o' ea e2 (by omega) (by omega) hb (by rw [List.length_drop]; omega) (recent_drop_one a (by omega)).symm
  rw [this] at hz
  cases hz.symm.trans g2; cases hy.symm.trans g1
  exact s

theorem Cycles.map {γ : Type} {p : ℕ} {s : List β} (h : Cycles p s) (f : β → γ) : Cycles p (s.map f) := fun j hj => by
  rw [List.getElem?_map, List.getElem?_map, h j (by simpa using hj)]

theorem Cycles.vals {p : ℕ} {s : List (FP ρ)} (h : Cycles p s) : Cycles p (vals s) := h.map _

theorem Cycles.bar {p j : ℕ} {s : List ℝ} (h : Cycles p s) (hj : j + p < s.length) : bar s (j + p) = bar s j := by
  rw [Traquer.bar, Traquer.bar, List.getD_eq_getElem?_getD, List.getD_eq_getElem?_getD, h j hj]

theorem vals_drop_one (s : List (FP ρ)) : vals (s.drop 1) = (vals s).drop 1 := List.map_drop

theorem Cycles.shuffled {w i : ℕ} {s : List (FP ρ)} (h : Cycles w s) (hw : 1 ≤ w) (hd : Fins s) (hi : w ≤ i + 1) (hb : i + 1 < s.length) :
    Shuffled w i s (s.drop 1) :=
  ⟨hd, fun x hx => hd x (List.mem_of_mem_drop hx), by omega, by rw [List.length_drop]; omega, by
    rw [vals_drop_one, recent_drop_one _ hi]; exact h.vals.perm hw hi (by simpa using hb)⟩

theorem recent_map' {γ : Type} (f : β → γ) (l : List β) (w i : ℕ) : recent (l.map f) w i = (recent l w i).map f := by
  rw [recent, recent, List.map_take, List.map_drop]

theorem Cycles.shuffled2 {w i : ℕ} {s : List (FP ρ × FP ρ)} (h : Cycles w s) (hw : 1 ≤ w) (h1 : Fins (s.map (·.1))) (h2 : Fins (s.map (·.2)))
    (hi : w ≤ i + 1) (hb : i + 1 < s.length) :
    Shuffled2 w i (s.map (·.1)) (s.map (·.2)) ((s.drop 1).map (·.1)) ((s.drop 1).map (·.2)) := by
  have e : ∀ (l : List (FP ρ × FP ρ)) j, (recent (Traquer.vals (l.map (·.1))) w j).zip (recent (Traquer.vals (l.map (·.2))) w j) =
      (recent l w j).map fun p => (p.1.val, p.2.val) := fun l j => by
    rw [Traquer.vals, Traquer.vals, List.map_map, List.map_map, recent_map', recent_map', List.zip_map']; rfl
  refine ⟨⟨h1, h2⟩, ⟨?_, ?_⟩, by simp, by simp, by simp; omega, by simp; omega, ?_⟩
  · rw [List.map_drop]; exact fun x hx => h1 x (List.mem_of_mem_drop hx)
  · rw [List.map_drop]; exact fun x hx => h2 x (List.mem_of_mem_drop hx)
  · rw [e, e, recent_drop_one _ hi]; exact (h.perm hw hi hb).map _

/-- Terms that repeat every `w` bars: the last `w` of them are always the same ones. -/
theorem lastOf_cycle {v : ℕ → ℝ} {w i : ℕ} (hw : 1 ≤ w) (hi : w ≤ i + 1) (h : v (i + 1) = v (i + 1 - w)) :
    (lastOf v w i).Perm (lastOf v w (i + 1)) := by
  obtain ⟨k, rfl⟩ : ∃ k, w = k + 1 := ⟨w - 1, by omega⟩
  rw [lastOf, lastOf, List.range_succ_eq_map, List.map_cons, List.map_map, ← List.range_succ_eq_map, List.range_succ, List.map_append]
  have e : ((List.range k).map ((fun j => v (i + 1 - (k + 1) + j)) ∘ Nat.succ)) = (List.range k).map fun j => v (i + 1 + 1 - (k + 1) + j) :=
    List.map_congr_left fun j _ => by
      show v _ = v _
      congr 1
      omega
  rw [e, List.map_singleton, show i + 1 + 1 - (k + 1) + k = i + 1 by omega, h, Nat.add_zero]
  exact List.perm_append_comm (l₁ := [v (i + 1 - (k + 1))])

theorem Cycles.bar_back {p j : ℕ} {s : List (FP ρ)} (h : Cycles p s) (hp : p ≤ j) (hj : j < s.length) :
    Traquer.bar (Traquer.vals s) j = Traquer.bar (Traquer.vals s) (j - p) := by
  have := h.vals.bar (j := j - p) (by simp; omega)
  rwa [Nat.sub_add_cancel hp] at this

theorem cycles_of_bar {p : ℕ} {s : List ℝ} (h : ∀ j, j + p < s.length → Traquer.bar s (j + p) = Traquer.bar s j) : Cycles p s := fun j hj => by
  have := h j hj
  rw [Traquer.bar, Traquer.bar, List.getD_eq_getElem?_getD, List.getD_eq_getElem?_getD, List.getElem?_eq_getElem hj,
    List.getElem?_eq_getElem (show j < s.length by omega)] at this
  rw [List.getElem?_eq_getElem hj, List.getElem?_eq_getElem (show j < s.length by omega)]
  exact congrArg some this

/-- The last `w` of the terms at bar `i` are those of the first window (bars `k .. k + w - 1`). -/
theorem lastOf_first {v : ℕ → ℝ} {w i k n : ℕ} (hw : 1 ≤ w) (h : ∀ j, k + w ≤ j → j < n → v j = v (j - w)) (hi : k + w ≤ i + 1) (hn : i < n) :
    (lastOf v w (k + w - 1)).Perm (lastOf v w i) := by
  obtain ⟨d, rfl⟩ : ∃ d, i = k + w - 1 + d := ⟨i - (k + w - 1), by omega⟩
  clear hi
  induction d with
  | zero => exact .refl _
  | succ d ih => exact (ih (by omega)).trans (lastOf_cycle hw (by omega) (h _ (by omega) (by omega)))

theorem level_items {α : Type} {n k : ℕ} {P : ℕ → α → Prop} {r : Option (List α)} (g : α → FP ρ) (h : Items n k P r)
    (e : ∀ i y z, k ≤ i → i + 1 < n → P i y → P (i + 1) z → SameValue (g y) (g z)) : Level k (r.map (·.map g)) := by
  obtain ⟨o, rfl, l, f⟩ := h
  refine level_of_step fun i y z hi hy hz => ?_
  rw [List.getElem?_map] at hy hz
  obtain ⟨y', hy', rfl⟩ := Option.map_eq_some_iff.1 hy
  obtain ⟨z', hz', rfl⟩ := Option.map_eq_some_iff.1 hz
  exact e i y' z' hi (by rw [← l]; exact (List.getElem?_eq_some_iff.1 hz').1) (f i y' hi hy') (f (i + 1) z' (by omega) hz')

theorem rises_sub_falls (l : List ℝ) : (rises l).sum - (falls l).sum = Traquer.bar l (l.length - 1) - Traquer.bar l 0 := by
  match l with
  | [] => simp [rises, falls, pairs]
  | [a] => simp [rises, falls, pairs]
  | a :: b :: t =>
    have ih := rises_sub_falls (b :: t)
    have e : ∀ a b : ℝ, max 0 (b - a) - max 0 (a - b) = b - a := fun a b => by
      rcases le_total a b with h | h
      · rw [max_eq_right (by linarith), max_eq_left (by linarith)]; ring
      · rw [max_eq_left (by linarith), max_eq_right (by linarith)]; ring
    have e1 : rises (a :: b :: t) = max 0 (b - a) :: rises (b :: t) := rfl
    have e2 : falls (a :: b :: t) = max 0 (a - b) :: falls (b :: t) := rfl
    have e3 : Traquer.bar (a :: b :: t) ((a :: b :: t).length - 1) = Traquer.bar (b :: t) ((b :: t).length - 1) := rfl
    have e4 : Traquer.bar (b :: t) 0 = b := rfl
    have e5 : Traquer.bar (a :: b :: t) 0 = a := rfl
    rw [e1, e2, List.sum_cons, List.sum_cons, e3, e5]
    rw [e4] at ih
    linarith [e a b]

theorem const_of_no_move (l : List ℝ) (h1 : ∀ x ∈ rises l, x = 0) (h2 : ∀ x ∈ falls l, x = 0) {a : ℝ} (h : l[0]? = some a) : ∀ x ∈ l, x = a := by
  intro x hx
  match l with
  | [] => simp at h
  | [b] => simp at h hx; rw [hx, h]
  | b :: c :: t =>
    have e1 : rises (b :: c :: t) = max 0 (c - b) :: rises (c :: t) := rfl
    have e2 : falls (b :: c :: t) = max 0 (b - c) :: falls (c :: t) := rfl
    rw [e1] at h1; rw [e2] at h2
    have hb : b = a := by simpa using h
    have := h1 _ List.mem_cons_self
    have := h2 _ List.mem_cons_self
    have hc : c = b := le_antisymm (by linarith [le_max_right 0 (c - b)]) (by linarith [le_max_right 0 (b - c)])
    have ih := const_of_no_move (c :: t) (fun x hx => h1 x (List.mem_cons_of_mem _ hx)) (fun x hx => h2 x (List.mem_cons_of_mem _ hx)) (a := c) rfl
    rcases List.mem_cons.1 hx with rfl | hx
    · exact hb
    · rw [ih x hx, hc, hb]

theorem flat_of_no_move {l : List ℝ} (h : (rises l).sum + (falls l).sum = 0) : Flat l := by
  have p1 : ∀ x ∈ rises l, 0 ≤ x := fun x hx => by obtain ⟨p, -, rfl⟩ := List.mem_map.1 hx; exact le_max_left _ _
  have p2 : ∀ x ∈ falls l, 0 ≤ x := fun x hx => by obtain ⟨p, -, rfl⟩ := List.mem_map.1 hx; exact le_max_left _ _
  have s1 := List.sum_nonneg p1
  have s2 := List.sum_nonneg p2
  have z1 : ∀ x ∈ rises l, x = 0 := (sum_zero_iff p1).1 (by linarith)
  have z2 : ∀ x ∈ falls l, x = 0 := (sum_zero_iff p2).1 (by linarith)
  match l, z1, z2 with
  | [], _, _ => intro x hx; simp at hx
  | a :: t, z1, z2 => intro x hx y hy; rw [const_of_no_move _ z1 z2 rfl x hx, const_of_no_move _ z1 z2 rfl y hy]

theorem Cycles.perm_first {α : Type} {w i : ℕ} {l : List α} (h : Cycles w l) (hw : 1 ≤ w) (h1 : w ≤ i + 1) (h2 : i < l.length) :
    (recent l w (w - 1)).Perm (recent l w i) := by
  obtain ⟨d, rfl⟩ : ∃ d, i = w - 1 + d := ⟨i - (w - 1), by omega⟩
  clear h1
  induction d with
  | zero => exact .refl _
  | succ d ih => exact (ih (by omega)).trans (h.perm hw (by omega) h2)

end Traquer

namespace Traquer.Smooth
open FP
variable {w : ℕ} {data : List XF}

/-- C101: `sma` is level on a series that repeats every `w` bars. -/
theorem sma_level (h : Cycles w data) (hw : 1 ≤ w) (hn : w ≤ data.length + 1) (hd : Fins data) : Level (w - 1) (sma data w) :=
  level_of_order (sma_local hw) (sma_aligned data w hw hn) fun _ hi hb => sma_order (h.shuffled hw hd hi hb) hw hi

end Traquer.Smooth

namespace Traquer.Distribution
open FP
variable {w : ℕ} {data : List XF}

/-- C101: `variance`. -/
theorem variance_level (h : Cycles w data) (hw : 1 ≤ w) (hn : w ≤ data.length + 1) (hd : Fins data) : Level (w - 1) (variance data w) :=
  level_of_order (variance_local hw) (variance_aligned data w hw hn) fun _ hi hb => variance_order (h.shuffled hw hd hi hb) hw hi

/-- C101: `std_dev`. -/
theorem std_dev_level (h : Cycles w data) (hw : 1 ≤ w) (hn : w ≤ data.length + 1) (hd : Fins data) : Level (w - 1) (std_dev data w) :=
  level_of_order (std_dev_local hw) (std_dev_aligned data w hw hn) fun _ hi hb => std_dev_order (h.shuffled hw hd hi hb) hw hi

/-- C101: `mad`. -/
theorem mad_level (h : Cycles w data) (hw : 1 ≤ w) (hn : w ≤ data.length + 1) (hd : Fins data) : Level (w - 1) (mad data w) :=
  level_of_order (mad_local hw) (mad_aligned data w hw hn) fun _ hi hb => mad_order (h.shuffled hw hd hi hb) hw hi

/-- C101: `cv`, where the mean of the cycle is not zero. -/
theorem cv_level (h : Cycles w data) (hw : 1 ≤ w) (hn : w ≤ data.length + 1) (hd : Fins data) (hm : mean (recent (vals data) w (w - 1)) ≠ 0) :
    Level (w - 1) (cv data w) :=
  level_of_order (cv_local hw) (cv_aligned data w hw hn) fun i hi hb => cv_order (h.shuffled hw hd hi hb) hw hi
    (by rwa [← (h.vals.perm_first hw hi (by simp; omega)).mean])

/-- C101: `skew`, unless the cycle is flat. -/
theorem skew_level (h : Cycles w data) (hw : 3 ≤ w) (hn : w ≤ data.length + 1) (hd : Fins data) (hm : ¬ Flat (recent (vals data) w (w - 1))) :
    Level (w - 1) (skew data w) :=
  level_of_order (skew_local (by omega)) (skew_aligned data w (by omega) hn) fun i hi hb => skew_order (h.shuffled (by omega) hd hi hb) hw hi
    (by rwa [← (h.vals.perm_first (by omega) hi (by simp; omega)).flat])

/-- C101: `kurtosis`, unless the cycle is flat. -/
theorem kurtosis_level (h : Cycles w data) (hw : 4 ≤ w) (hn : w ≤ data.length + 1) (hd : Fins data) (hm : ¬ Flat (recent (vals data) w (w - 1))) :
    Level (w - 1) (kurtosis data w) :=
  level_of_order (kurtosis_local (by omega)) (kurtosis_aligned data w (by omega) hn) fun i hi hb =>
    kurtosis_order (h.shuffled (by omega) hd hi hb) hw hi (by rwa [← (h.vals.perm_first (by omega) hi (by simp; omega)).flat])

/-- C101: `quantile`, in every rounding. -/
theorem quantile_level {ρ : Rounding} {data : List (FP ρ)} (h : Cycles w data) (q : FP ρ) (hw : 1 ≤ w) (hw' : w ≤ 2 ^ 53) (hn : w ≤ data.length + 1)
    (hd : Fins data) : Level (w - 1) (quantile data w q) :=
  level_of_order (quantile_local hw q) (quantile_aligned data w q hw hw' hn) fun _ hi hb => quantile_order64 (h.shuffled hw hd hi hb) q hw hw' hi

/-- C101: `median`, in every rounding. -/
theorem median_level {ρ : Rounding} {data : List (FP ρ)} (h : Cycles w data) (hw : 1 ≤ w) (hw' : w ≤ 2 ^ 53) (hn : w ≤ data.length + 1)
    (hd : Fins data) : Level (w - 1) (median data w) := quantile_level h _ hw hw' hn hd

end Traquer.Distribution

namespace Traquer.Correlation
open FP
open Traquer.Distribution (Sorter NoNaN.of_fins)
variable {w : ℕ} {s : List (XF × XF)} (h : Cycles w s) (hn : w ≤ s.length + 1) (h1 : Fins (s.map (·.1))) (h2 : Fins (s.map (·.2)))
include h hn h1 h2

/-- C101: `pcc`, when both series repeat every `w` bars. -/
theorem pcc_level (hw : 1 ≤ w) : Level (w - 1) (pcc (s.map (·.1)) (s.map (·.2)) w) :=
  level_of_order (f := fun l => pcc (l.map (·.1)) (l.map (·.2)) w) (pcc_local hw)
    (by simpa using pcc_aligned (s.map (·.1)) (s.map (·.2)) w (by simp) hw (by simpa using hn))
    fun _ hi hb => pcc_order (h.shuffled2 hw h1 h2 hi hb) hi hw

/-- C101: `rsq`. -/
theorem rsq_level (hw : 1 ≤ w) : Level (w - 1) (rsq (s.map (·.1)) (s.map (·.2)) w) :=
  level_of_order (f := fun l => rsq (l.map (·.1)) (l.map (·.2)) w) (rsq_local hw)
    (by simpa using rsq_aligned (s.map (·.1)) (s.map (·.2)) w (by simp) hw (by simpa using hn))
    fun _ hi hb => rsq_order (h.shuffled2 hw h1 h2 hi hb) hi hw

/-- C101: `srcc`. -/
theorem srcc_level (srt : Sorter XF) (hs : srt.Valid) (hw : 1 ≤ w) : Level (w - 1) (srcc srt (s.map (·.1)) (s.map (·.2)) w) :=
  level_of_order (f := fun l => srcc srt (l.map (·.1)) (l.map (·.2)) w) (srcc_local srt hw)
    (by simpa using srcc_aligned srt hs (s.map (·.1)) (s.map (·.2)) w (by simp) hw (by simpa using hn) (NoNaN.of_fins h1) (NoNaN.of_fins h2))
    fun _ hi hb => srcc_order (h.shuffled2 hw h1 h2 hi hb) hi srt srt hs hs hw

/-- C101: `dcor`. -/
theorem dcor_level (hw : 1 ≤ w) : Level (w - 1) (dcor (s.map (·.1)) (s.map (·.2)) w) :=
  level_of_order (f := fun l => dcor (l.map (·.1)) (l.map (·.2)) w) (dcor_local hw)
    (by simpa using dcor_aligned (s.map (·.1)) (s.map (·.2)) w (by simp) hw (by simpa using hn))
    fun _ hi hb => dcor_order (h.shuffled2 hw h1 h2 hi hb) hi hw

/-- C101: `hoeffd`. -/
theorem hoeffd_level (srt : Sorter XF) (hs : srt.Valid) (hw : 5 ≤ w ∧ w ≤ 7133) : Level (w - 1) (hoeffd srt (s.map (·.1)) (s.map (·.2)) w) :=
  level_of_order (f := fun l => hoeffd srt (l.map (·.1)) (l.map (·.2)) w) (hoeffd_local srt (by omega))
    (by simpa using hoeffd_aligned srt hs (s.map (·.1)) (s.map (·.2)) w (by simp) (by omega) hw.2 (by simpa using hn) (NoNaN.of_fins h1) (NoNaN.of_fins h2))
    fun _ hi hb => hoeffd_order (h.shuffled2 (by omega) h1 h2 hi hb) hi srt srt hs hs hw

end Traquer.Correlation

namespace Traquer.Volume
open FP
variable {w : ℕ}

/-- C101: `vwma`, when price and volume repeat every `w` bars and the volume of a cycle is not zero. -/
theorem vwma_level {s : List (XF × XF)} (h : Cycles w s) (hw : 1 ≤ w) (hn : w ≤ s.length + 1) (h1 : Fins (s.map (·.1))) (h2 : Fins (s.map (·.2)))
    (hv : (recent (vals (s.map (·.2))) w (w - 1)).sum ≠ 0) : Level (w - 1) (vwma (s.map (·.1)) (s.map (·.2)) w) :=
  level_of_order (f := fun l => vwma (l.map (·.1)) (l.map (·.2)) w) (vwma_local hw)
    (by simpa using vwma_aligned (s.map (·.1)) (s.map (·.2)) w (by simp) hw (by simpa using hn))
    fun i hi hb => vwma_order (h.shuffled2 hw h1 h2 hi hb) hw hi (by rwa [← ((h.map (·.2)).vals.perm_first hw hi (by simp; omega)).sum_eq])

end Traquer.Volume

namespace Traquer.Momentum
open FP
variable {w : ℕ}

/-- C101: `psych` on a cycle of `w` bars. -/
theorem psych_level {data : List XF} (h : Cycles w data) (hw : 1 ≤ w) (hn : w ≤ data.length) (hd : Fins data) (hz : ∀ x ∈ data, x ≠ negz) :
    Level w (psych data w) :=
  level_reports (psych_reports data w hw hn hd hz) fun i hi hb => by
    have e : bar (vals data) (i + 1) = bar (vals data) (i + 1 - w) := by
      have := h.vals.bar (j := i + 1 - w) (by simp; omega)
      rwa [show i + 1 - w + w = i + 1 by omega] at this
    have e' : bar (vals data) i = bar (vals data) (i - w) := by
      have := h.vals.bar (j := i - w) (by simp; omega)
      rwa [show i - w + w = i by omega] at this
    rw [(lastOf_cycle hw (by omega) (by rw [Nat.add_sub_cancel, show i + 1 - w - 1 = i - w by omega, e, e'])).mean]

/-- C101: `roc` over `w - 1` bars is 0 on a series that repeats every `w - 1` bars (unless it passes through 0). -/
theorem roc_cycle_zero {data : List XF} (h : Cycles (w - 1) data) (hw : 1 ≤ w) (hn : w ≤ data.length + 1) (hd : Fins data)
    (h0 : ∀ x ∈ vals data, x ≠ 0) : Reports data.length (w - 1) (fun _ => 0) (roc data w) := by
  obtain ⟨o, e, l, a, f⟩ := roc_reports data w hw hn hd
  refine ⟨o, e, l, a, fun i hi hb => ?_⟩
  obtain ⟨y, hy, iy⟩ := f i hi hb
  refine ⟨y, hy, ?_⟩
  have e : bar (vals data) i = bar (vals data) (i - (w - 1)) := by
    have := h.vals.bar (j := i - (w - 1)) (by simp; omega)
    rwa [show i - (w - 1) + (w - 1) = i by omega] at this
  have hne : bar (vals data) (i - (w - 1)) ≠ 0 := by
    rw [bar, List.getD_eq_getElem?_getD, List.getElem?_eq_getElem (show i - (w - 1) < (vals data).length by simp; omega)]
    exact h0 _ (List.getElem_mem _)
  have := iy.1 hne
  rwa [e, sub_self, mul_zero, zero_div] at this

/-- C101: `cmo` over `w` bars is 0 on a cycle of `w` bars that is not flat: what a cycle gains it loses. -/
theorem cmo_cycle_zero {data : List XF} (h : Cycles w data) (hn : w ≤ data.length) (h1 : 1 ≤ data.length) (hd : Fins data)
    (hm : ∀ i, w ≤ i → i < data.length → ¬ Flat (recent (vals data) (w + 1) i)) : Reports data.length w (fun _ => 0) (cmo data w) := by
  obtain ⟨o, e, l, a, f⟩ := cmo_reports data w hn h1 hd
  refine ⟨o, e, l, a, fun i hi hb => ?_⟩
  obtain ⟨y, hy, iy⟩ := f i hi hb
  have hl : (recent (vals data) (w + 1) i).length = w + 1 := recent_length (by omega) (by simpa using hb)
  have g1 : (recent (vals data) (w + 1) i)[0]? = (vals data)[i - w]? := by
    rw [recent, List.getElem?_take, if_pos (by omega), List.getElem?_drop]; congr 1; omega
  have g2 : (recent (vals data) (w + 1) i)[w]? = (vals data)[i]? := by
    rw [recent, List.getElem?_take, if_pos (by omega), List.getElem?_drop]; congr 1; omega
  have hc := h.vals (i - w) (by simp; omega)
  rw [Nat.sub_add_cancel hi, ← g1, ← g2] at hc
  have ht := rises_sub_falls (recent (vals data) (w + 1) i)
  rw [hl, bar, bar, List.getD_eq_getElem?_getD, List.getD_eq_getElem?_getD, Nat.add_sub_cancel, hc, sub_self] at ht
  have := iy.1 fun e => hm i hi hb (flat_of_no_move e)
  rw [ht, zero_div, zero_mul] at this
  exact ⟨y, hy, this⟩

end Traquer.Momentum

namespace Traquer.Volume
open FP
variable {w : ℕ} {high low close volume : List XF}

/-- C101: `cmf`, when every series repeats every `w` bars, no bar has high = low and the volume of a cycle is not zero. -/
theorem cmf_level (h0 : Cycles w high) (h1 : Cycles w low) (h2 : Cycles w close) (h3 : Cycles w volume)
    (hl : low.length = high.length) (hc : close.length = high.length) (hv : volume.length = high.length) (hw : 1 ≤ w) (hn : w ≤ high.length + 1)
    (fh : Fins high) (fl : Fins low) (fc : Fins close) (fv : Fins volume) (hr : ∀ j, j < high.length → bar (vals high) j ≠ bar (vals low) j)
    (hs : (lastOf (bar (vals volume)) w (w - 1)).sum ≠ 0) : Level (w - 1) (cmf high low close volume w) := by
  refine level_reportsP (cmf_reports high low close volume w hl hc hv hw hn fh fl fc fv hr) fun i y z hi hb hy hz => ?_
  have ev : ∀ j, 0 + w ≤ j → j < high.length → bar (vals volume) j = bar (vals volume) (j - w) := fun j hj hb =>
    h3.bar_back (by omega) (by omega)
  have et : ∀ j, 0 + w ≤ j → j < high.length → adTerm (vals high) (vals low) (vals close) (vals volume) j =
      adTerm (vals high) (vals low) (vals close) (vals volume) (j - w) := fun j hj hb => by
    rw [adTerm, adTerm, h0.bar_back (j := j) (by omega) (by omega), h1.bar_back (j := j) (by omega) (by omega),
      h2.bar_back (j := j) (by omega) (by omega), h3.bar_back (j := j) (by omega) (by omega)]
  rw [← (lastOf_first hw ev (by omega) (by omega)).sum_eq, ← (lastOf_first hw et (by omega) (by omega)).sum_eq] at hy hz
  exact hy.same hz (.inl (by rwa [Nat.zero_add]))

/-- C101: `mfi`, when every series repeats every `w` bars (typical prices and volumes not negative). -/
theorem mfi_level (h0 : Cycles w high) (h1 : Cycles w low) (h2 : Cycles w close) (h3 : Cycles w volume)
    (hl : low.length = high.length) (hc : close.length = high.length) (hv : volume.length = high.length) (hw : 1 ≤ w) (hn : w + 1 ≤ high.length)
    (fh : Fins high) (fl : Fins low) (fc : Fins close) (fv : Fins volume)
    (hp : ∀ b ∈ zip4 (vals high) (vals low) (vals close) (vals volume), 0 ≤ typical b) (hv' : ∀ v ∈ vals volume, 0 ≤ v) :
    Level w (mfi high low close volume w) := by
  have vl : ∀ l : List XF, (vals l).length = l.length := fun l => by simp
  have bi := fun {j : ℕ} (hj : j + 1 < high.length) => bar_flowIn (high := vals high) (low := vals low) (close := vals close) (volume := vals volume)
    (by simp only [vl]; omega) (by simp only [vl]; omega) (by simp only [vl]; omega) (j := j) (by rw [vl]; exact hj)
  have bo := fun {j : ℕ} (hj : j + 1 < high.length) => bar_flowOut (high := vals high) (low := vals low) (close := vals close) (volume := vals volume)
    (by simp only [vl]; omega) (by simp only [vl]; omega) (by simp only [vl]; omega) (j := j) (by rw [vl]; exact hj)
  have lz : (zip4 (vals high) (vals low) (vals close) (vals volume)).length = high.length := by simp; omega
  have li : (flowIn (vals high) (vals low) (vals close) (vals volume)).length = high.length - 1 := by rw [flowIn, List.length_map, pairs_length, lz]
  have lo : (flowOut (vals high) (vals low) (vals close) (vals volume)).length = high.length - 1 := by rw [flowOut, List.length_map, pairs_length, lz]
  have ty : ∀ j, w ≤ j → j < high.length → typicalAt (vals high) (vals low) (vals close) j = typicalAt (vals high) (vals low) (vals close) (j - w) :=
    fun j hj hb => by
      rw [typicalAt, typicalAt, h0.bar_back (j := j) hj hb, h1.bar_back (j := j) hj (by omega), h2.bar_back (j := j) hj (by omega)]
  have ci : Cycles w (flowIn (vals high) (vals low) (vals close) (vals volume)) := cycles_of_bar fun j hj => by
    rw [li] at hj
    rw [bi (by omega), bi (by omega), ty (j + w) (by omega) (by omega), ty (j + w + 1) (by omega) (by omega),
      h3.bar_back (j := j + w + 1) (by omega) (by omega), Nat.add_sub_cancel, show j + w + 1 - w = j + 1 by omega]
  have co : Cycles w (flowOut (vals high) (vals low) (vals close) (vals volume)) := cycles_of_bar fun j hj => by
    rw [lo] at hj
    rw [bo (by omega), bo (by omega), ty (j + w) (by omega) (by omega), ty (j + w + 1) (by omega) (by omega),
      h3.bar_back (j := j + w + 1) (by omega) (by omega), Nat.add_sub_cancel, show j + w + 1 - w = j + 1 by omega]
  refine level_reportsP (mfi_reports high low close volume w hl hc hv hw hn fh fl fc fv hp hv') fun i y z hi hb hy hz => ?_
  have e1 := (ci.perm_first (i := i - 1) hw (by omega) (by omega)).sum_eq
  have e2 := (co.perm_first (i := i - 1) hw (by omega) (by omega)).sum_eq
  have e3 := (ci.perm_first (i := i + 1 - 1) hw (by omega) (by omega)).sum_eq
  have e4 := (co.perm_first (i := i + 1 - 1) hw (by omega) (by omega)).sum_eq
  simp only [← e1, ← e2] at hy
  simp only [← e3, ← e4] at hz
  obtain ⟨n1, n2⟩ := flow_nonneg hp hv'
  have p1 : 0 ≤ (recent (flowIn (vals high) (vals low) (vals close) (vals volume)) w (w - 1)).sum :=
    List.sum_nonneg fun x hx => n1 x (List.mem_of_mem_drop (List.mem_of_mem_take hx))
  have p2 : 0 ≤ (recent (flowOut (vals high) (vals low) (vals close) (vals volume)) w (w - 1)).sum :=
    List.sum_nonneg fun x hx => n2 x (List.mem_of_mem_drop (List.mem_of_mem_take hx))
  refine hy.same hz (or_iff_not_imp_left.2 fun h0 => ?_)
  have := not_not.1 h0
  linarith

end Traquer.Volume

namespace Traquer.Volatility
open FP FloatLit
variable {w : ℕ} {high low close : List XF}

/-- C101: `vhf`, unless the close stands still. -/
theorem vhf_level (h0 : Cycles w high) (h1 : Cycles w low) (h2 : Cycles w close) (hl : low.length = high.length)
    (hc : close.length = high.length) (hw : 1 ≤ w) (hn : w ≤ high.length) (fh : Fins high) (fl : Fins low) (fc : Fins close)
    (hs : (lastOf (fun j => |bar (vals close) j - bar (vals close) (j - 1)|) w w).sum ≠ 0) : Level w (vhf high low close w) := by
  refine level_reportsP (vhf_reports high low close w hl hc hw hn fh fl fc) fun i y z hi hb hy hz => ?_
  have et : ∀ j, 1 + w ≤ j → j < high.length → |bar (vals close) j - bar (vals close) (j - 1)| =
      |bar (vals close) (j - w) - bar (vals close) (j - w - 1)| := fun j hj hb => by
    rw [h2.bar_back (j := j) (by omega) (by omega), h2.bar_back (j := j - 1) (by omega) (by omega), Nat.sub_right_comm]
  rw [← (lastOf_first (k := 1) hw et (by omega) (by omega)).sum_eq] at hy hz
  have n1 := recent_ne_nil (l := vals high) hw (show w ≤ w - 1 + 1 by omega) (by simp; omega)
  have n2 := recent_ne_nil (l := vals low) hw (show w ≤ w - 1 + 1 by omega) (by simp; omega)
  rw [← (h0.vals.perm_first hw (by omega) (by simp; omega)).maxOf n1, ← (h1.vals.perm_first hw (by omega) (by simp; omega)).minOf n2] at hy hz
  exact hy.same hz (.inl (by rwa [Nat.add_sub_cancel_left]))

/-- C101: `hv` (positive prices). -/
theorem hv_level {data : List XF} {dev : Option XF} {d : ℝ} (h : Cycles w data) (hw : 1 ≤ w) (hn : w ≤ data.length) (hd : Fins data)
    (hp : ∀ x ∈ vals data, 0 < x) (hdev : dev.getD 1 ⇓ d) (h0 : 0 ≤ d) : Level w (hv data w dev) := by
  refine level_reports (hv_reports data w dev d hw hn hd hp hdev h0) fun i hi hb => ?_
  have et : ∀ j, 1 + w ≤ j → j < data.length → logReturn (vals data) j = logReturn (vals data) (j - w) := fun j hj hb => by
    rw [logReturn, logReturn, h.bar_back (j := j) (by omega) (by omega), h.bar_back (j := j - 1) (by omega) (by omega), Nat.sub_right_comm]
  rw [← (lastOf_first (k := 1) (i := i) hw et (by omega) (by omega)).moment, ← (lastOf_first (k := 1) (i := i + 1) hw et (by omega) (by omega)).moment]

/-- C101: the two bounds of `donchian`, in every rounding. -/
theorem donchian_level {ρ : Rounding} {high low : List (FP ρ)} (h0 : Cycles w high) (h1 : Cycles w low) (hl : low.length = high.length) (hw : 1 ≤ w)
    (hn : w ≤ high.length + 1) (fh : Fins high) (fl : Fins low) : Level (w - 1) ((donchian high low w).map (·.map (·.1))) ∧
      Level (w - 1) ((donchian high low w).map (·.map (·.2.2))) := by
  have r := donchian_attained high low w hl hw hn fh fl
  constructor
  · refine level_items _ r fun i y z hi hb hy hz => .inr ⟨_, hy.1, ?_⟩
    rw [(h0.vals.perm hw (by omega) (by simp; omega)).maxOf (recent_ne_nil hw (by omega) (by simp; omega))]; exact hz.1
  · refine level_items _ r fun i y z hi hb hy hz => .inr ⟨_, hy.2, ?_⟩
    rw [(h1.vals.perm hw (by omega) (by simp; omega)).minOf (recent_ne_nil hw (by omega) (by simp; omega))]; exact hz.2

end Traquer.Volatility

namespace Traquer.Trend
open FP
variable {w : ℕ} {high low close : List XF}

/-- C101: both lines of `vortex`, unless nothing moves. -/
theorem vortex_level (h0 : Cycles w high) (h1 : Cycles w low) (h2 : Cycles w close) (hl : low.length = high.length)
    (hc : close.length = high.length) (hw : 1 ≤ w) (hn : w ≤ high.length) (fh : Fins high) (fl : Fins low) (fc : Fins close)
    (hs : (lastOf (trAt (vals high) (vals low) (vals close)) w w).sum ≠ 0) : Level w ((vortex high low close w).map (·.map (·.1))) ∧
      Level w ((vortex high low close w).map (·.map (·.2))) := by
  have r := vortex_reports high low close w hl hc hw hn fh fl fc
  have et : ∀ j, 1 + w ≤ j → j < high.length → trAt (vals high) (vals low) (vals close) j = trAt (vals high) (vals low) (vals close) (j - w) :=
    fun j hj hb => by
      rw [trAt, trAt, h0.bar_back (j := j) (by omega) (by omega), h1.bar_back (j := j) (by omega) (by omega),
        h2.bar_back (j := j - 1) (by omega) (by omega), Nat.sub_right_comm]
  have ep : ∀ j, 1 + w ≤ j → j < high.length → vmPlus (vals high) (vals low) j = vmPlus (vals high) (vals low) (j - w) := fun j hj hb => by
    rw [vmPlus, vmPlus, h0.bar_back (j := j) (by omega) (by omega), h1.bar_back (j := j - 1) (by omega) (by omega), Nat.sub_right_comm]
  have em : ∀ j, 1 + w ≤ j → j < high.length → vmMinus (vals high) (vals low) j = vmMinus (vals high) (vals low) (j - w) := fun j hj hb => by
    rw [vmMinus, vmMinus, h1.bar_back (j := j) (by omega) (by omega), h0.bar_back (j := j - 1) (by omega) (by omega), Nat.sub_right_comm]
  constructor
  · refine level_items _ r fun i y z hi hb hy hz => ?_
    have hy := hy.1; have hz := hz.1
    rw [← (lastOf_first hw et (by omega) (by omega)).sum_eq, ← (lastOf_first hw ep (by omega) (by omega)).sum_eq] at hy hz
    exact hy.same hz (.inl (by rwa [Nat.add_sub_cancel_left]))
  · refine level_items _ r fun i y z hi hb hy hz => ?_
    have hy := hy.2; have hz := hz.2
    rw [← (lastOf_first hw et (by omega) (by omega)).sum_eq, ← (lastOf_first hw em (by omega) (by omega)).sum_eq] at hy hz
    exact hy.same hz (.inl (by rwa [Nat.add_sub_cancel_left]))

end Traquer.Trend

/-! ## Concrete cycles -/

namespace Traquer
open FP Traquer.Distribution

private theorem exC : Cycles 3 ([1, 2, 4, 1, 2, 4, 1].map (fin (ρ := Rounding.exact))) := fun j hj => by
  have : j < 4 := by simp at hj; omega
  interval_cases j <;> rfl

private theorem exH : Cycles 3 ([5, 6, 8, 5, 6, 8, 5].map (fin (ρ := Rounding.exact))) := fun j hj => by
  have : j < 4 := by simp at hj; omega
  interval_cases j <;> rfl

private theorem exL : Cycles 3 ([0, 1, 3, 0, 1, 3, 0].map (fin (ρ := Rounding.exact))) := fun j hj => by
  have : j < 4 := by simp at hj; omega
  interval_cases j <;> rfl

private theorem exP : Cycles 3 ([((1 : ℝ), (5 : ℝ)), (2, 3), (4, 4), (1, 5), (2, 3), (4, 4), (1, 5)].map fun p => ((fin p.1 : XF), (fin p.2 : XF))) :=
  fun j hj => by
    have : j < 4 := by simp at hj; omega
    interval_cases j <;> rfl

private theorem exF : Fins ([((1 : ℝ), (5 : ℝ)), (2, 3), (4, 4), (1, 5), (2, 3), (4, 4), (1, 5)].map (fun p => ((fin p.1 : XF), (fin p.2 : XF))) |>.map (·.1)) ∧
    Fins ([((1 : ℝ), (5 : ℝ)), (2, 3), (4, 4), (1, 5), (2, 3), (4, 4), (1, 5)].map (fun p => ((fin p.1 : XF), (fin p.2 : XF))) |>.map (·.2)) :=
  ⟨by simp [Fins, FP.Finite], by simp [Fins, FP.Finite]⟩

example := Smooth.sma_level exC (by decide) (by simp) (fins_map_fin _)
example := variance_level exC (by decide) (by simp) (fins_map_fin _)
example := std_dev_level exC (by decide) (by simp) (fins_map_fin _)
example := mad_level exC (by decide) (by simp) (fins_map_fin _)
example := cv_level exC (by decide) (by simp) (fins_map_fin _) (by rw [vals_map_fin]; simp [recent, mean]; norm_num)
example := skew_level exC (by decide) (by simp) (fins_map_fin _) (by
  rw [vals_map_fin]; intro h; have := h 1 (by simp [recent]) 2 (by simp [recent]); norm_num at this)
example := kurtosis_level (w := 4) (data := [1, 2, 4, 8, 1, 2, 4].map fin) (fun j hj => by
  have : j < 3 := by simp at hj; omega
  interval_cases j <;> rfl) (by decide) (by simp) (fins_map_fin _) (by
  rw [vals_map_fin]; intro h; have := h 1 (by simp [recent]) 2 (by simp [recent]); norm_num at this)
example := quantile_level exC (fin 30) (by decide) (by decide) (by simp) (fins_map_fin _)
example := median_level exC (by decide) (by decide) (by simp) (fins_map_fin _)
example := Correlation.pcc_level exP (by simp) exF.1 exF.2 (by decide)
example := Correlation.rsq_level exP (by simp) exF.1 exF.2 (by decide)
example := Correlation.srcc_level exP (by simp) exF.1 exF.2 (tieSorter true) (tieSorter_valid true) (by decide)
example := Correlation.hoeffd_level (w := 5) (s := [(fin 1, fin 5), (fin 2, fin 3), (fin 4, fin 4), (fin 7, fin 9), (fin 0, fin 1), (fin 1, fin 5), (fin 2, fin 3)])
  (fun j hj => by
    have : j < 2 := by simp at hj; omega
    interval_cases j <;> rfl) (by simp) (by simp [Fins, FP.Finite]) (by simp [Fins, FP.Finite]) (tieSorter true) (tieSorter_valid true) (by decide)
example := Correlation.dcor_level exP (by simp) exF.1 exF.2 (by decide)
example := Volume.vwma_level exP (by decide) (by simp) exF.1 exF.2 (by simp [recent, vals]; norm_num)
example := Momentum.psych_level exC (by decide) (by simp) (fins_map_fin _) (by simp)
example := Momentum.roc_cycle_zero (w := 4) exC (by decide) (by simp) (fins_map_fin _) (by rw [vals_map_fin]; simp)
example := Momentum.cmo_cycle_zero exC (by simp) (by simp) (fins_map_fin _) (fun i hi hb h => by
  rw [vals_map_fin] at h
  have : i < 7 := by simpa using hb
  have key : ∀ a b c d : ℝ, Flat [a, b, c, d] → a = b := fun a b c d h => h a (by simp) b (by simp)
  interval_cases i
  · have := key 1 2 4 1 h; norm_num at this
  · have := key 2 4 1 2 h; norm_num at this
  · have := key 4 1 2 4 h; norm_num at this
  · have := key 1 2 4 1 h; norm_num at this)
example := Volatility.donchian_level exH exL (by simp) (by decide) (by simp) (fins_map_fin _) (fins_map_fin _)
example := Volatility.vhf_level exH exL exC (by simp) (by simp) (by decide) (by simp) (fins_map_fin _) (fins_map_fin _) (fins_map_fin _)
  (by rw [vals_map_fin]; simp [lastOf, bar, List.range_succ]; norm_num)
example := Trend.vortex_level exH exL exC (by simp) (by simp) (by decide) (by simp) (fins_map_fin _) (fins_map_fin _) (fins_map_fin _)
  (by rw [vals_map_fin, vals_map_fin, vals_map_fin]; simp [lastOf, bar, List.range_succ, trAt, trueRangeOf]; norm_num)
example := Volatility.hv_level (dev := none) exC (by decide) (by simp) (fins_map_fin _) (by rw [vals_map_fin]; simp) is_one (by norm_num)
example := Volume.cmf_level exH exL exC exC (by simp) (by simp) (by simp) (by decide) (by simp) (fins_map_fin _) (fins_map_fin _) (fins_map_fin _)
  (fins_map_fin _) (by
    rw [vals_map_fin, vals_map_fin]; intro j hj
    have : j < 7 := by simpa using hj
    interval_cases j <;> norm_num [bar])
  (by rw [vals_map_fin]; simp [lastOf, bar, List.range_succ]; norm_num)
example := Volume.mfi_level exH exL exC exC (by simp) (by simp) (by simp) (by decide) (by simp) (fins_map_fin _) (fins_map_fin _) (fins_map_fin _)
  (fins_map_fin _) (by
    simp only [vals_map_fin]
    intro b hb
    simp [zip4, typical] at hb ⊢
    rcases hb with rfl | rfl | rfl | rfl | rfl | rfl | rfl <;> norm_num)
  (by rw [vals_map_fin]; simp)

end Traquer
