import Verif.Model.Lazy
import Verif.Props.PanicMore
import Verif.Props.Lookahead
/-!
# C95: a refused window costs one item

The iterators that can panic on the values of a window panic on the item of that window alone. Pulling the first `k` items is the same as
calling the function on the first `k` bars, so what happens later cannot take away what has been delivered.
-/

namespace Traquer
open FloatLit
section
variable {F α β : Type}

theorem mapP_id_map (f : α → Option β) (l : List α) : mapP id (l.map f) = mapP f l := by
  induction l with
  | nil => rfl
  | cons x l ih => simp only [List.map_cons, mapP, id, ih]

theorem mapP_some_append (a : List β) (l : List (Option β)) : mapP id (a.map some ++ l) = (mapP id l).map (a ++ ·) := by
  induction a with
  | nil => simp
  | cons x a ih =>
    simp only [List.map_cons, List.cons_append, mapP, id, ih, Option.bind_eq_bind, Option.bind_some]
    cases mapP id l <;> rfl

theorem windowsOf_take (w k : ℕ) (l : List α) (hk : k ≤ l.length) : windowsOf w (l.take k) = (windowsOf w l).take (k + 1 - w) := by
  unfold windowsOf
  rw [List.length_take, min_eq_left hk, ← List.map_take, List.take_range, min_eq_left (by omega)]
  refine List.map_congr_left fun i hi => ?_
  rw [List.mem_range] at hi
  rw [List.drop_take, List.take_take, min_eq_left (by omega)]

variable [FloatOps F]

/-- An iterator over windows, delivered bar by bar. -/
theorem pull_windows {ws : List α} {f : α → Option F} {w k : ℕ} (hw : 1 ≤ w) (hk : w ≤ k + 1) :
    pull k (some ((nans (w - 1)).map some ++ ws.map f)) = (mapP f (ws.take (k + 1 - w))).map (nans (w - 1) ++ ·) := by
  rw [pull, Option.bind_eq_bind, Option.bind_some, List.take_append, List.length_map, nans_length, List.take_of_length_le (by simp; omega),
    mapP_some_append, show k - (w - 1) = k + 1 - w by omega, ← List.map_take, mapP_id_map]

theorem pull_warmup {ws : List α} {f : α → Option F} {w k : ℕ} (hk : k < w) :
    pull k (some ((nans (w - 1)).map some ++ ws.map f)) = some (nans k) := by
  rw [pull, Option.bind_eq_bind, Option.bind_some, List.take_append_of_le_length (by simp; omega), ← List.map_take, mapP_id_map]
  have : mapP some ((nans (w - 1) : List F).take k) = some ((nans (w - 1) : List F).take k) := by simpa using mapP_some id ((nans (w - 1) : List F).take k)
  rw [this, nans, nans, List.take_replicate, min_eq_left (by omega)]

theorem drain_windows {ws : List α} {f : α → Option F} {w : ℕ} :
    drain (some ((nans (w - 1)).map some ++ ws.map f)) = (mapP f ws).map (nans (w - 1) ++ ·) := by
  rw [drain, Option.bind_eq_bind, Option.bind_some, mapP_some_append, mapP_id_map]

theorem items_getElem {ws : List α} {f : α → Option F} {w i : ℕ} (hi : w ≤ i + 1) :
    ((nans (w - 1)).map some ++ ws.map f)[i]? = ws[i - (w - 1)]?.map f := by
  rw [List.getElem?_append_right (by simp; omega), List.getElem?_map]
  simp only [List.length_map, nans_length]

theorem getElem?_zip {γ : Type} {l : List α} {m : List γ} {i : ℕ} {x : α} {y : γ} (h1 : l[i]? = some x) (h2 : m[i]? = some y) :
    (l.zip m)[i]? = some (x, y) := List.getElem?_zip_eq_some.2 ⟨h1, h2⟩

theorem take_zip {γ : Type} (l : List α) (m : List γ) (k : ℕ) : (l.zip m).take k = (l.take k).zip (m.take k) := by
  simp [List.zip, List.take_zipWith]

theorem bind_some_comp {γ : Type} (o : Option β) (f : β → γ) : (o.bind fun r => some (f r)) = o.map f := by cases o <;> rfl

end
end Traquer

namespace Traquer.Distribution
open FloatLit
variable {F : Type} [FloatOps F] {data : List F} {w k : ℕ}

/-- C95: draining the iterator is what C15 and the value theorems speak about. -/
theorem skew_drain : drain (skewIter data w) = skew data w := by
  rcases Nat.eq_zero_or_pos w with rfl | hw
  · rfl
  simp only [skewIter, skew, usub_of_le hw, windows, if_neg (show w ≠ 0 by omega), Option.bind_eq_bind, Option.bind_some]
  rw [drain_windows, bind_some_comp]

theorem approx_entropy_drain {run : Option ℕ} {tol : Option F} : drain (approx_entropyIter data w run tol) = approx_entropy data w run tol := by
  unfold approx_entropyIter approx_entropy
  cases tolOr data tol with
  | none => rfl
  | some t =>
    rcases Nat.eq_zero_or_pos w with rfl | hw
    · rfl
    simp only [usub_of_le hw, windows, if_neg (show w ≠ 0 by omega), Option.bind_eq_bind, Option.bind_some]
    rw [drain_windows, bind_some_comp]

theorem sample_entropy_drain {run : Option ℕ} {tol : Option F} : drain (sample_entropyIter data w run tol) = sample_entropy data w run tol := by
  unfold sample_entropyIter sample_entropy
  cases tolOr data tol with
  | none => rfl
  | some t =>
    rcases Nat.eq_zero_or_pos w with rfl | hw
    · rfl
    simp only [usub_of_le hw, windows, if_neg (show w ≠ 0 by omega), Option.bind_eq_bind, Option.bind_some]
    rw [drain_windows, bind_some_comp]

/-- C95: the first `k` items of `skew` are `skew` of the first `k` bars. -/
theorem skew_pull (hw : 1 ≤ w) (h1 : w ≤ k + 1) (h2 : k ≤ data.length) : pull k (skewIter data w) = skew (data.take k) w := by
  simp only [skewIter, skew, usub_of_le hw, windows, if_neg (show w ≠ 0 by omega), Option.bind_eq_bind, Option.bind_some]
  rw [pull_windows hw h1, windowsOf_take w k data h2, bind_some_comp]

/-- C95: the first `k` items of `approx_entropy` with a given tolerance are `approx_entropy` of the first `k` bars. -/
theorem approx_entropy_pull {run : Option ℕ} {t : F} (hw : 1 ≤ w) (h1 : w ≤ k + 1) (h2 : k ≤ data.length) :
    pull k (approx_entropyIter data w run (some t)) = approx_entropy (data.take k) w run (some t) := by
  simp only [approx_entropyIter, approx_entropy, tolOr, usub_of_le hw, windows, if_neg (show w ≠ 0 by omega), Option.bind_eq_bind, Option.bind_some]
  rw [pull_windows hw h1, windowsOf_take w k data h2, bind_some_comp]

theorem sample_entropy_pull {run : Option ℕ} {t : F} (hw : 1 ≤ w) (h1 : w ≤ k + 1) (h2 : k ≤ data.length) :
    pull k (sample_entropyIter data w run (some t)) = sample_entropy (data.take k) w run (some t) := by
  simp only [sample_entropyIter, sample_entropy, tolOr, usub_of_le hw, windows, if_neg (show w ≠ 0 by omega), Option.bind_eq_bind, Option.bind_some]
  rw [pull_windows hw h1, windowsOf_take w k data h2, bind_some_comp]

/-- C95: the warm-up is delivered whatever the values are. -/
theorem skew_warmup (hw : 1 ≤ w) (hk : k < w) : pull k (skewIter data w) = some (nans k) := by
  simp only [skewIter, usub_of_le hw, windows, if_neg (show w ≠ 0 by omega), Option.bind_eq_bind, Option.bind_some]
  exact pull_warmup hk

theorem approx_entropy_warmup {run : Option ℕ} {t : F} (hw : 1 ≤ w) (hk : k < w) :
    pull k (approx_entropyIter data w run (some t)) = some (nans k) := by
  simp only [approx_entropyIter, tolOr, usub_of_le hw, windows, if_neg (show w ≠ 0 by omega), Option.bind_eq_bind, Option.bind_some]
  exact pull_warmup hk

theorem sample_entropy_warmup {run : Option ℕ} {t : F} (hw : 1 ≤ w) (hk : k < w) :
    pull k (sample_entropyIter data w run (some t)) = some (nans k) := by
  simp only [sample_entropyIter, tolOr, usub_of_le hw, windows, if_neg (show w ≠ 0 by omega), Option.bind_eq_bind, Option.bind_some]
  exact pull_warmup hk

theorem windowsOf_self {α : Type} {w : ℕ} {l : List α} (hl : l.length = w) : windowsOf w l = [l] := by
  rw [windowsOf, show l.length + 1 - w = 1 by omega]
  simp [← hl]

theorem mapP_singleton {α β : Type} (f : α → Option β) (x : α) : mapP f [x] = (f x).map fun y => [y] := by
  rw [mapP]; cases f x <;> rfl

/-- The item of bar `i` panics exactly if the function panics on the window of that bar alone. -/
theorem skew_item {i : ℕ} (hw : 1 ≤ w) (h1 : w ≤ i + 1) (h2 : i < data.length) :
    ∃ items it, skewIter data w = some items ∧ items[i]? = some it ∧ it.map (fun y => nans (w - 1) ++ [y]) = skew (recent data w i) w := by
  have hl : (recent data w i).length = w := recent_length h1 h2
  simp only [skewIter, skew, usub_of_le hw, windows, if_neg (show w ≠ 0 by omega), Option.bind_eq_bind, Option.bind_some]
  refine ⟨_, _, rfl, by rw [items_getElem h1, windowsOf_recent hw h1 h2]; rfl, ?_⟩
  rw [windowsOf_self hl, mapP_singleton, bind_some_comp, Option.map_map]
  rfl

/-- The item of bar `i` panics exactly if the function panics on the window of that bar alone. -/
theorem approx_entropy_item {run : Option ℕ} {t : F} {i : ℕ} (hw : 1 ≤ w) (h1 : w ≤ i + 1) (h2 : i < data.length) :
    ∃ items it, approx_entropyIter data w run (some t) = some items ∧ items[i]? = some it ∧
      it.map (fun y => nans (w - 1) ++ [y]) = approx_entropy (recent data w i) w run (some t) := by
  have hl : (recent data w i).length = w := recent_length h1 h2
  simp only [approx_entropyIter, approx_entropy, tolOr, usub_of_le hw, windows, if_neg (show w ≠ 0 by omega), Option.bind_eq_bind, Option.bind_some]
  refine ⟨_, _, rfl, by rw [items_getElem h1, windowsOf_recent hw h1 h2]; rfl, ?_⟩
  rw [windowsOf_self hl, mapP_singleton, bind_some_comp, Option.map_map]
  rfl

/-- The item of bar `i` panics exactly if the function panics on the window of that bar alone. -/
theorem sample_entropy_item {run : Option ℕ} {t : F} {i : ℕ} (hw : 1 ≤ w) (h1 : w ≤ i + 1) (h2 : i < data.length) :
    ∃ items it, sample_entropyIter data w run (some t) = some items ∧ items[i]? = some it ∧
      it.map (fun y => nans (w - 1) ++ [y]) = sample_entropy (recent data w i) w run (some t) := by
  have hl : (recent data w i).length = w := recent_length h1 h2
  simp only [sample_entropyIter, sample_entropy, tolOr, usub_of_le hw, windows, if_neg (show w ≠ 0 by omega), Option.bind_eq_bind, Option.bind_some]
  refine ⟨_, _, rfl, by rw [items_getElem h1, windowsOf_recent hw h1 h2]; rfl, ?_⟩
  rw [windowsOf_self hl, mapP_singleton, bind_some_comp, Option.map_map]
  rfl

/-- C95: every item of `skew` panics for a window of one bar, and none for a longer one. -/
theorem skew_item_panics {i : ℕ} (hw : 1 ≤ w) (h1 : w ≤ i + 1) (h2 : i < data.length) :
    ∃ items it, skewIter data w = some items ∧ items[i]? = some it ∧ (it = none ↔ w = 1) := by
  obtain ⟨items, it, e1, e2, e3⟩ := skew_item hw h1 h2
  refine ⟨items, it, e1, e2, ?_⟩
  have hl : (recent data w i).length = w := recent_length h1 h2
  have := (skew_answers (w := w) hl).none_iff
  rw [← e3, Option.map_eq_none_iff] at this
  rw [this]
  omega

section
variable {data : List XF} {run : Option ℕ} {t : XF} {i : ℕ}

/-- C95: on finite values and with a given tolerance, the item of bar `i` panics exactly if in its own window a stretch
matches more than 255 (or the window is not longer than the run length). -/
theorem approx_entropy_item_panics (hf : Fins data) (ht : t.Finite) (hm : 1 ≤ run.getD 2) (hw : 1 ≤ w) (h1 : w ≤ i + 1) (h2 : i < data.length) :
    ∃ items it, approx_entropyIter data w run (some t) = some items ∧ items[i]? = some it ∧ (it = none ↔ w ≤ run.getD 2 ∨
      ∃ j < stretches (recent (vals data) w i) (run.getD 2), 255 < matchesOf (recent (vals data) w i) (run.getD 2) t.val j) := by
  obtain ⟨items, it, e1, e2, e3⟩ := approx_entropy_item (run := run) (t := t) hw h1 h2
  refine ⟨items, it, e1, e2, ?_⟩
  have hl : (recent data w i).length = w := recent_length h1 h2
  have hr : recent (vals (recent data w i)) w (w - 1) = recent (vals data) w i := by
    rw [recent_vals]
    generalize hg : recent (vals data) w i = g
    have : g.length = w := by rw [← hg, ← recent_vals]; simpa [vals] using hl
    rw [recent, show w - 1 + 1 - w = 0 by omega, List.drop_zero, List.take_of_length_le (by omega)]
  have := (approx_entropy_answers (w := w) (data := recent data w i) (tol := some t) run (hf.recent w i) (by rintro x ⟨⟩; exact ht) hm).none_iff
  rw [← e3, Option.map_eq_none_iff] at this
  rw [this, hl]
  constructor
  · intro h
    by_contra hc
    push Not at hc
    refine h ⟨hw, .inl (by simp), fun _ => ⟨hc.1, fun k k1 k2 j hj => ?_⟩⟩
    obtain rfl : k = w - 1 := by omega
    rw [hr] at hj ⊢
    exact hc.2 j hj
  · rintro (h | ⟨j, hj, hc⟩) ⟨-, -, h3⟩
    · have := (h3 le_rfl).1
      omega
    · have := (h3 le_rfl).2 (w - 1) (by omega) (by omega) j (by rw [hr]; exact hj)
      rw [hr] at this
      simp only [Option.map_some, toleranceOf] at this
      omega

/-- C95: likewise for `sample_entropy` and the matching pairs of its window. -/
theorem sample_entropy_item_panics (hf : Fins data) (ht : t.Finite) (hm : 1 ≤ run.getD 2) (hw : 1 ≤ w) (h1 : w ≤ i + 1) (h2 : i < data.length) :
    ∃ items it, sample_entropyIter data w run (some t) = some items ∧ items[i]? = some it ∧ (it = none ↔ w ≤ run.getD 2 ∨
      255 < pairMatches (recent (vals data) w i) (run.getD 2) t.val) := by
  obtain ⟨items, it, e1, e2, e3⟩ := sample_entropy_item (run := run) (t := t) hw h1 h2
  refine ⟨items, it, e1, e2, ?_⟩
  have hl : (recent data w i).length = w := recent_length h1 h2
  have hr : recent (vals (recent data w i)) w (w - 1) = recent (vals data) w i := by
    rw [recent_vals]
    generalize hg : recent (vals data) w i = g
    have : g.length = w := by rw [← hg, ← recent_vals]; simpa [vals] using hl
    rw [recent, show w - 1 + 1 - w = 0 by omega, List.drop_zero, List.take_of_length_le (by omega)]
  have := (sample_entropy_answers (w := w) (data := recent data w i) (tol := some t) run (hf.recent w i) (by rintro x ⟨⟩; exact ht) hm).none_iff
  rw [← e3, Option.map_eq_none_iff] at this
  rw [this, hl]
  constructor
  · intro h
    by_contra hc
    push Not at hc
    refine h ⟨hw, .inl (by simp), fun _ => ⟨hc.1, fun k k1 k2 => ?_⟩⟩
    obtain rfl : k = w - 1 := by omega
    rw [hr]
    exact hc.2
  · rintro (h | hc) ⟨-, -, h3⟩
    · have := (h3 le_rfl).1
      omega
    · have := (h3 le_rfl).2 (w - 1) (by omega) (by omega)
      rw [hr] at this
      simp only [Option.map_some, toleranceOf] at this
      omega

end
end Traquer.Distribution

namespace Traquer.Correlation
open Distribution
variable {F : Type} [FloatOps F] {s1 s2 : List F} {w k : ℕ} {srt : Sorter F}

theorem srcc_drain : drain (srccIter srt s1 s2 w) = srcc srt s1 s2 w := by
  rcases Nat.eq_zero_or_pos w with rfl | hw
  · rfl
  simp only [srccIter, srcc, usub_of_le hw, windows, if_neg (show w ≠ 0 by omega), Option.bind_eq_bind, Option.bind_some]
  rw [drain_windows, bind_some_comp]

theorem hoeffd_drain : drain (hoeffdIter srt s1 s2 w) = hoeffd srt s1 s2 w := by
  rcases Nat.eq_zero_or_pos w with rfl | hw
  · rfl
  simp only [hoeffdIter, hoeffd, usub_of_le hw, windows, if_neg (show w ≠ 0 by omega), Option.bind_eq_bind, Option.bind_some]
  rw [drain_windows, bind_some_comp]

theorem srcc_pull (hw : 1 ≤ w) (h1 : w ≤ k + 1) (h2 : k ≤ s1.length) (h3 : k ≤ s2.length) :
    pull k (srccIter srt s1 s2 w) = srcc srt (s1.take k) (s2.take k) w := by
  simp only [srccIter, srcc, usub_of_le hw, windows, if_neg (show w ≠ 0 by omega), Option.bind_eq_bind, Option.bind_some]
  rw [pull_windows hw h1, windowsOf_take w k s1 h2, windowsOf_take w k s2 h3, take_zip, bind_some_comp]

theorem hoeffd_pull (hw : 1 ≤ w) (h1 : w ≤ k + 1) (h2 : k ≤ s1.length) (h3 : k ≤ s2.length) :
    pull k (hoeffdIter srt s1 s2 w) = hoeffd srt (s1.take k) (s2.take k) w := by
  simp only [hoeffdIter, hoeffd, usub_of_le hw, windows, if_neg (show w ≠ 0 by omega), Option.bind_eq_bind, Option.bind_some]
  rw [pull_windows hw h1, windowsOf_take w k s1 h2, windowsOf_take w k s2 h3, take_zip, bind_some_comp]

theorem srcc_warmup (hw : 1 ≤ w) (hk : k < w) : pull k (srccIter srt s1 s2 w) = some (nans k) := by
  simp only [srccIter, usub_of_le hw, windows, if_neg (show w ≠ 0 by omega), Option.bind_eq_bind, Option.bind_some]
  exact pull_warmup hk

theorem hoeffd_warmup (hw : 1 ≤ w) (hk : k < w) : pull k (hoeffdIter srt s1 s2 w) = some (nans k) := by
  simp only [hoeffdIter, usub_of_le hw, windows, if_neg (show w ≠ 0 by omega), Option.bind_eq_bind, Option.bind_some]
  exact pull_warmup hk

/-- The item of bar `i` panics exactly if the function panics on the window of that bar alone. -/
theorem srcc_item {i : ℕ} (hw : 1 ≤ w) (h1 : w ≤ i + 1) (h2 : i < s1.length) (h3 : i < s2.length) :
    ∃ items it, srccIter srt s1 s2 w = some items ∧ items[i]? = some it ∧
      it.map (fun y => nans (w - 1) ++ [y]) = srcc srt (recent s1 w i) (recent s2 w i) w := by
  have hl : (recent s1 w i).length = w := recent_length h1 h2
  have hl2 : (recent s2 w i).length = w := recent_length h1 h3
  simp only [srccIter, srcc, usub_of_le hw, windows, if_neg (show w ≠ 0 by omega), Option.bind_eq_bind, Option.bind_some]
  refine ⟨_, _, rfl, by
    rw [items_getElem h1, getElem?_zip (windowsOf_recent hw h1 h2) (windowsOf_recent hw h1 h3)]; rfl, ?_⟩
  rw [windowsOf_self hl, windowsOf_self hl2, List.zip_cons_cons, List.zip_nil_left, mapP_singleton, bind_some_comp, Option.map_map]
  rfl

/-- The item of bar `i` panics exactly if the function panics on the window of that bar alone. -/
theorem hoeffd_item {i : ℕ} (hw : 1 ≤ w) (h1 : w ≤ i + 1) (h2 : i < s1.length) (h3 : i < s2.length) :
    ∃ items it, hoeffdIter srt s1 s2 w = some items ∧ items[i]? = some it ∧
      it.map (fun y => nans (w - 1) ++ [y]) = hoeffd srt (recent s1 w i) (recent s2 w i) w := by
  have hl : (recent s1 w i).length = w := recent_length h1 h2
  have hl2 : (recent s2 w i).length = w := recent_length h1 h3
  simp only [hoeffdIter, hoeffd, usub_of_le hw, windows, if_neg (show w ≠ 0 by omega), Option.bind_eq_bind, Option.bind_some]
  refine ⟨_, _, rfl, by
    rw [items_getElem h1, getElem?_zip (windowsOf_recent hw h1 h2) (windowsOf_recent hw h1 h3)]; rfl, ?_⟩
  rw [windowsOf_self hl, windowsOf_self hl2, List.zip_cons_cons, List.zip_nil_left, mapP_singleton, bind_some_comp, Option.map_map]
  rfl

section
variable {ρ : Rounding} {s1 s2 : List (FP ρ)} {srt : Sorter (FP ρ)} {i : ℕ}

/-- C95: the item of bar `i` of `srcc` panics exactly if its own window of two or more bars holds a NaN. -/
theorem srcc_item_panics (hs : srt.Valid) (hw : 1 ≤ w) (h1 : w ≤ i + 1) (h2 : i < s1.length) (h3 : i < s2.length) :
    ∃ items it, srccIter srt s1 s2 w = some items ∧ items[i]? = some it ∧
      (it = none ↔ 2 ≤ w ∧ ¬ (NoNaN (recent s1 w i) ∧ NoNaN (recent s2 w i))) := by
  obtain ⟨items, it, e1, e2, e3⟩ := srcc_item (srt := srt) hw h1 h2 h3
  refine ⟨items, it, e1, e2, ?_⟩
  have hl : (recent s1 w i).length = w := recent_length h1 h2
  have hl2 : (recent s2 w i).length = w := recent_length h1 h3
  have := (srcc_answers (w := w) srt hs hl hl2).none_iff
  rw [← e3, Option.map_eq_none_iff, min_self, List.take_of_length_le hl.le, List.take_of_length_le hl2.le] at this
  rw [this]
  simp only [hw, le_refl, true_and, forall_const, Classical.not_imp]

/-- C95: the item of bar `i` of `hoeffd` panics exactly if its own window holds a NaN (or the window is too short or too long). -/
theorem hoeffd_item_panics (hs : srt.Valid) (hw : 1 ≤ w) (h1 : w ≤ i + 1) (h2 : i < s1.length) (h3 : i < s2.length) :
    ∃ items it, hoeffdIter srt s1 s2 w = some items ∧ items[i]? = some it ∧
      (it = none ↔ w < 4 ∨ 7133 < w ∨ ¬ (NoNaN (recent s1 w i) ∧ NoNaN (recent s2 w i))) := by
  obtain ⟨items, it, e1, e2, e3⟩ := hoeffd_item (srt := srt) hw h1 h2 h3
  refine ⟨items, it, e1, e2, ?_⟩
  have hl : (recent s1 w i).length = w := recent_length h1 h2
  have hl2 : (recent s2 w i).length = w := recent_length h1 h3
  have := (hoeffd_answers (w := w) srt hs hl hl2).none_iff
  rw [← e3, Option.map_eq_none_iff, min_self, List.take_of_length_le hl.le, List.take_of_length_le hl2.le] at this
  rw [this]
  simp only [hw, le_refl, true_and, forall_const]
  rw [not_and_or, not_and_or, not_le, not_le, or_assoc]

end
end Traquer.Correlation

namespace Traquer
open FloatLit
section cases
variable (srt : Distribution.Sorter XF) (hs : srt.Valid)
include hs

/-- A NaN in the second bar: the items of bars 1 and 2 panic, the item of bar 3 does not. -/
example :
    let s1 : List XF := [.fin 1, .nan, .fin 2, .fin 4, .fin 3]
    let s2 : List XF := [.fin 1, .fin 2, .fin 5, .fin 7, .fin 6]
    (∃ items, Correlation.srccIter srt s1 s2 2 = some items ∧ items[2]? = some none) ∧
      ∃ items y, Correlation.srccIter srt s1 s2 2 = some items ∧ items[3]? = some (some y) := by
  intro s1 s2
  constructor
  · obtain ⟨items, it, e1, e2, e3⟩ := Correlation.srcc_item_panics (w := 2) (i := 2) (s1 := s1) (s2 := s2) hs (by simp) (by simp) (by simp [s1]) (by simp [s2])
    refine ⟨items, e1, ?_⟩
    rw [e2, e3.2 ⟨le_rfl, fun h => ?_⟩]
    have := h.1 .nan (by simp [recent, s1])
    cases this
  · obtain ⟨items, it, e1, e2, e3⟩ := Correlation.srcc_item_panics (w := 2) (i := 3) (s1 := s1) (s2 := s2) hs (by simp) (by simp) (by simp [s1]) (by simp [s2])
    cases it with
    | some y => exact ⟨items, y, e1, e2⟩
    | none =>
      refine absurd ?_ (e3.1 rfl).2
      refine ⟨.of_fins ?_, .of_fins ?_⟩ <;> simp [recent, s1, s2, Fins]

/-- Four bars of `hoeffd` are delivered whatever the fifth holds. -/
example (x : XF) :
    let s1 : List XF := [.fin 1, .fin 3, .fin 2, .fin 4, x]
    let s2 : List XF := [.fin 1, .fin 2, .fin 5, .fin 7, .nan]
    pull 4 (Correlation.hoeffdIter srt s1 s2 4) = Correlation.hoeffd srt (s1.take 4) (s2.take 4) 4 ∧
      ∃ items, Correlation.hoeffdIter srt s1 s2 4 = some items ∧ items[4]? = some none := by
  intro s1 s2
  refine ⟨Correlation.hoeffd_pull (by simp) (by simp) (by simp [s1]) (by simp [s2]), ?_⟩
  obtain ⟨items, it, e1, e2, e3⟩ := Correlation.hoeffd_item_panics (w := 4) (i := 4) (s1 := s1) (s2 := s2) hs (by simp) (by simp) (by simp [s1]) (by simp [s2])
  refine ⟨items, e1, ?_⟩
  rw [e2, e3.2 (.inr (.inr fun h => ?_))]
  have := h.2 .nan (by simp [recent, s2])
  cases this

end cases

/-- Thirty bars of one price: every window of 25 has too many matching pairs. -/
example (i : ℕ) (h1 : 24 ≤ i) (h2 : i < 30) :
    ∃ items, Distribution.sample_entropyIter (List.replicate 30 (.fin 7) : List XF) 25 none (some (.fin 1)) = some items ∧ items[i]? = some none := by
  obtain ⟨items, it, e1, e2, e3⟩ := Distribution.sample_entropy_item_panics (run := none) (t := .fin 1) (i := i) (w := 25)
    (Distribution.fins_replicate 30 7) trivial (by simp) (by simp) (by omega) (by simpa using h2)
  refine ⟨items, e1, ?_⟩
  rw [e2, e3.2 (.inr ?_)]
  rw [Distribution.vals_replicate, Distribution.recent_replicate _ (by omega) h2]
  exact Distribution.pairMatches_const (by simp [FP.val]) (by simp)

/-- A window of four bars never has too many matches. -/
example : ∃ items y, Distribution.approx_entropyIter ([.fin 1, .fin 2, .fin 1, .fin 2, .fin 9] : List XF) 4 none (some (.fin 1)) = some items ∧
    items[3]? = some (some y) := by
  obtain ⟨items, it, e1, e2, e3⟩ := Distribution.approx_entropy_item_panics (data := ([.fin 1, .fin 2, .fin 1, .fin 2, .fin 9] : List XF))
    (run := none) (t := .fin 1) (i := 3) (w := 4) (by simp [Fins]) trivial (by simp) (by simp) (by simp) (by simp)
  cases it with
  | some y => exact ⟨items, y, e1, e2⟩
  | none =>
    rcases e3.1 rfl with h | ⟨j, hj, h⟩
    · simp at h
    · have := matchesOf_le (recent (vals ([.fin 1, .fin 2, .fin 1, .fin 2, .fin 9] : List XF)) 4 3) 2 1 j
      simp [stretches, recent, vals] at this h
      omega

example : ∃ items, Distribution.skewIter ([.fin 1, .fin 2] : List XF) 1 = some items ∧ items[0]? = some none := by
  obtain ⟨items, it, e1, e2, e3⟩ := Distribution.skew_item_panics (data := ([.fin 1, .fin 2] : List XF)) (w := 1) (i := 0) le_rfl le_rfl (by simp)
  exact ⟨items, e1, by rw [e2, e3.2 rfl]⟩

example : pull 1 (Distribution.skewIter ([.fin 1, .fin 2, .nan] : List XF) 3) = some (nans 1) := Distribution.skew_warmup (by simp) (by simp)

end Traquer
