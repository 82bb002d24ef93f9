import Verif.Spec.Real
import Verif.Lemmas.Shape
/-!
# Lemmas for the numerical properties
-/

namespace Traquer
open FP
variable {ρ : Rounding}

@[simp] theorem vals_length (l : List (FP ρ)) : (vals l).length = l.length := by simp [vals]
theorem vals_getElem? (l : List (FP ρ)) (i : ℕ) : (vals l)[i]? = l[i]?.map val := by simp [vals]
theorem vals_drop (l : List (FP ρ)) (i : ℕ) : vals (l.drop i) = (vals l).drop i := by simp [vals]
theorem vals_take (l : List (FP ρ)) (i : ℕ) : vals (l.take i) = (vals l).take i := by simp [vals]
@[simp] theorem vals_nil : vals ([] : List (FP ρ)) = [] := rfl
@[simp] theorem vals_cons (x : FP ρ) (l : List (FP ρ)) : vals (x :: l) = x.val :: vals l := rfl
theorem vals_append (l m : List (FP ρ)) : vals (l ++ m) = vals l ++ vals m := by simp [vals]
@[simp] theorem vals_map_fin (xs : List ℝ) : vals (xs.map (fin (ρ := ρ))) = xs := by
  simp only [vals, List.map_map]
  exact List.map_id' xs

theorem fins_map_fin (xs : List ℝ) : Fins (xs.map (fin (ρ := ρ))) := by
  intro x hx
  obtain ⟨r, -, rfl⟩ := List.mem_map.1 hx
  trivial

theorem Fins.drop {l : List (FP ρ)} (h : Fins l) (n : ℕ) : Fins (l.drop n) := fun x hx =>
  h x (List.mem_of_mem_drop hx)
theorem Fins.take {l : List (FP ρ)} (h : Fins l) (n : ℕ) : Fins (l.take n) := fun x hx =>
  h x (List.mem_of_mem_take hx)
theorem Fins.window {l w : List (FP ρ)} {n : ℕ} (h : Fins l) (hw : w ∈ windowsOf n l) : Fins w :=
  fun _ hx => h _ (mem_of_mem_windowsOf hw hx)
theorem Fins.getElem? {l : List (FP ρ)} (h : Fins l) {i : ℕ} {x : FP ρ} (hx : l[i]? = some x) :
    x ⇓ (vals l)[i]?.getD 0 := by
  rw [vals_getElem?, hx]
  exact (h x (List.mem_of_getElem? hx)).is

theorem Fins.fsum {l : List XF} (h : Fins l) : Traquer.fsum l ⇓ (vals l).sum := is_fsum h

/-- The window ending at bar `i`. -/
theorem windowsOf_recent {α : Type} {w i : ℕ} {l : List α} (hw : 1 ≤ w) (h1 : w ≤ i + 1) (h2 : i < l.length) :
    (windowsOf w l)[i - (w - 1)]? = some (recent l w i) := by
  rw [windowsOf_getElem? (by omega)]
  simp only [recent]
  rw [show i + 1 - w = i - (w - 1) by omega]

theorem recent_length {α : Type} {w i : ℕ} {l : List α} (h1 : w ≤ i + 1) (h2 : i < l.length) :
    (recent l w i).length = w := by
  simp [recent]; omega

theorem recent_vals (l : List (FP ρ)) (w i : ℕ) : vals (recent l w i) = recent (vals l) w i := by
  simp [recent, vals_take, vals_drop]

theorem recent_map {α β : Type} (f : α → β) (l : List α) (w i : ℕ) :
    recent (l.map f) w i = (recent l w i).map f := by
  simp [recent, List.map_drop, List.map_take]

theorem recent_mem_windowsOf {α : Type} {w i : ℕ} {l : List α} (hw : 1 ≤ w) (h1 : w ≤ i + 1)
    (h2 : i < l.length) : recent l w i ∈ windowsOf w l :=
  List.mem_of_getElem? (windowsOf_recent hw h1 h2)

theorem Fins.recent {l : List (FP ρ)} (h : Fins l) (w i : ℕ) : Fins (Traquer.recent l w i) :=
  (h.drop _).take _

theorem recent_subset_take {α : Type} {l : List α} {w i : ℕ} (h : w ≤ i + 1) {x : α} (hx : x ∈ recent l w i) :
    x ∈ l.take (i + 1) := by
  obtain ⟨j, hj⟩ := List.mem_iff_getElem?.1 hx
  rw [Traquer.recent, List.getElem?_take] at hj
  split at hj
  · rw [List.getElem?_drop] at hj
    rw [List.mem_iff_getElem?]
    exact ⟨i + 1 - w + j, by rw [List.getElem?_take_of_lt (by omega)]; exact hj⟩
  · cases hj

/-- `run_model` at a hypothesis. -/
macro "run_at" h:ident "[" ls:Lean.Parser.Tactic.simpLemma,* "]" : tactic =>
  `(tactic| simp (maxSteps := 1000000) (disch := (first | omega | (simp; omega))) only [$ls,*, usub_of_le, sliceTo_of_le,
    sliceFrom_of_le, windows_of_pos, Option.bind_eq_bind, Option.bind_some, bind_pure_comp,
    Option.map_eq_map, Option.map_some, List.length_drop, List.length_take] at $h:ident)

/-! ## `Reports` -/

theorem reports_nans {n k : ℕ} {v : ℕ → ℝ} {r : List (FP ρ)} (hn : k + r.length = n)
    (h : ∀ i, i < r.length → ∃ y, r[i]? = some y ∧ y ⇓ v (k + i)) : Reports n k v (some (nans k ++ r)) := by
  refine ⟨_, rfl, by simp; omega, fun i hi _ => ?_, fun i hi hn' => ?_⟩
  · rw [List.getElem?_append_left (by simpa using hi), nans, List.getElem?_replicate, if_pos hi]
  · rw [List.getElem?_append_right (by simpa using hi), nans_length]
    obtain ⟨y, h1, h2⟩ := h (i - k) (by omega)
    rw [show k + (i - k) = i by omega] at h2
    exact ⟨y, h1, h2⟩

/-- A rolling-window function. -/
theorem reports_windows {data : List (FP ρ)} {w : ℕ} {f : List (FP ρ) → FP ρ} {v : ℕ → ℝ} (hw : 1 ≤ w)
    (hn : w ≤ data.length + 1)
    (h : ∀ i, w ≤ i + 1 → i < data.length → f (recent data w i) ⇓ v i) :
    Reports data.length (w - 1) v (some (nans (w - 1) ++ (windowsOf w data).map f)) := by
  refine reports_nans (by simp; omega) fun i hi => ?_
  simp at hi
  have h1 := windowsOf_recent (i := w - 1 + i) (l := data) hw (by omega) (by omega)
  rw [show w - 1 + i - (w - 1) = i by omega] at h1
  refine ⟨_, by rw [List.getElem?_map, h1]; rfl, h _ (by omega) (by omega)⟩

/-- `ReportsP` for a rolling-window function. -/
theorem reportsP_windows {data : List (FP ρ)} {w : ℕ} {f : List (FP ρ) → FP ρ} {P : ℕ → FP ρ → Prop} (hw : 1 ≤ w)
    (hn : w ≤ data.length + 1) (h : ∀ i, w ≤ i + 1 → i < data.length → P i (f (recent data w i))) :
    ReportsP data.length (w - 1) P (some (nans (w - 1) ++ (windowsOf w data).map f)) := by
  refine ⟨_, rfl, by simp; omega, fun i hi _ => ?_, fun i hi hn' => ?_⟩
  · rw [List.getElem?_append_left (by simpa using hi), nans, List.getElem?_replicate, if_pos hi]
  · rw [List.getElem?_append_right (by simpa using hi), nans_length, List.getElem?_map,
      windowsOf_recent hw (by omega) hn']
    exact ⟨_, rfl, h i (by omega) hn'⟩

/-- `ReportsP` for a rolling-window function that may panic. -/
theorem reportsP_mapP_windows {data : List (FP ρ)} {w : ℕ} {f : List (FP ρ) → Option (FP ρ)} {P : ℕ → FP ρ → Prop}
    (hw : 1 ≤ w) (hn : w ≤ data.length + 1)
    (h : ∀ i, w ≤ i + 1 → i < data.length → ∃ y, f (recent data w i) = some y ∧ P i y) :
    ReportsP data.length (w - 1) P ((mapP f (windowsOf w data)).bind fun r => some (nans (w - 1) ++ r)) := by
  have hw' : ∀ (j : ℕ) x, (windowsOf w data)[j]? = some x → x = recent data w (j + (w - 1)) ∧ j + (w - 1) < data.length := by
    intro j x hx
    have hj := (List.getElem?_eq_some_iff.1 hx).1
    simp at hj
    have := windowsOf_recent (l := data) (i := j + (w - 1)) hw (by omega) (by omega)
    rw [Nat.add_sub_cancel, hx] at this
    exact ⟨Option.some.inj this, by omega⟩
  have hs : ∀ x ∈ windowsOf w data, (f x).isSome := by
    intro x hx
    obtain ⟨j, hj⟩ := List.mem_iff_getElem?.1 hx
    obtain ⟨rfl, hlt⟩ := hw' j x hj
    obtain ⟨y, hy, -⟩ := h _ (by omega) hlt
    rw [hy]; rfl
  obtain ⟨o, ho⟩ := mapP_isSome hs
  have hlo := mapP_length ho
  rw [windowsOf_length] at hlo
  rw [ho]
  refine ⟨_, rfl, by simp; omega, fun i hi _ => ?_, fun i hi hn' => ?_⟩
  · rw [List.getElem?_append_left (by simpa using hi), nans, List.getElem?_replicate, if_pos hi]
  · rw [List.getElem?_append_right (by simpa using hi), nans_length, mapP_getElem? ho,
      windowsOf_recent hw (by omega) hn']
    exact h i (by omega) hn'

theorem Reports.toP {n k : ℕ} {v : ℕ → ℝ} {P : ℕ → FP ρ → Prop} {r : Option (List (FP ρ))} (h : Reports n k v r)
    (hP : ∀ i y, k ≤ i → i < n → y ⇓ v i → P i y) : ReportsP n k P r := by
  obtain ⟨o, h1, h2, h3, h4⟩ := h
  refine ⟨o, h1, h2, h3, fun i a b => ?_⟩
  obtain ⟨y, e, hy⟩ := h4 i a b
  exact ⟨y, e, hP i y a b hy⟩

theorem ReportsP.mono {n k : ℕ} {P Q : ℕ → FP ρ → Prop} {r : Option (List (FP ρ))} (h : ReportsP n k P r)
    (hP : ∀ i y, k ≤ i → i < n → P i y → Q i y) : ReportsP n k Q r := by
  obtain ⟨o, h1, h2, h3, h4⟩ := h
  refine ⟨o, h1, h2, h3, fun i a b => ?_⟩
  obtain ⟨y, e, hy⟩ := h4 i a b
  exact ⟨y, e, hP i y a b hy⟩

theorem Reports.congr {n k : ℕ} {v v' : ℕ → ℝ} {r : Option (List (FP ρ))} (h : Reports n k v r)
    (e : ∀ i, k ≤ i → i < n → v i = v' i) : Reports n k v' r := by
  obtain ⟨o, h1, h2, h3, h4⟩ := h
  refine ⟨o, h1, h2, h3, fun i hi hn => ?_⟩
  obtain ⟨y, hy, hv⟩ := h4 i hi hn
  exact ⟨y, hy, hv.congr (e i hi hn)⟩

/-- The unpadded part of a report. -/
theorem Reports.drop {n k : ℕ} {v : ℕ → ℝ} {out : List (FP ρ)} (h : Reports n k v (some out)) :
    Fins (out.drop k) ∧ (out.drop k).length = n - k ∧
      ∀ i, i < n - k → (vals (out.drop k))[i]? = some (v (k + i)) := by
  obtain ⟨o, h1, h2, h3, h4⟩ := h
  cases h1
  refine ⟨fun x hx => ?_, by simp [h2], fun i hi => ?_⟩
  · obtain ⟨i, hi⟩ := List.mem_iff_getElem?.1 hx
    rw [List.getElem?_drop] at hi
    have := (List.getElem?_eq_some_iff.1 hi).1
    obtain ⟨y, hy, hv⟩ := h4 (k + i) (by omega) (by omega)
    rw [hy] at hi
    cases hi
    exact hv.1
  · obtain ⟨y, hy, hv⟩ := h4 (k + i) (by omega) (by omega)
    rw [vals_getElem?, List.getElem?_drop, hy]
    simp [hv.2]

theorem Reports.eq_nans {n k : ℕ} {v : ℕ → ℝ} {out : List (FP ρ)} (h : Reports n k v (some out)) (hk : k ≤ n) :
    out = nans k ++ out.drop k := by
  obtain ⟨o, h1, h2, h3, -⟩ := h
  cases h1
  apply List.ext_getElem?
  intro i
  by_cases hi : i < k
  · rw [h3 i hi (by omega), List.getElem?_append_left (by simpa using hi), nans, List.getElem?_replicate, if_pos hi]
  · rw [List.getElem?_append_right (by simpa using hi), nans_length, List.getElem?_drop]
    congr 1
    omega

theorem Reports.some {n k : ℕ} {v : ℕ → ℝ} {r : Option (List (FP ρ))} (h : Reports n k v r) :
    ∃ out, r = .some out ∧ Reports n k v (.some out) ∧ out.length = n := by
  obtain ⟨o, h1, h2⟩ := h
  exact ⟨o, h1, ⟨o, rfl, h2⟩, h2.1⟩

/-- the value at a reported bar -/
theorem Reports.get {n k : ℕ} {v : ℕ → ℝ} {out : List (FP ρ)} (h : Reports n k v (.some out)) {i : ℕ}
    (h1 : k ≤ i) (h2 : i < n) : ∃ y, out[i]? = .some y ∧ y ⇓ v i := by
  obtain ⟨o, e, -, -, h4⟩ := h
  cases e
  exact h4 i h1 h2

theorem Reports.get_nan {n k : ℕ} {v : ℕ → ℝ} {out : List (FP ρ)} (h : Reports n k v (.some out)) {i : ℕ}
    (h1 : i < k) (h2 : i < n) : out[i]? = .some nan := by
  obtain ⟨o, e, -, h3, -⟩ := h
  cases e
  exact h3 i h1 h2

theorem Reports.length {n k : ℕ} {v : ℕ → ℝ} {out : List (FP ρ)} (h : Reports n k v (.some out)) :
    out.length = n := by
  obtain ⟨o, e, h2, -⟩ := h
  cases e
  exact h2

/-- The reported values that a later window sees. -/
theorem Reports.recent {n k : ℕ} {v : ℕ → ℝ} {out : List (FP ρ)} (h : Reports n k v (.some out)) {w i : ℕ}
    (h1 : k + w ≤ i + 1) (h2 : i < n) : Fins (Traquer.recent out w i) ∧ vals (Traquer.recent out w i) = lastOf v w i := by
  have hg : ∀ j, j < w → ∃ y, (Traquer.recent out w i)[j]? = .some y ∧ y ⇓ v (i + 1 - w + j) := by
    intro j hj
    obtain ⟨y, e, hy⟩ := h.get (i := i + 1 - w + j) (by omega) (by omega)
    exact ⟨y, by rw [Traquer.recent, List.getElem?_take_of_lt hj, List.getElem?_drop]; exact e, hy⟩
  have hl : (Traquer.recent out w i).length = w := recent_length (by omega) (by rw [h.length]; exact h2)
  constructor
  · intro x hx
    obtain ⟨j, hj⟩ := List.mem_iff_getElem?.1 hx
    have := (List.getElem?_eq_some_iff.1 hj).1
    obtain ⟨y, e, hy⟩ := hg j (by omega)
    rw [hj] at e
    cases e
    exact hy.1
  · apply List.ext_getElem?
    intro j
    by_cases hj : j < w
    · obtain ⟨y, e, hy⟩ := hg j hj
      rw [vals_getElem?, e, lastOf, List.getElem?_map, List.getElem?_range hj]
      simp [hy.2]
    · rw [List.getElem?_eq_none (by simp [hl]; omega), List.getElem?_eq_none (by simp [lastOf]; omega)]

/-- A rolling-window function over the output of another indicator: the warm-ups add up. -/
theorem Reports.windows {n k w : ℕ} {v v' : ℕ → ℝ} {m : List (FP ρ)} {f : List (FP ρ) → FP ρ}
    (hm : Reports n k v (.some m)) (hw : 1 ≤ w) (hn : w ≤ n + 1)
    (hnan : ∀ l : List (FP ρ), l.length = w → (∃ x ∈ l, Traquer.isNaN x = true) → Traquer.isNaN (f l) = true)
    (h : ∀ i, k + w ≤ i + 1 → i < n → f (Traquer.recent m w i) ⇓ v' i) :
    Reports n (k + (w - 1)) v' (.some (nans (w - 1) ++ (windowsOf w m).map f)) := by
  have hl := hm.length
  have hg : ∀ i, w ≤ i + 1 → i < n → (nans (w - 1) ++ (windowsOf w m).map f)[i]? = .some (f (Traquer.recent m w i)) := by
    intro i h1 h2
    rw [List.getElem?_append_right (by simp; omega), nans_length, List.getElem?_map,
      windowsOf_recent hw h1 (by omega)]
    rfl
  refine ⟨_, rfl, by simp; omega, fun i hi hin => ?_, fun i hi hin => ⟨_, hg i (by omega) hin, h i (by omega) hin⟩⟩
  by_cases h1 : w ≤ i + 1
  · rw [hg i h1 hin]
    refine congrArg Option.some (isNaN_iff.1 ?_)
    refine hnan _ (recent_length h1 (by omega)) ⟨nan, ?_, rfl⟩
    rw [List.mem_iff_getElem?]
    refine ⟨0, ?_⟩
    rw [Traquer.recent, List.getElem?_take_of_lt (by omega), List.getElem?_drop]
    exact hm.get_nan (by omega) (by omega)
  · rw [List.getElem?_append_left (by simp; omega), nans, List.getElem?_replicate, if_pos (by omega)]

/-- Combining two series bar by bar. -/
theorem Reports.zipWith {n k₁ k₂ : ℕ} {v₁ v₂ : ℕ → ℝ} {g : ℝ → ℝ → ℝ} {m₁ m₂ : List (FP ρ)} {f : FP ρ × FP ρ → FP ρ}
    (h₁ : Reports n k₁ v₁ (.some m₁)) (h₂ : Reports n k₂ v₂ (.some m₂))
    (hl : ∀ x y, Traquer.isNaN x = true → Traquer.isNaN (f (x, y)) = true)
    (hr : ∀ x y, Traquer.isNaN y = true → Traquer.isNaN (f (x, y)) = true)
    (hf : ∀ x y a b, x ⇓ a → y ⇓ b → f (x, y) ⇓ g a b) :
    Reports n (max k₁ k₂) (fun i => g (v₁ i) (v₂ i)) (.some ((m₁.zip m₂).map f)) := by
  have l1 := h₁.length
  have l2 := h₂.length
  have hz : ∀ (i : ℕ) x y, m₁[i]? = .some x → m₂[i]? = .some y → ((m₁.zip m₂).map f)[i]? = .some (f (x, y)) := by
    intro i x y hx hy
    rw [List.getElem?_map, List.getElem?_zip_eq_some (z := (x, y)) |>.2 ⟨hx, hy⟩]
    rfl
  refine ⟨_, rfl, by simp; omega, fun i hi hin => ?_, fun i hi hin => ?_⟩
  · have e1 := getElem?_of_lt (show i < m₁.length by omega)
    have e2 := getElem?_of_lt (show i < m₂.length by omega)
    rw [hz _ _ _ e1 e2]
    refine congrArg Option.some (isNaN_iff.1 ?_)
    rcases Nat.lt_or_ge i k₁ with h | h
    · have := h₁.get_nan h hin
      rw [this] at e1
      exact hl _ _ (by rw [← Option.some.inj e1]; rfl)
    · have := h₂.get_nan (i := i) (by omega) hin
      rw [this] at e2
      exact hr _ _ (by rw [← Option.some.inj e2]; rfl)
  · obtain ⟨x, ex, hx⟩ := h₁.get (i := i) (by omega) hin
    obtain ⟨y, ey, hy⟩ := h₂.get (i := i) (by omega) hin
    exact ⟨_, hz _ _ _ ex ey, hf _ _ _ _ hx hy⟩

/-- Padding a report in front. -/
theorem Reports.pad {n k : ℕ} {v : ℕ → ℝ} {m : List (FP ρ)} (h : Reports n k v (.some m)) (j : ℕ) :
    Reports (j + n) (j + k) (fun i => v (i - j)) (.some (nans j ++ m)) := by
  have l1 := h.length
  refine ⟨_, rfl, by simp [l1], fun i hi hin => ?_, fun i hi hin => ?_⟩
  · by_cases hj : i < j
    · rw [List.getElem?_append_left (by simpa using hj), nans, List.getElem?_replicate, if_pos hj]
    · rw [List.getElem?_append_right (by simp; omega), nans_length]
      exact h.get_nan (by omega) (by omega)
  · rw [List.getElem?_append_right (by simp; omega), nans_length]
    exact h.get (by omega) (by omega)

/-- The part of a report from its first value on. -/
theorem Reports.tail {n k : ℕ} {v : ℕ → ℝ} {m : List (FP ρ)} (h : Reports n k v (.some m)) (j : ℕ) (hj : j ≤ n) :
    Reports (n - j) (k - j) (fun i => v (j + i)) (.some (m.drop j)) := by
  have l1 := h.length
  refine ⟨_, rfl, by simp [l1], fun i hi hin => ?_, fun i hi hin => ?_⟩
  · rw [List.getElem?_drop]; exact h.get_nan (by omega) (by omega)
  · rw [List.getElem?_drop]; exact h.get (by omega) (by omega)

/-- A report without warm-up is a finite series. -/
theorem Reports.fins {n : ℕ} {v : ℕ → ℝ} {m : List (FP ρ)} (h : Reports n 0 v (.some m)) :
    Fins m ∧ vals m = (List.range n).map v := by
  have l1 := h.length
  constructor
  · intro x hx
    obtain ⟨i, hi⟩ := List.mem_iff_getElem?.1 hx
    have := (List.getElem?_eq_some_iff.1 hi).1
    obtain ⟨y, e, hy⟩ := h.get (i := i) (by omega) (by omega)
    rw [hi] at e; cases e
    exact hy.1
  · apply List.ext_getElem?
    intro i
    by_cases hi : i < n
    · obtain ⟨y, e, hy⟩ := h.get (i := i) (by omega) hi
      rw [vals_getElem?, e, List.getElem?_map, List.getElem?_range hi]
      simp [hy.2]
    · rw [List.getElem?_eq_none (by simp; omega), List.getElem?_eq_none (by simp; omega)]

theorem Fins.reports {l : List (FP ρ)} (h : Fins l) : Reports l.length 0 (fun i => (vals l)[i]?.getD 0) (.some l) :=
  ⟨l, rfl, rfl, fun i hi => by omega, fun _ _ hi => ⟨_, getElem?_of_lt hi, h.getElem? (getElem?_of_lt hi)⟩⟩

theorem Reports.at {n k : ℕ} {v : ℕ → ℝ} {out : List (FP ρ)} (h : Reports n k v (.some out)) {i : ℕ} {x : FP ρ}
    (hx : out[i]? = .some x) (h1 : k ≤ i) : x ⇓ v i := by
  have := (List.getElem?_eq_some_iff.1 hx).1
  rw [h.length] at this
  obtain ⟨y, e, hy⟩ := h.get h1 this
  rw [hx] at e; cases e
  exact hy

theorem Reports.at_nan {n k : ℕ} {v : ℕ → ℝ} {out : List (FP ρ)} (h : Reports n k v (.some out)) {i : ℕ} {x : FP ρ}
    (hx : out[i]? = .some x) (h1 : i < k) : Traquer.isNaN x = true := by
  have := (List.getElem?_eq_some_iff.1 hx).1
  rw [h.length] at this
  have e := h.get_nan h1 this
  rw [hx] at e; cases e
  rfl

/-- A report from the values computed bar by bar. -/
theorem reports_map {β : Type} {n k : ℕ} {v : ℕ → ℝ} {l : List β} {f : β → FP ρ} (hl : l.length = n)
    (hnan : ∀ i b, l[i]? = .some b → i < k → Traquer.isNaN (f b) = true)
    (hv : ∀ i b, l[i]? = .some b → k ≤ i → f b ⇓ v i) : Reports n k v (.some (l.map f)) := by
  refine ⟨_, rfl, by simpa using hl, fun i h1 h2 => ?_, fun i h1 h2 => ?_⟩
  · have e := getElem?_of_lt (show i < l.length by omega)
    rw [List.getElem?_map, e]
    exact congrArg Option.some (isNaN_iff.1 (hnan i _ e h1))
  · have e := getElem?_of_lt (show i < l.length by omega)
    rw [List.getElem?_map, e]
    exact ⟨_, rfl, hv i _ e h1⟩

theorem zip3_getElem? {α β γ : Type} {a : List α} {b : List β} {c : List γ} {i : ℕ} {x : α} {y : β} {z : γ} :
    (zip3 a b c)[i]? = .some (x, y, z) ↔ a[i]? = .some x ∧ b[i]? = .some y ∧ c[i]? = .some z := by
  rw [zip3_eq, List.getElem?_zip_eq_some, List.getElem?_zip_eq_some]

theorem zip4_getElem? {α β γ δ : Type} {a : List α} {b : List β} {c : List γ} {d : List δ} {i : ℕ} {x : α} {y : β}
    {z : γ} {u : δ} : (zip4 a b c d)[i]? = .some (x, y, z, u) ↔
      a[i]? = .some x ∧ b[i]? = .some y ∧ c[i]? = .some z ∧ d[i]? = .some u := by
  rw [zip4_eq, List.getElem?_zip_eq_some, List.getElem?_zip_eq_some, List.getElem?_zip_eq_some]

theorem zip5_getElem? {α β γ δ ε : Type} {a : List α} {b : List β} {c : List γ} {d : List δ} {e : List ε} {i : ℕ}
    {x : α} {y : β} {z : γ} {u : δ} {t : ε} : (zip5 a b c d e)[i]? = .some (x, y, z, u, t) ↔
      a[i]? = .some x ∧ b[i]? = .some y ∧ c[i]? = .some z ∧ d[i]? = .some u ∧ e[i]? = .some t := by
  rw [zip5_eq, List.getElem?_zip_eq_some, List.getElem?_zip_eq_some, List.getElem?_zip_eq_some,
    List.getElem?_zip_eq_some]

/-! ## Scans -/

/-- The values of a scan over finite numbers. -/
theorem scanS_is {α : Type} {f : XF → α → XF} {g : ℝ → α → ℝ} {l : List α} {s : XF} {u : ℝ} (hs : s ⇓ u)
    (hf : ∀ s u x, x ∈ l → s ⇓ u → f s x ⇓ g u x) (i : ℕ) (hi : i < l.length) :
    ∃ y, (scanS f s l)[i]? = some y ∧ y ⇓ (l.take (i + 1)).foldl g u := by
  refine ⟨_, scanS_getElem? f s l i hi, ?_⟩
  exact foldl_is hs fun s u x hx h => hf s u x (List.mem_of_mem_take hx) h

theorem foldl_take_succ {α β : Type} (g : β → α → β) (u : β) (l : List α) (i : ℕ) {x : α} (h : l[i]? = some x) :
    (l.take (i + 1)).foldl g u = g ((l.take i).foldl g u) x := by
  rw [List.take_add_one, h]
  simp [List.foldl_append]

theorem foldl_vals {α : Type} (g : α → ℝ → α) (u : α) (l : List (FP ρ)) :
    (vals l).foldl g u = l.foldl (fun s x => g s x.val) u := by
  rw [vals, List.foldl_map]

theorem foldl_vals_slice {α : Type} (g : α → ℝ → α) (u : α) (l : List (FP ρ)) (i j : ℕ) :
    (((vals l).drop i).take j).foldl g u = ((l.drop i).take j).foldl (fun s x => g s x.val) u := by
  rw [← vals_drop, ← vals_take, foldl_vals]

/-! ## Convexity -/

theorem within_sum {lo hi : ℝ} {l : List ℝ} (h : Within lo hi l) :
    lo * l.length ≤ l.sum ∧ l.sum ≤ hi * l.length := by
  induction l with
  | nil => simp
  | cons x l ih =>
    have h1 := h x (by simp)
    have h2 := ih fun y hy => h y (by simp [hy])
    simp only [List.length_cons, List.sum_cons, Nat.cast_add, Nat.cast_one]
    constructor <;> nlinarith [h1.1, h1.2, h2.1, h2.2]

theorem within_mean {lo hi : ℝ} {l : List ℝ} (h : Within lo hi l) (hl : l ≠ []) :
    lo ≤ mean l ∧ mean l ≤ hi := by
  have hp : (0 : ℝ) < l.length := by
    have := List.length_pos_iff.2 hl
    exact_mod_cast this
  have := within_sum h
  rw [mean, le_div_iff₀ hp, div_le_iff₀ hp]
  exact this

theorem mean_replicate {c : ℝ} {n : ℕ} (h : 1 ≤ n) : mean (List.replicate n c) = c := by
  have : (n : ℝ) ≠ 0 := by positivity
  simp [mean, this]

theorem convex_range {lo hi a b t : ℝ} (ha : lo ≤ a ∧ a ≤ hi) (hb : lo ≤ b ∧ b ≤ hi) (h0 : 0 ≤ t) (h1 : t ≤ 1) :
    lo ≤ a * t + b * (1 - t) ∧ a * t + b * (1 - t) ≤ hi := by
  constructor
  · nlinarith [mul_le_mul_of_nonneg_right ha.1 h0, mul_le_mul_of_nonneg_right hb.1 (sub_nonneg.2 h1)]
  · nlinarith [mul_le_mul_of_nonneg_right ha.2 h0, mul_le_mul_of_nonneg_right hb.2 (sub_nonneg.2 h1)]

/-- A weighted sum with non-negative weights. -/
theorem within_dot {lo hi : ℝ} {ws l : List ℝ} (h : Within lo hi l) (hw : ∀ w ∈ ws, 0 ≤ w)
    (hl : ws.length = l.length) :
    lo * ws.sum ≤ ((ws.zip l).map fun p => p.1 * p.2).sum ∧
      ((ws.zip l).map fun p => p.1 * p.2).sum ≤ hi * ws.sum := by
  induction ws generalizing l with
  | nil => simp
  | cons w ws ih =>
    cases l with
    | nil => simp at hl
    | cons x l =>
      have h1 := h x (by simp)
      have h2 := ih (l := l) (fun y hy => h y (by simp [hy])) (fun y hy => hw y (by simp [hy])) (by simpa using hl)
      have h3 := hw w (by simp)
      simp only [List.zip_cons_cons, List.map_cons, List.sum_cons]
      constructor <;> nlinarith [mul_le_mul_of_nonneg_left h1.1 h3, mul_le_mul_of_nonneg_left h1.2 h3]

/-- A convex combination lies in every interval containing the data. -/
theorem ConvexComb.within {l : List ℝ} {v : ℝ} (h : ConvexComb l v) {lo hi : ℝ} (hl : Within lo hi l) :
    lo ≤ v ∧ v ≤ hi := by
  obtain ⟨ws, h1, h2, h3, rfl⟩ := h
  have := within_dot hl h2 h1
  rw [h3] at this
  simpa using this

theorem ConvexComb.replicate {n : ℕ} {c v : ℝ} (h : ConvexComb (List.replicate n c) v) : v = c := by
  have := h.within (lo := c) (hi := c) (fun x hx => by simp [List.eq_of_mem_replicate hx])
  linarith [this.1, this.2]

theorem sum_map_div (ws : List ℝ) (d : ℝ) : (ws.map fun w => w / d).sum = ws.sum / d := by
  induction ws with
  | nil => simp
  | cons w ws ih => simp only [List.map_cons, List.sum_cons, ih]; ring

theorem dot_div (ws l : List ℝ) (d : ℝ) :
    (((ws.map fun w => w / d).zip l).map fun p => p.1 * p.2).sum = ((ws.zip l).map fun p => p.1 * p.2).sum / d := by
  induction ws generalizing l with
  | nil => simp
  | cons w ws ih =>
    cases l with
    | nil => simp
    | cons x l =>
      simp only [List.map_cons, List.zip_cons_cons, List.sum_cons, ih]
      ring

/-- A weighted mean with non-negative weights is a convex combination. -/
theorem convexComb_weightedMean {ws l : List ℝ} (hl : ws.length = l.length) (h0 : ∀ w ∈ ws, 0 ≤ w) (hs : 0 < ws.sum) :
    ConvexComb l (weightedMean ws l) := by
  refine ⟨ws.map fun w => w / ws.sum, by simpa using hl, ?_, ?_, ?_⟩
  · intro w hw
    obtain ⟨u, hu, rfl⟩ := List.mem_map.1 hw
    exact div_nonneg (h0 u hu) hs.le
  · rw [sum_map_div, div_self hs.ne']
  · rw [dot_div, weightedMean]

theorem zip_replicate_sum (l : List ℝ) (c : ℝ) :
    (((List.replicate l.length c).zip l).map fun p => p.1 * p.2).sum = c * l.sum := by
  induction l with
  | nil => simp
  | cons x l ih => simp [List.replicate_succ, ih, mul_add]

theorem convexComb_mean {l : List ℝ} (h : l ≠ []) : ConvexComb l (mean l) := by
  have hp : (l.length : ℝ) ≠ 0 := by
    have := List.length_pos_iff.2 h
    positivity
  refine ⟨List.replicate l.length (1 / l.length : ℝ), by simp, ?_, ?_, ?_⟩
  · intro w hw
    rw [List.eq_of_mem_replicate hw]
    positivity
  · simp [hp]
  · rw [zip_replicate_sum, mean]; ring

end Traquer
