import Verif.Lemmas.Range
/-!
# Series of items (tuples)
-/

namespace Traquer
open FP FloatLit

theorem Items.mono {α : Type} {n k : ℕ} {P Q : ℕ → α → Prop} {r : Option (List α)} (h : Items n k P r)
    (hpq : ∀ i y, k ≤ i → i < n → P i y → Q i y) : Items n k Q r := by
  obtain ⟨out, e, l, h⟩ := h
  exact ⟨out, e, l, fun i y hi hy => hpq i y hi (l ▸ (List.getElem?_eq_some_iff.1 hy).1) (h i y hi hy)⟩

/-- Items made of the windows of two series. -/
theorem items_windows2 {α β γ : Type} {a : List α} {b : List β} {w : ℕ} {f : List α × List β → Option γ} {d : γ}
    {P : ℕ → γ → Prop} (hw : 1 ≤ w) (hb : b.length = a.length) (hn : w ≤ a.length + 1)
    (h : ∀ i, w ≤ i + 1 → i < a.length → ∃ y, f (recent a w i, recent b w i) = some y ∧ P i y) :
    Items a.length (w - 1) P
      ((mapP f ((windowsOf w a).zip (windowsOf w b))).bind fun r => some (List.replicate (w - 1) d ++ r)) := by
  have key : ∀ j p, ((windowsOf w a).zip (windowsOf w b))[j]? = some p →
      j + (w - 1) < a.length ∧ p = (recent a w (j + (w - 1)), recent b w (j + (w - 1))) := fun j p hp => by
    obtain ⟨x, y⟩ := p
    obtain ⟨e1, e2⟩ := List.getElem?_zip_eq_some.1 hp
    have hj := (List.getElem?_eq_some_iff.1 e1).1
    rw [windowsOf_length] at hj
    rw [show j = j + (w - 1) - (w - 1) by omega, windowsOf_recent hw (by omega) (by omega)] at e1 e2
    cases e1; cases e2
    exact ⟨by omega, rfl⟩
  obtain ⟨r, hr⟩ := mapP_isSome (f := f) (l := (windowsOf w a).zip (windowsOf w b)) fun p hp => by
    obtain ⟨j, hj⟩ := List.mem_iff_getElem?.1 hp
    obtain ⟨h1, rfl⟩ := key j p hj
    obtain ⟨y, hy, -⟩ := h _ (by omega) h1
    simp [hy]
  refine ⟨_, by rw [hr]; rfl, ?_, fun i y hi hy => ?_⟩
  · have := mapP_length hr
    simp [hb] at this ⊢
    omega
  · rw [List.getElem?_append_right (by simpa using hi), List.length_replicate, mapP_getElem? hr] at hy
    obtain ⟨p, hp, hf⟩ := Option.bind_eq_some_iff.1 hy
    obtain ⟨h1, rfl⟩ := key _ p hp
    rw [show i - (w - 1) + (w - 1) = i by omega] at h1 hf
    obtain ⟨y', hy', hP⟩ := h i (by omega) h1
    rw [hf] at hy'
    cases hy'
    exact hP

/-- From alignment and a fact about each reported value to a report. -/
theorem Aligned.reportsP {ρ : Rounding} {n k : ℕ} {P : ℕ → FP ρ → Prop} {r : Option (List (FP ρ))} (h : Aligned n k r)
    (hP : ∀ out, r = some out → ∀ i y, k ≤ i → out[i]? = some y → P i y) : ReportsP n k P r := by
  obtain ⟨out, eo, lo, -, wo⟩ := h
  refine ⟨out, eo, lo, fun i hi hn => ?_, fun i hi hn => ?_⟩
  · have hl : i < out.length := by omega
    rw [List.getElem?_eq_getElem hl]
    have := wo inferInstance out[i] (List.mem_of_getElem? (i := i) (by rw [List.getElem?_take, if_pos hi, List.getElem?_eq_getElem hl]))
    rw [FP.isNaN_iff.1 this]; rfl
  · have hl : i < out.length := by omega
    exact ⟨out[i], List.getElem?_eq_getElem hl, hP out eo i _ hi (List.getElem?_eq_getElem hl)⟩

/-- Values made of the windows of two series. -/
theorem reportsP_windows2 {ρ : Rounding} {α β : Type} {a : List α} {b : List β} {w : ℕ} {f : List α × List β → FP ρ}
    {P : ℕ → FP ρ → Prop} (hw : 1 ≤ w) (hb : b.length = a.length) (hn : w ≤ a.length + 1)
    (h : ∀ i, w ≤ i + 1 → i < a.length → P i (f (recent a w i, recent b w i))) :
    ReportsP a.length (w - 1) P (some (nans (w - 1) ++ ((windowsOf w a).zip (windowsOf w b)).map f)) := by
  have key : ReportsP (a.length - (w - 1)) 0 (fun i => P (i + (w - 1))) (some (((windowsOf w a).zip (windowsOf w b)).map f)) := by
    refine reportsP_map (by simp; omega) (fun i b _ hi => by omega) fun i p hp _ => ?_
    obtain ⟨x, y⟩ := p
    obtain ⟨e1, e2⟩ := List.getElem?_zip_eq_some.1 hp
    have hi : i + (w - 1) < a.length := by have := (List.getElem?_eq_some_iff.1 e1).1; simp at this; omega
    have r1 := windowsOf_recent (i := i + (w - 1)) hw (by omega) hi
    have r2 := windowsOf_recent (i := i + (w - 1)) (l := b) hw (by omega) (by omega)
    rw [Nat.add_sub_cancel] at r1 r2
    cases r1.symm.trans e1
    cases r2.symm.trans e2
    exact h _ (by omega) hi
  have := key.pad (w - 1)
  obtain ⟨o, e, h1, h2, h3⟩ := this
  refine ⟨o, e, by omega, fun i h4 h5 => h2 i (by omega) (by omega), fun i h4 h5 => ?_⟩
  obtain ⟨y, ey, hy⟩ := h3 i (by omega) (by omega)
  rw [Nat.sub_add_cancel h4] at hy
  exact ⟨y, ey, hy⟩

theorem nans_succ' {ρ : Rounding} {w : ℕ} (hw : 1 ≤ w) : (nans w : List (FP ρ)) = nans 1 ++ nans (w - 1) := by
  rw [nans, nans, nans, ← List.replicate_add]
  congr 1; omega

/-- A report over the pairs of neighbouring bars, moved to the later bar. -/
theorem ReportsP.shift1 {ρ : Rounding} {n k w : ℕ} {P : ℕ → FP ρ → Prop} {m : List (FP ρ)} (hw : 1 ≤ w)
    (h : ReportsP n k P (some (nans (w - 1) ++ m))) : ReportsP (n + 1) (k + 1) (fun i => P (i - 1)) (some (nans w ++ m)) := by
  have := h.pad 1
  rw [← List.append_assoc, ← nans_succ' hw] at this
  exact this.cast (Nat.add_comm _ _) (Nat.add_comm _ _)

/-- A scan whose state only remembers the last item. -/
theorem scan_last {σ α β : Type} {f : σ → α → σ × β} {k : α → σ} (hk : ∀ s x, (f s x).1 = k x) (s : σ) (l : List α) :
    scan f s l = ((s :: l.map k).zip l).map fun p => (f p.1 p.2).2 := by
  induction l generalizing s with
  | nil => rfl
  | cons x l ih => simp [scan, ih, hk]

theorem mapP_mem {α β : Type} {f : α → Option β} {l : List α} {o : List β} (h : mapP f l = some o) {y : β} (hy : y ∈ o) :
    ∃ x ∈ l, f x = some y := by
  obtain ⟨i, hi⟩ := List.mem_iff_getElem?.1 hy
  rw [mapP_getElem? h] at hi
  obtain ⟨x, hx, hf⟩ := Option.bind_eq_some_iff.1 hi
  exact ⟨x, List.mem_of_getElem? hx, hf⟩

theorem sliceTo_bind_some {α β : Type} {l : List α} {n : ℕ} {f : List α → Option β} {r : β} :
    (sliceTo l n).bind f = some r ↔ n ≤ l.length ∧ f (l.take n) = some r := by
  unfold sliceTo; split <;> simp_all
theorem sliceFrom_bind_some {α β : Type} {l : List α} {n : ℕ} {f : List α → Option β} {r : β} :
    (sliceFrom l n).bind f = some r ↔ n ≤ l.length ∧ f (l.drop n) = some r := by
  unfold sliceFrom; split <;> simp_all
theorem usub_bind_some {β : Type} {a b : ℕ} {f : ℕ → Option β} {r : β} :
    (usub a b).bind f = some r ↔ b ≤ a ∧ f (a - b) = some r := by
  unfold usub; split <;> simp_all
theorem windows_bind_some {α β : Type} {l : List α} {n : ℕ} {f : List (List α) → Option β} {r : β} :
    (windows n l).bind f = some r ↔ 1 ≤ n ∧ f (windowsOf n l) = some r := by
  unfold windows; split <;> simp_all; omega

/-- Turns the slices, windows and subtractions of a successful call into conditions on lengths. -/
macro "unslice " h:ident : tactic => `(tactic|
  simp only [Option.bind_eq_bind, sliceTo_bind_some, sliceFrom_bind_some, usub_bind_some, windows_bind_some] at $h:ident)

end Traquer
