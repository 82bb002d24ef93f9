import Verif.Lemmas.Items
/-!
# Scans with an invariant that mentions the position
-/

namespace Traquer

/-- Invariant of a scan that may mention the position: `I i` holds of the state before item `i`. -/
theorem scanM_idx {σ α β : Type} {f : σ → α → Option (σ × β)} {I : ℕ → σ → Prop} {P : ℕ → β → Prop} {l : List α}
    (hstep : ∀ i s x s' y, l[i]? = some x → I i s → f s x = some (s', y) → I (i + 1) s' ∧ P i y) {s : σ} (hs : I 0 s)
    {o : List β} (ho : scanM f s l = some o) (i : ℕ) (y : β) (hy : o[i]? = some y) : P i y := by
  induction l generalizing s o i I P with
  | nil => simp [scanM] at ho; simp [ho] at hy
  | cons x l ih =>
    simp only [scanM] at ho
    split at ho
    · cases ho
    · rename_i _ s' y₀ e
      split at ho
      · cases ho
      rename_i o' ho'
      cases ho
      obtain ⟨h1, h2⟩ := hstep 0 s x s' y₀ rfl hs e
      cases i with
      | zero => cases hy; exact h2
      | succ i =>
        exact ih (I := fun i => I (i + 1)) (P := fun i => P (i + 1)) (fun i s x s' y hx => hstep (i + 1) s x s' y (by simpa using hx))
          h1 ho' i (by simpa using hy)

/-- The same with totality: every step succeeds and keeps the invariant. -/
theorem scanM_idx_some {σ α β : Type} {f : σ → α → Option (σ × β)} {I : ℕ → σ → Prop} {P : ℕ → β → Prop} {l : List α}
    (hstep : ∀ i s x, l[i]? = some x → I i s → ∃ s' y, f s x = some (s', y) ∧ I (i + 1) s' ∧ P i y) {s : σ} (hs : I 0 s) :
    ∃ o, scanM f s l = some o ∧ ∀ (i : ℕ) (y : β), o[i]? = some y → P i y := by
  have : ∃ o, scanM f s l = some o := by
    induction l generalizing s I P with
    | nil => exact ⟨[], rfl⟩
    | cons x l ih =>
      obtain ⟨s', y, e, h1, -⟩ := hstep 0 s x rfl hs
      obtain ⟨o, ho⟩ := ih (I := fun i => I (i + 1)) (P := fun i => P (i + 1))
        (fun i s x hx => hstep (i + 1) s x (by simpa using hx)) h1
      exact ⟨y :: o, by simp only [scanM, e, ho]⟩
  obtain ⟨o, ho⟩ := this
  refine ⟨o, ho, scanM_idx (I := I) (fun i s x s' y hx hi e => ?_) hs ho⟩
  obtain ⟨s'', y', e', h1, h2⟩ := hstep i s x hx hi
  cases e'.symm.trans e
  exact ⟨h1, h2⟩

theorem scan_idx {σ α β : Type} {f : σ → α → σ × β} {I : ℕ → σ → Prop} {P : ℕ → β → Prop} {l : List α}
    (hstep : ∀ i s x, l[i]? = some x → I i s → I (i + 1) (f s x).1 ∧ P i (f s x).2) {s : σ} (hs : I 0 s)
    (i : ℕ) (y : β) (hy : (scan f s l)[i]? = some y) : P i y :=
  scanM_idx (f := fun s x => some (f s x)) (I := I)
    (fun i s x s' y hx h e => by have := hstep i s x hx h; rw [Option.some.inj e] at this; exact this) hs (scanM_some f s l) i y hy

/-- `items_windows2` for a closure that cannot panic. -/
theorem items_windows2_map {α β γ : Type} {a : List α} {b : List β} {w : ℕ} {f : List α × List β → γ} {d : γ}
    {P : ℕ → γ → Prop} (hw : 1 ≤ w) (hb : b.length = a.length) (hn : w ≤ a.length + 1)
    (h : ∀ i, w ≤ i + 1 → i < a.length → P i (f (recent a w i, recent b w i))) :
    Items a.length (w - 1) P (some (List.replicate (w - 1) d ++ ((windowsOf w a).zip (windowsOf w b)).map f)) := by
  have := items_windows2 (f := fun p => some (f p)) (d := d) hw hb hn fun i h1 h2 => ⟨_, rfl, h i h1 h2⟩
  rwa [mapP_some] at this

end Traquer
