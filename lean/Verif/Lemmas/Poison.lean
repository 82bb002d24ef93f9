import Verif.Lemmas.Shape
/-!
# States that never recover
-/

namespace Traquer
variable {α β σ : Type}

/-- If item `i` puts the state of a scan into `P`, and `P` is never left, every item from `i` on is in `Q`. -/
theorem scanM_poison {f : σ → α → Option (σ × β)} {P : σ → Prop} {Q : β → Prop} {x₀ : α}
    (hkeep : ∀ s x s' y, f s x = some (s', y) → P s → P s' ∧ Q y)
    (hhit : ∀ s s' y, f s x₀ = some (s', y) → P s' ∧ Q y) {l : List α} {i : Nat} (hi : l[i]? = some x₀)
    {s : σ} {o : List β} (ho : scanM f s l = some o) : ∀ j y, i ≤ j → o[j]? = some y → Q y := by
  have keep : ∀ (l : List α) (s : σ) (o : List β), P s → scanM f s l = some o → ∀ y ∈ o, Q y := fun l s o hs ho =>
    scanM_invariant (I := P) (fun s x s' y _ h1 h2 => hkeep s x s' y h2 h1) hs ho
  induction l generalizing s o i with
  | nil => simp at hi
  | cons x l ih =>
    simp only [scanM] at ho
    split at ho
    · cases ho
    · rename_i _ s' y hy
      split at ho
      · cases ho
      · rename_i _ ys hys
        cases ho
        intro j z hij hz
        cases i with
        | zero =>
          simp only [List.getElem?_cons_zero, Option.some.injEq] at hi
          subst hi
          have h := hhit _ _ _ hy
          cases j with
          | zero => simp at hz; subst hz; exact h.2
          | succ j => exact keep _ _ _ h.1 hys z (List.mem_of_getElem? (by simpa using hz))
        | succ i =>
          cases j with
          | zero => omega
          | succ j => exact ih (by simpa using hi) hys j z (by omega) (by simpa using hz)

theorem scan_poison {f : σ → α → σ × β} {P : σ → Prop} {Q : β → Prop} {x₀ : α}
    (hkeep : ∀ s x, P s → P (f s x).1 ∧ Q (f s x).2) (hhit : ∀ s, P (f s x₀).1 ∧ Q (f s x₀).2) {l : List α} {i : Nat}
    (hi : l[i]? = some x₀) (s : σ) : ∀ j y, i ≤ j → (scan f s l)[j]? = some y → Q y :=
  scanM_poison (f := fun s x => some (f s x)) (P := P) (Q := Q)
    (fun s x s' y h hs => by have := hkeep s x hs; rw [Option.some.inj h] at this; exact this)
    (fun s s' y h => by have := hhit s; rw [Option.some.inj h] at this; exact this) hi
    (scanM_some f s l)

theorem scanS_poison {f : σ → α → σ} {P : σ → Prop} {x₀ : α} (hkeep : ∀ s x, P s → P (f s x))
    (hhit : ∀ s, P (f s x₀)) {l : List α} {i : Nat} (hi : l[i]? = some x₀) (s : σ) :
    ∀ j y, i ≤ j → (scanS f s l)[j]? = some y → P y :=
  scan_poison (P := P) (Q := P) (fun s x h => ⟨hkeep s x h, hkeep s x h⟩) (fun s => ⟨hhit s, hhit s⟩) hi s

/-- A scan that starts in `P` stays there. -/
theorem scan_keep {f : σ → α → σ × β} {P : σ → Prop} {Q : β → Prop} (hkeep : ∀ s x, P s → P (f s x).1 ∧ Q (f s x).2) {l : List α} {s : σ}
    (h : P s) : ∀ y ∈ scan f s l, Q y :=
  scanM_invariant (f := fun s x => some (f s x)) (I := P) (P := Q)
    (fun s x s' y _ hs he => by have := hkeep s x hs; rw [Option.some.inj he] at this; exact this) h (scanM_some f s l)

theorem scanS_keep {f : σ → α → σ} {P : σ → Prop} (hkeep : ∀ s x, P s → P (f s x)) {l : List α} {s : σ} (h : P s) :
    ∀ y ∈ scanS f s l, P y :=
  scan_keep (P := P) (Q := P) (fun s x h => ⟨hkeep s x h, hkeep s x h⟩) h

end Traquer
