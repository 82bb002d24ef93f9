import Verif.Rust
import Mathlib.Tactic.ByContra
import Mathlib.Tactic.Push
/-!
# Lengths and indices of the list functions of `Verif.Rust`
-/

namespace Traquer
variable {α β γ δ ε ζ σ τ : Type}

/-! ## Lengths -/

@[simp] theorem windowsOf_length (n : Nat) (l : List α) :
    (windowsOf n l).length = l.length + 1 - n := by simp [windowsOf]

theorem windows_eq {n : Nat} (l : List α) (h : 1 ≤ n) : windows n l = some (windowsOf n l) := by
  unfold windows; rw [if_neg (by omega)]

@[simp] theorem pairs_length (l : List α) : (pairs l).length = l.length - 1 := by
  induction l with
  | nil => rfl
  | cons x l ih =>
    cases l with
    | nil => rfl
    | cons y r => simp only [pairs, List.length_cons] at ih ⊢; omega

@[simp] theorem scan_length (f : σ → α → σ × β) (s : σ) (l : List α) :
    (scan f s l).length = l.length := by
  induction l generalizing s with
  | nil => rfl
  | cons x l ih => simp [scan, ih]

@[simp] theorem scanS_length (f : σ → α → σ) (s : σ) (l : List α) :
    (scanS f s l).length = l.length := by simp [scanS]

theorem scanM_length {f : σ → α → Option (σ × β)} {s : σ} {l : List α} {o : List β}
    (h : scanM f s l = some o) : o.length = l.length := by
  induction l generalizing s o with
  | nil => simp [scanM] at h; simp [← h]
  | cons x l ih =>
    simp only [scanM] at h
    split at h
    · cases h
    · split at h
      · cases h
      · rename_i _ _ ys hys
        cases h
        simp [ih hys]

theorem scanM_isSome {f : σ → α → Option (σ × β)} {l : List α}
    (h : ∀ s, ∀ x ∈ l, (f s x).isSome) (s : σ) : ∃ o, scanM f s l = some o := by
  induction l generalizing s with
  | nil => exact ⟨[], rfl⟩
  | cons x l ih =>
    obtain ⟨⟨s', y⟩, hy⟩ := Option.isSome_iff_exists.1 (h s x (by simp))
    obtain ⟨o, ho⟩ := ih (fun s x hx => h s x (by simp [hx])) s'
    exact ⟨y :: o, by simp [scanM, hy, ho]⟩

theorem mapP_length {f : α → Option β} {l : List α} {o : List β} (h : mapP f l = some o) :
    o.length = l.length := by
  induction l generalizing o with
  | nil => simp [mapP] at h; simp [← h]
  | cons x l ih =>
    simp only [mapP] at h
    split at h
    · cases h
    · split at h
      · cases h
      · rename_i _ _ ys hys
        cases h
        simp [ih hys]

theorem mapP_isSome {f : α → Option β} {l : List α} (h : ∀ x ∈ l, (f x).isSome) :
    ∃ o, mapP f l = some o := by
  induction l with
  | nil => exact ⟨[], rfl⟩
  | cons x l ih =>
    obtain ⟨y, hy⟩ := Option.isSome_iff_exists.1 (h x (by simp))
    obtain ⟨o, ho⟩ := ih (fun x hx => h x (by simp [hx]))
    exact ⟨y :: o, by simp [mapP, hy, ho]⟩

theorem mapP_eq_some_iff {f : α → Option β} {l : List α} {o : List β} :
    mapP f l = some o ↔ l.map f = o.map some := by
  induction l generalizing o with
  | nil => cases o <;> simp [mapP]
  | cons x l ih =>
    cases hx : f x with
    | none => cases o <;> simp [mapP, hx]
    | some y =>
      cases hl : mapP f l with
      | none =>
        simp only [mapP, hx, hl]
        cases o with
        | nil => simp
        | cons z o =>
          simp only [List.map_cons, List.cons.injEq, hx, Option.some.injEq, reduceCtorEq, false_iff,
            not_and]
          intro _ h
          rw [← ih, hl] at h
          cases h
      | some ys =>
        simp only [mapP, hx, hl]
        cases o with
        | nil => simp
        | cons z o =>
          simp only [Option.some.injEq, List.cons.injEq, List.map_cons, hx]
          rw [← ih, hl]; simp

theorem mapP_getElem? {f : α → Option β} {l : List α} {o : List β} (h : mapP f l = some o) (i : Nat) :
    o[i]? = l[i]?.bind f := by
  have h := mapP_eq_some_iff.1 h
  have h2 := congrArg (fun t => t[i]?) h
  simp only [List.getElem?_map] at h2
  cases hl : l[i]? with
  | none => cases ho : o[i]? with
    | none => rfl
    | some y => simp [hl, ho] at h2
  | some x => cases ho : o[i]? with
    | none => simp [hl, ho] at h2
    | some y => simp [hl, ho] at h2; simp [h2]

theorem mapP_some (g : α → β) (l : List α) : mapP (fun x => some (g x)) l = some (l.map g) := by
  rw [mapP_eq_some_iff]; simp [Function.comp_def]

theorem mapP_none_iff {f : α → Option β} {l : List α} : mapP f l = none ↔ ∃ x ∈ l, f x = none := by
  constructor
  · intro h
    by_contra hc
    push Not at hc
    obtain ⟨o, ho⟩ := mapP_isSome (f := f) (l := l) (fun x hx => by
      cases hfx : f x with
      | none => exact absurd hfx (hc x hx)
      | some y => rfl)
    rw [ho] at h; cases h
  · rintro ⟨x, hx, hfx⟩
    cases hl : mapP f l with
    | none => rfl
    | some o =>
      obtain ⟨i, hi⟩ := List.mem_iff_getElem?.1 hx
      have := mapP_getElem? hl i
      have hlen := mapP_length hl
      rw [hi] at this
      simp only [Option.bind_some, hfx] at this
      have hi' := (List.getElem?_eq_some_iff.1 hi).1
      rw [List.getElem?_eq_none_iff] at this
      omega

@[simp] theorem zip3_length (a : List α) (b : List β) (c : List γ) :
    (zip3 a b c).length = min a.length (min b.length c.length) := by
  induction a generalizing b c with
  | nil => simp [zip3]
  | cons x a ih =>
    cases b <;> cases c <;> simp [zip3, ih]

@[simp] theorem zip4_length (a : List α) (b : List β) (c : List γ) (d : List δ) :
    (zip4 a b c d).length = min a.length (min b.length (min c.length d.length)) := by
  induction a generalizing b c d with
  | nil => simp [zip4]
  | cons x a ih =>
    cases b <;> cases c <;> cases d <;> simp [zip4, ih]

@[simp] theorem zip5_length (a : List α) (b : List β) (c : List γ) (d : List δ) (e : List ε) :
    (zip5 a b c d e).length = min a.length (min b.length (min c.length (min d.length e.length))) := by
  induction a generalizing b c d e with
  | nil => simp [zip5]
  | cons x a ih =>
    cases b <;> cases c <;> cases d <;> cases e <;> simp [zip5, ih]

@[simp] theorem zip6_length (a : List α) (b : List β) (c : List γ) (d : List δ) (e : List ε)
    (f : List ζ) : (zip6 a b c d e f).length =
      min a.length (min b.length (min c.length (min d.length (min e.length f.length)))) := by
  induction a generalizing b c d e f with
  | nil => simp [zip6]
  | cons x a ih =>
    cases b <;> cases c <;> cases d <;> cases e <;> cases f <;> simp [zip6, ih]

@[simp] theorem nans_length {F : Type} [FloatOps F] (n : Nat) : (nans n : List F).length = n := by
  simp [nans]

/-! ## `zip`s in terms of `List.zip` -/

theorem zip3_eq (a : List α) (b : List β) (c : List γ) : zip3 a b c = a.zip (b.zip c) := by
  induction a generalizing b c with
  | nil => simp [zip3]
  | cons x a ih => cases b <;> cases c <;> simp [zip3, ih]

theorem zip4_eq (a : List α) (b : List β) (c : List γ) (d : List δ) :
    zip4 a b c d = a.zip (b.zip (c.zip d)) := by
  induction a generalizing b c d with
  | nil => simp [zip4]
  | cons x a ih => cases b <;> cases c <;> cases d <;> simp [zip4, ih]

theorem zip5_eq (a : List α) (b : List β) (c : List γ) (d : List δ) (e : List ε) :
    zip5 a b c d e = a.zip (b.zip (c.zip (d.zip e))) := by
  induction a generalizing b c d e with
  | nil => simp [zip5]
  | cons x a ih => cases b <;> cases c <;> cases d <;> cases e <;> simp [zip5, ih]

theorem zip6_eq (a : List α) (b : List β) (c : List γ) (d : List δ) (e : List ε) (f : List ζ) :
    zip6 a b c d e f = a.zip (b.zip (c.zip (d.zip (e.zip f)))) := by
  induction a generalizing b c d e f with
  | nil => simp [zip6]
  | cons x a ih => cases b <;> cases c <;> cases d <;> cases e <;> cases f <;> simp [zip6, ih]

/-- `pairs` is the list zipped with its tail. -/
theorem pairs_eq_zip (l : List α) : pairs l = l.zip l.tail := by
  induction l with
  | nil => rfl
  | cons x l ih =>
    cases l with
    | nil => rfl
    | cons y r => simp only [pairs, ih, List.tail_cons, List.zip_cons_cons]

theorem pairs_map (f : α → β) (l : List α) :
    pairs (l.map f) = (pairs l).map (fun p => (f p.1, f p.2)) := by
  simp only [pairs_eq_zip, ← List.map_tail, List.zip_map]
  rfl

theorem pairs_getElem? (l : List α) (i : Nat) :
    (pairs l)[i]? = match l[i]?, l[i + 1]? with
      | some a, some b => some (a, b)
      | _, _ => none := by
  rw [pairs_eq_zip]
  simp only [List.zip, List.getElem?_zipWith]
  cases h : l[i]? <;> simp [List.getElem?_tail]
  cases h : l[i+1]? <;> simp

/-! ## Windows -/

theorem windowsOf_getElem? {n : Nat} {l : List α} {i : Nat} (h : i + n ≤ l.length) :
    (windowsOf n l)[i]? = some ((l.drop i).take n) := by
  simp only [windowsOf, List.getElem?_map]
  rw [List.getElem?_range (by omega)]
  rfl

theorem windowsOf_mem_length {n : Nat} {l : List α} {w : List α} (h : w ∈ windowsOf n l) :
    w.length = n := by
  simp only [windowsOf, List.mem_map, List.mem_range] at h
  obtain ⟨i, hi, rfl⟩ := h
  simp; omega

theorem windowsOf_map (n : Nat) (f : α → β) (l : List α) :
    windowsOf n (l.map f) = (windowsOf n l).map (List.map f) := by
  simp [windowsOf, List.map_drop, List.map_take, Function.comp_def]

theorem windowsOf_mem_iff {n : Nat} {l w : List α} :
    w ∈ windowsOf n l ↔ ∃ i, i < l.length + 1 - n ∧ w = (l.drop i).take n := by
  simp only [windowsOf, List.mem_map, List.mem_range]
  constructor
  · rintro ⟨i, hi, rfl⟩; exact ⟨i, hi, rfl⟩
  · rintro ⟨i, hi, rfl⟩; exact ⟨i, hi, rfl⟩

theorem mem_of_mem_windowsOf {n : Nat} {l w : List α} (h : w ∈ windowsOf n l) {x : α} (hx : x ∈ w) :
    x ∈ l := by
  obtain ⟨i, -, rfl⟩ := windowsOf_mem_iff.1 h
  exact List.mem_of_mem_drop (List.mem_of_mem_take hx)

/-! ## Scans -/

@[simp] theorem scanS_nil (f : σ → α → σ) (s : σ) : scanS f s [] = [] := rfl
@[simp] theorem scanS_cons (f : σ → α → σ) (s : σ) (x : α) (l : List α) :
    scanS f s (x :: l) = f s x :: scanS f (f s x) l := rfl

/-- The state of a scan before item `i`. -/
theorem scanS_getElem? (f : σ → α → σ) (s : σ) (l : List α) (i : Nat) (h : i < l.length) :
    (scanS f s l)[i]? = some ((l.take (i + 1)).foldl f s) := by
  induction l generalizing s i with
  | nil => simp at h
  | cons x l ih =>
    cases i with
    | zero => simp
    | succ i => simp only [scanS_cons, List.getElem?_cons_succ]; rw [ih _ _ (by simpa using h)]; simp

theorem scanS_append (f : σ → α → σ) (s : σ) (l m : List α) :
    scanS f s (l ++ m) = scanS f s l ++ scanS f (l.foldl f s) m := by
  induction l generalizing s with
  | nil => rfl
  | cons x l ih => simp [ih]

theorem scan_append (f : σ → α → σ × β) (s : σ) (l m : List α) :
    scan f s (l ++ m) = scan f s l ++ scan f (l.foldl (fun s x => (f s x).1) s) m := by
  induction l generalizing s with
  | nil => rfl
  | cons x l ih => simp [scan, ih]

/-- Every item of a scan satisfies what an invariant of the state guarantees. -/
theorem scan_invariant {f : σ → α → σ × β} {I : σ → Prop} {P : β → Prop} {l : List α}
    (hstep : ∀ s x, x ∈ l → I s → I (f s x).1 ∧ P (f s x).2) {s : σ} (hs : I s) :
    ∀ y ∈ scan f s l, P y := by
  induction l generalizing s with
  | nil => simp [scan]
  | cons x l ih =>
    intro y hy
    simp only [scan, List.mem_cons] at hy
    have h := hstep s x (by simp) hs
    rcases hy with rfl | hy
    · exact h.2
    · exact ih (fun s x hx hs => hstep s x (by simp [hx]) hs) h.1 y hy

theorem scanS_invariant {f : σ → α → σ} {I : σ → Prop} {l : List α}
    (hstep : ∀ s x, x ∈ l → I s → I (f s x)) {s : σ} (hs : I s) :
    ∀ y ∈ scanS f s l, I y :=
  scan_invariant (fun s x hx h => ⟨hstep s x hx h, hstep s x hx h⟩) hs

theorem scanM_invariant {f : σ → α → Option (σ × β)} {I : σ → Prop} {P : β → Prop} {l : List α}
    (hstep : ∀ s x s' y, x ∈ l → I s → f s x = some (s', y) → I s' ∧ P y) {s : σ} (hs : I s)
    {o : List β} (ho : scanM f s l = some o) : ∀ y ∈ o, P y := by
  induction l generalizing s o with
  | nil => simp [scanM] at ho; simp [ho]
  | cons x l ih =>
    simp only [scanM] at ho
    split at ho
    · cases ho
    · rename_i _ s' y hy
      split at ho
      · cases ho
      · rename_i _ ys hys
        cases ho
        have h := hstep s x s' y (by simp) hs hy
        intro z hz
        rcases List.mem_cons.1 hz with rfl | hz
        · exact h.2
        · exact ih (fun s x s' y hx => hstep s x s' y (by simp [hx])) h.1 hys z hz

/-- A `scanM` whose step cannot panic on states satisfying an invariant does not panic. -/
theorem scanM_isSome_of_inv {f : σ → α → Option (σ × β)} {I : σ → Prop} {l : List α}
    (hstep : ∀ s x, x ∈ l → I s → ∃ s' y, f s x = some (s', y) ∧ I s') {s : σ} (hs : I s) :
    ∃ o, scanM f s l = some o := by
  induction l generalizing s with
  | nil => exact ⟨[], rfl⟩
  | cons x l ih =>
    obtain ⟨s', y, hy, hI⟩ := hstep s x (by simp) hs
    obtain ⟨o, ho⟩ := ih (fun s x hx => hstep s x (by simp [hx])) hI
    exact ⟨y :: o, by simp [scanM, hy, ho]⟩

theorem scanM_some (g : σ → α → σ × β) (s : σ) (l : List α) :
    scanM (fun s x => some (g s x)) s l = some (scan g s l) := by
  induction l generalizing s with
  | nil => rfl
  | cons x l ih => simp [scanM, scan, ih]

theorem mem_range_drop {n k i : Nat} : i ∈ (List.range n).drop k ↔ k ≤ i ∧ i < n := by
  rw [List.mem_iff_getElem?]
  constructor
  · rintro ⟨j, hj⟩
    rw [List.getElem?_drop] at hj
    have h := (List.getElem?_eq_some_iff.1 hj)
    obtain ⟨h1, h2⟩ := h
    simp at h1 h2
    omega
  · rintro ⟨h1, h2⟩
    refine ⟨i - k, ?_⟩
    rw [List.getElem?_drop, List.getElem?_range (by omega)]
    congr; omega

end Traquer
