import Verif.Spec.Sign
import Verif.Lemmas.Sign
import Verif.Lemmas.Monotone
import Verif.Props.MonoBars
/-!
# Rules for statements about every item of an answer
-/

namespace Traquer
open FP FloatLit
variable {ρ : Rounding} {x y : FP ρ} {α β γ : Type} {P Q : α → Prop}

theorem SignClear.notNegative (h : SignClear x) : NotNegative x := nonNeg_iff_notAbove.1 h.nonNeg
theorem NonNegOrNaN.notNegative (h : NonNegOrNaN x) : NotNegative x := nonNeg_iff_notAbove.1 h
theorem notNegative_iff : NotNegative x ↔ NonNegOrNaN x := nonNeg_iff_notAbove.symm

theorem Every.imp {r : Option (List α)} (h : Every P r) (g : ∀ y, P y → Q y) : Every Q r := fun out e y hy => g y (h out e y hy)

theorem every_some {l : List α} : Every P (some l) ↔ ∀ y ∈ l, P y := by
  constructor
  · exact fun h => h l rfl
  · rintro h _ ⟨⟩
    exact h

theorem Every.bind {r : Option β} {f : β → Option (List α)} (h : ∀ b, r = some b → Every P (f b)) : Every P (r.bind f) := by
  intro out e
  obtain ⟨b, h1, h2⟩ := Option.bind_eq_some_iff.1 e
  exact h b h1 out h2

/-- The usual shape: NaNs, then one value per item. -/
theorem every_warm {n : ℕ} {l : List (FP ρ)} {P : FP ρ → Prop} (hn : P FP.nan) (h : ∀ y ∈ l, P y) : Every P (some (nans n ++ l)) := by
  rw [every_some]
  intro y hy
  rcases List.mem_append.1 hy with hy | hy
  · rw [List.eq_of_mem_replicate hy]; exact hn
  · exact h y hy

theorem every_map {l : List β} {f : β → α} (h : ∀ b ∈ l, P (f b)) : ∀ y ∈ l.map f, P y := by
  intro y hy
  obtain ⟨b, hb, rfl⟩ := List.mem_map.1 hy
  exact h b hb

theorem mem_of_windows {w : ℕ} {l : List α} {ws : List (List α)} (e : windows w l = some ws) {v : List α} (hv : v ∈ ws) {x : α}
    (hx : x ∈ v) : x ∈ l := by
  rw [windows] at e
  split at e
  · exact absurd e (by simp)
  · cases e
    exact mem_of_mem_windowsOf hv hx

theorem mem_of_sliceFrom {n : ℕ} {l m : List α} (e : sliceFrom l n = some m) {x : α} (hx : x ∈ m) : x ∈ l := by
  obtain ⟨-, rfl⟩ := sliceFrom_some e
  exact List.mem_of_mem_drop hx

theorem mem_of_sliceTo {n : ℕ} {l m : List α} (e : sliceTo l n = some m) {x : α} (hx : x ∈ m) : x ∈ l := by
  obtain ⟨-, rfl⟩ := sliceTo_some e
  exact List.mem_of_mem_take hx

theorem mem_of_pairs {l : List α} {p : α × α} (h : p ∈ pairs l) : p.1 ∈ l ∧ p.2 ∈ l := by
  induction l with
  | nil => exact absurd h (by simp [pairs])
  | cons a l ih =>
    cases l with
    | nil => exact absurd h (by simp [pairs])
    | cons b l =>
      rcases List.mem_cons.1 (show p ∈ (a, b) :: pairs (b :: l) from h) with rfl | h
      · simp
      · exact ⟨List.mem_cons_of_mem _ (ih h).1, List.mem_cons_of_mem _ (ih h).2⟩

theorem mem_zip3 {a : List α} {b : List β} {c : List γ} {p : α × β × γ} (h : p ∈ zip3 a b c) : (p.1, p.2.1) ∈ a.zip b ∧ p.2.2 ∈ c := by
  induction a generalizing b c with
  | nil => exact absurd h (by simp [zip3])
  | cons x a ih =>
    cases b with
    | nil => exact absurd h (by simp [zip3])
    | cons y b =>
      cases c with
      | nil => exact absurd h (by simp [zip3])
      | cons z c =>
        rcases List.mem_cons.1 (show p ∈ (x, y, z) :: zip3 a b c from h) with rfl | h
        · simp
        · exact ⟨List.mem_cons_of_mem _ (ih h).1, List.mem_cons_of_mem _ (ih h).2⟩

theorem mem_zip_drop {a : List α} {b : List β} {n : ℕ} {p : α × β} (h : p ∈ (a.drop n).zip (b.drop n)) : p ∈ a.zip b := by
  induction n generalizing a b with
  | zero => simpa using h
  | succ n ih =>
    cases a with
    | nil => simp at h
    | cons x a =>
      cases b with
      | nil => simp at h
      | cons y b => exact List.mem_cons_of_mem _ (ih (by simpa using h))

theorem signClear_nan : SignClear (FP.nan : FP ρ) := .inl rfl

theorem SignClear.fsum {l : List (FP ρ)} (h : ∀ x ∈ l, SignClear x) : SignClear (Traquer.fsum l) :=
  SignClear.foldl (t := id) h signClear_zero

theorem SignClear.fsum_nonNeg {l : List (FP ρ)} (h : ∀ x ∈ l, NonNegOrNaN x) : SignClear (Traquer.fsum l) := by
  have key : ∀ (l : List (FP ρ)) (s : FP ρ), SignClear s → (∀ x ∈ l, NonNegOrNaN x) → SignClear (l.foldl (· + ·) s) := by
    intro l
    induction l with
    | nil => exact fun s hs _ => hs
    | cons a l ih => exact fun s hs hl => ih _ (Volume.SignClear.add_nonNeg hs (hl a (by simp))) fun x hx => hl x (by simp [hx])
  exact key l 0 signClear_zero h

theorem scanS_all {σ : Type} {f : σ → β → σ} {P : σ → Prop} {l : List β} {s : σ} (hs : P s) (h : ∀ s, P s → ∀ b ∈ l, P (f s b)) :
    ∀ y ∈ scanS f s l, P y := by
  induction l generalizing s with
  | nil => simp [scanS, scan]
  | cons b l ih =>
    intro y hy
    have e : scanS f s (b :: l) = f s b :: scanS f (f s b) l := rfl
    rw [e, List.mem_cons] at hy
    rcases hy with rfl | hy
    · exact h s hs b (by simp)
    · exact ih (h s hs b (by simp)) (fun s hs c hc => h s hs c (by simp [hc])) y hy

end Traquer
