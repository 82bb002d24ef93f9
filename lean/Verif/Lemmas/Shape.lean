import Verif.Lemmas.Lists
import Verif.Spec.Basic
/-!
# Rules for `Aligned`
-/

namespace Traquer
variable {F : Type} [FloatOps F] {α β : Type}

theorem usub_of_le {a b : Nat} (h : b ≤ a) : usub a b = some (a - b) := by simp [usub, h]
theorem sliceTo_of_le {l : List α} {n : Nat} (h : n ≤ l.length) : sliceTo l n = some (l.take n) := by
  simp [sliceTo, h]
theorem sliceFrom_of_le {l : List α} {n : Nat} (h : n ≤ l.length) :
    sliceFrom l n = some (l.drop n) := by simp [sliceFrom, h]
theorem windows_of_pos {n : Nat} {l : List α} (h : 0 < n) : windows n l = some (windowsOf n l) :=
  windows_eq l h
theorem getElem?_of_lt {l : List α} {i : Nat} (h : i < l.length) : l[i]? = some l[i] := by simp [h]

theorem usub_none_iff {a b : Nat} : usub a b = none ↔ a < b := by simp [usub]

/-! ## Warm-up -/

theorem warmUp_zero (l : List F) : WarmUp 0 l := by simp [WarmUp]

theorem warmUp_nil (k : Nat) : WarmUp k ([] : List F) := by simp [WarmUp]

theorem WarmUp.mono {k j : Nat} {l : List F} (h : WarmUp k l) (hj : j ≤ k) : WarmUp j l := by
  intro x hx
  apply h
  exact (List.take_prefix_take_left hj).subset hx

theorem warmUp_iff {k : Nat} {l : List F} :
    WarmUp k l ↔ ∀ i < k, ∀ x, l[i]? = some x → isNaN x = true := by
  constructor
  · intro h i hi x hx
    apply h
    rw [List.mem_iff_getElem?]
    exact ⟨i, by rw [List.getElem?_take_of_lt hi]; exact hx⟩
  · intro h x hx
    obtain ⟨i, hi⟩ := List.mem_iff_getElem?.1 hx
    rw [List.getElem?_take] at hi
    split at hi
    · exact h i ‹_› x hi
    · cases hi

theorem warmUp_cons [NaNLaws F] {k : Nat} {l : List F} (h : WarmUp (k - 1) l) :
    WarmUp k ((nan : F) :: l) := by
  rw [warmUp_iff] at *
  intro i hi x hx
  cases i with
  | zero => simp at hx; subst hx; exact NaNLaws.nan_isNaN
  | succ i => exact h i (by omega) x (by simpa using hx)

theorem warmUp_append [NaNLaws F] {k m : Nat} {l : List F} (h : WarmUp (k - m) l) :
    WarmUp k (nans m ++ l) := by
  induction m generalizing k with
  | zero => simpa [nans] using h
  | succ m ih =>
    simp only [nans, List.replicate_succ, List.cons_append]
    apply warmUp_cons
    apply ih
    have e : k - 1 - m = k - (m + 1) := by omega
    rw [e]; exact h

theorem warmUp_nans_append [NaNLaws F] {k m : Nat} {l : List F} (h : k ≤ m) :
    WarmUp k (nans m ++ l) := by
  apply warmUp_append
  rw [Nat.sub_eq_zero_of_le h]
  exact warmUp_zero _

theorem warmUp_map {k : Nat} {l : List F} {f : F → F} (h : WarmUp k l)
    (hf : ∀ x, isNaN x = true → isNaN (f x) = true) : WarmUp k (l.map f) := by
  rw [warmUp_iff] at *
  intro i hi x hx
  rw [List.getElem?_map] at hx
  cases hl : l[i]? with
  | none => simp [hl] at hx
  | some y => simp [hl] at hx; subst hx; exact hf _ (h i hi y hl)

/-- Zipped lists: some component is NaN on the warm-up. -/
theorem warmUp_map_of {k : Nat} {l : List β} {f : β → F}
    (h : ∀ i < k, ∀ b, l[i]? = some b → isNaN (f b) = true) : WarmUp k (l.map f) := by
  rw [warmUp_iff]
  intro i hi x hx
  rw [List.getElem?_map] at hx
  cases hl : l[i]? with
  | none => simp [hl] at hx
  | some y => simp [hl] at hx; subst hx; exact h i hi y hl

theorem warmUp_zip_left {k : Nat} {a : List F} {b : List β} {f : F × β → F} (h : WarmUp k a)
    (hf : ∀ x y, isNaN x = true → isNaN (f (x, y)) = true) : WarmUp k ((a.zip b).map f) := by
  apply warmUp_map_of
  rintro i hi ⟨x, y⟩ hb
  rw [List.getElem?_zip_eq_some] at hb
  exact hf _ _ (warmUp_iff.1 h i hi x hb.1)

theorem warmUp_zip_right {k : Nat} {a : List β} {b : List F} {f : β × F → F} (h : WarmUp k b)
    (hf : ∀ x y, isNaN y = true → isNaN (f (x, y)) = true) : WarmUp k ((a.zip b).map f) := by
  apply warmUp_map_of
  rintro i hi ⟨x, y⟩ hb
  rw [List.getElem?_zip_eq_some] at hb
  exact hf _ _ (warmUp_iff.1 h i hi y hb.2)

theorem warmUp_zip_fst {k : Nat} {a : List F} {b : List β} (h : WarmUp k a) :
    WarmUp k ((a.zip b).map fun x => x.1) :=
  warmUp_zip_left h (fun _ _ h => h)

theorem warmUp_zip_snd {k : Nat} {a : List β} {b : List F} (h : WarmUp k b) :
    WarmUp k ((a.zip b).map fun x => x.2) :=
  warmUp_zip_right h (fun _ _ h => h)

theorem warmUp_drop {k m : Nat} {l : List F} (h : WarmUp (k + m) l) : WarmUp k (l.drop m) := by
  rw [warmUp_iff] at *
  intro i hi x hx
  rw [List.getElem?_drop] at hx
  exact h (m + i) (by omega) x hx

theorem WarmUp.append_right {k : Nat} {l m : List F} (h : WarmUp k l) (hk : k ≤ l.length) :
    WarmUp k (l ++ m) := by
  intro x hx
  rw [List.take_append_of_le_length hk] at hx
  exact h x hx

/-- NaN propagation through the operators: finds the NaN operand. -/
syntax "nanp" : tactic
macro_rules
  | `(tactic| nanp) => `(tactic| first
    | assumption
    | exact NaNLaws.nan_isNaN
    | (apply NaNLaws.add_left; nanp) | (apply NaNLaws.add_right; nanp)
    | (apply NaNLaws.sub_left; nanp) | (apply NaNLaws.sub_right; nanp)
    | (apply NaNLaws.mul_left; nanp) | (apply NaNLaws.mul_right; nanp)
    | (apply NaNLaws.div_left; nanp) | (apply NaNLaws.div_right; nanp)
    | (apply NaNLaws.neg; nanp) | (apply NaNLaws.abs; nanp) | (apply NaNLaws.sqrt; nanp)
    | (apply NaNLaws.signum; nanp))

/-- Evaluate a `do` block of the model: unfold the definition, use the known results and discharge the
bounds by `omega`. -/
macro "run_model" "[" ls:Lean.Parser.Tactic.simpLemma,* "]" : tactic =>
  `(tactic| simp (maxSteps := 1000000) (disch := (first | omega | (simp; omega))) only [$ls,*, usub_of_le, sliceTo_of_le,
    sliceFrom_of_le, windows_of_pos, Option.bind_eq_bind, Option.bind_some, bind_pure_comp,
    Option.map_eq_map, Option.map_some, List.length_drop, List.length_take])

/-! ## Windows containing a NaN -/

/-- A fold that keeps a NaN and picks one up from any item. -/
theorem foldl_isNaN {σ : Type} {f : σ → α → σ} {p : σ → Prop} {q : α → Prop}
    (hkeep : ∀ s x, p s → p (f s x)) (hpick : ∀ s x, q x → p (f s x)) {l : List α} {s : σ}
    (h : p s ∨ ∃ x ∈ l, q x) : p (l.foldl f s) := by
  induction l generalizing s with
  | nil => simpa using h
  | cons x l ih =>
    simp only [List.foldl_cons]
    apply ih
    rcases h with h | ⟨y, hy, hq⟩
    · exact Or.inl (hkeep _ _ h)
    · rcases List.mem_cons.1 hy with rfl | hy
      · exact Or.inl (hpick _ _ hq)
      · exact Or.inr ⟨y, hy, hq⟩

theorem fsum_isNaN [NaNLaws F] {l : List F} (h : ∃ x ∈ l, isNaN x = true) : isNaN (fsum l) = true := by
  unfold fsum
  apply foldl_isNaN (p := fun s => isNaN s = true) (q := fun x => isNaN x = true)
  · intros; nanp
  · intros; nanp
  · exact Or.inr h

/-- Rolling-window functions keep the warm-up of their input. -/
theorem warmUp_windows {w k : Nat} {l : List F} {f : List F → F} (h : WarmUp k l) (hw : 1 ≤ w)
    (hf : ∀ win : List F, win.length = w → (∃ x ∈ win, isNaN x = true) → isNaN (f win) = true) :
    WarmUp k ((windowsOf w l).map f) := by
  apply warmUp_map_of
  intro i hi b hb
  have hl : i < (windowsOf w l).length := (List.getElem?_eq_some_iff.1 hb).1
  simp at hl
  rw [windowsOf_getElem? (by omega)] at hb
  simp at hb
  subst hb
  have hi' : i < l.length := by omega
  apply hf _ (by simp; omega)
  refine ⟨l[i], ?_, warmUp_iff.1 h i hi _ (by simp)⟩
  rw [List.mem_iff_getElem?]
  refine ⟨0, ?_⟩
  rw [List.getElem?_take_of_lt (by omega)]
  simp

theorem warmUp_replicate {k m : Nat} (p : β → F) (b : β) (hb : isNaN (p b) = true)
    (l : List β) (h : k ≤ m) : WarmUp k ((List.replicate m b ++ l).map p) := by
  apply warmUp_map_of
  intro i hi x hx
  rw [List.getElem?_append_left (by simp; omega), List.getElem?_replicate] at hx
  split at hx
  · simp at hx; subst hx; exact hb
  · cases hx

/-! ## Assembling `Aligned` for a panicking traversal after the padding -/

theorem aligned_mapP {f : α → Option F} {l : List α} {n k m : Nat} (hf : ∀ x ∈ l, (f x).isSome)
    (hn : m + l.length = n) (hk : k ≤ m) :
    Aligned n k ((mapP f l).bind fun r => some (nans m ++ r)) := by
  obtain ⟨r, hr⟩ := mapP_isSome hf
  have := mapP_length hr
  refine ⟨_, by rw [hr]; rfl, by simp; omega, by omega, fun _ => warmUp_nans_append hk⟩

theorem aligned_scanM {σ : Type} {f : σ → α → Option (σ × F)} {s : σ} {l : List α} {n k m : Nat}
    (hf : ∀ s, ∀ x ∈ l, (f s x).isSome) (hn : m + l.length = n) (hk : k ≤ m) :
    Aligned n k ((scanM f s l).bind fun r => some (nans m ++ r)) := by
  obtain ⟨r, hr⟩ := scanM_isSome hf s
  have := scanM_length hr
  refine ⟨_, by rw [hr]; rfl, by simp; omega, by omega, fun _ => warmUp_nans_append hk⟩

theorem aligned2_mapP {f : α → Option (F × F)} {l : List α} {n k m : Nat}
    (hf : ∀ x ∈ l, (f x).isSome) (hn : m + l.length = n) (hk : k ≤ m) :
    Aligned2 n k k ((mapP f l).bind fun r => some (List.replicate m (nan, nan) ++ r)) := by
  obtain ⟨r, hr⟩ := mapP_isSome hf
  have := mapP_length hr
  refine ⟨_, by rw [hr]; rfl, by simp; omega, by omega, by omega, fun _ => ⟨?_, ?_⟩⟩
  · exact warmUp_replicate (β := F × F) _ (nan, nan) (NaNLaws.nan_isNaN (F := F)) _ hk
  · exact warmUp_replicate (β := F × F) _ (nan, nan) (NaNLaws.nan_isNaN (F := F)) _ hk

theorem aligned2_scanM {σ : Type} {f : σ → α → Option (σ × (F × F))} {s : σ} {l : List α} {n k m : Nat}
    (hf : ∀ s, ∀ x ∈ l, (f s x).isSome) (hn : m + l.length = n) (hk : k ≤ m) :
    Aligned2 n k k ((scanM f s l).bind fun r => some (List.replicate m (nan, nan) ++ r)) := by
  obtain ⟨r, hr⟩ := scanM_isSome hf s
  have := scanM_length hr
  refine ⟨_, by rw [hr]; rfl, by simp; omega, by omega, by omega, fun _ => ⟨?_, ?_⟩⟩
  · exact warmUp_replicate (β := F × F) _ (nan, nan) (NaNLaws.nan_isNaN (F := F)) _ hk
  · exact warmUp_replicate (β := F × F) _ (nan, nan) (NaNLaws.nan_isNaN (F := F)) _ hk

theorem aligned_of_nans {n k m : Nat} {r : List F} (hn : m + r.length = n) (hk : k ≤ m) :
    Aligned n k (some (nans m ++ r)) :=
  ⟨_, rfl, by simp; omega, by omega, fun _ => warmUp_nans_append hk⟩

theorem aligned_of_nan {n k : Nat} {r : List F} (hn : r.length + 1 = n) (hk : k ≤ 1) :
    Aligned n k (some (nan :: r)) :=
  ⟨_, rfl, by simp; omega, by omega, fun _ => warmUp_cons ((warmUp_zero _).mono (by omega))⟩

theorem aligned_zero {n : Nat} {r : List F} (hn : r.length = n) : Aligned n 0 (some r) :=
  ⟨_, rfl, hn, by omega, fun _ => warmUp_zero _⟩

theorem aligned2_of_replicate {n k m : Nat} {r : List (F × F)} (hn : m + r.length = n) (hk : k ≤ m) :
    Aligned2 n k k (some (List.replicate m (nan, nan) ++ r)) :=
  ⟨_, rfl, by simp; omega, by omega, by omega, fun _ =>
    ⟨by exact warmUp_replicate (β := F × F) _ (nan, nan) (NaNLaws.nan_isNaN (F := F)) _ hk,
      by exact warmUp_replicate (β := F × F) _ (nan, nan) (NaNLaws.nan_isNaN (F := F)) _ hk⟩⟩

theorem Aligned.mono {n k j : Nat} {r : Option (List F)} (h : Aligned n k r) (hj : j ≤ k) :
    Aligned n j r := by
  obtain ⟨o, e, l, hk, w⟩ := h
  exact ⟨o, e, l, by omega, fun hF => (w hF).mono hj⟩

theorem Aligned.yields {n k : Nat} {r : Option (List F)} (h : Aligned n k r) : Yields n r := by
  obtain ⟨o, e, l, -, -⟩ := h
  exact ⟨o, e, l⟩

theorem divCeil_two (n : Nat) : divCeil n 2 = (n + 1) / 2 := by simp [divCeil]

end Traquer
