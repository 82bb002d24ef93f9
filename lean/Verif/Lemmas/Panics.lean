import Verif.Spec.Panics
import Verif.Lemmas.Lists
/-!
# Following the length of every list and the condition of every check
-/

namespace Traquer
variable {α β γ σ : Type}

theorem AnswersIff.congr {c c' : Prop} {n n' : Nat} {r : Option (List α)} (h : AnswersIff c n r) (hc : c ↔ c') (hn : c → n = n') : AnswersIff c' n' r :=
  ⟨fun h' => by
    obtain ⟨o, h1, h2⟩ := h.1 (hc.2 h')
    exact ⟨o, h1, h2.trans (hn (hc.2 h'))⟩, fun h' => h.2 fun q => h' (hc.1 q)⟩

/-- The panic domain. -/
theorem AnswersIff.none_iff {c : Prop} {n : Nat} {r : Option (List α)} (h : AnswersIff c n r) : r = none ↔ ¬ c :=
  ⟨fun hr hc => by
    obtain ⟨o, h1, -⟩ := h.1 hc
    simp [hr] at h1, h.2⟩

theorem AnswersIff.cond {c : Prop} {n : Nat} {r : Option (List α)} (h : AnswersIff c n r) {o : List α} (hr : r = some o) : c ∧ o.length = n := by
  by_cases hc : c
  · obtain ⟨o', h1, h2⟩ := h.1 hc
    rw [hr] at h1
    cases h1
    exact ⟨hc, h2⟩
  · rw [h.2 hc] at hr
    cases hr

theorem mapP_ex {f : α → Option β} {l : List α} (h : ∀ x ∈ l, ∃ y, f x = some y) : ∃ o, mapP f l = some o :=
  mapP_isSome fun x hx => by obtain ⟨y, hy⟩ := h x hx; simp [hy]

namespace Ans

theorem some {l : List α} {n : Nat} (h : l.length = n) : AnswersIff True n (some l) := ⟨fun _ => ⟨l, rfl, h⟩, fun h => absurd trivial h⟩

theorem bind {c c' : Prop} {m n : Nat} {r : Option (List α)} {f : List α → Option (List β)} (hr : AnswersIff c m r)
    (h : ∀ t : List α, t.length = m → AnswersIff c' n (f t)) : AnswersIff (c ∧ c') n (r.bind f) := by
  refine ⟨fun hc => ?_, fun hc => ?_⟩
  · obtain ⟨o, h1, h2⟩ := hr.1 hc.1
    rw [h1]
    exact (h o h2).1 hc.2
  · by_cases h1 : c
    · obtain ⟨o, h2, h3⟩ := hr.1 h1
      rw [h2]
      exact (h o h3).2 fun h => hc ⟨h1, h⟩
    · rw [hr.2 h1]
      rfl

theorem usub {c : Prop} {a b n : Nat} {f : Nat → Option (List β)} (h : AnswersIff c n (f (a - b))) :
    AnswersIff (b ≤ a ∧ c) n ((Traquer.usub a b).bind f) := by
  rw [Traquer.usub]
  split
  · rename_i hb
    exact h.congr ⟨fun hc => ⟨hb, hc⟩, fun hc => hc.2⟩ fun _ => rfl
  · rename_i hb
    exact ⟨fun hc => absurd hc.1 hb, fun _ => rfl⟩

theorem usub_len {c : Prop} {l : List α} {m b n : Nat} {f : Nat → Option (List β)} (hl : l.length = m) (h : AnswersIff c n (f (m - b))) :
    AnswersIff (b ≤ m ∧ c) n ((Traquer.usub l.length b).bind f) := by
  rw [hl]
  exact usub h

theorem sliceTo {k m : Nat} {l : List α} (hl : l.length = m) : AnswersIff (k ≤ m) k (Traquer.sliceTo l k) := by
  rw [Traquer.sliceTo, hl]
  split
  · rename_i hb; exact ⟨fun _ => ⟨_, rfl, by simp; omega⟩, fun h => absurd hb h⟩
  · rename_i hb; exact ⟨fun h => absurd h hb, fun _ => rfl⟩

theorem sliceFrom {k m : Nat} {l : List α} (hl : l.length = m) : AnswersIff (k ≤ m) (m - k) (Traquer.sliceFrom l k) := by
  rw [Traquer.sliceFrom, hl]
  split
  · rename_i hb; exact ⟨fun _ => ⟨_, rfl, by simp; omega⟩, fun h => absurd hb h⟩
  · rename_i hb; exact ⟨fun h => absurd h hb, fun _ => rfl⟩

theorem windows {w m : Nat} {l : List α} (hl : l.length = m) : AnswersIff (1 ≤ w) (m + 1 - w) (Traquer.windows w l) := by
  rw [Traquer.windows]
  split
  · rename_i hb; exact ⟨fun h => by omega, fun _ => rfl⟩
  · exact ⟨fun _ => ⟨_, rfl, by simp [hl]⟩, fun h => by omega⟩

/-- The windows all have `w` elements: needed where a closure indexes them. -/
theorem windows_bind {c : Prop} {w m n : Nat} {l : List α} {f : List (List α) → Option (List β)} (hl : l.length = m)
    (h : ∀ t : List (List α), t.length = m + 1 - w → (∀ x ∈ t, 1 ≤ w ∧ x.length = w) → AnswersIff c n (f t)) :
    AnswersIff (1 ≤ w ∧ c) n ((Traquer.windows w l).bind f) := by
  rw [Traquer.windows]
  split
  · rename_i hb; exact ⟨fun h => by omega, fun _ => rfl⟩
  · rename_i hw
    exact (h _ (by simp [hl]) fun x hx => ⟨by omega, windowsOf_mem_length hx⟩).congr ⟨fun hc => ⟨by omega, hc⟩, fun hc => hc.2⟩ fun _ => rfl

theorem mapP {m : Nat} {l : List α} {f : α → Option β} (hl : l.length = m) (hf : ∀ x ∈ l, ∃ y, f x = Option.some y) :
    AnswersIff True m (Traquer.mapP f l) := by
  obtain ⟨t, ht⟩ := mapP_ex hf
  exact ⟨fun _ => ⟨t, ht, by rw [mapP_length ht, hl]⟩, fun h => absurd trivial h⟩

theorem scanM {m : Nat} {l : List α} {f : σ → α → Option (σ × β)} {s : σ} (hl : l.length = m) (hf : ∀ x ∈ l, ∀ s, ∃ y, f s x = Option.some y) :
    AnswersIff True m (Traquer.scanM f s l) := by
  have : ∃ t, Traquer.scanM f s l = Option.some t := by
    clear hl
    induction l generalizing s with
    | nil => exact ⟨[], rfl⟩
    | cons x l ih =>
      obtain ⟨y, hy⟩ := hf x (by simp) s
      obtain ⟨t, ht⟩ := ih (s := y.1) fun x hx => hf x (by simp [hx])
      exact ⟨y.2 :: t, by simp only [Traquer.scanM, hy, ht]⟩
  obtain ⟨t, ht⟩ := this
  exact ⟨fun _ => ⟨t, ht, by rw [scanM_length ht, hl]⟩, fun h => absurd trivial h⟩

theorem getElem {c : Prop} {l : List α} {i m n : Nat} {f : α → Option (List β)} (hl : l.length = m) (h : ∀ x, AnswersIff c n (f x)) :
    AnswersIff (i < m ∧ c) n (l[i]?.bind f) := by
  by_cases hi : i < l.length
  · rw [List.getElem?_eq_getElem hi, Option.bind_some]
    exact (h _).congr ⟨fun hc => ⟨by omega, hc⟩, fun hc => hc.2⟩ fun _ => rfl
  · rw [List.getElem?_eq_none (by omega)]
    exact ⟨fun hc => by omega, fun _ => rfl⟩

theorem ite {p c d : Prop} [Decidable p] {m n : Nat} {r s : Option (List α)} (h : AnswersIff c m r) (h' : AnswersIff d n s) :
    AnswersIff ((p ∧ c) ∨ (¬ p ∧ d)) (if p then m else n) (if p then r else s) := by
  split
  · rename_i hp; exact h.congr ⟨fun hc => .inl ⟨hp, hc⟩, fun hc => by simpa [hp] using hc⟩ fun _ => rfl
  · rename_i hp; exact h'.congr ⟨fun hc => .inr ⟨hp, hc⟩, fun hc => by simpa [hp] using hc⟩ fun _ => rfl

end Ans

/-! ## Lengths -/
namespace Len
variable {F : Type} [FloatOps F]
theorem map {l : List α} {n : Nat} (f : α → β) (h : l.length = n) : (l.map f).length = n := by simp [h]
theorem zip {l : List α} {m : List β} {a b : Nat} (h : l.length = a) (h' : m.length = b) : (l.zip m).length = min a b := by simp [h, h']
theorem append {l m : List α} {a b : Nat} (h : l.length = a) (h' : m.length = b) : (l ++ m).length = a + b := by simp [h, h']
theorem nans (k : Nat) : (Traquer.nans k : List F).length = k := by simp
theorem replicate (k : Nat) (x : α) : (List.replicate k x).length = k := by simp
theorem cons {l : List α} {n : Nat} (x : α) (h : l.length = n) : (x :: l).length = n + 1 := by simp [h]
theorem drop {l : List α} {n : Nat} (k : Nat) (h : l.length = n) : (l.drop k).length = n - k := by simp [h]
theorem range {k n : Nat} (h : k = n) : (List.range k).length = n := by simp [h]
theorem scan {l : List α} {n : Nat} (f : σ → α → σ × β) (s : σ) (h : l.length = n) : (Traquer.scan f s l).length = n := by simp [h]
theorem scanS {l : List α} {n : Nat} (f : σ → α → σ) (s : σ) (h : l.length = n) : (Traquer.scanS f s l).length = n := by simp [h]
theorem pairs {l : List α} {n : Nat} (h : l.length = n) : (Traquer.pairs l).length = n - 1 := by rw [Traquer.pairs_length, h]
theorem windowsOf {l : List α} {n : Nat} (w : Nat) (h : l.length = n) : (Traquer.windowsOf w l).length = n + 1 - w := by simp [h]
theorem set {l : List α} {n : Nat} (i : Nat) (x : α) (h : l.length = n) : (l.set i x).length = n := by simp [h]
end Len

/-- Computes the length of a list expression. -/
syntax "len" : tactic
macro_rules | `(tactic| len) => `(tactic| first
  | assumption
  | (with_reducible apply Len.map; len)
  | (with_reducible apply Len.zip <;> len)
  | (with_reducible apply Len.append <;> len)
  | with_reducible exact Len.nans _
  | with_reducible exact Len.replicate _ _
  | (with_reducible apply Len.range; len)
  | (with_reducible apply Len.cons; len)
  | (with_reducible apply Len.drop; len)
  | (with_reducible apply Len.scan; len)
  | (with_reducible apply Len.scanS; len)
  | (with_reducible apply Len.pairs; len)
  | (with_reducible apply Len.windowsOf; len)
  | (with_reducible apply Len.set; len)
  | with_reducible exact rfl)

/-- Functions whose domain is known already: extended below. -/
syntax "answers_fn" : tactic
macro_rules | `(tactic| answers_fn) => `(tactic| with_reducible assumption)

macro "answers_step" : tactic => `(tactic| first
  | (with_reducible apply Ans.some; len)
  | (with_reducible apply Ans.usub_len; len)
  | (with_reducible apply Ans.usub)
  | (with_reducible apply Ans.bind; (with_reducible apply Ans.sliceTo; len); intro _ _)
  | (with_reducible apply Ans.bind; (with_reducible apply Ans.sliceFrom; len); intro _ _)
  | (with_reducible apply Ans.windows_bind; len; intro _ _ _)
  | (with_reducible apply Ans.bind; (answers_fn); intro _ _)
  | (with_reducible apply Ans.bind; (with_reducible apply Ans.mapP; len); rotate_left; intro _ _)
  | (with_reducible apply Ans.bind; (with_reducible apply Ans.scanM; len); rotate_left; intro _ _)
  | (with_reducible apply Ans.getElem; len; intro _)
  | (with_reducible apply Ans.sliceTo; len)
  | (with_reducible apply Ans.sliceFrom; len)
  | (with_reducible apply Ans.mapP; len)
  | (with_reducible apply Ans.scanM; len)
  | answers_fn)

/-- Proves `AnswersIff c n (f l …)` after unfolding the listed definitions; leaves the conditions to `omega` and the closures that index
their argument to the caller. -/
macro "answers" "[" ls:Lean.Parser.Tactic.simpLemma,* "]" : tactic =>
  `(tactic| (
    with_reducible apply AnswersIff.congr
    focus ((try simp (maxSteps := 2000000) only [Option.bind_eq_bind, zip3_eq, zip4_eq, zip5_eq, zip6_eq, $ls,*]); repeat' answers_step)
    all_goals (try simp only [true_and, and_true, iff_true, true_iff, implies_true, divCeil, Traquer.pairs_length, List.length_map]); try first
      | done
      | omega
      | (split <;> omega)))

end Traquer
