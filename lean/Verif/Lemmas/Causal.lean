import Verif.Spec.Basic
import Verif.Lemmas.Shape
/-!
# Proof rules for "no look-ahead"

`OR R x y`: if both computations answer, the answers are related. The rules follow the syntax of the
model; the tactic `causal` applies them.
-/

namespace Traquer
variable {α β γ δ ε ζ σ τ : Type}

def OR (R : α → β → Prop) (x : Option α) (y : Option β) : Prop :=
  ∀ a b, x = some a → y = some b → R a b

/-- The relation used for lists. -/
abbrev Pre (a b : List α) : Prop := a <+: b

theorem OR.some {R : α → β → Prop} {a : α} {b : β} (h : R a b) : OR R (some a) (some b) := by
  intro x y hx hy; cases hx; cases hy; exact h

theorem OR.eq_refl (x : Option α) : OR Eq x x := by
  intro a b ha hb; rw [ha] at hb; cases hb; rfl

theorem OR.none_left {R : α → β → Prop} {y : Option β} : OR R none y := by intro a b ha; cases ha

theorem OR.bind {R : α → β → Prop} {S : γ → δ → Prop} {x : Option α} {y : Option β}
    {f : α → Option γ} {g : β → Option δ} (h : OR R x y) (hk : ∀ a b, R a b → OR S (f a) (g b)) :
    OR S (x.bind f) (y.bind g) := by
  intro c d hc hd
  rw [Option.bind_eq_some_iff] at hc hd
  obtain ⟨a, ha, hc⟩ := hc
  obtain ⟨b, hb, hd⟩ := hd
  exact hk a b (h a b ha hb) c d hc hd

theorem OR.bind_same {S : γ → δ → Prop} {x : Option α}
    {f : α → Option γ} {g : α → Option δ} (hk : ∀ a, OR S (f a) (g a)) :
    OR S (x.bind f) (x.bind g) :=
  OR.bind (OR.eq_refl x) (by rintro a _ rfl; exact hk a)

theorem OR.bind_eq {S : γ → δ → Prop} {x y : Option α} (h : OR Eq x y)
    {f : α → Option γ} {g : α → Option δ} (hk : ∀ a, OR S (f a) (g a)) :
    OR S (x.bind f) (y.bind g) :=
  OR.bind h (by rintro a _ rfl; exact hk a)

theorem OR.bind_pre {S : γ → δ → Prop} {x y : Option (List α)} (h : OR Pre x y)
    {f : List α → Option γ} {g : List α → Option δ} (hk : ∀ a b, a <+: b → OR S (f a) (g b)) :
    OR S (x.bind f) (y.bind g) :=
  OR.bind h hk

theorem OR.ite {R : α → β → Prop} {c : Prop} [Decidable c] {x y : Option α} {x' y' : Option β}
    (h1 : OR R x x') (h2 : OR R y y') : OR R (if c then x else y) (if c then x' else y') := by
  split <;> assumption

/-! ### Prefixes -/

theorem pre_iff {a b : List α} : a <+: b ↔ ∀ (i : Nat) x, a[i]? = some x → b[i]? = some x := by
  rw [List.prefix_iff_getElem?]
  constructor
  · intro h i x hx
    obtain ⟨hi, rfl⟩ := List.getElem?_eq_some_iff.1 hx
    exact h i hi
  · intro h i hi
    exact h i _ (List.getElem?_eq_getElem hi)

theorem pre_drop {l l' : List α} (n : Nat) (h : l <+: l') : l.drop n <+: l'.drop n := by
  rw [pre_iff] at *
  intro i x hx
  rw [List.getElem?_drop] at hx ⊢
  exact h _ _ hx

theorem pre_zip {a a' : List α} {b b' : List β} (h1 : a <+: a') (h2 : b <+: b') :
    a.zip b <+: a'.zip b' := by
  rw [pre_iff] at *
  rintro i ⟨x, y⟩ h
  rw [List.getElem?_zip_eq_some] at h ⊢
  exact ⟨h1 _ _ h.1, h2 _ _ h.2⟩

theorem pre_zip3 {a a' : List α} {b b' : List β} {c c' : List γ} (h1 : a <+: a') (h2 : b <+: b')
    (h3 : c <+: c') : zip3 a b c <+: zip3 a' b' c' := by
  simpa only [zip3_eq] using pre_zip h1 (pre_zip h2 h3)

theorem pre_zip4 {a a' : List α} {b b' : List β} {c c' : List γ} {d d' : List δ} (h1 : a <+: a')
    (h2 : b <+: b') (h3 : c <+: c') (h4 : d <+: d') : zip4 a b c d <+: zip4 a' b' c' d' := by
  simpa only [zip4_eq] using pre_zip h1 (pre_zip h2 (pre_zip h3 h4))

theorem pre_zip5 {a a' : List α} {b b' : List β} {c c' : List γ} {d d' : List δ} {e e' : List ε}
    (h1 : a <+: a') (h2 : b <+: b') (h3 : c <+: c') (h4 : d <+: d') (h5 : e <+: e') :
    zip5 a b c d e <+: zip5 a' b' c' d' e' := by
  simpa only [zip5_eq] using pre_zip h1 (pre_zip h2 (pre_zip h3 (pre_zip h4 h5)))

theorem pre_zip6 {a a' : List α} {b b' : List β} {c c' : List γ} {d d' : List δ} {e e' : List ε}
    {f f' : List ζ} (h1 : a <+: a') (h2 : b <+: b') (h3 : c <+: c') (h4 : d <+: d') (h5 : e <+: e')
    (h6 : f <+: f') : zip6 a b c d e f <+: zip6 a' b' c' d' e' f' := by
  simpa only [zip6_eq] using pre_zip h1 (pre_zip h2 (pre_zip h3 (pre_zip h4 (pre_zip h5 h6))))

theorem pre_range {a b : Nat} (h : a ≤ b) : List.range a <+: List.range b := by
  rw [pre_iff]
  intro i x
  simp only [List.getElem?_eq_some_iff, List.length_range, List.getElem_range]
  rintro ⟨h1, rfl⟩
  exact ⟨by omega, rfl⟩

theorem pre_range_length {l : List α} {l' : List α} (h : l <+: l') :
    List.range l.length <+: List.range l'.length := pre_range h.length_le

theorem pre_range'_length {l : List α} {l' : List α} (h : l <+: l') :
    List.range' 1 l.length <+: List.range' 1 l'.length := by
  obtain ⟨t, rfl⟩ := h
  rw [List.length_append, ← List.range'_append]
  exact List.prefix_append _ _

theorem pre_windowsOf {n : Nat} {l l' : List α} (h : l <+: l') (hn : 0 < n) :
    windowsOf n l <+: windowsOf n l' := by
  obtain ⟨t, rfl⟩ := h
  rw [pre_iff]
  intro i x hx
  have hi : i < (windowsOf n l).length := (List.getElem?_eq_some_iff.1 hx).1
  simp only [windowsOf_length] at hi
  rw [windowsOf_getElem? (by omega)] at hx
  rw [windowsOf_getElem? (by simp; omega), ← hx, List.drop_append_of_le_length (by omega),
    List.take_append_of_le_length (by simp; omega)]

theorem pre_pairs {l l' : List α} (h : l <+: l') : pairs l <+: pairs l' := by
  rw [pairs_eq_zip, pairs_eq_zip]
  refine pre_zip h ?_
  simpa [List.drop_one] using pre_drop 1 h

theorem pre_scan {f : σ → α → σ × β} {s : σ} {l l' : List α} (h : l <+: l') :
    scan f s l <+: scan f s l' := by
  obtain ⟨t, rfl⟩ := h
  rw [scan_append]
  exact List.prefix_append _ _

theorem pre_scanS {f : σ → α → σ} {s : σ} {l l' : List α} (h : l <+: l') :
    scanS f s l <+: scanS f s l' := pre_scan h

theorem pre_append {a b b' : List α} (h : b <+: b') : a ++ b <+: a ++ b' :=
  (List.prefix_append_right_inj a).2 h

theorem pre_cons {a : α} {b b' : List α} (h : b <+: b') : a :: b <+: a :: b' :=
  (List.prefix_cons_inj a).2 h

/-! ### Monadic operations -/

theorem or_sliceTo {l l' : List α} {n : Nat} (h : l <+: l') : OR Eq (sliceTo l n) (sliceTo l' n) := by
  obtain ⟨t, rfl⟩ := h
  intro a b ha hb
  simp only [sliceTo] at ha hb
  split at ha <;> simp at ha
  split at hb <;> simp at hb
  subst ha hb
  rw [List.take_append_of_le_length (by assumption)]

theorem or_sliceTo_le {l l' : List α} {n n' : Nat} (h : l <+: l') (hn : n ≤ n') :
    OR Pre (sliceTo l n) (sliceTo l' n') := by
  obtain ⟨t, rfl⟩ := h
  intro a b ha hb
  simp only [sliceTo] at ha hb
  split at ha <;> simp at ha
  split at hb <;> simp at hb
  subst ha hb
  rename_i h1 h2
  rw [← List.take_append_of_le_length (l₂ := t) h1]
  exact List.take_prefix_take_left hn

theorem or_sliceFrom {l l' : List α} {n : Nat} (h : l <+: l') : OR Pre (sliceFrom l n) (sliceFrom l' n) := by
  intro a b ha hb
  simp only [sliceFrom] at ha hb
  split at ha <;> simp at ha
  split at hb <;> simp at hb
  subst ha hb
  exact pre_drop n h

theorem or_windows {l l' : List α} {n : Nat} (h : l <+: l') : OR Pre (windows n l) (windows n l') := by
  intro a b ha hb
  simp only [windows] at ha hb
  split at ha <;> simp at ha
  split at hb <;> simp at hb
  subst ha hb
  exact pre_windowsOf h (by omega)

theorem or_getElem? {l l' : List α} {i : Nat} (h : l <+: l') : OR Eq l[i]? l'[i]? := by
  intro a b ha hb
  rw [pre_iff.1 h i a ha] at hb
  cases hb
  rfl

theorem or_usub {a a' : Nat} {b : Nat} (h : a ≤ a') : OR (· ≤ ·) (usub a b) (usub a' b) := by
  intro x y hx hy
  simp only [usub] at hx hy
  split at hx <;> simp at hx
  split at hy <;> simp at hy
  omega

theorem or_mapP {f g : α → Option β} {l l' : List α} (h : l <+: l') (hf : ∀ x, OR Eq (f x) (g x)) :
    OR Pre (mapP f l) (mapP g l') := by
  intro a b ha hb
  rw [Pre, pre_iff]
  intro i y hy
  obtain ⟨hi, -⟩ := List.getElem?_eq_some_iff.1 hy
  have la := mapP_length ha
  have lb := mapP_length hb
  have hl := h.length_le
  rw [mapP_getElem? ha] at hy
  rw [mapP_getElem? hb]
  have e : l[i]? = l'[i]? := by
    rw [List.getElem?_eq_getElem (by omega)]
    exact (pre_iff.1 h i _ (List.getElem?_eq_getElem (by omega))).symm
  have hb' : (l'[i]?.bind g).isSome := by
    rw [← mapP_getElem? hb, List.getElem?_eq_getElem (by omega)]; rfl
  obtain ⟨z, hz⟩ := Option.isSome_iff_exists.1 hb'
  rw [hz]
  rw [Option.bind_eq_some_iff] at hy hz
  obtain ⟨x, hx, hy⟩ := hy
  obtain ⟨x', hx', hz⟩ := hz
  rw [e, hx'] at hx
  cases hx
  rw [hf _ _ _ hy hz]

theorem or_mapP_eq {f g : α → Option β} {l : List α} (hf : ∀ x, OR Eq (f x) (g x)) :
    OR Eq (mapP f l) (mapP g l) := by
  intro a b ha hb
  have h := or_mapP (List.prefix_rfl (l := l)) hf a b ha hb
  exact h.eq_of_length (by rw [mapP_length ha, mapP_length hb])

theorem or_mapP_same {f : α → Option β} {l l' : List α} (h : l <+: l') :
    OR Pre (mapP f l) (mapP f l') := or_mapP h fun _ => OR.eq_refl _

theorem or_scanM {f g : σ → α → Option (σ × β)} {s : σ} {l l' : List α} (h : l <+: l')
    (hf : ∀ s x, OR Eq (f s x) (g s x)) : OR Pre (scanM f s l) (scanM g s l') := by
  obtain ⟨t, rfl⟩ := h
  induction l generalizing s with
  | nil => intro a b ha hb; simp [scanM] at ha; subst ha; exact List.nil_prefix
  | cons x l ih =>
    intro a b ha hb
    simp only [List.cons_append, scanM] at ha hb
    cases e1 : f s x with
    | none => simp [e1] at ha
    | some p =>
      cases e2 : g s x with
      | none => simp [e2] at hb
      | some q =>
        have := hf s x p q e1 e2
        subst this
        simp only [e1] at ha
        simp only [e2] at hb
        cases e3 : scanM f p.1 l with
        | none => simp [e3] at ha
        | some u =>
          cases e4 : scanM g p.1 (l ++ t) with
          | none => simp [e4] at hb
          | some v =>
            simp [e3] at ha
            simp [e4] at hb
            subst ha hb
            exact pre_cons (ih u v e3 e4)

theorem or_foldlM {R : σ → τ → Prop} {f : σ → α → Option σ} {g : τ → α → Option τ} {l : List α}
    {s : σ} {t : τ} (h : R s t) (hf : ∀ s t x, R s t → OR R (f s x) (g t x)) :
    OR R (l.foldlM f s) (l.foldlM g t) := by
  induction l generalizing s t with
  | nil => simpa using OR.some h
  | cons x l ih =>
    simp only [List.foldlM_cons, Option.bind_eq_bind]
    exact OR.bind (hf s t x h) fun a b hab => ih hab

/-- Extension point: causality of an already treated function. -/
syntax "causal_fn" : tactic
macro_rules | `(tactic| causal_fn) => `(tactic| fail)

/-- Prefix goals. -/
macro "causal_pre" : tactic => `(tactic| first
  | assumption
  | exact List.prefix_rfl
  | with_reducible apply pre_append
  | with_reducible apply pre_cons
  | with_reducible apply List.IsPrefix.map
  | with_reducible apply pre_drop
  | with_reducible apply List.IsPrefix.filter
  | with_reducible apply pre_zip
  | with_reducible apply pre_zip3
  | with_reducible apply pre_zip4
  | with_reducible apply pre_zip5
  | with_reducible apply pre_zip6
  | with_reducible apply pre_pairs
  | with_reducible apply pre_scanS
  | with_reducible apply pre_scan
  | with_reducible apply pre_range_length
  | with_reducible apply pre_range
  | with_reducible apply pre_range'_length
  | (with_reducible refine pre_windowsOf ?_ (by omega)))

/-- One step on an `OR` goal. -/
macro "causal_step" : tactic => `(tactic| first
  | causal_pre
  | (with_reducible exact OR.eq_refl _)
  | causal_fn
  | with_reducible apply or_sliceFrom
  | with_reducible apply or_windows
  | with_reducible apply or_getElem?
  | with_reducible apply or_sliceTo
  | with_reducible apply or_sliceTo_le
  | with_reducible apply or_mapP_same
  | (with_reducible refine or_mapP ?_ (fun _ => ?_))
  | (with_reducible refine or_scanM ?_ (fun _ _ => ?_))
  | (with_reducible refine OR.some ?_)
  | (with_reducible refine OR.bind_same (fun _ => ?_))
  | (with_reducible refine OR.bind_eq (by (first | with_reducible apply or_sliceTo | with_reducible apply or_getElem?); repeat' causal_pre) (fun _ => ?_))
  | (with_reducible refine OR.bind_eq (or_mapP_eq (fun _ => ?_)) (fun _ => ?_))
  | (with_reducible refine OR.bind (or_usub ?_) (fun _ _ _ => ?_))
  | (with_reducible refine OR.bind_pre ?_ (fun _ _ _ => ?_))
  | (with_reducible refine OR.ite ?_ ?_)
  | (simp only [List.length_map]; apply List.IsPrefix.length_le)
  | apply List.IsPrefix.length_le
  | rfl)

/-- Proves `OR Pre (f l ..) (f l' ..)` after unfolding the listed definitions. -/
macro "causal" "[" ls:Lean.Parser.Tactic.simpLemma,* "]" : tactic =>
  `(tactic| (simp (maxSteps := 2000000) only [Option.bind_eq_bind, $ls,*]; repeat' causal_step))

theorem causal_of_or {f : List β → Option (List γ)}
    (h : ∀ l l' : List β, l <+: l' → OR Pre (f l) (f l')) : Causal f :=
  fun past _ out out' h1 h2 => h past _ (List.prefix_append _ _) out out' h1 h2

theorem noLookahead_of {n₀ : Nat} {f : List β → Option (List γ)}
    (hs : ∀ l : List β, n₀ ≤ l.length → Yields l.length (f l)) (hc : Causal f) : NoLookahead n₀ f := by
  intro past future hn
  obtain ⟨o, h1, l1⟩ := hs past hn
  obtain ⟨o', h2, l2⟩ := hs (past ++ future) (by simp; omega)
  exact ⟨o, o', h1, h2, l1, by simpa using l2, hc past future o o' h1 h2⟩

theorem Aligned2.yields {F : Type} [FloatOps F] {n k k' : Nat} {r : Option (List (F × F))}
    (h : Aligned2 n k k' r) : Yields n r := by
  obtain ⟨o, h1, h2, -⟩ := h
  exact ⟨o, h1, h2⟩

theorem Aligned3.yields {F : Type} [FloatOps F] {n k k' k'' : Nat} {r : Option (List (F × F × F))}
    (h : Aligned3 n k k' k'' r) : Yields n r := by
  obtain ⟨o, h1, h2, -⟩ := h
  exact ⟨o, h1, h2⟩

end Traquer
