import Verif.Spec.Local
import Verif.Lemmas.Causal
/-!
# Lists that agree on the last bars
-/

namespace Traquer
variable {α β γ δ ε ζ σ : Type}

/-- Two lists computed from two histories: at the `W - c` bars up to bar `i` of the one and bar `j` of the other they have the same items,
where the item of bar `t` is at index `t - d`. -/
structure Ag (W i j c d : Nat) (l l' : List α) : Prop where
  le : d ≤ c
  hi : W ≤ i + 1
  hj : W ≤ j + 1
  ex : ∀ t, t + c < W → ∃ x, l[i - t - d]? = some x ∧ l'[j - t - d]? = some x

namespace Ag
variable {W i j c d : Nat}

theorem base {a b : List α} (hi : W ≤ i + 1) (hj : W ≤ j + 1) (hia : i < a.length) (h : recent a W i = recent b W j) :
    Ag W i j 0 0 a b := by
  refine ⟨Nat.le_refl _, hi, hj, fun t ht => ?_⟩
  have key : ∀ (l : List α) (i : Nat), W ≤ i + 1 → l[i - t - 0]? = (recent l W i)[W - 1 - t]? := fun l i hi => by
    rw [recent, List.getElem?_take_of_lt (by omega), List.getElem?_drop]
    congr 1
    omega
  refine ⟨a[i - t - 0]'(by omega), List.getElem?_eq_getElem _, ?_⟩
  rw [key b j hj, ← h, ← key a i hi, List.getElem?_eq_getElem]

theorem weaken {l l' : List α} (h : Ag W i j c d l l') {C D : Nat} (h1 : d ≤ D) (h2 : c + D ≤ C + d) : Ag W i j C D l l' := by
  refine ⟨by have := h.le; omega, h.hi, h.hj, fun t ht => ?_⟩
  have := h.ex (t + (D - d)) (by omega)
  rwa [show i - (t + (D - d)) - d = i - t - D by omega, show j - (t + (D - d)) - d = j - t - D by omega] at this

theorem map {l l' : List α} (h : Ag W i j c d l l') (f : α → β) : Ag W i j c d (l.map f) (l'.map f) :=
  ⟨h.le, h.hi, h.hj, fun t ht => by
    obtain ⟨x, h1, h2⟩ := h.ex t ht
    exact ⟨f x, by rw [List.getElem?_map, h1]; rfl, by rw [List.getElem?_map, h2]; rfl⟩⟩

theorem zip {l l' : List α} {m m' : List β} (h : Ag W i j c d l l') (g : Ag W i j c d m m') : Ag W i j c d (l.zip m) (l'.zip m') :=
  ⟨h.le, h.hi, h.hj, fun t ht => by
    obtain ⟨x, h1, h2⟩ := h.ex t ht
    obtain ⟨y, g1, g2⟩ := g.ex t ht
    exact ⟨(x, y), List.getElem?_zip_eq_some.2 ⟨h1, g1⟩, List.getElem?_zip_eq_some.2 ⟨h2, g2⟩⟩⟩

theorem append {l l' p p' : List α} {k : Nat} (h : Ag W i j c (d + k) l l') (hp : p.length = k) (hp' : p'.length = k) :
    Ag W i j c d (p ++ l) (p' ++ l') := by
  have := h.le
  have := h.hi
  have := h.hj
  refine ⟨by omega, h.hi, h.hj, fun t ht => ?_⟩
  rw [List.getElem?_append_right (by omega), List.getElem?_append_right (by omega)]
  have e := h.ex t ht
  rwa [show i - t - (d + k) = i - t - d - p.length by omega, show j - t - (d + k) = j - t - d - p'.length by omega] at e

theorem nans {F : Type} [FloatOps F] {l l' : List F} {k : Nat} (h : Ag W i j c (d + k) l l') :
    Ag W i j c d (Traquer.nans k ++ l) (Traquer.nans k ++ l') :=
  h.append (by simp [Traquer.nans]) (by simp [Traquer.nans])

theorem replicate {l l' : List α} {x : α} {k : Nat} (h : Ag W i j c (d + k) l l') :
    Ag W i j c d (List.replicate k x ++ l) (List.replicate k x ++ l') := h.append (by simp) (by simp)

theorem cons {l l' : List α} {x x' : α} (h : Ag W i j c (d + 1) l l') : Ag W i j c d (x :: l) (x' :: l') :=
  h.append (p := [x]) (p' := [x']) rfl rfl

theorem drop {l l' : List α} (h : Ag W i j c d l l') (k : Nat) (hk : d + k ≤ c) : Ag W i j c (d + k) (l.drop k) (l'.drop k) := by
  have := h.hi
  have := h.hj
  refine ⟨hk, h.hi, h.hj, fun t ht => ?_⟩
  rw [List.getElem?_drop, List.getElem?_drop]
  have e := h.ex t ht
  rwa [show k + (i - t - (d + k)) = i - t - d by omega, show k + (j - t - (d + k)) = j - t - d by omega]

/-- Dropping as many bars as the list allows without a further loss. -/
theorem dropW {l l' : List α} (h : Ag W i j c d l l') (k : Nat) : Ag W i j (max c (d + k)) (d + k) (l.drop k) (l'.drop k) :=
  (h.weaken (Nat.le_refl d) (by omega)).drop k (by omega)

theorem windowsOf {l l' : List α} (h : Ag W i j c d l l') {w : Nat} (hw : 1 ≤ w) :
    Ag W i j (c + (w - 1)) (d + (w - 1)) (Traquer.windowsOf w l) (Traquer.windowsOf w l') := by
  have hle := h.le
  have hi := h.hi
  have hj := h.hj
  refine ⟨by omega, hi, hj, fun t ht => ?_⟩
  obtain ⟨x, h1, h2⟩ := h.ex t (by omega)
  have h1 := (List.getElem?_eq_some_iff.1 h1).1
  have h2 := (List.getElem?_eq_some_iff.1 h2).1
  refine ⟨_, windowsOf_getElem? (by omega), ?_⟩
  rw [windowsOf_getElem? (by omega)]
  congr 1
  refine List.ext_getElem? fun s => ?_
  by_cases hs : s < w
  · rw [List.getElem?_take_of_lt hs, List.getElem?_take_of_lt hs, List.getElem?_drop, List.getElem?_drop]
    obtain ⟨y, e1, e2⟩ := h.ex (t + (w - 1 - s)) (by omega)
    rw [show i - (t + (w - 1 - s)) - d = i - t - (d + (w - 1)) + s by omega] at e1
    rw [show j - (t + (w - 1 - s)) - d = j - t - (d + (w - 1)) + s by omega] at e2
    rw [e1, e2]
  · rw [List.getElem?_eq_none (by simp; omega), List.getElem?_eq_none (by simp; omega)]

theorem pairs {l l' : List α} (h : Ag W i j c d l l') : Ag W i j (c + 1) (d + 1) (Traquer.pairs l) (Traquer.pairs l') := by
  have hle := h.le
  have hi := h.hi
  have hj := h.hj
  refine ⟨by omega, hi, hj, fun t ht => ?_⟩
  obtain ⟨x, h1, h2⟩ := h.ex (t + 1) (by omega)
  obtain ⟨y, g1, g2⟩ := h.ex t (by omega)
  refine ⟨(x, y), ?_, ?_⟩
  · rw [pairs_eq_zip, List.getElem?_zip_eq_some]
    exact ⟨by rw [← h1]; congr 1; omega, by rw [List.getElem?_tail, ← g1]; congr 1; omega⟩
  · rw [pairs_eq_zip, List.getElem?_zip_eq_some]
    exact ⟨by rw [← h2]; congr 1; omega, by rw [List.getElem?_tail, ← g2]; congr 1; omega⟩

/-- All but the last item, one bar late. -/
theorem sliceTo {l l' : List α} (h : Ag W i j c d l l') {k k' : Nat} (hk : k + 1 = l.length) (hk' : k' + 1 = l'.length) :
    OR (Ag W i j (c + 1) (d + 1)) (Traquer.sliceTo l k) (Traquer.sliceTo l' k') := by
  intro o o' ho ho'
  simp only [Traquer.sliceTo] at ho ho'
  split at ho <;> simp at ho
  split at ho' <;> simp at ho'
  subst ho ho'
  have hle := h.le
  have hi := h.hi
  have hj := h.hj
  refine ⟨by omega, hi, hj, fun t ht => ?_⟩
  obtain ⟨x, h1, h2⟩ := h.ex (t + 1) (by omega)
  obtain ⟨y, g1, g2⟩ := h.ex t (by omega)
  have g1 := (List.getElem?_eq_some_iff.1 g1).1
  have g2 := (List.getElem?_eq_some_iff.1 g2).1
  refine ⟨x, ?_, ?_⟩
  · rw [List.getElem?_take_of_lt (by omega), ← h1]; congr 1; omega
  · rw [List.getElem?_take_of_lt (by omega), ← h2]; congr 1; omega

theorem mapP {l l' : List α} (h : Ag W i j c d l l') (f : α → Option β) : OR (Ag W i j c d) (Traquer.mapP f l) (Traquer.mapP f l') := by
  intro o o' ho ho'
  refine ⟨h.le, h.hi, h.hj, fun t ht => ?_⟩
  obtain ⟨x, h1, h2⟩ := h.ex t ht
  have e1 := mapP_getElem? ho (i - t - d)
  have e2 := mapP_getElem? ho' (j - t - d)
  rw [h1, Option.bind_some] at e1
  rw [h2, Option.bind_some] at e2
  have hl : i - t - d < o.length := by
    rw [mapP_length ho]
    exact (List.getElem?_eq_some_iff.1 h1).1
  refine ⟨o[i - t - d], List.getElem?_eq_getElem hl, ?_⟩
  rw [e2, ← e1, List.getElem?_eq_getElem hl]

theorem windows {l l' : List α} (h : Ag W i j c d l l') (w : Nat) :
    OR (fun o o' => 1 ≤ w ∧ Ag W i j (c + (w - 1)) (d + (w - 1)) o o') (Traquer.windows w l) (Traquer.windows w l') := by
  intro o o' ho ho'
  simp only [Traquer.windows] at ho ho'
  split at ho
  · cases ho
  · rw [if_neg (by assumption)] at ho'
    cases ho
    cases ho'
    exact ⟨by omega, h.windowsOf (by omega)⟩

theorem sliceFrom {l l' : List α} (h : Ag W i j c d l l') (k : Nat) :
    OR (Ag W i j (max c (d + k)) (d + k)) (Traquer.sliceFrom l k) (Traquer.sliceFrom l' k) := by
  intro o o' ho ho'
  simp only [Traquer.sliceFrom] at ho ho'
  split at ho <;> simp at ho
  split at ho' <;> simp at ho'
  subst ho ho'
  exact h.dropW k

theorem at_now {l l' : List α} (h : Ag W i j c d l l') (hd : d = 0) (hc : c < W) : l[i]? = l'[j]? := by
  subst hd
  obtain ⟨x, h1, h2⟩ := h.ex 0 (by omega)
  simp only [Nat.sub_zero] at h1 h2
  rw [h1, h2]

end Ag

namespace Ag
variable {W i j c d : Nat}

theorem zipF {l l' : List α} {m m' : List β} {c' d' : Nat} (h : Ag W i j c d l l') (g : Ag W i j c' d' m m') :
    Ag W i j (max (c + (max d d' - d)) (c' + (max d d' - d'))) (max d d') (l.zip m) (l'.zip m') :=
  (h.weaken (by omega) (by omega)).zip (g.weaken (by omega) (by omega))

theorem appendF {l l' p p' : List α} (h : Ag W i j c d l l') (hp : p.length = p'.length) :
    Ag W i j (c + (p.length - d)) (d - p.length) (p ++ l) (p' ++ l') :=
  (h.weaken (D := d - p.length + p.length) (by omega) (by omega)).append rfl hp.symm

theorem nansF {F : Type} [FloatOps F] {l l' : List F} {k : Nat} (h : Ag W i j c d l l') :
    Ag W i j (c + (k - d)) (d - k) (Traquer.nans k ++ l) (Traquer.nans k ++ l') :=
  (h.weaken (D := d - k + k) (by omega) (by omega)).nans

theorem replicateF {l l' : List α} {k : Nat} {x : α} (h : Ag W i j c d l l') :
    Ag W i j (c + (k - d)) (d - k) (List.replicate k x ++ l) (List.replicate k x ++ l') :=
  (h.weaken (D := d - k + k) (by omega) (by omega)).replicate

theorem consF {l l' : List α} {x x' : α} (h : Ag W i j c d l l') : Ag W i j (c + (1 - d)) (d - 1) (x :: l) (x' :: l') :=
  (h.weaken (D := d - 1 + 1) (by omega) (by omega)).cons

theorem windowsF {l l' : List α} (h : Ag W i j c d l l') (w : Nat) :
    OR (Ag W i j (c + (w - 1)) (d + (w - 1))) (Traquer.windows w l) (Traquer.windows w l') :=
  fun o o' ho ho' => (h.windows w o o' ho ho').2

theorem windowsOfF {l l' : List α} (h : Ag W i j c d l l') {w : Nat} (hw : 1 ≤ w) :
    Ag W i j (c + (w - 1)) (d + (w - 1)) (Traquer.windowsOf w l) (Traquer.windowsOf w l') := h.windowsOf hw

end Ag

theorem or_bind_usub {S : γ → δ → Prop} {a b a' b' : Nat} {f : Nat → Option γ} {g : Nat → Option δ}
    (h : ∀ k k', k + b = a → k' + b' = a' → OR S (f k) (g k')) : OR S ((usub a b).bind f) ((usub a' b').bind g) := by
  refine OR.bind (R := fun k k' => k + b = a ∧ k' + b' = a') ?_ fun k k' hk => h k k' hk.1 hk.2
  intro k k' hk hk'
  simp only [usub] at hk hk'
  split at hk <;> simp at hk
  split at hk' <;> simp at hk'
  omega

theorem or_bind_usub_same {S : γ → δ → Prop} {a b : Nat} {f : Nat → Option γ} {g : Nat → Option δ}
    (h : ∀ k, k + b = a → OR S (f k) (g k)) : OR S ((usub a b).bind f) ((usub a b).bind g) :=
  or_bind_usub fun k k' hk hk' => by
    obtain rfl : k = k' := by omega
    exact h k hk

theorem OR.weaken {W i j c d C D : Nat} {x y : Option (List α)} (h : OR (Ag W i j c d) x y) (h1 : d ≤ D) (h2 : c + D ≤ C + d) :
    OR (Ag W i j C D) x y := fun a b ha hb => (h a b ha hb).weaken h1 h2

theorem mapP_congr {f g : α → Option β} {l : List α} (h : ∀ x ∈ l, f x = g x) : mapP f l = mapP g l := by
  induction l with
  | nil => rfl
  | cons x l ih => simp only [mapP]; rw [h x (by simp), ih fun y hy => h y (by simp [hy])]

/-- A series computed by index, the first `k` bars skipped. -/
theorem Ag.index {W i j n n' k C : Nat} {g g' : Nat → Option β} (hi : W ≤ i + 1) (hj : W ≤ j + 1) (hin : i < n) (hjn : j < n') (hk : k ≤ C)
    (h : ∀ t, t + C < W → g (i - t) = g' (j - t)) :
    OR (Ag W i j C k) (Traquer.mapP g ((List.range n).drop k)) (Traquer.mapP g' ((List.range n').drop k)) := by
  intro o o' ho ho'
  refine ⟨hk, hi, hj, fun t ht => ?_⟩
  have e1 := mapP_getElem? ho (i - t - k)
  have e2 := mapP_getElem? ho' (j - t - k)
  rw [List.getElem?_drop, List.getElem?_range (by omega), Option.bind_some, show k + (i - t - k) = i - t by omega] at e1
  rw [List.getElem?_drop, List.getElem?_range (by omega), Option.bind_some, show k + (j - t - k) = j - t by omega] at e2
  have hl : i - t - k < o.length := by
    rw [mapP_length ho, List.length_drop, List.length_range]
    omega
  refine ⟨o[i - t - k], List.getElem?_eq_getElem hl, ?_⟩
  rw [e2, ← h t ht, ← e1, List.getElem?_eq_getElem hl]

theorem Ag.lt {W i j c d : Nat} {l l' : List α} (h : Ag W i j c d l l') {t : Nat} (ht : t + c < W) : i - t - d < l.length ∧ j - t - d < l'.length := by
  obtain ⟨x, h1, h2⟩ := h.ex t ht
  exact ⟨(List.getElem?_eq_some_iff.1 h1).1, (List.getElem?_eq_some_iff.1 h2).1⟩

theorem Ag.eq {W i j c d : Nat} {l l' : List α} (h : Ag W i j c d l l') {t : Nat} (ht : t + c < W) : l[i - t - d]? = l'[j - t - d]? := by
  obtain ⟨x, h1, h2⟩ := h.ex t ht
  rw [h1, h2]

/-- Extension point: an already treated function. -/
syntax "local_fn" : tactic
macro_rules | `(tactic| local_fn) => `(tactic| fail)

/-- Finds the loss and the offset of a list expression. -/
syntax "local_list" : tactic
macro_rules | `(tactic| local_list) => `(tactic| first
  | assumption
  | (with_reducible apply Ag.map; local_list)
  | (with_reducible apply Ag.zipF; local_list; local_list)
  | (with_reducible apply Ag.nansF; local_list)
  | (with_reducible apply Ag.replicateF; local_list)
  | (with_reducible apply Ag.consF; local_list)
  | (with_reducible apply Ag.pairs; local_list)
  | (with_reducible apply Ag.dropW; local_list)
  | (with_reducible apply Ag.windowsOfF; local_list; omega))

/-- One step on an `OR` goal. -/
macro "local_step" : tactic => `(tactic| first
  | (with_reducible refine or_bind_usub_same fun _ _ => ?_)
  | (with_reducible apply OR.some; with_reducible apply Ag.weaken; local_list; omega; omega)
  | (with_reducible refine or_bind_usub fun _ _ _ _ => ?_)
  | (with_reducible apply OR.bind; (with_reducible apply Ag.sliceTo; local_list; assumption; assumption); intro _ _ _)
  | (with_reducible apply OR.bind; (with_reducible apply Ag.windowsF; local_list); intro _ _ _)
  | (with_reducible apply OR.bind; (with_reducible apply Ag.sliceFrom; local_list); intro _ _ _)
  | (with_reducible apply OR.bind; (with_reducible apply Ag.mapP; local_list); intro _ _ _)
  | (with_reducible apply OR.bind; local_fn; intro _ _ _)
  | (with_reducible refine OR.bind_same (fun _ => ?_))
  | (with_reducible refine OR.ite ?_ ?_)
  | (with_reducible apply OR.weaken; local_fn; omega; omega)
  | (with_reducible apply OR.weaken; (with_reducible apply Ag.mapP; local_list); omega; omega))

/-- Proves `OR (Ag W i j C D) (f l) (f l')` after unfolding the listed definitions. -/
macro "locality" "[" ls:Lean.Parser.Tactic.simpLemma,* "]" : tactic =>
  `(tactic| ((try simp (maxSteps := 2000000) only [Option.bind_eq_bind, zip3_eq, zip4_eq, zip5_eq, zip6_eq, $ls,*]); repeat' local_step))

theorem dependsOnLast_of_or {W : Nat} {f : List β → Option (List γ)}
    (h : ∀ (a b : List β) (i j : Nat), i < a.length → j < b.length → Ag W i j 0 0 a b → OR (Ag W i j (W - 1) 0) (f a) (f b)) (hW : 1 ≤ W) :
    DependsOnLast W f :=
  fun a b i j out out' ho ho' hi hj hia hjb hr => (h a b i j hia hjb (Ag.base hi hj hia hr) out out' ho ho').at_now rfl (by omega)

/-- Replacing a bar does not change what is reported from `W` bars later on. -/
theorem DependsOnLast.set {W : Nat} {f : List β → Option (List γ)} (h : DependsOnLast W f) {a : List β} {p : Nat} {x : β} {out out' : List γ}
    (ho : f a = some out) (ho' : f (a.set p x) = some out') {i : Nat} (hi : p + W ≤ i) (hia : i < a.length) : out[i]? = out'[i]? := by
  refine h a (a.set p x) i i out out' ho ho' (by omega) (by omega) hia (by simpa using hia) ?_
  rw [recent, recent, List.drop_set_of_lt (by omega)]

theorem Aligned.answers {F : Type} [FloatOps F] {n k : Nat} {r : Option (List F)} (h : Aligned n k r) : ∃ out, r = some out :=
  h.imp fun _ h => h.1

theorem Yields.answers {α : Type} {n : Nat} {r : Option (List α)} (h : Yields n r) : ∃ out, r = some out := h.imp fun _ h => h.1

theorem DependsOnLast.shown {W : Nat} {f : List β → Option (List γ)} (h : DependsOnLast W f) {a b : List β} (ha : ∃ out, f a = some out)
    (hb : ∃ out, f b = some out) (hW : 1 ≤ W := by decide) (hi : W ≤ a.length := by exact Nat.le_of_ble_eq_true rfl)
    (hj : W ≤ b.length := by exact Nat.le_of_ble_eq_true rfl)
    (hr : recent a W (a.length - 1) = recent b W (b.length - 1) := by rfl) : SameAtEnd f a b := by
  obtain ⟨out, ha⟩ := ha
  obtain ⟨out', hb⟩ := hb
  exact ⟨out, out', ha, hb, h a b _ _ out out' ha hb (by omega) (by omega) (by omega) (by omega) hr⟩

end Traquer
