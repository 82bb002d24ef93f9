import Verif.Lemmas.Real
import Verif.Model.Distribution
/-!
# C40: the in-place quickselect
-/

namespace Traquer.Distribution
variable {T : Type}

theorem swap_self {l : List T} {i : ℕ} (h : i < l.length) : swap l i i = some l := by
  simp [swap, List.getElem?_eq_getElem h]

/-- Swapping two positions. -/
theorem swap_split (A M B : List T) (r x : T) :
    swap (A ++ r :: M ++ x :: B) A.length (A.length + (M.length + 1)) = some (A ++ x :: M ++ r :: B) := by
  have e1 : (A ++ r :: M ++ x :: B)[A.length]? = some r := by simp
  have e2 : (A ++ r :: M ++ x :: B)[A.length + (M.length + 1)]? = some x := by
    rw [List.append_assoc, List.getElem?_append_right (by omega), List.cons_append,
      show A.length + (M.length + 1) - A.length = M.length + 1 by omega, List.getElem?_cons_succ]
    simp
  simp only [swap, e1, e2, Option.bind_eq_bind, Option.bind_some, Option.some.injEq]
  rw [List.append_assoc, List.set_append_right _ _ (by omega), Nat.sub_self, List.cons_append, List.set_cons_zero,
    List.set_append_right _ _ (by omega), show A.length + (M.length + 1) - A.length = M.length + 1 by omega,
    List.set_cons_succ, List.set_append_right _ _ (by omega), Nat.sub_self, List.set_cons_zero]
  simp

/-- Any swap of `A.length` with a later position `A.length + R.length`. -/
theorem swap_front (A R B : List T) (x : T) :
    ∃ R', swap (A ++ R ++ x :: B) A.length (A.length + R.length) = some (A ++ x :: R' ++ B) ∧ R'.Perm R := by
  cases R with
  | nil =>
    refine ⟨[], ?_, .refl _⟩
    rw [List.append_nil, List.length_nil, Nat.add_zero, swap_self (by simp)]
    simp
  | cons r R =>
    refine ⟨R ++ [r], ?_, List.perm_append_singleton r R⟩
    rw [List.length_cons, swap_split]
    simp

/-- The partition loop: with `R` the values not below the pivot seen so far and `U` the values still to see, the loop
rearranges `R ++ U` into values below the pivot followed by values not below it. -/
theorem lomuto_spec (lt : T → T → Bool) (p : T) (C U : List T) (A R : List T) (hR : ∀ x ∈ R, lt x p = false) :
    ∃ L' R', lomuto lt p U.length (A.length + R.length) A.length (A ++ R ++ U ++ C) = some (A ++ L' ++ R' ++ C, A.length + L'.length) ∧
      (∀ x ∈ L', lt x p = true) ∧ (∀ x ∈ R', lt x p = false) ∧ (L' ++ R').Perm (R ++ U) := by
  induction U generalizing A R with
  | nil => exact ⟨[], R, by simp [lomuto], by simp, hR, by simp⟩
  | cons x U ih =>
    have ex : (A ++ R ++ x :: U ++ C)[A.length + R.length]? = some x := by simp
    rw [List.length_cons, lomuto]
    simp only [ex, Option.bind_eq_bind, Option.bind_some]
    by_cases h : lt x p = true
    · obtain ⟨R1, e1, p1⟩ := swap_front A R (U ++ C) x
      rw [show A ++ R ++ x :: U ++ C = A ++ R ++ x :: (U ++ C) by simp, if_pos h, e1, Option.bind_some]
      obtain ⟨L', R', e, h1, h2, h3⟩ := ih (A ++ [x]) R1 fun y hy => hR y (p1.mem_iff.1 hy)
      refine ⟨x :: L', R', ?_, ?_, h2, ?_⟩
      · rw [List.length_append, List.length_singleton, p1.length_eq] at e
        rw [show A.length + R.length + 1 = A.length + 1 + R.length by omega,
          show A ++ x :: R1 ++ (U ++ C) = A ++ [x] ++ R1 ++ U ++ C by simp, e]
        simp [Nat.add_assoc, Nat.add_comm 1]
      · intro y hy
        rcases List.mem_cons.1 hy with rfl | hy
        · exact h
        · exact h1 y hy
      · have := (h3.trans (p1.append_right U)).cons x
        exact this.trans List.perm_middle.symm
    · rw [if_neg h]
      obtain ⟨L', R', e, h1, h2, h3⟩ := ih A (R ++ [x]) fun y hy => by
        rcases List.mem_append.1 hy with hy | hy
        · exact hR y hy
        · rw [List.mem_singleton.1 hy]; simpa using h
      refine ⟨L', R', ?_, h1, h2, ?_⟩
      · rw [List.length_append, List.length_singleton] at e
        rw [← e]
        congr 1
        simp
      · simpa using h3

/-- One partition of the segment `S ++ [p]`. -/
theorem partition_spec (lt : T → T → Bool) (p : T) (A S C : List T) :
    ∃ d L R, lomuto lt p S.length A.length A.length (A ++ S ++ p :: C) = some (d, A.length + L.length) ∧
      swap d (A.length + L.length) (A.length + S.length) = some (A ++ L ++ p :: R ++ C) ∧
      (∀ x ∈ L, lt x p = true) ∧ (∀ x ∈ R, lt x p = false) ∧ (L ++ R).Perm S := by
  obtain ⟨L, R, e, h1, h2, h3⟩ := lomuto_spec lt p (p :: C) S A [] (by simp)
  simp only [List.length_nil, Nat.add_zero, List.append_nil, List.nil_append] at e h3
  obtain ⟨R', e2, p2⟩ := swap_front (A ++ L) R C p
  have hl := h3.length_eq
  rw [List.length_append] at hl
  rw [List.length_append, show A.length + L.length + R.length = A.length + S.length by omega] at e2
  exact ⟨_, L, R', e, e2, h1, fun x hx => h2 x (p2.mem_iff.1 hx), (p2.append_left L).trans h3⟩

/-- On the values of the list `lt` is asymmetric and its negation is transitive, as `<` is for a total order. -/
structure TotalOn (lt : T → T → Bool) (l : List T) : Prop where
  asymm : ∀ x ∈ l, ∀ y ∈ l, lt x y = true → lt y x = false
  trans : ∀ x ∈ l, ∀ y ∈ l, ∀ z ∈ l, lt y x = false → lt z y = false → lt z x = false

theorem TotalOn.mono {lt : T → T → Bool} {l m : List T} (h : TotalOn lt l) (hm : ∀ x ∈ m, x ∈ l) : TotalOn lt m :=
  ⟨fun x hx y hy => h.asymm x (hm x hx) y (hm y hy), fun x hx y hy z hz => h.trans x (hm x hx) y (hm y hy) z (hm z hz)⟩

/-- Everything before the selected value is not above it, everything after it not below it. -/
def Splits (lt : T → T → Bool) (P : List T) (x : T) (Q : List T) : Prop :=
  (∀ y ∈ P, lt x y = false) ∧ ∀ y ∈ Q, lt y x = false

theorem quickselectLoop_spec (lt : T → T → Bool) (k : ℕ) (fuel : ℕ) (A S C : List T) (hf : S.length ≤ fuel)
    (h1 : A.length ≤ k) (h2 : k < A.length + S.length) :
    ∃ P x Q, quickselectLoop lt k fuel A.length (A.length + S.length - 1) (A ++ S ++ C) = some (A ++ (P ++ x :: Q) ++ C, x) ∧
      A.length + P.length = k ∧ (P ++ x :: Q).Perm S ∧ (TotalOn lt S → Splits lt P x Q) := by
  induction fuel generalizing A S C with
  | zero => omega
  | succ fuel ih =>
    by_cases hS : S.length = 1
    · obtain ⟨x, rfl⟩ := List.length_eq_one_iff.1 hS
      have hk : k = A.length := by simp at h2; omega
      refine ⟨[], x, [], ?_, by simp [hk], by simp, fun _ => ⟨by simp, by simp⟩⟩
      rw [quickselectLoop, if_neg (by simp)]
      simp [hk]
    · have hne : S ≠ [] := by rintro rfl; simp at h2; omega
      obtain ⟨S', p, rfl⟩ : ∃ S' p, S = S' ++ [p] := ⟨S.dropLast, S.getLast hne, (List.dropLast_append_getLast hne).symm⟩
      rw [List.length_append, List.length_singleton] at h2 hf hS
      obtain ⟨d, L, R, e1, e2, hL, hR, hp⟩ := partition_spec lt p A S' C
      have hlen := hp.length_eq
      rw [List.length_append] at hlen
      have ep : (A ++ (S' ++ [p]) ++ C)[A.length + S'.length]? = some p := by simp
      have perm : (L ++ p :: R).Perm (S' ++ [p]) :=
        List.perm_middle.trans ((hp.cons p).trans (List.perm_append_singleton p S').symm)
      rw [quickselectLoop, if_pos (by simp; omega), List.length_append, List.length_singleton,
        show A.length + (S'.length + 1) - 1 = A.length + S'.length by omega, show A.length + S'.length - A.length = S'.length by omega]
      simp only [ep, Option.bind_eq_bind, Option.bind_some]
      rw [show A ++ (S' ++ [p]) ++ C = A ++ S' ++ p :: C by simp, e1]
      simp only [Option.bind_some, e2]
      by_cases hk : A.length + L.length = k
      · rw [if_pos hk]
        have : (A ++ L ++ p :: R ++ C)[k]? = some p := by
          rw [← hk, show A ++ L ++ p :: R ++ C = (A ++ L) ++ p :: (R ++ C) by simp, List.getElem?_append_right (by simp)]
          simp
        rw [this]
        refine ⟨L, p, R, by simp, hk, perm, fun ht => ⟨fun y hy => ?_, hR⟩⟩
        exact ht.asymm y (perm.mem_iff.1 (by simp [hy])) p (by simp) (hL y hy)
      · rw [if_neg hk]
        by_cases hk2 : k < A.length + L.length
        · rw [if_pos hk2, usub, if_pos (by omega), Option.bind_some]
          obtain ⟨P, x, Q, e, e3, e4, e5⟩ := ih A L (p :: R ++ C) (by omega) h1 hk2
          refine ⟨P, x, Q ++ p :: R, ?_, e3, ?_, fun ht => ?_⟩
          · rw [show A ++ L ++ p :: R ++ C = A ++ L ++ (p :: R ++ C) by simp, e]
            simp
          · have := e4.append_right (p :: R)
            simp only [List.append_assoc, List.cons_append] at this ⊢
            exact this.trans perm
          · have hs := e5 (ht.mono fun y hy => perm.mem_iff.1 (by simp [hy]))
            have hxL : x ∈ L := e4.mem_iff.1 (by simp)
            have hx : x ∈ S' ++ [p] := perm.mem_iff.1 (by simp [hxL])
            have hxp := ht.asymm x hx p (by simp) (hL x hxL)
            refine ⟨hs.1, fun y hy => ?_⟩
            rcases List.mem_append.1 hy with hy | hy
            · exact hs.2 y hy
            · rcases List.mem_cons.1 hy with rfl | hy
              · exact hxp
              · exact ht.trans x hx p (by simp) y (perm.mem_iff.1 (by simp [hy])) hxp (hR y hy)
        · rw [if_neg hk2]
          obtain ⟨P, x, Q, e, e3, e4, e5⟩ := ih (A ++ L ++ [p]) R C (by omega) (by simp; omega) (by simp; omega)
          simp only [List.length_append, List.length_singleton] at e e3
          refine ⟨L ++ p :: P, x, Q, ?_, by simp; omega, ?_, fun ht => ?_⟩
          · rw [show A ++ L ++ p :: R ++ C = A ++ L ++ [p] ++ R ++ C by simp,
              show A.length + S'.length = A.length + L.length + 1 + R.length - 1 by omega, e]
            simp
          · have := (e4.cons p).append_left L
            simp only [List.append_assoc, List.cons_append] at this ⊢
            exact this.trans perm
          · have hs := e5 (ht.mono fun y hy => perm.mem_iff.1 (by simp [hy]))
            have hxR : x ∈ R := e4.mem_iff.1 (by simp)
            have hx : x ∈ S' ++ [p] := perm.mem_iff.1 (by simp [hxR])
            refine ⟨fun y hy => ?_, hs.2⟩
            rcases List.mem_append.1 hy with hy | hy
            · have hyS := perm.mem_iff.1 (show y ∈ L ++ p :: R by simp [hy])
              exact ht.trans y hyS p (by simp) x hx (ht.asymm y hyS p (by simp) (hL y hy)) (hR x hxR)
            · rcases List.mem_cons.1 hy with rfl | hy
              · exact hR x hxR
              · exact hs.1 y hy

/-- C40: for every `k` below the length quickselect returns, whatever the comparison does; it only permutes the slice and
returns the value now at position `k`. If the comparison is that of a total order, no value before position `k` is above it
and none after is below it. -/
theorem quickselect_spec (lt : T → T → Bool) (data : List T) (k : ℕ) (hk : k < data.length) :
    ∃ P x Q, quickselect lt data k = some (P ++ x :: Q, x) ∧ P.length = k ∧ (P ++ x :: Q).Perm data ∧
      (TotalOn lt data → Splits lt P x Q) := by
  obtain ⟨P, x, Q, e, h1, h2, h3⟩ := quickselectLoop_spec lt k (data.length + 1) [] data [] (by omega) (by simp) (by simpa using hk)
  refine ⟨P, x, Q, ?_, by simpa using h1, h2, h3⟩
  simp only [quickselect, usub, if_pos (show 1 ≤ data.length by omega), Option.bind_eq_bind, Option.bind_some]
  simpa using e

/-- C40: beyond the length it panics. -/
theorem quickselectLoop_panics (lt : T → T → Bool) (k : ℕ) (fuel lo hi : ℕ) (d : List T) (hk : d.length ≤ k) (hhi : hi < d.length) :
    quickselectLoop lt k fuel lo hi d = none := by
  induction fuel generalizing lo hi d with
  | zero => rfl
  | succ fuel ih =>
    rw [quickselectLoop]
    split
    · rename_i hlt
      by_contra hne
      obtain ⟨r, hr⟩ := Option.ne_none_iff_exists'.1 hne
      obtain ⟨p, -, hr⟩ := Option.bind_eq_some_iff.1 hr
      obtain ⟨⟨d1, i⟩, e1, hr⟩ := Option.bind_eq_some_iff.1 hr
      obtain ⟨d2, e2, hr⟩ := Option.bind_eq_some_iff.1 hr
      have sw : ∀ {d d' : List T} {i j}, swap d i j = some d' → d'.length = d.length := by
        intro d d' i j e
        obtain ⟨a, -, e⟩ := Option.bind_eq_some_iff.1 e
        obtain ⟨b, -, e⟩ := Option.bind_eq_some_iff.1 e
        cases e; simp
      have lo : ∀ (n : ℕ) {j i : ℕ} {d d' : List T} {i' : ℕ}, lomuto lt p n j i d = some (d', i') →
          d'.length = d.length ∧ i' ≤ i + n := by
        intro n
        induction n with
        | zero => intro j i d d' i' e; cases e; exact ⟨rfl, by omega⟩
        | succ n ihn =>
          intro j i d d' i' e
          obtain ⟨x, -, e⟩ := Option.bind_eq_some_iff.1 e
          split at e
          · obtain ⟨d1, e1, e⟩ := Option.bind_eq_some_iff.1 e
            have := ihn e
            exact ⟨this.1.trans (sw e1), by omega⟩
          · have := ihn e
            exact ⟨this.1, by omega⟩
      have l1 := lo _ e1
      have l2 := sw e2
      split at hr
      · obtain ⟨x, hx, -⟩ := Option.bind_eq_some_iff.1 hr
        have := (List.getElem?_eq_some_iff.1 hx).1
        omega
      · split at hr
        · obtain ⟨h', e', hr⟩ := Option.bind_eq_some_iff.1 hr
          rw [ih _ _ _ (by omega) (by unfold usub at e'; split at e' <;> simp at e'; omega)] at hr
          cases hr
        · rw [ih _ _ _ (by omega) (by omega)] at hr
          cases hr
    · rw [List.getElem?_eq_none hk]; rfl

theorem quickselect_panics (lt : T → T → Bool) (data : List T) (k : ℕ) (hk : data.length ≤ k) : quickselect lt data k = none := by
  unfold quickselect usub
  split
  · exact quickselectLoop_panics lt k _ _ _ data hk (by omega)
  · rfl

example : ∃ P x Q, quickselect (fun a b : ℕ => decide (a < b)) [3, 1, 2] 1 = some (P ++ x :: Q, x) ∧ P.length = 1 ∧
    (P ++ x :: Q).Perm [3, 1, 2] ∧ Splits (fun a b => decide (a < b)) P x Q := by
  obtain ⟨P, x, Q, h1, h2, h3, h4⟩ := quickselect_spec (fun a b : ℕ => decide (a < b)) [3, 1, 2] 1 (by simp)
  refine ⟨P, x, Q, h1, h2, h3, h4 ⟨?_, ?_⟩⟩
  · intro x _ y _ h
    simp only [decide_eq_true_eq, decide_eq_false_iff_not] at *
    omega
  · intro x _ y _ z _ h h'
    simp only [decide_eq_false_iff_not] at *
    omega

end Traquer.Distribution
