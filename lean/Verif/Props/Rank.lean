import Verif.Props.Quantile
import Verif.Lemmas.Indexed
import Mathlib.Data.List.Dedup
/-!
# C41, C42: rank
-/

namespace Traquer.Distribution
open FP FloatLit
variable {ρ : Rounding} {α : Type} [LinearOrder α] {F : Type} [FloatOps F]

/-! ## scatter -/

theorem scatter_foldl_length {F : Type} (l : List (F × ℕ)) (res : List F) :
    (l.foldl (fun res p => res.set p.2 p.1) res).length = res.length := by
  induction l generalizing res with
  | nil => rfl
  | cons p l ih => rw [List.foldl_cons, ih, List.length_set]

theorem scatter_foldl_other {F : Type} (l : List (F × ℕ)) (res : List F) (i : ℕ) (h : ∀ p ∈ l, p.2 ≠ i) :
    (l.foldl (fun res p => res.set p.2 p.1) res)[i]? = res[i]? := by
  induction l generalizing res with
  | nil => rfl
  | cons p l ih =>
    rw [List.foldl_cons, ih _ fun q hq => h q (List.mem_cons_of_mem _ hq), List.getElem?_set_ne (h p (List.mem_cons_self ..))]

/-- Scattering along distinct indices puts every value at its index. -/
theorem scatter_foldl_get {F : Type} (l : List (F × ℕ)) (res : List F) (hd : (l.map (·.2)).Nodup) (hl : ∀ p ∈ l, p.2 < res.length)
    {k : ℕ} {p : F × ℕ} (hk : l[k]? = some p) : (l.foldl (fun res p => res.set p.2 p.1) res)[p.2]? = some p.1 := by
  induction l generalizing res k with
  | nil => simp at hk
  | cons q l ih =>
    rw [List.map_cons, List.nodup_cons] at hd
    rw [List.foldl_cons]
    cases k with
    | zero =>
      cases hk
      rw [scatter_foldl_other _ _ _ fun r hr e => hd.1 (List.mem_map.2 ⟨r, hr, e⟩)]
      rw [List.getElem?_set_self (hl _ (List.mem_cons_self ..))]
    | succ k =>
      refine ih _ hd.2 (fun r hr => ?_) (by simpa using hk)
      rw [List.length_set]
      exact hl r (List.mem_cons_of_mem _ hr)

theorem scatter_get {n : ℕ} {vs : List F} {idx : List ℕ} (hi : idx.Perm (List.range n)) (hv : vs.length = n)
    {k i : ℕ} {y : F} (h1 : idx[k]? = some i) (h2 : vs[k]? = some y) : (scatter n vs idx)[i]? = some y := by
  have hli : idx.length = n := by rw [hi.length_eq, List.length_range]
  have hnd : idx.Nodup := hi.nodup_iff.2 List.nodup_range
  have em : ((vs.zip idx).map (·.2)) = idx := by
    rw [show ((fun x : F × ℕ => x.2)) = Prod.snd from rfl, List.map_snd_zip (by omega)]
  exact scatter_foldl_get (vs.zip idx) (List.replicate n 0) (by rw [em]; exact hnd)
    (fun p hp => by
      have : p.2 ∈ idx := em ▸ List.mem_map.2 ⟨p, hp, rfl⟩
      have := hi.mem_iff.1 this
      simpa using this)
    (p := (y, i)) (List.getElem?_zip_eq_some.2 ⟨h2, h1⟩)

theorem scatter_length (n : ℕ) (vs : List F) (idx : List ℕ) : (scatter n vs idx).length = n := by
  rw [scatter, scatter_foldl_length, List.length_replicate]

/-! ## Tie groups of a sorted list -/

/-- The flags mark the positions at which a new value starts. -/
def FlagsOf (s : List α) (flags : List Bool) : Prop :=
  flags.length = s.length ∧ (∀ b, flags[0]? = some b → b = true) ∧
    ∀ (k : ℕ) x y b, s[k]? = some x → s[k + 1]? = some y → flags[k + 1]? = some b → b = decide (x ≠ y)

variable {s : List α} {flags : List Bool}

/-- Position of the first value equal to `x`: the number of smaller values. -/
def below (s : List α) (x : α) : ℕ := s.countP fun y => decide (y < x)

/-- The number of values not above `x`. -/
def upto (s : List α) (x : α) : ℕ := s.countP fun y => decide (y ≤ x)

/-- The number of distinct values below `x`. -/
def distinctBelow (s : List α) (x : α) : ℕ := s.dedup.countP fun y => decide (y < x)

theorem countP_sorted {s : List α} {p : α → Bool} {k : ℕ} (hk : k ≤ s.length) (h1 : ∀ (j : ℕ) y, j < k → s[j]? = some y → p y = true)
    (h2 : ∀ (j : ℕ) y, k ≤ j → s[j]? = some y → p y = false) : s.countP p = k := by
  rw [← List.take_append_drop k s, List.countP_append, List.countP_eq_length.2, List.countP_eq_zero.2]
  · simp [hk]
  · intro y hy
    obtain ⟨j, hj⟩ := List.mem_iff_getElem?.1 hy
    rw [List.getElem?_drop] at hj
    simp [h2 _ y (by omega) hj]
  · intro y hy
    obtain ⟨j, hj⟩ := List.mem_iff_getElem?.1 hy
    have := (List.getElem?_eq_some_iff.1 hj).1
    rw [List.length_take] at this
    rw [List.getElem?_take_of_lt (by omega)] at hj
    exact h1 j y (by omega) hj

theorem sorted_le {s : List α} (hs : s.Pairwise (· ≤ ·)) {j k : ℕ} {x y : α} (h : j ≤ k) (hx : s[j]? = some x) (hy : s[k]? = some y) :
    x ≤ y := by
  rcases Nat.eq_or_lt_of_le h with rfl | h
  · exact (Option.some.inj (hx.symm.trans hy)).le
  · obtain ⟨h1, rfl⟩ := List.getElem?_eq_some_iff.1 hx
    obtain ⟨h2, rfl⟩ := List.getElem?_eq_some_iff.1 hy
    exact List.pairwise_iff_getElem.1 hs j k h1 h2 h

/-- A new value starts at position `k + 1`: `k + 1` values are below it, and `k + 1` values are not above the previous one. -/
theorem start_counts (hs : s.Pairwise (· ≤ ·)) {k : ℕ} {x y : α} (hx : s[k]? = some x) (hy : s[k + 1]? = some y) (h : x ≠ y) :
    below s y = k + 1 ∧ upto s x = k + 1 := by
  have hlt : x < y := lt_of_le_of_ne (sorted_le hs (Nat.le_succ k) hx hy) h
  have hl := (List.getElem?_eq_some_iff.1 hy).1
  constructor
  · refine countP_sorted (by omega) (fun j z hj hz => ?_) fun j z hj hz => ?_
    · exact decide_eq_true ((sorted_le hs (by omega) hz hx).trans_lt hlt)
    · exact decide_eq_false (not_lt.2 (sorted_le hs hj hy hz))
  · refine countP_sorted (by omega) (fun j z hj hz => ?_) fun j z hj hz => ?_
    · exact decide_eq_true (sorted_le hs (by omega) hz hx)
    · exact decide_eq_false (not_le.2 (hlt.trans_le (sorted_le hs hj hy hz)))

theorem below_first (hs : s.Pairwise (· ≤ ·)) {x : α} (hx : s[0]? = some x) : below s x = 0 :=
  countP_sorted (by omega) (fun j z hj => by omega) fun j z _ hz => decide_eq_false (not_lt.2 (sorted_le hs (by omega) hx hz))

theorem upto_last (hs : s.Pairwise (· ≤ ·)) {k : ℕ} {x : α} (hx : s[k]? = some x) (hk : k + 1 = s.length) : upto s x = s.length :=
  countP_sorted le_rfl (fun j z hj hz => decide_eq_true (sorted_le hs (by omega) hz hx)) fun j z hj hz => by
    have := (List.getElem?_eq_some_iff.1 hz).1
    omega

theorem distinctBelow_first (hs : s.Pairwise (· ≤ ·)) {x : α} (hx : s[0]? = some x) : distinctBelow s x = 0 := by
  refine List.countP_eq_zero.2 fun y hy => ?_
  obtain ⟨j, hj⟩ := List.mem_iff_getElem?.1 (List.mem_dedup.1 hy)
  simpa using sorted_le hs (Nat.zero_le j) hx hj

theorem distinctBelow_start (hs : s.Pairwise (· ≤ ·)) {k : ℕ} {x y : α} (hx : s[k]? = some x) (hy : s[k + 1]? = some y) (h : x ≠ y) :
    distinctBelow s y = distinctBelow s x + 1 := by
  have hlt : x < y := lt_of_le_of_ne (sorted_le hs (Nat.le_succ k) hx hy) h
  have hxm : x ∈ s.dedup := List.mem_dedup.2 (List.mem_of_getElem? hx)
  have key : ∀ z ∈ s.dedup, (z < y ↔ z < x ∨ z = x) := fun z hz => by
    constructor
    · intro hzy
      obtain ⟨j, hj⟩ := List.mem_iff_getElem?.1 (List.mem_dedup.1 hz)
      rcases Nat.lt_or_ge k j with hkj | hkj
      · exact absurd (sorted_le hs hkj hy hj) (not_le.2 hzy)
      · exact lt_or_eq_of_le (sorted_le hs hkj hj hx)
    · rintro (h | rfl)
      · exact h.trans hlt
      · exact hlt
  have hnd := List.nodup_dedup s
  have : ∀ (l : List α), l.Nodup → x ∈ l → (∀ z ∈ l, (z < y ↔ z < x ∨ z = x)) →
      l.countP (fun z => decide (z < y)) = l.countP (fun z => decide (z < x)) + 1 := by
    intro l hnd hm hk
    have e : l.countP (fun z => decide (z < y)) = l.countP (fun z => decide (z < x) || decide (z = x)) := by
      refine List.countP_congr fun z hz => ?_
      simp [hk z hz]
    rw [e]
    have e2 : l.countP (fun z => decide (z < x) || decide (z = x)) = l.countP (fun z => decide (z < x)) + l.countP (fun z => decide (z = x)) := by
      clear e hk hm hnd
      induction l with
      | nil => rfl
      | cons a l ih =>
        rw [List.countP_cons, List.countP_cons, List.countP_cons, ih]
        by_cases h1 : a < x
        · have h2 : a ≠ x := h1.ne
          simp [h1, h2]; omega
        · by_cases h2 : a = x
          · simp [h2]; omega
          · simp [h1, h2]
    rw [e2]
    have : l.countP (fun z => decide (z = x)) = l.count x := by
      rw [List.count]
      exact List.countP_congr fun z _ => by simp
    rw [this, List.count_eq_one_of_mem hnd hm]
  exact this _ hnd hxm key

theorem FlagsOf.first (h : FlagsOf s flags) {b : Bool} (hb : flags[0]? = some b) : b = true := h.2.1 b hb

/-! ## The ranks in sorted order -/

theorem minRanks (hs : s.Pairwise (· ≤ ·)) (hf : FlagsOf s flags) (k : ℕ) (r : ℕ) (x : α) (hx : s[k]? = some x)
    (hr : (scanS (fun st (p : ℕ × Bool) => if p.2 then p.1 else st) 1 ((List.range' 1 s.length).zip flags))[k]? = some r) :
    r = below s x + 1 := by
  refine scan_idx (f := fun st (p : ℕ × Bool) => ((if p.2 then p.1 else st), (if p.2 then p.1 else st)))
    (I := fun k st => ∀ (j : ℕ) x, k = j + 1 → s[j]? = some x → st = below s x + 1)
    (P := fun k st => ∀ x, s[k]? = some x → st = below s x + 1) ?_ (fun j x h => by omega) k r hr x hx
  rintro k st ⟨p, b⟩ hp hI
  obtain ⟨e1, e2⟩ := List.getElem?_zip_eq_some.1 hp
  dsimp only at e1 e2
  have hk := (List.getElem?_eq_some_iff.1 e2).1
  rw [hf.1] at hk
  rw [List.getElem?_range' (by simpa using hk)] at e1
  have hp1 : p = k + 1 := by
    have := Option.some.inj e1
    omega
  subst hp1
  have key : ∀ x, s[k]? = some x → (if b then k + 1 else st) = below s x + 1 := by
    intro x hx
    cases k with
    | zero =>
      rw [hf.first e2, below_first hs hx]; rfl
    | succ k =>
      obtain ⟨y, hy⟩ : ∃ y, s[k]? = some y := ⟨_, List.getElem?_eq_getElem (by omega)⟩
      have hb := hf.2.2 k y x b hy hx e2
      by_cases hne : y = x
      · rw [hb, if_neg (by simp [hne]), hI k y rfl hy, hne]
      · rw [hb, if_pos (by simp [hne]), (start_counts hs hy hx hne).1]
  refine ⟨fun j x h hx => ?_, key⟩
  cases h
  exact key x hx

theorem denseRanks (hs : s.Pairwise (· ≤ ·)) (hf : FlagsOf s flags) (k : ℕ) (r : ℕ) (x : α) (hx : s[k]? = some x)
    (hr : (scanS (fun (st : ℕ) take => if take then st + 1 else st) 0 flags)[k]? = some r) : r = distinctBelow s x + 1 := by
  refine scan_idx (f := fun (st : ℕ) (b : Bool) => ((if b then st + 1 else st), (if b then st + 1 else st)))
    (I := fun k st => (k = 0 → st = 0) ∧ ∀ (j : ℕ) x, k = j + 1 → s[j]? = some x → st = distinctBelow s x + 1)
    (P := fun k st => ∀ x, s[k]? = some x → st = distinctBelow s x + 1) ?_ ⟨fun _ => rfl, fun j x h => by omega⟩ k r hr x hx
  rintro k st b e2 ⟨hI0, hI⟩
  have hk := (List.getElem?_eq_some_iff.1 e2).1
  rw [hf.1] at hk
  have key : ∀ x, s[k]? = some x → (if b then st + 1 else st) = distinctBelow s x + 1 := by
    intro x hx
    cases k with
    | zero => rw [hf.first e2, hI0 rfl, distinctBelow_first hs hx]; rfl
    | succ k =>
      obtain ⟨y, hy⟩ : ∃ y, s[k]? = some y := ⟨_, List.getElem?_eq_getElem (by omega)⟩
      have hb := hf.2.2 k y x b hy hx e2
      by_cases hne : y = x
      · rw [hb, if_neg (by simp [hne]), hI k y rfl hy, hne]
      · rw [hb, if_pos (by simp [hne]), hI k y rfl hy, distinctBelow_start hs hy hx hne]
  refine ⟨⟨by omega, fun j x h hx => ?_⟩, key⟩
  cases h
  exact key x hx

/-- The marked positions, counting from `o`. -/
def starts (o : ℕ) (b : List Bool) : List ℕ := ((List.range' o b.length).zip b).filterMap fun p => if p.2 then some p.1 else none

theorem tieStarts_eq (b : List Bool) (n : ℕ) : tieStarts b n = starts 0 b ++ [n] := by
  rw [tieStarts, starts, List.range_eq_range']

theorem starts_cons (o : ℕ) (a : Bool) (b : List Bool) : starts o (a :: b) = (if a then [o] else []) ++ starts (o + 1) b := by
  cases a <;> simp [starts, List.range'_succ]

theorem starts_append (o : ℕ) (a b : List Bool) : starts o (a ++ b) = starts o a ++ starts (o + a.length) b := by
  induction a generalizing o with
  | nil => simp [starts]
  | cons x a ih =>
    rw [List.cons_append, starts_cons, starts_cons, ih, List.append_assoc, List.length_cons, show o + 1 + a.length = o + (a.length + 1) by omega]

theorem starts_length (o : ℕ) (b : List Bool) : (starts o b).length = b.count true := by
  induction b generalizing o with
  | nil => rfl
  | cons x b ih => cases x <;> simp [starts_cons, ih]

theorem starts_last (hs : s.Pairwise (· ≤ ·)) (hf : FlagsOf s flags) (k : ℕ) (x : α) (hx : s[k]? = some x) :
    (starts 0 (flags.take (k + 1))).getLast? = some (below s x) := by
  induction k generalizing x with
  | zero =>
    have hl := (List.getElem?_eq_some_iff.1 hx).1
    obtain ⟨b, hb⟩ : ∃ b, flags[0]? = some b := ⟨_, List.getElem?_eq_getElem (by rw [hf.1]; exact hl)⟩
    have := hf.first hb
    subst this
    rw [below_first hs hx]
    cases flags with
    | nil => simp at hb
    | cons b t =>
      simp at hb
      subst hb
      rfl
  | succ k ih =>
    have hl := (List.getElem?_eq_some_iff.1 hx).1
    obtain ⟨b, hb⟩ : ∃ b, flags[k + 1]? = some b := ⟨_, List.getElem?_eq_getElem (by rw [hf.1]; exact hl)⟩
    obtain ⟨y, hy⟩ : ∃ y, s[k]? = some y := ⟨_, List.getElem?_eq_getElem (by omega)⟩
    have hb' := hf.2.2 k y x b hy hx hb
    have et : flags.take (k + 1 + 1) = flags.take (k + 1) ++ [b] := by
      rw [List.take_add_one, hb]; rfl
    have lt : (flags.take (k + 1)).length = k + 1 := by rw [List.length_take, hf.1]; omega
    rw [et, starts_append, lt]
    by_cases hne : y = x
    · have : b = false := by rw [hb']; simp [hne]
      subst this
      rw [show starts (0 + (k + 1)) [false] = [] from rfl, List.append_nil, ih y hy, hne]
    · have : b = true := by rw [hb']; simp [hne]
      subst this
      rw [show starts (0 + (k + 1)) [true] = [0 + (k + 1)] from rfl, List.getLast?_append, (start_counts hs hy hx hne).1]
      simp

theorem starts_head (hs : s.Pairwise (· ≤ ·)) (hf : FlagsOf s flags) (d : ℕ) (k : ℕ) (x : α) (hd : k + 1 + d = s.length) (hx : s[k]? = some x) :
    (starts (k + 1) (flags.drop (k + 1)) ++ [s.length]).head? = some (upto s x) := by
  induction d generalizing k x with
  | zero =>
    rw [List.drop_eq_nil_of_le (by rw [hf.1]; omega), upto_last hs hx (by omega)]
    rfl
  | succ d ih =>
    obtain ⟨b, hb⟩ : ∃ b, flags[k + 1]? = some b := ⟨_, List.getElem?_eq_getElem (by rw [hf.1]; omega)⟩
    obtain ⟨y, hy⟩ : ∃ y, s[k + 1]? = some y := ⟨_, List.getElem?_eq_getElem (by omega)⟩
    have hb' := hf.2.2 k x y b hx hy hb
    have ed : flags.drop (k + 1) = b :: flags.drop (k + 1 + 1) := by
      obtain ⟨h, rfl⟩ := List.getElem?_eq_some_iff.1 hb
      exact List.drop_eq_getElem_cons h
    rw [ed, starts_cons]
    by_cases hne : x = y
    · have : b = false := by rw [hb']; simp [hne]
      subst this
      rw [if_neg (by simp), List.nil_append, ih (k + 1) y (by omega) hy, hne]
    · have : b = true := by rw [hb']; simp [hne]
      subst this
      rw [if_pos rfl, (start_counts hs hx hy hne).2]
      rfl

/-- The two neighbouring entries of the list of starts give the number of smaller and of not larger values. -/
theorem tieStarts_get (hs : s.Pairwise (· ≤ ·)) (hf : FlagsOf s flags) (k : ℕ) (x : α) (hx : s[k]? = some x) :
    1 ≤ (flags.take (k + 1)).count true ∧ (tieStarts flags s.length)[(flags.take (k + 1)).count true]? = some (upto s x) ∧
      (tieStarts flags s.length)[(flags.take (k + 1)).count true - 1]? = some (below s x) := by
  have hl := (List.getElem?_eq_some_iff.1 hx).1
  have h1 := starts_last hs hf k x hx
  have h2 := starts_head hs hf (s.length - (k + 1)) k x (by omega) hx
  have ll := starts_length 0 (flags.take (k + 1))
  have lt : (flags.take (k + 1)).length = k + 1 := by rw [List.length_take, hf.1]; omega
  have hpos : 1 ≤ (flags.take (k + 1)).count true := by
    rw [← ll]
    cases e : starts 0 (flags.take (k + 1)) with
    | nil => rw [e] at h1; simp at h1
    | cons a t => simp
  have e : tieStarts flags s.length = starts 0 (flags.take (k + 1)) ++ (starts (k + 1) (flags.drop (k + 1)) ++ [s.length]) := by
    rw [tieStarts_eq]
    conv_lhs => rw [← List.take_append_drop (k + 1) flags, starts_append, lt, List.append_assoc]
    rw [Nat.zero_add]
  refine ⟨hpos, ?_, ?_⟩
  · rw [e, List.getElem?_append_right (by omega), ll, Nat.sub_self, ← h2, List.head?_eq_getElem?]
  · rw [e, List.getElem?_append_left (by omega), ← h1, List.getLast?_eq_getElem?, ll]

theorem take_count_succ (flags : List Bool) (k : ℕ) (b : Bool) (hb : flags[k]? = some b) :
    (flags.take (k + 1)).count true = if b then (flags.take k).count true + 1 else (flags.take k).count true := by
  rw [List.take_add_one, hb]
  cases b <;> simp

theorem maxRanks (hs : s.Pairwise (· ≤ ·)) (hf : FlagsOf s flags) :
    ∃ o : List (F), sortedRanks (some .max) flags s.length = some o ∧ o.length = s.length ∧
      ∀ (k : ℕ) y x, o[k]? = some y → s[k]? = some x → y = flt (upto s x) := by
  have := scanM_idx_some (f := fun (st : ℕ) (take : Bool) => do
      let st := if take then st + 1 else st
      let a ← (tieStarts flags s.length)[st]?
      some (st, (flt a : F))) (I := fun k st => st = (flags.take k).count true)
    (P := fun k y => ∀ x, s[k]? = some x → y = flt (upto s x)) (l := flags) ?_ (s := 0) (by simp)
  · obtain ⟨o, e, h⟩ := this
    exact ⟨o, e, (scanM_length e).trans hf.1, fun k y x hy hx => h k y hy x hx⟩
  · intro k st b hb hI
    have hk := (List.getElem?_eq_some_iff.1 hb).1
    rw [hf.1] at hk
    obtain ⟨x, hx⟩ : ∃ y, s[k]? = some y := ⟨_, List.getElem?_eq_getElem hk⟩
    obtain ⟨-, h2, -⟩ := tieStarts_get hs hf k x hx
    have hc := take_count_succ flags k b hb
    rw [← hI] at hc
    rw [hc] at h2
    refine ⟨if b then st + 1 else st, flt (upto s x), by simp only [h2, Option.bind_eq_bind, Option.bind_some], hc.symm, fun x' hx' => ?_⟩
    cases hx.symm.trans hx'
    rfl

theorem averageRanks (hs : s.Pairwise (· ≤ ·)) (hf : FlagsOf s flags) :
    ∃ o : List (F), sortedRanks (some .average) flags s.length = some o ∧ o.length = s.length ∧
      ∀ (k : ℕ) y x, o[k]? = some y → s[k]? = some x → y = flt (1 + upto s x + below s x) / 2 := by
  have := scanM_idx_some (f := fun (st : ℕ) (take : Bool) => do
      let st := if take then st + 1 else st
      let a ← (tieStarts flags s.length)[st]?
      let p ← usub st 1
      let b ← (tieStarts flags s.length)[p]?
      some (st, (flt (1 + a + b) / 2 : F))) (I := fun k st => st = (flags.take k).count true)
    (P := fun k y => ∀ x, s[k]? = some x → y = flt (1 + upto s x + below s x) / 2) (l := flags) ?_ (s := 0) (by simp)
  · obtain ⟨o, e, h⟩ := this
    exact ⟨o, e, (scanM_length e).trans hf.1, fun k y x hy hx => h k y hy x hx⟩
  · intro k st b hb hI
    have hk := (List.getElem?_eq_some_iff.1 hb).1
    rw [hf.1] at hk
    obtain ⟨x, hx⟩ : ∃ y, s[k]? = some y := ⟨_, List.getElem?_eq_getElem hk⟩
    obtain ⟨h1, h2, h3⟩ := tieStarts_get hs hf k x hx
    have hc := take_count_succ flags k b hb
    rw [← hI] at hc
    rw [hc] at h1 h2 h3
    refine ⟨if b then st + 1 else st, flt (1 + upto s x + below s x) / 2, by simp only [h2, usub_of_le h1, h3, Option.bind_eq_bind, Option.bind_some], hc.symm, fun x' hx' => ?_⟩
    cases hx.symm.trans hx'
    rfl

/-! ## From the sorted order back to the input -/

/-- The comparisons `lt`, `ne` compare the keys, on the members of `data`. -/
structure Keyed {T : Type} (key : T → α) (lt ne : T → T → Bool) (data : List T) : Prop where
  lt_iff : ∀ x ∈ data, ∀ y ∈ data, (lt x y = true ↔ key x < key y)
  ne_iff : ∀ x ∈ data, ∀ y ∈ data, (ne x y = true ↔ key x ≠ key y)

/-- The sorted values: what the sort makes of the input, and its tie groups. -/
theorem sorted_of_argsort {T : Type} {key : T → α} {lt ne : T → T → Bool} {data : List T} {idx : List ℕ}
    (hk : Keyed key lt ne data) (h : IsArgsort lt data idx) (hne : data ≠ []) :
    ∃ sorted flags, mapP (fun i => data[i]?) idx = some sorted ∧ uniqFlags ne sorted = some flags ∧
      sorted.length = data.length ∧ (sorted.map key).Pairwise (· ≤ ·) ∧ FlagsOf (sorted.map key) flags ∧
      (sorted.map key).Perm (data.map key) ∧ ∀ (k i : ℕ), idx[k]? = some i → sorted[k]? = data[i]? := by
  have hmem : ∀ i ∈ idx, i < data.length := fun i hi => by simpa using h.perm.mem_iff.1 hi
  obtain ⟨sorted, hs⟩ := mapP_isSome (f := fun i => data[i]?) (l := idx) fun i hi => by simp [hmem i hi]
  have hget : ∀ (k i : ℕ), idx[k]? = some i → sorted[k]? = data[i]? := fun k i hi => by
    rw [mapP_getElem? hs, hi]; rfl
  have hlen : sorted.length = data.length := by
    rw [mapP_length hs, h.perm.length_eq, List.length_range]
  have hperm : sorted.Perm data := by
    have e := mapP_eq_some_iff.1 hs
    have p := h.perm.map fun i => data[i]?
    rw [e] at p
    have e2 : (List.range data.length).map (fun i => data[i]?) = data.map some := by
      apply List.ext_getElem?
      intro i
      by_cases hi : i < data.length
      · simp [hi]
      · simp [hi]
    rw [e2] at p
    have := p.filterMap id
    simpa using this
  have hin : ∀ x ∈ sorted, x ∈ data := fun x hx => hperm.mem_iff.1 hx
  have hsorted : (sorted.map key).Pairwise (· ≤ ·) := by
    rw [List.pairwise_map, List.pairwise_iff_getElem]
    intro a b ha hb hab
    have hil : idx.length = sorted.length := (mapP_length hs).symm
    have ha' : idx[a]? = some idx[a] := List.getElem?_eq_getElem (by omega)
    have hb' : idx[b]? = some idx[b] := List.getElem?_eq_getElem (by omega)
    have ea := hget a _ ha'
    have eb := hget b _ hb'
    rw [List.getElem?_eq_getElem ha] at ea
    rw [List.getElem?_eq_getElem hb] at eb
    have := List.pairwise_iff_getElem.1 h.sorted a b (by omega) (by omega) hab _ _ ea.symm eb.symm
    by_contra hc
    rw [(hk.lt_iff _ (hin _ (List.getElem_mem hb)) _ (hin _ (List.getElem_mem ha))).2 (not_le.1 hc)] at this
    cases this
  cases sorted with
  | nil =>
    exact absurd (List.length_eq_zero_iff.1 hlen.symm) hne
  | cons x1 rest =>
    refine ⟨_, _, hs, rfl, hlen, hsorted, ⟨by simp, fun b hb => by simpa using hb.symm, ?_⟩, hperm.map key, hget⟩
    intro k x y b hx hy hb
    rw [List.getElem?_map] at hx hy
    obtain ⟨x', hx', rfl⟩ := Option.map_eq_some_iff.1 hx
    obtain ⟨y', hy', rfl⟩ := Option.map_eq_some_iff.1 hy
    have hsc : b = ne x' y' := by
      refine scan_idx (f := fun st x => (x, ne st x)) (l := rest) (I := fun k st => (x1 :: rest)[k]? = some st)
        (P := fun k b => ∀ x y, (x1 :: rest)[k]? = some x → (x1 :: rest)[k + 1]? = some y → b = ne x y) ?_ (s := x1) rfl k b
        (by simpa using hb) x' y' hx' hy'
      intro k st x hx hI
      refine ⟨by simpa using hx, fun a b ha hb => ?_⟩
      cases hI.symm.trans ha
      cases hx.symm.trans (by simpa using hb)
      rfl
    have := hk.ne_iff x' (hin _ (List.mem_of_getElem? hx')) y' (hin _ (List.mem_of_getElem? hy'))
    rw [hsc, Bool.eq_iff_iff, this]
    simp

/-- Ranks that depend only on the key and are right in sorted order are right after scattering. -/
theorem rankWith_of_sorted {T : Type} {key : T → α} {lt ne : T → T → Bool} {data : List T} {idx : List ℕ} {mode : Option RankMode}
    (hm : mode ≠ some .ordinal) (hk : Keyed key lt ne data) (h : IsArgsort lt data idx) (hne : data ≠ []) (g : List α → α → F)
    (hg : ∀ s s' x, s.Perm s' → g s x = g s' x)
    (hr : ∀ (s : List α) flags, s.length = data.length → s.Pairwise (· ≤ ·) → FlagsOf s flags →
      ∃ o : List F, sortedRanks mode flags s.length = some o ∧ o.length = s.length ∧
        ∀ (k : ℕ) y x, o[k]? = some y → s[k]? = some x → y = g s x) :
    ∃ out, rankWith ne data mode idx = some out ∧ out.length = data.length ∧
      ∀ (i : ℕ) x, data[i]? = some x → out[i]? = some (g (data.map key) (key x)) := by
  obtain ⟨sorted, flags, e1, e2, hl, hs, hf, hp, hget⟩ := sorted_of_argsort hk h hne
  obtain ⟨o, e3, ho, hv⟩ := hr (sorted.map key) flags (by simp [hl]) hs hf
  rw [List.length_map, hl] at e3 ho
  have hrw : rankWith ne data mode idx = some (scatter data.length o idx) := by
    unfold rankWith
    split
    · exact absurd rfl hm
    · simp only [e1, e2, e3, Option.bind_eq_bind, Option.bind_some]
  refine ⟨_, hrw, scatter_length .., fun i x hx => ?_⟩
  have hi := (List.getElem?_eq_some_iff.1 hx).1
  obtain ⟨k, hk'⟩ := List.mem_iff_getElem?.1 (h.perm.mem_iff.2 (List.mem_range.2 hi))
  have hkl : k < data.length := by
    have := (List.getElem?_eq_some_iff.1 hk').1
    rwa [h.perm.length_eq, List.length_range] at this
  have hx' : sorted[k]? = some x := (hget k i hk').trans hx
  have hok : o[k]? = some o[k] := List.getElem?_eq_getElem (by omega)
  have := hv k _ (key x) hok (by simp [hx'])
  rw [this] at hok
  rw [scatter_get h.perm ho hk' hok, hg _ _ _ hp]

theorem below_perm {s s' : List α} (x : α) (h : s.Perm s') : below s x = below s' x := h.countP_eq _
theorem upto_perm {s s' : List α} (x : α) (h : s.Perm s') : upto s x = upto s' x := h.countP_eq _
theorem distinctBelow_perm {s s' : List α} (x : α) (h : s.Perm s') : distinctBelow s x = distinctBelow s' x := h.dedup.countP_eq _

section
variable {T : Type} {key : T → α} {lt ne : T → T → Bool} {data : List T} {idx : List ℕ}

theorem rankWith_min (hk : Keyed key lt ne data) (h : IsArgsort lt data idx) (hne : data ≠ []) {mode : Option RankMode}
    (hm : mode = none ∨ mode = some .min) :
    ∃ out : List F, rankWith ne data mode idx = some out ∧ out.length = data.length ∧
      ∀ (i : ℕ) x, data[i]? = some x → out[i]? = some (flt (below (data.map key) (key x) + 1)) := by
  refine rankWith_of_sorted (by rcases hm with rfl | rfl <;> simp) hk h hne (fun s x => flt (below s x + 1))
    (fun s s' x hp => by rw [below_perm x hp]) fun s flags hl hs hf =>
    ⟨(scanS (fun st (p : ℕ × Bool) => if p.2 then p.1 else st) 1 ((List.range' 1 s.length).zip flags)).map (fun s => flt s),
      by rcases hm with rfl | rfl <;> rfl, ?_, ?_⟩
  · simp [scanS, hf.1]
  · intro k y x hy hx
    rw [List.getElem?_map] at hy
    obtain ⟨r, hr, rfl⟩ := Option.map_eq_some_iff.1 hy
    rw [minRanks hs hf k r x hx hr]

theorem rankWith_dense (hk : Keyed key lt ne data) (h : IsArgsort lt data idx) (hne : data ≠ []) :
    ∃ out : List F, rankWith ne data (some .dense) idx = some out ∧ out.length = data.length ∧
      ∀ (i : ℕ) x, data[i]? = some x → out[i]? = some (flt (distinctBelow (data.map key) (key x) + 1)) := by
  refine rankWith_of_sorted (by simp) hk h hne (fun s x => flt (distinctBelow s x + 1))
    (fun s s' x hp => by rw [distinctBelow_perm x hp]) fun s flags hl hs hf => ⟨_, rfl, ?_, ?_⟩
  · simp [scanS, hf.1]
  · intro k y x hy hx
    rw [List.getElem?_map] at hy
    obtain ⟨r, hr, rfl⟩ := Option.map_eq_some_iff.1 hy
    rw [denseRanks hs hf k r x hx hr]

theorem rankWith_max (hk : Keyed key lt ne data) (h : IsArgsort lt data idx) (hne : data ≠ []) :
    ∃ out : List F, rankWith ne data (some .max) idx = some out ∧ out.length = data.length ∧
      ∀ (i : ℕ) x, data[i]? = some x → out[i]? = some (flt (upto (data.map key) (key x))) :=
  rankWith_of_sorted (by simp) hk h hne (fun s x => flt (upto s x)) (fun s s' x hp => by rw [upto_perm x hp])
    fun _ _ _ hs hf => maxRanks hs hf

theorem rankWith_average (hk : Keyed key lt ne data) (h : IsArgsort lt data idx) (hne : data ≠ []) :
    ∃ out : List F, rankWith ne data (some .average) idx = some out ∧ out.length = data.length ∧
      ∀ (i : ℕ) x, data[i]? = some x →
        out[i]? = some (flt (1 + upto (data.map key) (key x) + below (data.map key) (key x)) / 2) :=
  rankWith_of_sorted (by simp) hk h hne (fun s x => flt (1 + upto s x + below s x) / 2)
    (fun s s' x hp => by rw [upto_perm x hp, below_perm x hp]) fun _ _ _ hs hf => averageRanks hs hf

/-- Ordinal ranks number the values from 1 to `n` along the order the sort chose. -/
theorem rankWith_ordinal (hk : Keyed key lt ne data) (h : IsArgsort lt data idx) :
    ∃ r : List ℕ, r.Perm (List.range' 1 data.length) ∧ rankWith ne data (some .ordinal) idx = some (r.map fun n => (flt n : F)) ∧
      ∀ (i j : ℕ) x y a b, data[i]? = some x → data[j]? = some y → r[i]? = some a → r[j]? = some b → key x < key y → a < b := by
  have hnd : idx.Nodup := h.perm.nodup_iff.2 List.nodup_range
  have hli : idx.length = data.length := by rw [h.perm.length_eq, List.length_range]
  have hin : ∀ i, i < data.length → i ∈ idx := fun i hi => h.perm.mem_iff.2 (List.mem_range.2 hi)
  have hat : ∀ i, i < data.length → idx[idx.idxOf i]? = some i := fun i hi => by
    rw [List.getElem?_eq_getElem (List.idxOf_lt_length_iff.2 (hin i hi)), List.getElem_idxOf]
  have hlt : ∀ i, i < data.length → idx.idxOf i < data.length := fun i hi => hli ▸ List.idxOf_lt_length_iff.2 (hin i hi)
  refine ⟨(List.range data.length).map fun i => idx.idxOf i + 1, ?_, ?_, ?_⟩
  · refine ((List.Nodup.subperm ?_ ?_).perm_of_length_le (by simp))
    · refine List.Nodup.map_on ?_ List.nodup_range
      intro a ha b hb e
      have h1 := hat a (List.mem_range.1 ha)
      have h2 := hat b (List.mem_range.1 hb)
      rw [show idx.idxOf a = idx.idxOf b by omega] at h1
      exact Option.some.inj (h1.symm.trans h2)
    · intro r hr
      obtain ⟨i, hi, rfl⟩ := List.mem_map.1 hr
      have := hlt i (List.mem_range.1 hi)
      simp
      omega
  · refine congrArg some ?_
    apply List.ext_getElem?
    intro i
    by_cases hi : i < data.length
    · rw [scatter_get h.perm (by simp) (hat i hi) (y := flt (idx.idxOf i + 1))]
      · simp [hi]
      · rw [List.getElem?_map, List.getElem?_range' (hlt i hi)]
        simp [Nat.add_comm]
    · rw [List.getElem?_eq_none (by rw [scatter_length]; omega), List.getElem?_eq_none (by simp; omega)]
  · intro i j x y a b hx hy ha hb hxy
    have hi := (List.getElem?_eq_some_iff.1 hx).1
    have hj := (List.getElem?_eq_some_iff.1 hy).1
    have ea : a = idx.idxOf i + 1 := by simp [hi] at ha; exact ha.symm
    have eb : b = idx.idxOf j + 1 := by simp [hj] at hb; exact hb.symm
    subst ea eb
    have hne : idx.idxOf i ≠ idx.idxOf j := fun e => by
      have h1 := hat i hi
      rw [e, hat j hj] at h1
      cases h1
      cases hx.symm.trans hy
      exact lt_irrefl _ hxy
    by_contra hc
    have hji : idx.idxOf j < idx.idxOf i := by omega
    have := List.pairwise_iff_getElem.1 h.sorted _ _ (by rw [hli]; exact hlt j hj) (by rw [hli]; exact hlt i hi) hji y x
      (by rw [List.getElem_idxOf]; exact hy) (by rw [List.getElem_idxOf]; exact hx)
    rw [(hk.lt_iff _ (List.mem_of_getElem? hx) _ (List.mem_of_getElem? hy)).2 hxy] at this
    cases this
end

end Traquer.Distribution
