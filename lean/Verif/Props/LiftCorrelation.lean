import Verif.Props.LiftMomentum
import Verif.Props.LiftStats
import Verif.Props.Pearson
import Verif.Props.RankModes
import Verif.Model.Correlation
/-!
# C82: all prices raised by the same amount, correlation

Each of the two series may be raised by an amount of its own.
-/

namespace Traquer.Correlation
open FP FloatLit
open Traquer.Distribution (rank cov_stdev RankMode Sorter ltPairs)
variable {c d : ℝ} {s1 s1' s2 s2' : List XF}

/-- not a number: NaN or an infinity -/
def Lost (x : XF) : Prop := x = FP.nan ∨ ∃ b, x = inf b
/-- NaN or plus infinity -/
def LostUp (x : XF) : Prop := x = FP.nan ∨ x = inf false

theorem lost_add {x : XF} (h : Lost x) (y : XF) : Lost (x + y) := by
  rcases h with rfl | ⟨b, rfl⟩
  · exact .inl rfl
  · cases y with
    | inf e => cases b <;> cases e <;> first | exact .inl rfl | exact .inr ⟨_, rfl⟩
    | nan => exact .inl rfl
    | negz => exact .inr ⟨_, rfl⟩
    | fin r => exact .inr ⟨_, rfl⟩

theorem inf_square (b : Bool) : (inf b * inf b : XF) = inf false := by
  rw [mul_def]; simp [FP.mul, FP.sgn]

theorem square_up (x : XF) : (∃ r, x * x = fin r) ∨ LostUp (x * x) := by
  cases x with
  | nan => exact .inr (.inl rfl)
  | inf b => exact .inr (.inr (inf_square b))
  | negz => exact .inl ⟨0, by rw [mul_def]; simp [FP.mul, FP.val, mk_exact]⟩
  | fin r =>
    refine .inl ⟨r * r, ?_⟩
    by_cases h : 0 ≤ r
    · exact eval_mul h h
    · exact eval_mul' (mul_ne_zero (by linarith) (by linarith))

theorem up_add {x : XF} (h : LostUp x) (y : XF) : LostUp (x + y * y) := by
  rcases square_up y with ⟨r, e⟩ | e | e <;> rw [e] <;> rcases h with rfl | rfl <;> first | exact .inl rfl | exact .inr rfl

theorem lost_of_add {y : XF} (h : Lost y) {r : ℝ} : Lost (fin r + y) := by
  rcases h with rfl | ⟨b, rfl⟩
  · exact .inl rfl
  · exact .inr ⟨b, rfl⟩

theorem up_of_add {y : XF} (h : Lost y) {r : ℝ} : LostUp (fin r + y * y) := by
  rcases h with rfl | ⟨b, rfl⟩
  · exact .inl rfl
  · exact .inr (by rw [inf_square]; rfl)

/-- One of the sums is lost, and so is the sum of squares that goes with it. -/
def PccLost (s : PccSums XF) : Prop := Lost s.x ∧ LostUp s.x2 ∨ Lost s.y ∧ LostUp s.y2

/-- The sums after `m` pairs. -/
def PccLift (c d : ℝ) (m : ℕ) (s s' : PccSums XF) : Prop :=
  (∃ xy x y x2 y2 : ℝ, s = ⟨fin xy, fin x, fin y, fin x2, fin y2⟩ ∧
    s' = ⟨fin (xy + d * x + c * y + m * c * d), fin (x + m * c), fin (y + m * d), fin (x2 + 2 * c * x + m * c ^ 2), fin (y2 + 2 * d * y + m * d ^ 2)⟩) ∨
  PccLost s ∧ PccLost s'

theorem fin_mul_cases (x y : ℝ) : (fin x * fin y : XF) = fin (x * y) ∨ (fin x * fin y : XF) = negz ∧ x * y = 0 := is_iff.1 (is_mul (is_fin x) (is_fin y))

theorem fin_add_mul (a x y : ℝ) : (fin a + fin x * fin y : XF) = fin (a + x * y) := by
  rcases fin_mul_cases x y with e | ⟨e, h⟩ <;> rw [e]
  · exact eval_add _ _
  · rw [eval_add_negz, h, add_zero]

theorem fin_sub_mul (a x y : ℝ) : (fin a - fin x * fin y : XF) = fin (a - x * y) := by
  rcases fin_mul_cases x y with e | ⟨e, h⟩ <;> rw [e]
  · exact eval_sub _ _
  · rw [eval_sub_negz, h, sub_zero]

theorem lost_mul_self {x : XF} (h : Lost x) : x * x = FP.nan ∨ x * x = inf false := by
  rcases h with rfl | ⟨b, rfl⟩
  · exact .inl rfl
  · exact .inr (inf_square b)

theorem pccSums_lift (h : Each (Raised c) s1 s1') (g : Each (Raised d) s2 s2') (hl : s2.length = s1.length) :
    PccLift c d s1.length (pccSums s1 s2) (pccSums s1' s2') := by
  have key : ∀ (l l' r r' : List XF) (m : ℕ) (s s' : PccSums XF), Each (Raised c) l l' → Each (Raised d) r r' → r.length = l.length → PccLift c d m s s' →
      PccLift c d (m + l.length)
        ((l.zip r).foldl (fun s (p : XF × XF) => PccSums.mk (s.xy + p.1 * p.2) (s.x + p.1) (s.y + p.2) (s.x2 + p.1 * p.1) (s.y2 + p.2 * p.2)) s)
        ((l'.zip r').foldl (fun s (p : XF × XF) => PccSums.mk (s.xy + p.1 * p.2) (s.x + p.1) (s.y + p.2) (s.x2 + p.1 * p.1) (s.y2 + p.2 * p.2)) s') := by
    intro l l' r r' m s s' h
    induction h generalizing r r' m s s' with
    | nil => intro _ _ h; exact h
    | @cons x x' l l' hx hl ih =>
      intro g hlen hs
      cases g with
      | nil => simp at hlen
      | @cons y y' r r' hy hr =>
        have hlen : r.length = l.length := by simpa using hlen
        rw [List.zip_cons_cons, List.zip_cons_cons, List.foldl_cons, List.foldl_cons, List.length_cons, show m + (l.length + 1) = m + 1 + l.length by omega]
        refine ih _ _ (m + 1) _ _ hr hlen ?_
        rcases hs with ⟨xy, a, b, x2, y2, rfl, rfl⟩ | ⟨hs, hs'⟩
        · rcases hx with ⟨p, rfl, rfl⟩ | hx
          · rcases hy with ⟨q, rfl, rfl⟩ | hy
            · refine .inl ⟨xy + p * q, a + p, b + q, x2 + p * p, y2 + q * q, ?_, ?_⟩
              · simp only [fin_add_mul, eval_add]
              · simp only [fin_add_mul, eval_add, PccSums.mk.injEq, FP.fin.injEq]
                push_cast
                refine ⟨?_, ?_, ?_, ?_, ?_⟩ <;> ring
            · have hy1 : Lost y := by rcases hy with ⟨rfl, _⟩ | ⟨e, rfl, _⟩; exacts [.inl rfl, .inr ⟨_, rfl⟩]
              have hy2 : Lost y' := by rcases hy with ⟨_, rfl⟩ | ⟨e, _, rfl⟩; exacts [.inl rfl, .inr ⟨_, rfl⟩]
              exact .inr ⟨.inr ⟨lost_of_add hy1, up_of_add hy1⟩, .inr ⟨lost_of_add hy2, up_of_add hy2⟩⟩
          · have hy1 : Lost x := by rcases hx with ⟨rfl, _⟩ | ⟨e, rfl, _⟩; exacts [.inl rfl, .inr ⟨_, rfl⟩]
            have hy2 : Lost x' := by rcases hx with ⟨_, rfl⟩ | ⟨e, _, rfl⟩; exacts [.inl rfl, .inr ⟨_, rfl⟩]
            exact .inr ⟨.inl ⟨lost_of_add hy1, up_of_add hy1⟩, .inl ⟨lost_of_add hy2, up_of_add hy2⟩⟩
        · have f : ∀ (s : PccSums XF) (p : XF × XF), PccLost s → PccLost (PccSums.mk (s.xy + p.1 * p.2) (s.x + p.1) (s.y + p.2) (s.x2 + p.1 * p.1) (s.y2 + p.2 * p.2)) := by
            rintro s p (h | h)
            · exact .inl ⟨lost_add h.1 _, up_add h.2 _⟩
            · exact .inr ⟨lost_add h.1 _, up_add h.2 _⟩
          exact .inr ⟨f _ _ hs, f _ _ hs'⟩
  have z := eval_zero
  have := key s1 s1' s2 s2' 0 ⟨0, 0, 0, 0, 0⟩ ⟨0, 0, 0, 0, 0⟩ h g hl (.inl ⟨0, 0, 0, 0, 0, by rw [z], by
    simp only [Nat.cast_zero, mul_zero, zero_mul, add_zero, z]⟩)
  rw [Nat.zero_add] at this
  exact this

theorem pccLost_nan {s : PccSums XF} {w : ℕ} (hw : 0 < w) (h : PccLost s) :
    (flt w * s.xy - s.x * s.y) / (sqrt (flt w * s.x2 - s.x * s.x) * sqrt (flt w * s.y2 - s.y * s.y)) = (FP.nan : XF) := by
  have k : ∀ x x2 : XF, Lost x → LostUp x2 → flt w * x2 - x * x = FP.nan := by
    intro x x2 hx h2
    have hw' : (0 : ℝ) < w := by exact_mod_cast hw
    have e : (flt w * inf false : XF) = inf false := by
      rw [eval_flt, mul_def]; simp [FP.mul, hw'.ne', FP.sgn, not_lt.2 hw'.le]
    rcases lost_mul_self hx with e1 | e1 <;> rw [e1]
    · cases (flt w * x2 : XF) <;> rfl
    · rcases h2 with rfl | rfl
      · cases (flt w : XF) <;> rfl
      · rw [e]; rfl
  have n1 : ∀ x : XF, sqrt (FP.nan : XF) * x = FP.nan := fun x => by cases x <;> rfl
  have n2 : ∀ x : XF, x * sqrt (FP.nan : XF) = FP.nan := fun x => by cases x <;> rfl
  have n3 : ∀ x : XF, x / (FP.nan : XF) = FP.nan := fun x => by cases x <;> rfl
  rcases h with ⟨h1, h2⟩ | ⟨h1, h2⟩ <;> rw [k _ _ h1 h2]
  · rw [n1, n3]
  · rw [n2, n3]

theorem pccWin_lift {w : ℕ} (hw : 0 < w) (h : s1.length = w ∧ Each (Raised c) s1 s1') (g : s2.length = w ∧ Each (Raised d) s2 s2') :
    pccWin w s1 s2 = pccWin w s1' s2' := by
  have hw' : (0 : ℝ) < w := by exact_mod_cast hw
  rcases pccSums_lift h.2 g.2 (g.1.trans h.1.symm) with ⟨xy, x, y, x2, y2, e1, e2⟩ | ⟨e1, e2⟩
  · simp only [pccWin, e1, e2, h.1, eval_flt, eval_pos_mul _ hw', fin_sub_mul]
    congr 1
    · congr 1; ring
    · congr 3 <;> ring
  · rw [pccWin, pccWin]
    exact (pccLost_nan hw e1).trans (pccLost_nan hw e2).symm

theorem pcc_lift (h : Each (Raised c) s1 s1') (g : Each (Raised d) s2 s2') (window : ℕ) : pcc s1 s2 window = pcc s1' s2' window := by
  rcases Nat.eq_zero_or_pos window with rfl | hw
  · rfl
  refine Alike.eq_of (P := Each Eq) (fun _ _ h => Momentum.each_eq_iff.1 h) ?_
  simp only [pcc, Option.bind_eq_bind]
  exact Alike.bind .same (forall_eq_rel fun n => Alike.bind (alike_windows_sized window h) fun _ _ hx => Alike.bind (alike_windows_sized window g) fun _ _ hy =>
    .answer (each_append (each_eq) (each_map (each_zip hx hy) fun _ _ e => pccWin_lift hw e.1 e.2)))

theorem rsq_lift (h : Each (Raised c) s1 s1') (g : Each (Raised d) s2 s2') (window : ℕ) : rsq s1 s2 window = rsq s1' s2' window := by
  rw [rsq, rsq, pcc_lift h g]

theorem krccStep_lift (h : Each (Raised c) s1 s1') (g : Each (Raised d) s2 s2') (s : KrccState XF) (i : ℕ × ℕ) :
    krccStep s1 s2 s i = krccStep s1' s2' s i := by
  refine Alike.eq_of (P := Eq) (fun _ _ h => h) ?_
  simp only [krccStep, Option.bind_eq_bind]
  refine Alike.bind (.getElem? h rfl) fun a a' ha => Alike.bind (.getElem? h rfl) fun b b' hb => Alike.bind (.getElem? g rfl) fun c c' hc =>
    Alike.bind (.getElem? g rfl) fun d d' hd => .answer ?_
  have e1 := ((ha.sub hb).congr (sub_self _)).eq
  have e2 := ((hc.sub hd).congr (sub_self _)).eq
  rw [e1, e2, ha.feq hb, hc.feq hd]

/-- what the windowed correlations share -/
theorem pairWindows_lift {f : List XF → List XF → Option XF} (window : ℕ) (h : Each (Raised c) s1 s1') (g : Each (Raised d) s2 s2')
    (hf : ∀ w w', Each (Raised c) w w' → ∀ v v', Each (Raised d) v v' → f w v = f w' v') :
    ((usub window 1).bind fun n => (windows window s1).bind fun xs => (windows window s2).bind fun ys =>
        (mapP (fun x : List XF × List XF => f x.1 x.2) (xs.zip ys)).bind fun r => some (nans n ++ r)) =
      (usub window 1).bind fun n => (windows window s1').bind fun xs => (windows window s2').bind fun ys =>
        (mapP (fun x : List XF × List XF => f x.1 x.2) (xs.zip ys)).bind fun r => some (nans n ++ r) := by
  refine Alike.eq_of (P := Each Eq) (fun _ _ h => Momentum.each_eq_iff.1 h) ?_
  exact Alike.bind .same (forall_eq_rel fun n => Alike.bind (.windows h) fun _ _ hx => Alike.bind (.windows g) fun _ _ hy =>
    Alike.bind (Alike.mapP (Q := Eq) (each_zip hx hy) fun _ _ h => by rw [hf _ _ h.1 _ _ h.2]; exact .same) fun _ _ h => .answer (each_append each_eq h))

theorem krcc_lift (h : Each (Raised c) s1 s1') (g : Each (Raised d) s2 s2') (window : ℕ) : krcc s1 s2 window = krcc s1' s2' window := by
  simp only [krcc, Option.bind_eq_bind]
  refine pairWindows_lift window h g fun _ _ h _ _ g => ?_
  have := funext fun s => funext fun i => krccStep_lift h g s i
  simp only [krccWin]
  rw [this]

end Traquer.Correlation

/-! ## Ranks -/

namespace Traquer.Distribution
open FP FloatLit
variable {c : ℝ} {n : ℤ} {data data' : List XF}

theorem sortPanics_lift (h : Each (Lifted c n) data data') : sortPanics data = sortPanics data' := by
  have : ∀ l l' : List XF, Each (Lifted c n) l l' → (l.any fun x => !(comparable x x)) = (l'.any fun x => !(comparable x x)) := by
    intro l l' h
    induction h with
    | nil => rfl
    | cons h _ ih => rw [List.any_cons, List.any_cons, ih, comparable, comparable, h.lt h, h.feq h]
  rw [sortPanics, sortPanics, h.length, this _ _ h]

theorem uniqFlags_lift (h : Each (Lifted c n) data data') :
    uniqFlags (fun x y : XF => !(x ==. y)) data = uniqFlags (fun x y => !(x ==. y)) data' := by
  cases h with
  | nil => rfl
  | cons h t =>
    simp only [uniqFlags, Option.some.injEq, List.cons.injEq, true_and]
    have e := each_scan (X := Lifted c n) (Q := Eq) (f := fun st x => (x, !(st ==. x))) (g := fun st x => (x, !(st ==. x))) h t
      fun _ _ a _ _ b => ⟨b, by simp only [a.feq b]⟩
    exact List.forall₂_eq_eq_eq ▸ e

theorem rankWith_lift (h : Each (Lifted c n) data data') (mode : Option RankMode) (idx : List ℕ) :
    rankWith (F := XF) (fun x y : XF => !(x ==. y)) data mode idx = rankWith (fun x y => !(x ==. y)) data' mode idx := by
  have key : (mapP (fun i => data[i]?) idx).bind (uniqFlags fun x y : XF => !(x ==. y)) =
      (mapP (fun i => data'[i]?) idx).bind (uniqFlags fun x y => !(x ==. y)) := by
    refine Alike.eq_of (P := Eq) (fun _ _ h => h) ?_
    refine Alike.bind (P := Each (Lifted c n)) (Alike.mapP each_eq (forall_eq_rel fun i => .getElem? h rfl)) fun _ _ h => ?_
    rw [uniqFlags_lift h]
    exact .same
  have all : (mapP (fun i => data[i]?) idx).bind (fun s => (uniqFlags (fun x y : XF => !(x ==. y)) s).bind fun f =>
        (sortedRanks mode f data.length).bind fun r => some (scatter data.length r idx)) =
      (mapP (fun i => data'[i]?) idx).bind (fun s => (uniqFlags (fun x y : XF => !(x ==. y)) s).bind fun f =>
        (sortedRanks mode f data'.length).bind fun r => some (scatter (F := XF) data'.length r idx)) := by
    have e : ∀ (o : Option (List XF)) (j : ℕ), (o.bind fun s => (uniqFlags (fun x y : XF => !(x ==. y)) s).bind fun f =>
        (sortedRanks mode f j).bind fun r => some (scatter (F := XF) j r idx)) =
        (o.bind (uniqFlags fun x y : XF => !(x ==. y))).bind fun f => (sortedRanks mode f j).bind fun r => some (scatter j r idx) := by
      intro o j; cases o <;> rfl
    rw [e, e, key, h.length]
  unfold rankWith
  split
  · rw [h.length]
  · exact all

theorem isArgsort_lift (h : Each (Lifted c n) data data') (idx : List ℕ) :
    IsArgsort (fun x y : XF => x <. y) data idx ↔ IsArgsort (fun x y : XF => x <. y) data' idx := by
  have get := (each_iff.1 h).2
  have hl := h.length
  constructor
  · rintro ⟨hp, hs⟩
    refine ⟨hl ▸ hp, hs.imp fun {a b} e x' y' hx hy => ?_⟩
    obtain ⟨x, hx1⟩ : ∃ x, data[a]? = some x := by
      have := (List.getElem?_eq_some_iff.1 hx).1
      exact ⟨_, List.getElem?_eq_getElem (by omega)⟩
    obtain ⟨y, hy1⟩ : ∃ y, data[b]? = some y := by
      have := (List.getElem?_eq_some_iff.1 hy).1
      exact ⟨_, List.getElem?_eq_getElem (by omega)⟩
    rw [← (get _ _ _ hy1 hy).lt (get _ _ _ hx1 hx)]
    exact e x y hx1 hy1
  · rintro ⟨hp, hs⟩
    refine ⟨hl ▸ hp, hs.imp fun {a b} e x y hx hy => ?_⟩
    obtain ⟨x', hx1⟩ : ∃ x, data'[a]? = some x := by
      have := (List.getElem?_eq_some_iff.1 hx).1
      exact ⟨_, List.getElem?_eq_getElem (by omega)⟩
    obtain ⟨y', hy1⟩ : ∃ y, data'[b]? = some y := by
      have := (List.getElem?_eq_some_iff.1 hy).1
      exact ⟨_, List.getElem?_eq_getElem (by omega)⟩
    rw [(get _ _ _ hy hy1).lt (get _ _ _ hx hx1)]
    exact e x' y' hx1 hy1

/-- The ranks other than ordinal are the same. (Ordinal ranks depend on how the sort orders ties.) -/
theorem rank_lift (srt : Sorter XF) (hs : srt.Valid) (h : Each (Lifted c n) data data') (mode : Option RankMode) (hm : mode ≠ some .ordinal) :
    rank srt data mode = rank srt data' mode := by
  classical
  by_cases hp : sortPanics data = true
  · rw [rank, rank, if_pos hp, if_pos (sortPanics_lift h ▸ hp)]
  have hp' : sortPanics data' = false := by rw [← sortPanics_lift h]; simpa using hp
  have hp0 : sortPanics data = false := by simpa using hp
  have e2 : rank srt data' mode = rankWith (F := XF) (fun x y => !(x ==. y)) data mode (srt.sort data') := by
    rw [rank, if_neg (by simp [hp']), rankWith_lift h]
  by_cases h1 : data.length ≤ 1
  · have a := (hs data hp0).perm
    have b := (hs data' hp').perm
    rw [← h.length] at b
    have e3 : srt.sort data = srt.sort data' := by
      rcases (by omega : data.length = 0 ∨ data.length = 1) with e | e
      · rw [e] at a b
        rw [List.perm_nil.1 a, List.perm_nil.1 b]
      · rw [e] at a b
        rw [List.perm_singleton.1 a, List.perm_singleton.1 b]
    rw [e2, ← e3, rank, if_neg (by simp [hp0])]
  · have nn : NoNaN data := by
      intro x hx
      have : comparable x x = true := by
        rw [sortPanics, Bool.and_eq_false_iff] at hp0
        rcases hp0 with e | e
        · simp at e; omega
        · simpa using List.any_eq_false.1 e x hx
      by_contra hn
      rw [Bool.not_eq_false] at hn
      rcases x with _ | b | _ | r
      · simp [comparable, lt_def, feq_def, FP.lt, FP.feq, FP.isNaN] at this
      all_goals simp [isNaN_def, FP.isNaN] at hn
    let s₂ : Sorter XF := ⟨fun d => if d = data then srt.sort data' else srt.sort d⟩
    have hs₂ : s₂.Valid := by
      intro d hd
      show IsArgsort _ d (if d = data then _ else _)
      split
      · next e => rw [e, isArgsort_lift h]; exact hs data' hp'
      · exact hs d hd
    rw [rank_deterministic srt s₂ hs hs₂ data nn mode hm, e2, rank, if_neg (by simp [hp0])]
    show rankWith _ data mode (if data = data then _ else _) = _
    rw [if_pos rfl]

end Traquer.Distribution

namespace Traquer.Correlation
open FP FloatLit
open Traquer.Distribution (rank cov_stdev RankMode Sorter ltPairs rank_lift)
variable {c d : ℝ} {s1 s1' s2 s2' : List XF}

theorem srcc_lift (srt : Sorter XF) (hs : srt.Valid) (h : Each (Raised c) s1 s1') (g : Each (Raised d) s2 s2') (window : ℕ) :
    srcc srt s1 s2 window = srcc srt s1' s2' window := by
  simp only [srcc, Option.bind_eq_bind]
  refine pairWindows_lift (f := fun xw yw => (rank srt xw none).bind fun rx => (rank srt yw none).bind fun ry =>
    (cov_stdev rx ry).bind fun x => some (x.1 / (x.2.1 * x.2.2))) window h g fun _ _ h _ _ g => ?_
  show _ = _
  rw [rank_lift srt hs (each_raised.2 h) none (by simp), rank_lift srt hs (each_raised.2 g) none (by simp)]

theorem hoeffd_lift (srt : Sorter XF) (hs : srt.Valid) (h : Each (Raised c) s1 s1') (g : Each (Raised d) s2 s2') (window : ℕ) :
    hoeffd srt s1 s2 window = hoeffd srt s1' s2' window := by
  simp only [hoeffd, Option.bind_eq_bind]
  refine pairWindows_lift (f := hoeffdWin srt window) window h g fun _ _ h _ _ g => ?_
  simp only [hoeffdWin, rank_lift srt hs (each_raised.2 h) (some .average) (by simp), rank_lift srt hs (each_raised.2 g) (some .average) (by simp)]

theorem distCell_lift (h : Each (Raised c) s1 s1') : distCell s1 = distCell s1' := by
  funext i j
  have get : ∀ n, Raised c (s1.getD n nan) (s1'.getD n nan) := by
    intro n
    rw [List.getD_eq_getElem?_getD, List.getD_eq_getElem?_getD]
    have := Alike.getElem? h (rfl : n = n)
    generalize s1[n]? = o at this
    generalize s1'[n]? = o' at this
    cases this with
    | panic => exact .nan
    | answer h => exact h
  rw [distCell, distCell, (((get _).sub (get _)).congr (sub_self _)).eq]

theorem centredMatrix_lift (h : Each (Raised c) s1 s1') : centredMatrix s1 = centredMatrix s1' := by
  have e := distCell_lift h
  have r : rowMean s1 = rowMean s1' := by funext i; simp only [rowMean, e, h.length]
  have m : matrixMean s1 = matrixMean s1' := by simp only [matrixMean, e, h.length]
  have k : centredCell s1 = centredCell s1' := by funext i j; simp only [centredCell, e, r, m]
  simp only [centredMatrix, k, h.length]

theorem dcor_lift (h : Each (Raised c) s1 s1') (g : Each (Raised d) s2 s2') (window : ℕ) : dcor s1 s2 window = dcor s1' s2' window := by
  refine Alike.eq_of (P := Each Eq) (fun _ _ h => Momentum.each_eq_iff.1 h) ?_
  simp only [dcor, Option.bind_eq_bind]
  refine Alike.bind .same (forall_eq_rel fun n => Alike.bind (.windows h) fun _ _ hx => Alike.bind (.windows g) fun _ _ hy =>
    .answer (each_append (each_eq) (each_map (each_zip hx hy) fun _ _ e => ?_)))
  simp only [dcorWin, centredMatrix_lift e.1, centredMatrix_lift e.2]

end Traquer.Correlation
