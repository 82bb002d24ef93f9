import Verif.Props.RankModes
import Verif.Props.Kendall
import Verif.Model.Trend
import Verif.Model.Volume
import Verif.Model.Momentum
import Verif.Model.Regression
import Verif.Arith.Binary64
import Verif.Lemmas.Whole
/-!
# C96: indicators that see only the order of the values

For every rounding, and so bit for bit in binary64: if two series compare alike bar by bar, the rank based statistics, `aroon`, `psych`
and `obv` report the same. Prices may be replaced by their logarithms, squared or stretched unevenly.
-/

namespace Traquer
open FP FloatLit
open Distribution (NoNaN Sorter rank toE_feq)

/-! ## Lists that agree item by item -/

section
variable {α α' β σ : Type}

theorem mapP_congr2 {f : α → Option β} {f' : α' → Option β} {l : List α} {l' : List α'} (hl : l.length = l'.length)
    (h : ∀ (i : ℕ) x x', l[i]? = some x → l'[i]? = some x' → f x = f' x') : mapP f l = mapP f' l' := by
  induction l generalizing l' with
  | nil =>
    cases l' with
    | nil => rfl
    | cons => cases hl
  | cons a l ih =>
    cases l' with
    | nil => cases hl
    | cons a' l' =>
      rw [mapP, mapP, h 0 a a' rfl rfl, ih (by simpa using hl) fun i x x' h1 h2 => h (i + 1) x x' (by simpa using h1) (by simpa using h2)]

theorem map_congr2 {f : α → β} {f' : α' → β} {l : List α} {l' : List α'} (hl : l.length = l'.length)
    (h : ∀ (i : ℕ) x x', l[i]? = some x → l'[i]? = some x' → f x = f' x') : l.map f = l'.map f' := by
  have := mapP_congr2 (f := fun x => some (f x)) (f' := fun x => some (f' x)) hl fun i x x' h1 h2 => by rw [h i x x' h1 h2]
  rwa [mapP_some, mapP_some, Option.some.injEq] at this

theorem scanM_congr2 {f : σ → α → Option (σ × β)} {f' : σ → α' → Option (σ × β)} {l : List α} {l' : List α'} (hl : l.length = l'.length)
    (h : ∀ (i : ℕ) x x', l[i]? = some x → l'[i]? = some x' → ∀ s, f s x = f' s x') (s : σ) : scanM f s l = scanM f' s l' := by
  induction l generalizing l' s with
  | nil =>
    cases l' with
    | nil => rfl
    | cons => cases hl
  | cons a l ih =>
    cases l' with
    | nil => cases hl
    | cons a' l' =>
      rw [scanM, scanM, h 0 a a' rfl rfl]
      cases f' s a' with
      | none => rfl
      | some p => simp only [ih (by simpa using hl) (fun i x x' h1 h2 => h (i + 1) x x' (by simpa using h1) (by simpa using h2)) p.1]

theorem scan_congr2 {f : σ → α → σ × β} {f' : σ → α' → σ × β} {l : List α} {l' : List α'} (hl : l.length = l'.length)
    (h : ∀ (i : ℕ) x x', l[i]? = some x → l'[i]? = some x' → ∀ s, f s x = f' s x') (s : σ) : scan f s l = scan f' s l' := by
  induction l generalizing l' s with
  | nil =>
    cases l' with
    | nil => rfl
    | cons => cases hl
  | cons a l ih =>
    cases l' with
    | nil => cases hl
    | cons a' l' =>
      rw [scan, scan, h 0 a a' rfl rfl]
      simp only [ih (by simpa using hl) fun i x x' h1 h2 => h (i + 1) x x' (by simpa using h1) (by simpa using h2)]

theorem scan_rel {σ' : Type} {R : ℕ → σ → σ' → Prop} {f : σ → α → σ × β} {f' : σ' → α' → σ' × β} {l : List α} {l' : List α'} (hl : l.length = l'.length)
    (h : ∀ (i : ℕ) x x' s s', l[i]? = some x → l'[i]? = some x' → R i s s' → R (i + 1) (f s x).1 (f' s' x').1 ∧ (f s x).2 = (f' s' x').2)
    {s : σ} {s' : σ'} (h0 : R 0 s s') : scan f s l = scan f' s' l' := by
  induction l generalizing l' s s' R with
  | nil =>
    cases l' with
    | nil => rfl
    | cons => cases hl
  | cons a l ih =>
    cases l' with
    | nil => cases hl
    | cons a' l' =>
      obtain ⟨h1, h2⟩ := h 0 a a' s s' rfl rfl h0
      rw [scan, scan, h2]
      congr 1
      exact ih (R := fun i => R (i + 1)) (by simpa using hl)
        (fun i x x' s s' e e' => h (i + 1) x x' s s' (by simpa using e) (by simpa using e')) h1

theorem windowsOf_some {w i : ℕ} {l x : List α} (h : (windowsOf w l)[i]? = some x) : x = (l.drop i).take w ∧ i + w ≤ l.length := by
  have hi := (List.getElem?_eq_some_iff.1 h).1
  have : i + w ≤ l.length := by simp at hi; omega
  rw [windowsOf_getElem? this, Option.some.injEq] at h
  exact ⟨h.symm, this⟩

theorem pairs_some {i : ℕ} {l : List α} {p : α × α} (h : (pairs l)[i]? = some p) : l[i]? = some p.1 ∧ l[i + 1]? = some p.2 := by
  induction l generalizing i with
  | nil => simp [pairs] at h
  | cons a l ih =>
    cases l with
    | nil => simp [pairs] at h
    | cons b l =>
      cases i with
      | zero => simp [pairs] at h; simp [← h]
      | succ i => simp [pairs] at h; simpa using ih h

end

/-! ## Series that compare alike -/

variable {ρ : Rounding}

/-- Comparing two bars less than `d` apart gives the same result in both series. -/
structure SameOrder (d : ℕ) (s t : List (FP ρ)) : Prop where
  length : s.length = t.length
  left : NoNaN s
  right : NoNaN t
  compare : ∀ {i j : ℕ} {x y x' y' : FP ρ}, i < j + d → j < i + d → s[i]? = some x → s[j]? = some y → t[i]? = some x' → t[j]? = some y' →
    (x <. y) = (x' <. y')

/-- Finite numbers other than minus zero. -/
def Ordinary (s : List (FP ρ)) : Prop := ∀ x ∈ s, x.Finite ∧ x ≠ negz

section
variable {d : ℕ} {s t : List (FP ρ)} {i j : ℕ} {x y x' y' : FP ρ}

theorem feq_lt (hx : Traquer.isNaN x = false) (hy : Traquer.isNaN y = false) : (x ==. y) = (!(x <. y) && !(y <. x)) := by
  rw [toE_feq hx hy, toE_lt hx hy, toE_lt hy hx]
  rcases lt_trichotomy x.toE y.toE with h | h | h
  · simp [h, h.ne]
  · simp [h]
  · simp [h, h.ne']

theorem le_lt (hx : Traquer.isNaN x = false) (hy : Traquer.isNaN y = false) : (x <=. y) = !(y <. x) := by
  rw [toE_le hx hy, toE_lt hy hx]
  rcases lt_or_ge y.toE x.toE with h | h
  · simp [h]
  · simp [h]

theorem SameOrder.eq (h : SameOrder d s t) (h1 : i < j + d) (h2 : j < i + d) (hx : s[i]? = some x) (hy : s[j]? = some y) (hx' : t[i]? = some x')
    (hy' : t[j]? = some y') : (x ==. y) = (x' ==. y') := by
  rw [feq_lt (h.left x (List.mem_of_getElem? hx)) (h.left y (List.mem_of_getElem? hy)),
    feq_lt (h.right x' (List.mem_of_getElem? hx')) (h.right y' (List.mem_of_getElem? hy')), h.compare h1 h2 hx hy hx' hy', h.compare h2 h1 hy hx hy' hx']

theorem SameOrder.le (h : SameOrder d s t) (h1 : i < j + d) (h2 : j < i + d) (hx : s[i]? = some x) (hy : s[j]? = some y) (hx' : t[i]? = some x')
    (hy' : t[j]? = some y') : (x <=. y) = (x' <=. y') := by
  rw [le_lt (h.left x (List.mem_of_getElem? hx)) (h.left y (List.mem_of_getElem? hy)),
    le_lt (h.right x' (List.mem_of_getElem? hx')) (h.right y' (List.mem_of_getElem? hy')), h.compare h2 h1 hy hx hy' hx']

theorem SameOrder.symm (h : SameOrder d s t) : SameOrder d t s :=
  ⟨h.length.symm, h.right, h.left, fun h1 h2 a b a' b' => (h.compare h1 h2 a' b' a b).symm⟩

theorem SameOrder.self (h : SameOrder d s t) : SameOrder d s s :=
  ⟨rfl, h.left, h.left, fun _ _ a b a' b' => by rw [a, Option.some.injEq] at a'; rw [b, Option.some.injEq] at b'; rw [a', b']⟩

theorem SameOrder.mono (h : SameOrder d s t) {e : ℕ} (he : e ≤ d) : SameOrder e s t :=
  ⟨h.length, h.left, h.right, fun h1 h2 => h.compare (by omega) (by omega)⟩

theorem getElem?_window {α : Type} {l : List α} {w k : ℕ} : ((l.drop k).take w)[i]? = if i < w then l[k + i]? else none := by
  split
  · rw [List.getElem?_take_of_lt ‹_›, List.getElem?_drop]
  · rw [List.getElem?_eq_none]
    simp; omega

theorem SameOrder.window (h : SameOrder d s t) (k : ℕ) : SameOrder d ((s.drop k).take d) ((t.drop k).take d) := by
  refine ⟨by simp [h.length], fun x hx => h.left x (List.mem_of_mem_drop (List.mem_of_mem_take hx)),
    fun x hx => h.right x (List.mem_of_mem_drop (List.mem_of_mem_take hx)), fun h1 h2 a b a' b' => ?_⟩
  rw [getElem?_window] at a b a' b'
  split at a <;> split at b <;> simp_all only [reduceCtorEq, if_true]
  rename_i q1 q2
  exact h.compare (i := k + _) (j := k + _) (by omega) (by omega) a b a' b'

/-- A strictly increasing function of the prices compares alike. -/
theorem sameOrder_of_increasing {f : ℝ → ℝ} (hf : StrictMonoOn f {r | ∃ x ∈ s, x.val = r}) (h1 : Fins s) (h2 : Fins t) (e : vals t = (vals s).map f) (d : ℕ) :
    SameOrder d s t := by
  have hl : s.length = t.length := by have := congrArg List.length e; simpa [vals] using this.symm
  refine ⟨hl, .of_fins h1, .of_fins h2, fun {i j x y x' y'} _ _ a b a' b' => ?_⟩
  have hv : ∀ {i : ℕ} {x x' : FP ρ}, s[i]? = some x → t[i]? = some x' → x'.val = f x.val := by
    intro i x x' a a'
    have := congrArg (·[i]?) e
    simpa [vals, a, a'] using this
  have mx := List.mem_of_getElem? a
  have my := List.mem_of_getElem? b
  rw [is_lt (h1 x mx).is (h1 y my).is, is_lt (h2 x' (List.mem_of_getElem? a')).is (h2 y' (List.mem_of_getElem? b')).is, hv a a', hv b b']
  simp only [decide_eq_decide]
  exact (hf.lt_iff_lt ⟨x, mx, rfl⟩ ⟨y, my, rfl⟩).symm

/-- The sign of a difference of two quotes survives every rounding. -/
theorem signum_quotes (hx : x.Finite ∧ x ≠ negz) (hy : y.Finite ∧ y ≠ negz) : signum (x - y) = if x <. y then fin (-1) else fin 1 := by
  have := signum_diff hx.1.is hy.1.is (.inr hx.2)
  rw [is_lt hx.1.is hy.1.is]
  simp only [decide_eq_true_eq]
  split at this <;> rename_i h <;> rw [is_iff] at this <;> simpa [h] using this

theorem Ordinary.noNaN (h : Ordinary s) : NoNaN s := fun x hx => (h x hx).1.is.not_nan

theorem mem_zip_window {α β : Type} {w : ℕ} {a : List α} {b : List β} {p : List α × List β} (h : ((windowsOf w a).zip (windowsOf w b))[i]? = some p) :
    (windowsOf w a)[i]? = some p.1 ∧ (windowsOf w b)[i]? = some p.2 := List.getElem?_zip_eq_some.1 h

/-- Windows of two pairs of series: if the closure agrees on windows that compare alike, so do the results. -/
theorem mapP_sameOrder {β : Type} {s1 t1 s2 t2 : List (FP ρ)} (h1 : SameOrder d s1 t1) (h2 : SameOrder d s2 t2) {f f' : List (FP ρ) × List (FP ρ) → Option β}
    (h : ∀ a b a' b', SameOrder d a a' → SameOrder d b b' → a.length = d → b.length = d → (∀ x ∈ a, x ∈ s1) → (∀ x ∈ a', x ∈ t1) → (∀ x ∈ b, x ∈ s2) →
      (∀ x ∈ b', x ∈ t2) → f (a, b) = f' (a', b')) :
    mapP f ((windowsOf d s1).zip (windowsOf d s2)) = mapP f' ((windowsOf d t1).zip (windowsOf d t2)) := by
  refine mapP_congr2 (by simp [h1.length, h2.length]) fun i x x' e e' => ?_
  obtain ⟨e1, e2⟩ := mem_zip_window e
  obtain ⟨e1', e2'⟩ := mem_zip_window e'
  obtain ⟨q1, l1⟩ := windowsOf_some e1
  obtain ⟨q2, l2⟩ := windowsOf_some e2
  obtain ⟨q1', -⟩ := windowsOf_some e1'
  obtain ⟨q2', -⟩ := windowsOf_some e2'
  have := h x.1 x.2 x'.1 x'.2 (q1 ▸ q1' ▸ h1.window i) (q2 ▸ q2' ▸ h2.window i) (by rw [q1]; simp; omega) (by rw [q2]; simp; omega)
    (fun y hy => by rw [q1] at hy; exact List.mem_of_mem_drop (List.mem_of_mem_take hy))
    (fun y hy => by rw [q1'] at hy; exact List.mem_of_mem_drop (List.mem_of_mem_take hy))
    (fun y hy => by rw [q2] at hy; exact List.mem_of_mem_drop (List.mem_of_mem_take hy))
    (fun y hy => by rw [q2'] at hy; exact List.mem_of_mem_drop (List.mem_of_mem_take hy))
  simpa using this

/-! ## Ranks -/

/-- C96: the ranks depend only on the order of the values (ordinal ranks: see C42). -/
theorem rank_order_only (srt srt' : Sorter (FP ρ)) (hs : srt.Valid) (hs' : srt'.Valid) (h : SameOrder s.length s t) (mode : Option Distribution.RankMode)
    (hm : mode ≠ some .ordinal) : rank srt s mode = rank srt' t mode := by
  classical
  have hc : ∀ {i j : ℕ} {x y x' y' : FP ρ}, s[i]? = some x → s[j]? = some y → t[i]? = some x' → t[j]? = some y' → (x <. y) = (x' <. y') ∧ (x ==. y) = (x' ==. y') := by
    intro i j x y x' y' a b a' b'
    have hi := (List.getElem?_eq_some_iff.1 a).1
    have hj := (List.getElem?_eq_some_iff.1 b).1
    exact ⟨h.compare (by omega) (by omega) a b a' b', h.eq (by omega) (by omega) a b a' b'⟩
  have ha := hs s (Distribution.sortPanics_of_noNaN h.left)
  let alt : Sorter (FP ρ) := ⟨fun l => if l = t then srt.sort s else srt'.sort l⟩
  have halt : alt.Valid := by
    intro l hl
    show Distribution.IsArgsort _ l (if l = t then srt.sort s else srt'.sort l)
    split
    · rename_i e
      subst e
      refine ⟨h.length ▸ ha.perm, ha.sorted.imp_of_mem fun {a b} ma mb hab x' y' hx hy => ?_⟩
      have la : a < s.length := by simpa using (ha.perm.mem_iff.1 ma)
      have lb : b < s.length := by simpa using (ha.perm.mem_iff.1 mb)
      rw [← (hc (List.getElem?_eq_getElem lb) (List.getElem?_eq_getElem la) hy hx).1]
      exact hab _ _ (List.getElem?_eq_getElem la) (List.getElem?_eq_getElem lb)
    · exact hs' l hl
  rw [Distribution.rank_deterministic srt' alt hs' halt t h.right mode hm]
  rw [rank, rank, if_neg (by simp [Distribution.sortPanics_of_noNaN h.left]), if_neg (by simp [Distribution.sortPanics_of_noNaN h.right])]
  show _ = Distribution.rankWith _ t mode (if t = t then srt.sort s else srt'.sort t)
  rw [if_pos rfl]
  have hidx : ∀ i ∈ srt.sort s, i < s.length := fun i hi => by simpa using ha.perm.mem_iff.1 hi
  have hflags : ∀ idx : List ℕ, (∀ i ∈ idx, i < s.length) →
      ((mapP (fun i => s[i]?) idx).bind (Distribution.uniqFlags fun x y => !(x ==. y))) =
        (mapP (fun i => t[i]?) idx).bind (Distribution.uniqFlags fun x y => !(x ==. y)) := by
    intro idx hidx
    have es : mapP (fun i => s[i]?) idx = some (idx.map fun i => s.getD i nan) := by
      rw [← mapP_some]
      exact mapP_congr2 rfl fun i x x' e e' => by
        obtain rfl : x = x' := by rw [e] at e'; exact Option.some.inj e'
        have := hidx x (List.mem_of_getElem? e)
        simp [List.getElem?_eq_getElem this]
    have et : mapP (fun i => t[i]?) idx = some (idx.map fun i => t.getD i nan) := by
      rw [← mapP_some]
      exact mapP_congr2 rfl fun i x x' e e' => by
        obtain rfl : x = x' := by rw [e] at e'; exact Option.some.inj e'
        have := h.length ▸ hidx x (List.mem_of_getElem? e)
        simp [List.getElem?_eq_getElem this]
    rw [es, et, Option.bind_some, Option.bind_some]
    cases idx with
    | nil => rfl
    | cons a idx =>
      simp only [List.map_cons, Distribution.uniqFlags]
      congr 2
      have key : ∀ (idx : List ℕ) (a : ℕ), a < s.length → (∀ i ∈ idx, i < s.length) →
          scan (fun (st x : FP ρ) => (x, !(st ==. x))) (s.getD a nan) (idx.map fun i => s.getD i nan) =
            scan (fun (st x : FP ρ) => (x, !(st ==. x))) (t.getD a nan) (idx.map fun i => t.getD i nan) := by
        intro idx
        induction idx with
        | nil => intros; rfl
        | cons b idx ih =>
          intro a ha hb
          have hb' := hb b (by simp)
          simp only [List.map_cons, scan]
          rw [ih b hb' fun i hi => hb i (List.mem_cons_of_mem _ hi)]
          have ta : a < t.length := h.length ▸ ha
          have tb : b < t.length := h.length ▸ hb'
          have := (hc (List.getElem?_eq_getElem ha) (List.getElem?_eq_getElem hb') (List.getElem?_eq_getElem ta) (List.getElem?_eq_getElem tb)).2
          simp [List.getD, List.getElem?_eq_getElem, ha, hb', ta, tb, this]
      exact key idx a (hidx a (by simp)) fun i hi => hidx i (List.mem_cons_of_mem _ hi)
  have hf := hflags _ hidx
  have hgen : Distribution.rankWith (F := FP ρ) (fun x y => !(x ==. y)) s mode (srt.sort s) =
      ((mapP (fun i => s[i]?) (srt.sort s)).bind (Distribution.uniqFlags fun x y => !(x ==. y))).bind fun flags =>
        (Distribution.sortedRanks mode flags s.length).bind fun ranks => some (Distribution.scatter s.length ranks (srt.sort s)) := by
    rw [Option.bind_assoc]
    match mode, hm with
    | none, _ | some .min, _ | some .max, _ | some .dense, _ | some .average, _ => rfl
  have hgen' : Distribution.rankWith (F := FP ρ) (fun x y => !(x ==. y)) t mode (srt.sort s) =
      ((mapP (fun i => t[i]?) (srt.sort s)).bind (Distribution.uniqFlags fun x y => !(x ==. y))).bind fun flags =>
        (Distribution.sortedRanks mode flags t.length).bind fun ranks => some (Distribution.scatter t.length ranks (srt.sort s)) := by
    rw [Option.bind_assoc]
    match mode, hm with
    | none, _ | some .min, _ | some .max, _ | some .dense, _ | some .average, _ => rfl
  rw [hgen, hgen', hf, h.length]

/-! ## Rank correlations -/

section
variable {s1 s2 t1 t2 : List (FP ρ)} {w : ℕ}

/-- C96: Spearman's coefficient depends only on the order of the values inside each window, to the last bit. -/
theorem srcc_order_only (srt srt' : Sorter (FP ρ)) (hs : srt.Valid) (hs' : srt'.Valid) (h1 : SameOrder w s1 t1) (h2 : SameOrder w s2 t2) :
    Correlation.srcc srt s1 s2 w = Correlation.srcc srt' t1 t2 w := by
  unfold Correlation.srcc
  rcases Nat.eq_zero_or_pos w with rfl | hw
  · rfl
  simp only [windows, Option.bind_eq_bind, usub_of_le hw, Option.bind_some, if_neg (show w ≠ 0 by omega)]
  rw [mapP_sameOrder h1 h2 fun a b a' b' ha hb la lb _ _ _ _ => ?_]
  dsimp only
  rw [rank_order_only srt srt' hs hs' (la ▸ ha) none (by simp), rank_order_only srt srt' hs hs' (lb ▸ hb) none (by simp)]

/-- C96: so does Hoeffding's D. -/
theorem hoeffd_order_only (srt srt' : Sorter (FP ρ)) (hs : srt.Valid) (hs' : srt'.Valid) (h1 : SameOrder w s1 t1) (h2 : SameOrder w s2 t2) :
    Correlation.hoeffd srt s1 s2 w = Correlation.hoeffd srt' t1 t2 w := by
  unfold Correlation.hoeffd
  rcases Nat.eq_zero_or_pos w with rfl | hw
  · rfl
  simp only [windows, Option.bind_eq_bind, usub_of_le hw, Option.bind_some, if_neg (show w ≠ 0 by omega)]
  rw [mapP_sameOrder h1 h2 fun a b a' b' ha hb la lb _ _ _ _ => ?_]
  dsimp only
  unfold Correlation.hoeffdWin
  rw [rank_order_only srt srt' hs hs' (la ▸ ha) (some .average) (by simp), rank_order_only srt srt' hs hs' (lb ▸ hb) (some .average) (by simp)]

/-- C96: and Kendall's tau, with or without ties. -/
theorem krcc_order_only (h1 : SameOrder w s1 t1) (h2 : SameOrder w s2 t2) (o1 : Ordinary s1) (o1' : Ordinary t1) (o2 : Ordinary s2) (o2' : Ordinary t2) :
    Correlation.krcc s1 s2 w = Correlation.krcc t1 t2 w := by
  unfold Correlation.krcc
  rcases Nat.eq_zero_or_pos w with rfl | hw
  · rfl
  simp only [windows, Option.bind_eq_bind, usub_of_le hw, Option.bind_some, if_neg (show w ≠ 0 by omega)]
  rw [mapP_sameOrder h1 h2 fun a b a' b' ha hb la lb m1 m1' m2 m2' => ?_]
  dsimp only
  unfold Correlation.krccWin
  have step : ∀ (q : Correlation.KrccState (FP ρ)) (p : ℕ × ℕ), Correlation.krccStep a b q p = Correlation.krccStep a' b' q p := by
    intro q p
    unfold Correlation.krccStep
    have none_iff : ∀ (u u' : List (FP ρ)), u.length = u'.length → ∀ k : ℕ, u[k]? = none ↔ u'[k]? = none := by
      intro u u' e k; simp [e]
    rcases e1 : a[p.1]? with _ | xi
    · rw [(none_iff _ _ ha.length _).1 e1]; rfl
    rcases e1' : a'[p.1]? with _ | xi'
    · rw [(none_iff _ _ ha.length _).2 e1'] at e1; cases e1
    rcases e2 : a[p.2]? with _ | xj
    · rw [(none_iff _ _ ha.length _).1 e2]; rfl
    rcases e2' : a'[p.2]? with _ | xj'
    · rw [(none_iff _ _ ha.length _).2 e2'] at e2; cases e2
    rcases e3 : b[p.1]? with _ | yi
    · rw [(none_iff _ _ hb.length _).1 e3]; rfl
    rcases e3' : b'[p.1]? with _ | yi'
    · rw [(none_iff _ _ hb.length _).2 e3'] at e3; cases e3
    rcases e4 : b[p.2]? with _ | yj
    · rw [(none_iff _ _ hb.length _).1 e4]; rfl
    rcases e4' : b'[p.2]? with _ | yj'
    · rw [(none_iff _ _ hb.length _).2 e4'] at e4; cases e4
    have l1 := (List.getElem?_eq_some_iff.1 e1).1
    have l2 := (List.getElem?_eq_some_iff.1 e2).1
    have m := fun {u v : List (FP ρ)} (hu : Ordinary v) (hm : ∀ x ∈ u, x ∈ v) {k : ℕ} {x : FP ρ} (e : u[k]? = some x) => hu x (hm x (List.mem_of_getElem? e))
    simp only [Option.bind_eq_bind, Option.bind_some]
    rw [signum_quotes (m o1 m1 e1) (m o1 m1 e2), signum_quotes (m o2 m2 e3) (m o2 m2 e4), signum_quotes (m o1' m1' e1') (m o1' m1' e2'),
      signum_quotes (m o2' m2' e3') (m o2' m2' e4'), ha.compare (by omega) (by omega) e1 e2 e1' e2', hb.compare (by omega) (by omega) e3 e4 e3' e4',
      ha.eq (by omega) (by omega) e1 e2 e1' e2', hb.eq (by omega) (by omega) e3 e4 e3' e4']
  have : Correlation.krccStep a b = Correlation.krccStep a' b' := by funext q p; exact step q p
  rw [this]

/-! ## aroon -/

theorem argBest_order_only {better : FP ρ → FP ρ → Bool} {a a' : List (FP ρ)} (hl : a.length = a'.length)
    (h : ∀ (i j : ℕ) x y x' y', a[i]? = some x → a[j]? = some y → a'[i]? = some x' → a'[j]? = some y' → better x y = better x' y') :
    Volatility.argBest better a = Volatility.argBest better a' := by
  unfold Volatility.argBest
  rcases e : a[0]? with _ | h0
  · rw [show a'[0]? = none by simpa [← hl] using e]
    rfl
  rcases e' : a'[0]? with _ | h0'
  · rw [show a[0]? = none by simpa [hl] using e'] at e
    cases e
  simp only [Option.bind_eq_bind, Option.bind_some]
  have key : ∀ (l : List ℕ) (st st' : ℕ × FP ρ), (∀ k ∈ l, k < a.length) → st.1 = st'.1 → a[st.1]? = some st.2 → a'[st'.1]? = some st'.2 →
      ((l.map fun k => (k, a.getD k nan)).foldl (fun (st : ℕ × FP ρ) ((idx, x) : ℕ × FP ρ) => if better x st.2 then (idx, x) else st) st).1 =
      ((l.map fun k => (k, a'.getD k nan)).foldl (fun (st : ℕ × FP ρ) ((idx, x) : ℕ × FP ρ) => if better x st.2 then (idx, x) else st) st').1 := by
    intro l
    induction l with
    | nil => intro st st' _ e _ _; exact e
    | cons k l ih =>
      intro st st' hk es e1 e2
      have ka := hk k (by simp)
      have ka' : k < a'.length := hl ▸ ka
      have g1 : a[k]? = some (a.getD k nan) := by simp [List.getElem?_eq_getElem ka]
      have g2 : a'[k]? = some (a'.getD k nan) := by simp [List.getElem?_eq_getElem ka']
      simp only [List.map_cons, List.foldl_cons]
      refine ih _ _ (fun i hi => hk i (List.mem_cons_of_mem _ hi)) ?_ ?_ ?_
      · rw [h k st.1 _ _ _ _ g1 e1 g2 (es ▸ e2)]; split <;> simp [es]
      · split
        · exact g1
        · exact e1
      · split
        · exact g2
        · exact e2
  have zr : ∀ u : List (FP ρ), (List.range u.length).zip u = (List.range u.length).map fun k => (k, u.getD k nan) := by
    intro u
    apply List.ext_getElem?
    intro i
    by_cases hi : i < u.length
    · simp [List.zip, hi]
    · rw [List.getElem?_eq_none (by simp; omega), List.getElem?_eq_none (by simp; omega)]
  have := key (List.range a.length) (0, h0) (0, h0') (by simp) rfl e e'
  rw [zr a, zr a', ← hl]
  congr 1

/-- C96: aroon depends only on where in the window the extremes are. -/
theorem aroon_order_only (h1 : SameOrder (w + 1) s1 t1) (h2 : SameOrder (w + 1) s2 t2) : Trend.aroon s1 s2 w = Trend.aroon t1 t2 w := by
  unfold Trend.aroon
  simp only [windows, Option.bind_eq_bind, Option.bind_some, if_neg (show w + 1 ≠ 0 by omega)]
  rw [mapP_sameOrder h1 h2 fun a b a' b' ha hb la lb _ _ _ _ => ?_]
  dsimp only
  have bd : ∀ {u : List (FP ρ)} {i : ℕ} {x : FP ρ}, u.length = w + 1 → u[i]? = some x → i < w + 1 := fun hu e => hu ▸ (List.getElem?_eq_some_iff.1 e).1
  rw [argBest_order_only ha.length fun i j x y x' y' e1 e2 e3 e4 => ?_, argBest_order_only hb.length fun i j x y x' y' e1 e2 e3 e4 => ?_]
  · have := bd lb e1
    have := bd lb e2
    exact hb.le (by omega) (by omega) e1 e2 e3 e4
  · have := bd la e1
    have := bd la e2
    exact ha.le (by omega) (by omega) e2 e1 e4 e3

/-! ## Up and down bars -/

/-- C96: the psychological line counts rising bars, whatever the size of the rise. -/
theorem psych_order_only (h : SameOrder 2 s1 t1) (o : Ordinary s1) (o' : Ordinary t1) : Momentum.psych s1 w = Momentum.psych t1 w := by
  unfold Momentum.psych
  rw [map_congr2 (f' := fun (p : FP ρ × FP ρ) => fmax (signum (p.2 - p.1)) 0) (l' := pairs t1) (by simp [h.length]) fun i x x' e e' => ?_]
  obtain ⟨a, b⟩ := pairs_some e
  obtain ⟨a', b'⟩ := pairs_some e'
  dsimp only
  rw [signum_quotes (o _ (List.mem_of_getElem? b)) (o _ (List.mem_of_getElem? a)),
    signum_quotes (o' _ (List.mem_of_getElem? b')) (o' _ (List.mem_of_getElem? a')), h.compare (by omega) (by omega) b a b' a']

/-- C96: on balance volume sees of the closes only whether they rise or fall. -/
theorem obv_order_only (h : SameOrder 2 s1 t1) (o : Ordinary s1) (o' : Ordinary t1) (volume : List (FP ρ)) : Volume.obv s1 volume = Volume.obv t1 volume := by
  unfold Volume.obv
  rw [scanM_congr2 (l' := (List.range (pairs t1).length).zip (pairs t1)) (by simp [h.length]) fun i x x' e e' s => ?_]
  rw [List.getElem?_zip_eq_some] at e e'
  obtain ⟨a, b⟩ := pairs_some e.2
  obtain ⟨a', b'⟩ := pairs_some e'.2
  have : x.1 = x'.1 := by
    have q := e.1
    have q' := e'.1
    rw [List.getElem?_eq_some_iff] at q q'
    obtain ⟨_, q⟩ := q
    obtain ⟨_, q'⟩ := q'
    simp at q q'
    omega
  dsimp only
  rw [signum_quotes (o _ (List.mem_of_getElem? b)) (o _ (List.mem_of_getElem? a)),
    signum_quotes (o' _ (List.mem_of_getElem? b')) (o' _ (List.mem_of_getElem? a')), h.compare (by omega) (by omega) b a b' a', this]

/-- C96: the volume indices see of the volumes only whether they rise or fall. -/
theorem pvi_order_only (h : SameOrder 2 s2 t2) (data : List (FP ρ)) : Volume.pvi data s2 = Volume.pvi data t2 := by
  unfold Volume.pvi scanS
  rw [scan_congr2 (l' := (pairs data).zip (pairs t2)) (by simp [h.length]) fun i x x' e e' s => ?_]
  rw [List.getElem?_zip_eq_some] at e e'
  obtain ⟨a, b⟩ := pairs_some e.2
  obtain ⟨a', b'⟩ := pairs_some e'.2
  have hx : x.1 = x'.1 := by rw [← Option.some.injEq, ← e.1, ← e'.1]
  dsimp only
  have hc := h.compare (by omega) (by omega) a b a' b'
  simp only [hc, hx]

/-- C96: the volume indices see of the volumes only whether they rise or fall. -/
theorem nvi_order_only (h : SameOrder 2 s2 t2) (data : List (FP ρ)) : Volume.nvi data s2 = Volume.nvi data t2 := by
  unfold Volume.nvi scanS
  rw [scan_congr2 (l' := (pairs data).zip (pairs t2)) (by simp [h.length]) fun i x x' e e' s => ?_]
  rw [List.getElem?_zip_eq_some] at e e'
  obtain ⟨a, b⟩ := pairs_some e.2
  obtain ⟨a', b'⟩ := pairs_some e'.2
  have hx : x.1 = x'.1 := by rw [← Option.some.injEq, ← e.1, ← e'.1]
  dsimp only
  rw [h.compare (by omega) (by omega) b a b' a', hx]

/-- C96: the share of right directions sees only whether observation and estimate are above or below the previous observation. -/
theorem mda_order_only (h : SameOrder 2 s1 t1) (o : Ordinary s1) (o' : Ordinary t1) (p : Ordinary s2) (p' : Ordinary t2) (hl : s2.length = t2.length)
    (hc : ∀ (i : ℕ) x y x' y', s2[i + 1]? = some x → s1[i]? = some y → t2[i + 1]? = some x' → t1[i]? = some y' → (x <. y) = (x' <. y')) :
    Regression.mda s1 s2 = Regression.mda t1 t2 := by
  unfold Regression.mda
  cases s1 with
  | nil =>
    obtain rfl : t1 = [] := List.length_eq_zero_iff.1 h.length.symm
    simp [sliceFrom]
  | cons a s1 =>
  cases t1 with
  | nil => cases h.length
  | cons a' t1 =>
  have hl1 : s1.length = t1.length := by simpa using h.length
  cases s2 with
  | nil =>
    obtain rfl : t2 = [] := List.length_eq_zero_iff.1 hl.symm
    simp [sliceFrom]
  | cons b s2 =>
  cases t2 with
  | nil => cases hl
  | cons b' t2 =>
  have hl2 : s2.length = t2.length := by simpa using hl
  simp only [sliceFrom, List.length_cons, Nat.le_add_left, if_true, Option.bind_eq_bind, Option.bind_some, List.drop_succ_cons, List.drop_zero,
    List.getElem?_cons_zero, ← hl1]
  congr 2
  refine scan_rel (R := fun i st st' => st.1 = st'.1 ∧ (a :: s1)[i]? = some st.2 ∧ (a' :: t1)[i]? = some st'.2) (by simp [hl1, hl2]) ?_ ⟨rfl, rfl, rfl⟩
  intro i x x' st st' e e' ⟨r1, r2, r3⟩
  rw [List.getElem?_zip_eq_some, List.getElem?_zip_eq_some] at e e'
  obtain ⟨e1, e2, e3⟩ := e
  obtain ⟨e1', e2', e3'⟩ := e'
  have q : x.1 = x'.1 := by rw [← Option.some.injEq, ← e1, ← e1']
  have f2 : (a :: s1)[i + 1]? = some x.2.1 := by simpa using e2
  have f2' : (a' :: t1)[i + 1]? = some x'.2.1 := by simpa using e2'
  have f3 : (b :: s2)[i + 1]? = some x.2.2 := by simpa using e3
  have f3' : (b' :: t2)[i + 1]? = some x'.2.2 := by simpa using e3'
  dsimp only
  rw [signum_quotes (o _ (List.mem_of_getElem? f2)) (o _ (List.mem_of_getElem? r2)), signum_quotes (p _ (List.mem_of_getElem? f3)) (o _ (List.mem_of_getElem? r2)),
    signum_quotes (o' _ (List.mem_of_getElem? f2')) (o' _ (List.mem_of_getElem? r3)), signum_quotes (p' _ (List.mem_of_getElem? f3')) (o' _ (List.mem_of_getElem? r3)),
    h.compare (by omega) (by omega) f2 r2 f2' r3, hc i _ _ _ _ f3 r2 f3' r3, q, r1]
  exact ⟨⟨rfl, f2, f2'⟩, rfl⟩

end
end
end Traquer

namespace Traquer
open FP

/-! ## Cases: prices and their cubes, in binary64 -/

section
open Distribution (Sorter tieSorter tieSorter_valid)

private def closes : List F64 := [fin 2, fin 1, fin 3, fin 3, fin 7, fin 5]
private def cubes : List F64 := [fin 8, fin 1, fin 27, fin 27, fin 343, fin 125]

private theorem closes_cubes (d : ℕ) : SameOrder d closes cubes := by
  refine sameOrder_of_increasing (f := fun x => x ^ 3) ((Odd.strictMono_pow (by decide)).strictMonoOn _) ?_ ?_ ?_ d
  · simp [closes, Fins]
  · simp [cubes, Fins]
  · simp [closes, cubes, vals, FP.val]; norm_num

private theorem closes_ordinary : Ordinary closes := by simp [closes, Ordinary, FP.Finite]
private theorem cubes_ordinary : Ordinary cubes := by simp [cubes, Ordinary, FP.Finite]

example : Correlation.srcc (tieSorter true) closes closes 3 = Correlation.srcc (tieSorter false) cubes closes 3 :=
  srcc_order_only _ _ (tieSorter_valid _) (tieSorter_valid _) (closes_cubes 3) (closes_cubes 3).self
example : Correlation.hoeffd (tieSorter true) closes cubes 5 = Correlation.hoeffd (tieSorter false) cubes closes 5 :=
  hoeffd_order_only _ _ (tieSorter_valid _) (tieSorter_valid _) (closes_cubes 5) (closes_cubes 5).symm
example : Correlation.krcc closes cubes 4 = Correlation.krcc cubes closes 4 :=
  krcc_order_only (closes_cubes 4) (closes_cubes 4).symm closes_ordinary cubes_ordinary cubes_ordinary closes_ordinary
example : Distribution.rank (tieSorter true) closes (some .dense) = Distribution.rank (tieSorter false) cubes (some .dense) :=
  rank_order_only _ _ (tieSorter_valid _) (tieSorter_valid _) (closes_cubes _) _ (by simp)
example : Trend.aroon closes closes 3 = Trend.aroon cubes cubes 3 := aroon_order_only (closes_cubes 4) (closes_cubes 4)
example : Momentum.psych closes 3 = Momentum.psych cubes 3 := psych_order_only (closes_cubes 2) closes_ordinary cubes_ordinary
example (v : List F64) : Volume.obv closes v = Volume.obv cubes v := obv_order_only (closes_cubes 2) closes_ordinary cubes_ordinary v
example (v : List F64) : Volume.pvi v closes = Volume.pvi v cubes := pvi_order_only (closes_cubes 2) v
example (v : List F64) : Volume.nvi v closes = Volume.nvi v cubes := nvi_order_only (closes_cubes 2) v
example : Regression.mda closes closes = Regression.mda cubes cubes :=
  mda_order_only (closes_cubes 2) closes_ordinary cubes_ordinary closes_ordinary cubes_ordinary rfl
    fun _ _ _ _ _ a b a' b' => (closes_cubes 2).compare (by omega) (by omega) a b a' b'

end
end Traquer
