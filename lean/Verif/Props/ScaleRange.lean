import Verif.Lemmas.Eval
import Verif.Lemmas.FoldMax
import Verif.Props.ScaleCorrelation
import Verif.Props.ScaleMomentum
import Verif.Props.ScaleTrend
import Verif.Props.ScaleMama
/-!
# C78: a change of units, functions that start a search at `f64::MAX`

`frama`, `mic`, `cks` and `fisher` start a minimum at `f64::MAX`, which does not change with the units. They commute with a change of units
as long as the data stay within `±f64::MAX` in both units.
-/

namespace Traquer
open FP FloatLit

theorem each_mem {α β : Type} {P : α → β → Prop} {l : List α} {l' : List β} (h : Each P l l') :
    Each (fun x y => P x y ∧ x ∈ l ∧ y ∈ l') l l' := by
  induction h with
  | nil => exact .nil
  | cons h _ ih =>
    exact .cons ⟨h, by simp, by simp⟩ (ih.imp fun _ _ h => ⟨h.1, List.mem_cons_of_mem _ h.2.1, List.mem_cons_of_mem _ h.2.2⟩)

variable {ρ : Rounding} {k : ℝ} [ρ.Scales k] {n : ℤ} {l l' : List (FP ρ)}

theorem fold_max_units (h : Each (Scaled k n) l l') (r : WithinMax l) (r' : WithinMax l') (hl : l ≠ []) :
    Scaled k n (l.foldl fmax (-maxValue)) (l'.foldl fmax (-maxValue)) := by
  have hl' : l' ≠ [] := by rintro rfl; exact hl (List.forall₂_nil_right_iff.1 h)
  rw [r.foldl_fmax hl, r'.foldl_fmax hl']
  exact Scaled.foldl_fmax .nan h

theorem fold_min_units (h : Each (Scaled k n) l l') (r : WithinMax l) (r' : WithinMax l') (hl : l ≠ []) :
    Scaled k n (l.foldl fmin maxValue) (l'.foldl fmin maxValue) := by
  have hl' : l' ≠ [] := by rintro rfl; exact hl (List.forall₂_nil_right_iff.1 h)
  rw [r.foldl_fmin hl, r'.foldl_fmin hl']
  exact Scaled.foldl_fmin .nan h

theorem ln_pos {r : ℝ} (h : 0 < r) : Traquer.ln (fin r : XF) = fin (Real.log r) := by
  show logWith Real.log (fin r) = _
  simp [logWith, h.ne', h.not_gt, mk_exact]

theorem sub_fin (a b : ℝ) : (fin a : XF) - fin b = fin (a - b) := by
  rw [sub_def]
  by_cases h : b = 0
  · simp [neg, h, add, mk_exact]
  · simp [neg, h, add, mk_exact, sub_eq_add_neg]

theorem ln_scaled {c : ℝ} (hc : 0 < c) (x : XF) : Traquer.ln (x.scaled c) = Traquer.ln x + fin (Real.log c) := by
  rcases x with _ | (_ | _) | _ | r
  case fin =>
    rcases lt_trichotomy r 0 with h | rfl | h
    · have h' : c * r < 0 := mul_neg_of_pos_of_neg hc h
      show logWith Real.log (fin _) = add (logWith Real.log (fin _)) _
      simp [logWith, h, h', h.ne, h'.ne, add]
    · show logWith Real.log (fin _) = add (logWith Real.log (fin _)) _
      simp [logWith, add]
    · rw [scaled_fin, ln_pos (mul_pos hc h), ln_pos h, Real.log_mul hc.ne' h.ne', add_comm]
      show _ = add _ _
      simp [add, mk_exact]
  all_goals rfl

theorem add_div_fin {L : ℝ} (hL : 0 < L) (x : XF) (c : ℝ) : (x + fin c) / fin L = x / fin L + fin (c / L) := by
  have hd : ∀ r : ℝ, (fin r : XF) / fin L = fin (r / L) := fun r => by
    show div _ _ = _
    rcases lt_trichotomy r 0 with h | rfl | h
    · simp [div, hL.ne', val, mk_exact', div_ne_zero h.ne hL.ne']
    · simp [div, hL.ne', val, sgn, hL.not_gt, mk_exact]
    · simp [div, hL.ne', val, mk_exact', div_ne_zero h.ne' hL.ne']
  have ha : ∀ r s : ℝ, (fin r : XF) + fin s = fin (r + s) := fun r s => by
    show add _ _ = _
    simp [add, mk_exact]
  rcases x with _ | b | _ | r
  · rfl
  · show div (add _ _) _ = add (div _ _) _
    simp [add, div]
  · show div (add _ _) _ = add (div _ _) _
    have e : (div negz (fin L) : XF) = negz := by
      simp [div, hL.ne', val, sgn, hL.not_gt, mk_zero_true]
    rw [e]
    simp only [add, mk_exact]
    exact hd c
  · rw [ha, hd, hd, ha, add_div]

theorem ln_sub_scaled {c : ℝ} (hc : 0 < c) (x y : XF) : Traquer.ln (x.scaled c) - Traquer.ln (y.scaled c) = Traquer.ln x - Traquer.ln y := by
  have key : ∀ x : XF, (Traquer.ln (x.scaled c) = Traquer.ln x ∧ (Traquer.ln x = FP.nan ∨ ∃ b, Traquer.ln x = inf b)) ∨ ∃ r, Traquer.ln x = fin r ∧ Traquer.ln (x.scaled c) = fin (r + Real.log c) := by
    intro x
    rcases x with _ | (_ | _) | _ | r
    case fin =>
      rcases lt_trichotomy r 0 with h | rfl | h
      · have h' : c * r < 0 := mul_neg_of_pos_of_neg hc h
        left
        show logWith Real.log (fin _) = logWith Real.log (fin _) ∧ (logWith Real.log (fin r) = FP.nan ∨ ∃ b, logWith Real.log (fin r) = inf b)
        simp [logWith, h, h', h.ne, h'.ne]
      · left
        refine ⟨by simp, .inr ⟨true, ?_⟩⟩
        show logWith Real.log (fin 0) = _
        simp [logWith]
      · right
        refine ⟨Real.log r, ln_pos h, ?_⟩
        rw [scaled_fin, ln_pos (mul_pos hc h), Real.log_mul hc.ne' h.ne', add_comm]
    case nan => exact .inl ⟨rfl, .inl rfl⟩
    case inf.true => exact .inl ⟨rfl, .inl rfl⟩
    all_goals exact .inl ⟨rfl, .inr ⟨_, rfl⟩⟩
  have hn : ∀ r : ℝ, (∃ s : ℝ, neg (fin r : XF) = fin s) ∨ neg (fin r : XF) = negz := fun r => by
    by_cases h : r = 0
    · exact .inr (by simp [neg, h])
    · exact .inl ⟨-r, by simp [neg, h]⟩
  rcases key x with ⟨e, hx⟩ | ⟨a, e, e'⟩ <;> rcases key y with ⟨f, hy⟩ | ⟨b, f, f'⟩
  · rw [e, f]
  · rw [e, f, f', sub_def, sub_def]
    rcases hx with hx | ⟨s, hx⟩ <;> rw [hx] <;> rcases hn b with ⟨t, ht⟩ | ht <;> rcases hn (b + Real.log c) with ⟨u, hu⟩ | hu <;>
      rw [ht, hu] <;> rfl
  · rw [e, f, e', sub_def, sub_def]
    rcases hy with hy | ⟨s, hy⟩ <;> rw [hy] <;> rfl
  · rw [e, e', f, f', sub_fin, sub_fin]; congr 1; ring
end Traquer

namespace Traquer.Smooth
open FP FloatLit
variable {k : ℝ} [hk : Rounding.exact.Scales k] {n : ℤ} {data data' : List XF}

omit hk in
theorem frama_fold4 {F : Type} [FloatOps F] (a b : List F) (hl : a.length = b.length) (s : F × F × F × F) :
    (a.zip b).foldl (fun (st : F × F × F × F) (x : F × F) =>
      (fmax st.1 x.1, fmin st.2.1 x.1, fmax st.2.2.1 x.2, fmin st.2.2.2 x.2)) s =
    (a.foldl fmax s.1, a.foldl fmin s.2.1, b.foldl fmax s.2.2.1, b.foldl fmin s.2.2.2) := by
  induction a generalizing b s with
  | nil => obtain rfl := List.length_eq_zero_iff.1 hl.symm; rfl
  | cons x a ih =>
    obtain _ | ⟨y, b⟩ := b
    · cases hl
    · rw [List.zip_cons_cons, List.foldl_cons, ih b (by simpa using hl)]
      rfl

theorem framaAlpha_units {w w' : List XF} {window : ℕ} (h : Each (Scaled k n) w w') (r : WithinMax w) (r' : WithinMax w')
    (hw : 2 ≤ window) (hl : w.length = window) : framaAlpha window (window / 2) w = framaAlpha window (window / 2) w' := by
  have hm : 1 ≤ window / 2 := by omega
  have h1 := each_take (window / 2) h
  have h2 := each_take (window / 2) (each_reverse h)
  have n1 : w.take (window / 2) ≠ [] := by rw [ne_eq, ← List.length_eq_zero_iff, List.length_take]; omega
  have n2 : w.reverse.take (window / 2) ≠ [] := by rw [ne_eq, ← List.length_eq_zero_iff, List.length_take, List.length_reverse]; omega
  have r1 := r.sublist (m := w.take (window / 2)) fun x hx => List.mem_of_mem_take hx
  have r1' := r'.sublist (m := w'.take (window / 2)) fun x hx => List.mem_of_mem_take hx
  have r2 := r.sublist (m := w.reverse.take (window / 2)) fun x hx => List.mem_reverse.1 (List.mem_of_mem_take hx)
  have r2' := r'.sublist (m := w'.reverse.take (window / 2)) fun x hx => List.mem_reverse.1 (List.mem_of_mem_take hx)
  simp only [framaAlpha]
  rw [frama_fold4 _ _ (by simp), frama_fold4 _ _ (by simp)]
  have a := fold_max_units h1 r1 r1' n1
  have b := fold_min_units h1 r1 r1' n1
  have c := fold_max_units h2 r2 r2' n2
  have d := fold_min_units h2 r2 r2' n2
  dsimp only
  revert a b c d
  generalize List.foldl fmax _ (w.take (window / 2)) = a
  generalize List.foldl fmax _ (w'.take (window / 2)) = a'
  generalize List.foldl fmax _ (w.reverse.take (window / 2)) = c
  generalize List.foldl fmax _ (w'.reverse.take (window / 2)) = c'
  generalize List.foldl fmin _ (w.take (window / 2)) = b
  generalize List.foldl fmin _ (w'.take (window / 2)) = b'
  generalize List.foldl fmin _ (w.reverse.take (window / 2)) = d
  generalize List.foldl fmin _ (w'.reverse.take (window / 2)) = d'
  intro ha hb hc hd
  have h12 : Scaled k n ((a - b) / flt (window / 2) + (c - d) / flt (window / 2)) ((a' - b') / flt (window / 2) + (c' - d') / flt (window / 2)) :=
    ((ha.sub hb).div Scaled.lit (by simp)).add ((hc.sub hd).div Scaled.lit (by simp))
  have h3 : Scaled k n ((fmax a c - fmin b d) / flt window) ((fmax a' c' - fmin b' d') / flt window) :=
    ((ha.fmax hc).sub (hb.fmin hd)).div Scaled.lit (by simp)
  rw [h12, h3, ln_sub_scaled (zpow_pos hk.pos n)]

/-- Two results of frama: the same error, or answers in the two units. -/
def FramaAlike (k : ℝ) (n : ℤ) (r r' : Except String (List XF)) : Prop :=
  (∃ e, r = .error e ∧ r' = .error e) ∨ ∃ l l', r = .ok l ∧ r' = .ok l' ∧ Each (Scaled k n) l l'

theorem frama_units (h : Each (Scaled k n) data data') (r : WithinMax data) (r' : WithinMax data') (window : ℕ) :
    Alike (FramaAlike k n) (frama data window) (frama data' window) := by
  unfold frama
  by_cases he : window % 2 = 0
  swap
  · rw [if_pos he, if_pos he]
    exact .answer (.inl ⟨_, rfl, rfl⟩)
  rw [if_neg (not_not.2 he), if_neg (not_not.2 he)]
  simp only [Option.bind_eq_bind]
  rcases Nat.eq_zero_or_pos window with rfl | hw
  · exact .panic
  refine Alike.bind (.usub rfl rfl) (forall_eq_rel fun j => ?_)
  rw [windows, windows, if_neg (by omega), if_neg (by omega)]
  refine Alike.bind (P := Each (Scaled k n)) (Alike.scanM (X := Scaled k n) .zero (each_mem (each_windowsOf (n := window) h)) ?_) fun a a' ha => ?_
  · rintro s s' hs w w' ⟨hh, hw1, hw2⟩
    rw [framaAlpha_units hh (r.sublist fun x hx => mem_of_mem_windowsOf hw1 hx) (r'.sublist fun x hx => mem_of_mem_windowsOf hw2 hx)
      (by omega) (windowsOf_mem_length hw1)]
    refine Alike.bind (.getLast? hh) fun x x' hx => .answer ?_
    have := ((Scaled.lit (x := framaAlpha window (window / 2) w')).mul hx (zero_add n)).add
      ((Scaled.lit (x := 1 - framaAlpha window (window / 2) w')).mul hs (zero_add n))
    exact ⟨this, this⟩
  · exact .answer (.inr ⟨_, _, rfl, rfl, each_append (each_nans j) ha⟩)

end Traquer.Smooth

namespace Traquer.Correlation
open FP FloatLit
variable {ρ : Rounding} {k : ℝ} [ρ.Scales k] {p q : ℤ} {s1 s1' s2 s2' : List (FP ρ)}

theorem bin_units {l l' : List (FP ρ)} (h : Each (Scaled k p) l l') (r : WithinMax l) (r' : WithinMax l') (bins : ℕ) : bin l bins = bin l' bins := by
  by_cases hl : l = []
  · subst hl
    rw [List.forall₂_nil_left_iff.1 h]
  have a := fold_min_units h r r' hl
  have b := fold_max_units h r r' hl
  simp only [bin]
  revert a b
  generalize List.foldl fmin _ l = mn
  generalize List.foldl fmin _ l' = mn'
  generalize List.foldl fmax _ l = mx
  generalize List.foldl fmax _ l' = mx'
  intro a b
  have hw : Scaled k p ((mx - mn) / flt bins) ((mx' - mn') / flt bins) := (b.sub a).div Scaled.lit (by simp)
  have := each_map (Q := Eq) (f := fun v => min (toUsize (floor ((v - mn) / ((mx - mn) / flt bins)))) (bins - 1))
    (g := fun v => min (toUsize (floor ((v - mn') / ((mx' - mn') / flt bins)))) (bins - 1)) h fun x y hx => by
      rw [Scaled.iff_zero.1 ((hx.sub a).div hw (sub_self p))]
  exact List.forall₂_eq_eq_eq ▸ this

/-- The two series may be in different units. -/
theorem mic_units (ho : HashOrder) (h : Each (Scaled k p) s1 s1') (g : Each (Scaled k q) s2 s2') (r1 : WithinMax s1) (r1' : WithinMax s1')
    (r2 : WithinMax s2) (r2' : WithinMax s2') (window : ℕ) : mic ho s1 s2 window = mic ho s1' s2' window := by
  refine Alike.eq_of (P := Eq) (fun _ _ h => h) ?_
  simp only [mic, Option.bind_eq_bind]
  refine Alike.bind Alike.same (forall_eq_rel fun j => ?_)
  rcases Nat.eq_zero_or_pos window with rfl | hw
  · exact .panic
  rw [windows, windows, windows, windows, if_neg (by omega), if_neg (by omega), if_neg (by omega), if_neg (by omega)]
  simp only [Option.bind_some]
  refine .answer (congrArg _ ?_)
  have hz := each_zip (each_mem (each_windowsOf (n := window) h)) (each_mem (each_windowsOf (n := window) g))
  have := each_map (Q := Eq) (f := fun e : ℕ × List (FP ρ) × List (FP ρ) => micWin ho (toUsize (ceil (powf (flt window : FP ρ) 0.6))) e.1 e.2.1 e.2.2)
    (g := fun e : ℕ × List (FP ρ) × List (FP ρ) => micWin ho (toUsize (ceil (powf (flt window : FP ρ) 0.6))) e.1 e.2.1 e.2.2)
    (each_zip (each_range hz.length) hz) (by
    rintro ⟨i, x, y⟩ ⟨_, x', y'⟩ ⟨rfl, ⟨hx, hx1, hx2⟩, hy, hy1, hy2⟩
    simp only [micWin]
    congr 1
    funext best e
    rw [bin_units hx (r1.sublist fun x hx => mem_of_mem_windowsOf hx1 hx) (r1'.sublist fun x hx => mem_of_mem_windowsOf hx2 hx),
      bin_units hy (r2.sublist fun x hx => mem_of_mem_windowsOf hy1 hx) (r2'.sublist fun x hx => mem_of_mem_windowsOf hy2 hx)])
  exact List.forall₂_eq_eq_eq ▸ this

end Traquer.Correlation

namespace Traquer.Momentum
open FP FloatLit
variable {ρ : Rounding} {k : ℝ} [ρ.Scales k] {high high' low low' : List (FP ρ)}

/-- the mid prices -/
def hl2 {F : Type} [FloatOps F] (high low : List F) : List F := (high.zip low).map fun (h, l) => (h + l) / 2

/-- The range of every window, counted from 0 if all prices are negative, is at least the floor of 0.000001. -/
def Ranging (high low : List (FP ρ)) (window : ℕ) : Prop :=
  ∀ w ∈ windowsOf window (hl2 high low), (0.000001 <=. (w.foldl fmax 0 - w.foldl fmin nan)) = true

theorem fmax_eq_left {x y : FP ρ} (h : (y <=. x) = true) : fmax x y = x := by
  have hx : isNaN x = false := by rcases x with _ | _ | _ | _ <;> first | rfl | (simp [le_def, le, FP.isNaN] at h)
  have hy : isNaN y = false := by rcases y with _ | _ | _ | _ <;> first | rfl | (simp [le_def, le, FP.isNaN] at h)
  rw [toE_le hy hx, decide_eq_true_eq] at h
  rw [fmax_def hx hy, if_neg (not_lt.2 h)]

theorem fisher_units (h : Each (Scaled k 1) high high') (g : Each (Scaled k 1) low low') (window : ℕ)
    (r : WithinMax (hl2 high low)) (r' : WithinMax (hl2 high' low')) (u : Ranging high low window) (u' : Ranging high' low' window) :
    fisher high low window = fisher high' low' window := by
  refine Alike.eq_of (P := Eq) (fun _ _ h => h) ?_
  have hh : Each (Scaled k 1) (hl2 high low) (hl2 high' low') := each_map (each_zip h g) fun _ _ e => (e.1.add e.2).div Scaled.lit rfl
  simp only [fisher, Option.bind_eq_bind]
  refine Alike.bind Alike.same (forall_eq_rel fun j => ?_)
  rcases Nat.eq_zero_or_pos window with rfl | hw
  · exact .panic
  change Alike _ (Option.bind (windows window (hl2 high low)) _) (Option.bind (windows window (hl2 high' low')) _)
  rw [windows, windows, if_neg (by omega), if_neg (by omega)]
  simp only [Option.bind_some]
  refine Alike.bind (P := Each Eq) (Alike.scanM (X := Eq) rfl (each_mem (each_windowsOf (n := window) hh)) ?_) fun a a' ha => ?_
  · rintro s _ rfl w w' ⟨hx, hx1, hx2⟩
    have rw1 : WithinMax w := r.sublist fun x hx => mem_of_mem_windowsOf hx1 hx
    have rw2 : WithinMax w' := r'.sublist fun x hx => mem_of_mem_windowsOf hx2 hx
    have n1 : w ≠ [] := by have := windowsOf_mem_length hx1; rintro rfl; simp at this; omega
    have n2 : w' ≠ [] := by have := windowsOf_mem_length hx2; rintro rfl; simp at this; omega
    simp only [fisherStep, Option.bind_eq_bind]
    rw [rw1.foldl_fmin n1, rw2.foldl_fmin n2, fmax_eq_left (u w hx1), fmax_eq_left (u' w' hx2)]
    have a := Scaled.foldl_fmin .nan hx
    have b := Scaled.foldl_fmax .zero hx
    refine Alike.bind (.getElem? hx rfl) fun x x' hx => .answer ?_
    rw [Scaled.iff_zero.1 ((hx.sub a).div (b.sub a) (j := 0) rfl)]
    exact ⟨rfl, rfl⟩
  · have e : a = a' := List.forall₂_eq_eq_eq ▸ ha
    exact .answer (by rw [e])

end Traquer.Momentum

namespace Traquer.Trend
open FP FloatLit
variable {ρ : Rounding} {k : ℝ} [ρ.Scales k] {high high' low low' close close' : List (FP ρ)}

/-- The windows of preliminary stops of cks. -/
def cksWindows {F : Type} [FloatOps F] (high low close : List F) (win1 win2 : ℕ) (c : F) : Option (List (List (F × F))) := do
  let h1 ← sliceFrom high 1
  let l1 ← sliceFrom low 1
  let hs ← windows win1 h1
  let ls ← windows win1 l1
  let a ← Volatility.atr high low close win1
  windows win2 ((zip3 hs ls (a.drop win1)).map fun (h, l, tr) => (Volatility.foldMax h - c * tr, Volatility.foldMin l + c * tr))

theorem cks_eq {F : Type} [FloatOps F] (high low close : List F) (win1 win2 : ℕ) (multiplier : Option F) :
    cks high low close win1 win2 multiplier = (usub win2 1).bind fun j => (cksWindows high low close win1 win2 (multiplier.getD 1)).bind fun ws =>
      some (List.replicate (win1 + j) (nan, nan) ++ ws.map fun w => ((w.map Prod.fst).foldl fmax 0, (w.map Prod.snd).foldl fmin maxValue)) := by
  have key : ∀ w : List (F × F), w.foldl (fun (st : F × F) (x : F × F) => (fmax st.1 x.1, fmin st.2 x.2)) (0, maxValue) =
      ((w.map Prod.fst).foldl fmax 0, (w.map Prod.snd).foldl fmin maxValue) := by
    intro w
    generalize (0 : F) = a
    generalize (maxValue : F) = b
    induction w generalizing a b with
    | nil => rfl
    | cons x w ih => rw [List.foldl_cons, ih]; rfl
  simp only [cks, cksWindows, Option.bind_eq_bind, Option.bind_assoc, key]

theorem cksWindows_units (h0 : Each (Scaled k 1) high high') (h1 : Each (Scaled k 1) low low') (h2 : Each (Scaled k 1) close close') (win1 win2 : ℕ)
    (c : FP ρ) : Alike (Each (Each (Both (Scaled k 1) (Scaled k 1)))) (cksWindows high low close win1 win2 c) (cksWindows high' low' close' win1 win2 c) := by
  simp only [cksWindows, Option.bind_eq_bind]
  refine Alike.bind (.sliceFrom h0 rfl) fun _ _ a => Alike.bind (.sliceFrom h1 rfl) fun _ _ b => Alike.bind (.windows a) fun _ _ a =>
    Alike.bind (.windows b) fun _ _ b => Alike.bind (Volatility.atr_units h0 h1 h2 win1) fun _ _ t =>
    .windows (each_map (each_zip3 a b (each_drop win1 t)) ?_)
  rintro ⟨h, l, tr⟩ ⟨h', l', tr'⟩ ⟨hh, hl, ht⟩
  exact ⟨(Scaled.foldl_fmax .nan hh).sub (Scaled.lit.mul ht rfl), (Scaled.foldl_fmin .nan hl).add (Scaled.lit.mul ht rfl)⟩

omit [ρ.Scales k] in
theorem fold_of_ne {l : List (FP ρ)} (h : l.foldl fmin maxValue ≠ maxValue) : l.foldl fmin maxValue = l.foldl fmin nan := by
  rw [foldl_fmin_start] at h ⊢
  unfold fmin at h ⊢
  split_ifs at h ⊢ <;> first | rfl | exact absurd rfl h

/-- If no short stop is `f64::MAX`, the value with which its search starts. -/
theorem cks_units (h0 : Each (Scaled k 1) high high') (h1 : Each (Scaled k 1) low low') (h2 : Each (Scaled k 1) close close') (win1 win2 : ℕ)
    (multiplier : Option (FP ρ)) (hm : ∀ out, cks high low close win1 win2 multiplier = some out → ∀ y ∈ out, y.2 ≠ maxValue)
    (hm' : ∀ out, cks high' low' close' win1 win2 multiplier = some out → ∀ y ∈ out, y.2 ≠ maxValue) :
    Alike (Each (Both (Scaled k 1) (Scaled k 1))) (cks high low close win1 win2 multiplier) (cks high' low' close' win1 win2 multiplier) := by
  have hws := cksWindows_units h0 h1 h2 win1 win2 (multiplier.getD 1)
  rw [cks_eq] at hm hm' ⊢
  rw [cks_eq]
  cases hu : usub win2 1 with
  | none => exact .panic
  | some j =>
    rw [hu] at hm hm'
    simp only [Option.bind_some] at hm hm' ⊢
    revert hm hm' hws
    generalize cksWindows high low close win1 win2 (multiplier.getD 1) = o
    generalize cksWindows high' low' close' win1 win2 (multiplier.getD 1) = o'
    intro hws hm' hm
    cases hws with
    | panic => exact .panic
    | @answer ws ws' hws =>
      refine .answer (each_append (each_replicate _ ⟨.nan, .nan⟩) (each_map (each_mem hws) ?_))
      rintro w w' ⟨hw, m1, m2⟩
      have e1 := fold_of_ne (l := w.map Prod.snd) (hm _ rfl (_, _) (List.mem_append_right _ (List.mem_map_of_mem m1)))
      have e2 := fold_of_ne (l := w'.map Prod.snd) (hm' _ rfl (_, _) (List.mem_append_right _ (List.mem_map_of_mem m2)))
      rw [e1, e2]
      exact ⟨Scaled.foldl_fmax .zero (each_map (Q := Scaled k 1) hw fun _ _ h => h.1),
        Scaled.foldl_fmin .nan (each_map (Q := Scaled k 1) hw fun _ _ h => h.2)⟩

/-- An exponential decay falls by `1 / window` per period whatever the unit: it does not commute with a change of units. -/
theorem decay_not_units : ¬ Each (Scaled 2 1) (decay ([1, 0] : List XF) 2) (decay ([2, 0] : List XF) 2) := by
  intro h
  have step : ∀ {s x : XF} {a b : ℝ}, s ⇓ a → x ⇓ b → fmax (fmax (s - 1 / flt 2) x) 0 ⇓ max (max (a - 1 / (2 : ℕ)) b) 0 := fun hs hx =>
    is_fmax (is_fmax (is_sub hs (is_div is_one (is_flt 2) (by norm_num))) hx) is_zero
  have e1 := step (step is_zero is_one) is_zero
  have e2 := step (step is_zero (is_lit 2)) is_zero
  rcases h with _ | ⟨-, _ | ⟨h, -⟩⟩
  have := congrArg val h
  rw [scaled_val] at this
  have v1 := e1.val_eq
  have v2 := e2.val_eq
  norm_num at v1 v2
  change val (fmax (fmax (_ - 1 / flt 2) _) 0) = _ * val (fmax (fmax (_ - 1 / flt 2) _) 0) at this
  rw [v1, v2] at this
  norm_num at this

end Traquer.Trend

namespace Traquer.Volatility
open FP FloatLit
variable {k : ℝ} [hk : Rounding.exact.Scales k] {high high' low low' : List XF}

/-- The Gopalakrishnan range index is a logarithm: a change of units adds a constant. -/
theorem gri_units (h : Each (Scaled k 1) high high') (g : Each (Scaled k 1) low low') (window : ℕ) (hw : 2 ≤ window) :
    Alike (Each fun y y' => y' = y + fin (Real.log k / Real.log window)) (gri high low window) (gri high' low' window) := by
  simp only [gri, Option.bind_eq_bind]
  refine Alike.bind (.usub rfl rfl) (forall_eq_rel fun j => Alike.bind (.windows h) fun hs hs' hhs => Alike.bind (.windows g) fun ls ls' hls =>
    .answer (each_append ?_ (each_map (each_zip hhs hls) ?_)))
  · exact each_replicate j rfl
  · rintro ⟨a, b⟩ ⟨a', b'⟩ ⟨ha, hb⟩
    have e := (Scaled.foldl_fmax (s := (nan : XF)) .nan ha).sub (Scaled.foldl_fmin (s := (nan : XF)) .nan hb)
    have hw' : (1 : ℝ) < (window : ℕ) := by exact_mod_cast hw
    have hl : (Traquer.ln (flt window : XF)) = fin (Real.log window) := by
      rw [show (flt window : XF) = fin (window : ℝ) from mk_exact _]
      exact ln_pos (by linarith)
    show Traquer.ln (foldMax a' - foldMin b') / Traquer.ln (flt window) = Traquer.ln (foldMax a - foldMin b) / Traquer.ln (flt window) + _
    rw [show foldMax a' - foldMin b' = _ from e, zpow_one, ln_scaled hk.pos, hl]
    exact add_div_fin (Real.log_pos hw') _ _

end Traquer.Volatility
