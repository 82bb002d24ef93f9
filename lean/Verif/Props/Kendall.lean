import Verif.Spec.Pairs
import Verif.Props.Pearson
/-!
# C44: Kendall's tau
-/

namespace Traquer
open FP FloatLit

theorem QuotIs.congr {ρ : Rounding} {a b a' b' : ℝ} {y : FP ρ} (h : QuotIs a b y) (ha : a = a') (hb : b = b') : QuotIs a' b' y := ha ▸ hb ▸ h

theorem pairsOf_map {α β : Type} (f : α → β) (l : List α) : pairsOf (l.map f) = (pairsOf l).map fun q => (f q.1, f q.2) := by
  induction l with
  | nil => rfl
  | cons x l ih => simp [pairsOf, ih, Function.comp_def]

theorem pairsOf_mem {α : Type} {l : List α} {q : α × α} (h : q ∈ pairsOf l) : q.1 ∈ l ∧ q.2 ∈ l := by
  induction l with
  | nil => simp [pairsOf] at h
  | cons x l ih =>
    simp only [pairsOf, List.mem_append, List.mem_map] at h
    rcases h with ⟨y, hy, rfl⟩ | h
    · exact ⟨by simp, by simp [hy]⟩
    · exact ⟨by simp [(ih h).1], by simp [(ih h).2]⟩

theorem pairsOf_length {α : Type} (l : List α) : ((pairsOf l).length : ℝ) = (l.length * (l.length - 1) : ℝ) / 2 := by
  induction l with
  | nil => simp [pairsOf]
  | cons x l ih =>
    simp only [pairsOf, List.length_append, List.length_map, List.length_cons, Nat.cast_add, ih, Nat.cast_one]
    ring

theorem pairsOf_pairwise {α : Type} {R : α → α → Prop} {l : List α} (h : l.Pairwise R) {q : α × α} (hq : q ∈ pairsOf l) : R q.1 q.2 := by
  induction l with
  | nil => simp [pairsOf] at hq
  | cons x l ih =>
    rw [List.pairwise_cons] at h
    simp only [pairsOf, List.mem_append, List.mem_map] at hq
    rcases hq with ⟨y, hy, rfl⟩ | hq
    · exact h.1 y hy
    · exact ih h.2 hq

end Traquer

namespace Traquer.Correlation
open FP FloatLit Distribution

theorem ltPairs_succ (n : ℕ) : ltPairs (n + 1) =
    (List.range n).map (fun j => (0, j + 1)) ++ (ltPairs n).map fun p => (p.1 + 1, p.2 + 1) := by
  simp only [ltPairs, List.range_succ_eq_map, List.flatMap_cons, List.flatMap_map, List.map_flatMap, List.drop_succ_cons,
    List.drop_zero, List.map_map, ← List.map_drop, Function.comp_def]

theorem ltPairs_pairsOf {α : Type} (l : List α) :
    (ltPairs l.length).map (fun p => (l[p.1]?, l[p.2]?)) = (pairsOf l).map fun q => (some q.1, some q.2) := by
  induction l with
  | nil => rfl
  | cons x l ih =>
    rw [List.length_cons, ltPairs_succ, pairsOf, List.map_append, List.map_append, List.map_map, List.map_map, List.map_map]
    congr 1
    refine List.ext_getElem? fun i => ?_
    simp only [List.getElem?_map]
    by_cases hi : i < l.length
    · simp [hi]
    · simp [hi]

/-- The loop of krcc, as a fold over the pairs of points. -/
def krccPt {F : Type} [FloatOps F] (s : KrccState F) (q : (F × F) × F × F) : KrccState F where
  nc := s.nc + boolF ((signum (q.1.1 - q.2.1) ==. signum (q.1.2 - q.2.2)) && !(q.1.1 ==. q.2.1))
  xyTie := s.xyTie + boolF ((q.1.1 ==. q.2.1) && (q.1.2 ==. q.2.2))
  xTie := s.xTie + boolF (q.1.1 ==. q.2.1)
  yTie := s.yTie + boolF (q.1.2 ==. q.2.2)

theorem foldlM_eq_foldl {α σ β γ : Type} {f : σ → α → Option σ} {g : σ → β → σ} {k : α → γ} {k' : β → γ} {la : List α} {lb : List β}
    (hl : la.map k = lb.map k') (h : ∀ s a b, k a = k' b → f s a = some (g s b)) (s : σ) : la.foldlM f s = some (lb.foldl g s) := by
  induction la generalizing lb s with
  | nil =>
    cases lb with
    | nil => rfl
    | cons => simp at hl
  | cons a la ih =>
    cases lb with
    | nil => simp at hl
    | cons b lb =>
      simp only [List.map_cons, List.cons.injEq] at hl
      simp only [List.foldlM_cons, h s a b hl.1, Option.bind_eq_bind, Option.bind_some, List.foldl_cons]
      exact ih hl.2 _

theorem krcc_fold {F : Type} [FloatOps F] {xw yw : List F} (h : yw.length = xw.length) (s : KrccState F) :
    (ltPairs xw.length).foldlM (krccStep xw yw) s = some ((pairsOf (xw.zip yw)).foldl krccPt s) := by
  have e := ltPairs_pairsOf (xw.zip yw)
  rw [List.length_zip, h, min_self] at e
  refine foldlM_eq_foldl e (fun s a b hk => ?_) s
  obtain ⟨⟨x, y⟩, x', y'⟩ := b
  simp only [Prod.mk.injEq, List.getElem?_zip_eq_some] at hk
  obtain ⟨⟨h1, h2⟩, h3, h4⟩ := hk
  simp only [krccStep, h1, h2, h3, h4, Option.bind_eq_bind, Option.bind_some, krccPt]

/-- What the code counts as concordant: a fall of the first series with a tie in the second is included. -/
noncomputable def codeConcordant : List ℝ → List ℝ → ℕ :=
  numPairs fun x x' y y' => (x < x' ∧ y < y') ∨ (x' < x ∧ y' ≤ y)

/-- Pairs tied in both series. -/
noncomputable def tiesXY : List ℝ → List ℝ → ℕ := numPairs fun x x' y y' => x = x' ∧ y = y'

theorem is_boolF_dec (P : Prop) [Decidable P] : (boolF (decide P) : XF) ⇓ if P then 1 else 0 := by
  simpa only [decide_eq_true_eq] using is_boolF (decide P)

theorem signum_sub {x y : XF} {a b : ℝ} (hx : x ⇓ a) (hy : y ⇓ b) (hz : a ≠ b ∨ x ≠ negz) :
    Traquer.signum (x - y) ⇓ if a < b then -1 else 1 := by
  rcases lt_trichotomy a b with h | rfl | h
  · rw [if_pos h]; exact is_signum_neg (is_sub hx hy) (by linarith)
  · rw [if_neg (lt_irrefl _)]
    rcases is_iff.1 hx with rfl | ⟨rfl, rfl⟩
    · rcases is_iff.1 hy with rfl | ⟨rfl, rfl⟩
      · exact sub_self_signum a
      · show FP.signum (FP.add (fin 0) (fin 0) : XF) ⇓ 1
        simp only [FP.add, mk_exact, add_zero]
        simpa [FP.signum, FP.sgn] using is_fin 1
    · simp at hz
  · rw [if_neg h.le.not_gt]; exact is_signum_pos (is_sub hx hy) (by linarith)

theorem krcc_counts {l : List ((XF × XF) × XF × XF)} {s : KrccState XF} {a b c d : ℝ}
    (hf : ∀ q ∈ l, q.1.1.Finite ∧ q.2.1.Finite ∧ q.1.2.Finite ∧ q.2.2.Finite)
    (hz : ∀ q ∈ l, q.1.2.val ≠ q.2.2.val ∨ q.1.2 ≠ negz)
    (h1 : s.nc ⇓ a) (h2 : s.xTie ⇓ b) (h3 : s.yTie ⇓ c) (h4 : s.xyTie ⇓ d) :
    (l.foldl krccPt s).nc ⇓ a + (l.countP fun q => decide ((q.1.1.val < q.2.1.val ∧ q.1.2.val < q.2.2.val) ∨
      (q.2.1.val < q.1.1.val ∧ q.2.2.val ≤ q.1.2.val)) : ℕ) ∧
    (l.foldl krccPt s).xTie ⇓ b + (l.countP fun q => decide (q.1.1.val = q.2.1.val) : ℕ) ∧
    (l.foldl krccPt s).yTie ⇓ c + (l.countP fun q => decide (q.1.2.val = q.2.2.val) : ℕ) ∧
    (l.foldl krccPt s).xyTie ⇓ d + (l.countP fun q => decide (q.1.1.val = q.2.1.val ∧ q.1.2.val = q.2.2.val) : ℕ) := by
  induction l generalizing s a b c d with
  | nil => simpa using ⟨h1, h2, h3, h4⟩
  | cons q l ih =>
    obtain ⟨⟨x, y⟩, x', y'⟩ := q
    obtain ⟨fx, fx', fy, fy'⟩ := hf _ (List.mem_cons_self ..)
    have hzq := hz _ (List.mem_cons_self ..)
    dsimp only at fx fx' fy fy' hzq
    have hc : ((signum (x - x') ==. signum (y - y')) && !(x ==. x')) =
        decide ((x.val < x'.val ∧ y.val < y'.val) ∨ (x'.val < x.val ∧ y'.val ≤ y.val)) := by
      rw [is_feq fx.is fx'.is]
      by_cases hx : x.val = x'.val
      · simp [hx]
      · rw [is_feq (signum_sub fx.is fx'.is (.inl hx)) (signum_sub fy.is fy'.is hzq)]
        rcases lt_or_gt_of_ne hx with h | h <;> by_cases hy : y.val < y'.val <;>
          simp [h, h.not_gt, hx, hy, not_lt.1] <;> (norm_num; try linarith)
    have k := ih (s := krccPt s ((x, y), x', y')) (a := a + if ((x.val < x'.val ∧ y.val < y'.val) ∨
        (x'.val < x.val ∧ y'.val ≤ y.val)) then 1 else 0)
      (b := b + if x.val = x'.val then 1 else 0) (c := c + if y.val = y'.val then 1 else 0)
      (d := d + if x.val = x'.val ∧ y.val = y'.val then 1 else 0)
      (fun q hq => hf q (by simp [hq])) (fun q hq => hz q (by simp [hq]))
      (by simp only [krccPt, hc]; exact is_add h1 (is_boolF_dec _))
      (by simp only [krccPt, is_feq fx.is fx'.is]; exact is_add h2 (is_boolF_dec _))
      (by simp only [krccPt, is_feq fy.is fy'.is]; exact is_add h3 (is_boolF_dec _))
      (by simp only [krccPt, is_feq fx.is fx'.is, is_feq fy.is fy'.is, ← Bool.decide_and]; exact is_add h4 (is_boolF_dec _))
    simp only [List.countP_cons, decide_eq_true_eq, Nat.cast_add, Nat.cast_ite, Nat.cast_one, Nat.cast_zero, List.foldl_cons]
    obtain ⟨k1, k2, k3, k4⟩ := k
    exact ⟨k1.congr (by ring), k2.congr (by ring), k3.congr (by ring), k4.congr (by ring)⟩

theorem numPairs_vals {ρ : Rounding} (P : ℝ → ℝ → ℝ → ℝ → Prop) [∀ a b c d, Decidable (P a b c d)] (xw yw : List (FP ρ)) :
    numPairs P (vals xw) (vals yw) =
      (pairsOf (xw.zip yw)).countP fun q => decide (P q.1.1.val q.2.1.val q.1.2.val q.2.2.val) := by
  rw [numPairs, zip_vals, pairsOf_map, List.countP_map]
  congr 1
  funext q
  simp

/-- C44: the exact value of `krcc` on a window, whatever the ties. -/
theorem krccWin_is {xw yw : List XF} {w : ℕ} (hx : Fins xw) (hy : Fins yw) (lx : xw.length = w) (ly : yw.length = w)
    (hz : (vals yw).Nodup ∨ ∀ y ∈ yw, y ≠ negz) :
    ∃ y, krccWin w xw yw = some y ∧ QuotIs
      (2 * codeConcordant (vals xw) (vals yw) + tiesX (vals xw) (vals yw) + tiesY (vals xw) (vals yw) - tiesXY (vals xw) (vals yw) -
        (w * (w - 1) : ℝ) / 2) (kendallDen (vals xw) (vals yw)) y := by
  have hf := krcc_fold (F := XF) (xw := xw) (yw := yw) (by omega) ⟨0, 0, 0, 0⟩
  rw [lx] at hf
  have hq : ∀ q ∈ pairsOf (xw.zip yw), q.1.1.Finite ∧ q.2.1.Finite ∧ q.1.2.Finite ∧ q.2.2.Finite := fun q hq => by
    obtain ⟨a, b⟩ := pairsOf_mem hq
    exact ⟨hx _ (zip_mem a).1, hx _ (zip_mem b).1, hy _ (zip_mem a).2, hy _ (zip_mem b).2⟩
  have hzq : ∀ q ∈ pairsOf (xw.zip yw), q.1.2.val ≠ q.2.2.val ∨ q.1.2 ≠ negz := fun q hq => by
    rcases hz with hz | hz
    · left
      have h1 : (xw.zip yw).Pairwise fun p p' => p.2.val ≠ p'.2.val := by
        have e : (xw.zip yw).map (fun p => p.2.val) = vals yw := by
          rw [vals, ← List.map_snd_zip (l₁ := xw) (l₂ := yw) (by omega), List.map_map]
          congr 1
          simp [List.map_snd_zip (l₁ := xw) (l₂ := yw) (by omega)]
        rw [← e] at hz
        exact List.pairwise_map.1 hz
      exact pairsOf_pairwise h1 hq
    · exact .inr (hz _ (zip_mem (pairsOf_mem hq).1).2)
  obtain ⟨k1, k2, k3, k4⟩ := krcc_counts (s := ⟨0, 0, 0, 0⟩) hq hzq is_zero is_zero is_zero is_zero
  rw [zero_add] at k1 k2 k3 k4
  rw [← numPairs_vals fun x x' y y' => (x < x' ∧ y < y') ∨ (x' < x ∧ y' ≤ y)] at k1
  rw [← numPairs_vals fun x x' _ _ => x = x'] at k2
  rw [← numPairs_vals fun _ _ y y' => y = y'] at k3
  rw [← numPairs_vals fun x x' y y' => x = x' ∧ y = y'] at k4
  have ht : (flt (w * (w - 1)) * (0.5 : XF)) ⇓ (w * (w - 1) : ℝ) / 2 := by
    refine (is_mul (is_flt _) (is_sci 5 true 1)).congr ?_
    cases w with
    | zero => simp
    | succ n => push_cast; simp; ring
  set N := (w * (w - 1) : ℝ) / 2 with hN
  have hnum := is_sub k1 (is_add (is_sub (is_sub (is_sub ht k1) k2) k3) k4)
  have hle : ∀ P, (numPairs P (vals xw) (vals yw) : ℝ) ≤ N := fun P => by
    have := pairsOf_length ((vals xw).zip (vals yw))
    rw [List.length_zip, vals_length, vals_length, lx, ly, min_self, ← hN] at this
    rw [← this, numPairs]
    exact_mod_cast List.countP_le_length
  have hd := is_sqrt (is_mul (is_sub ht k2) (is_sub ht k3)) (mul_nonneg (sub_nonneg.2 (hle _)) (sub_nonneg.2 (hle _)))
  refine ⟨_, by simp only [krccWin, hf, Option.bind_eq_bind, Option.bind_some]; rfl, ?_⟩
  refine (quotIs hnum hd).congr ?_ (by rw [kendallDen, vals_length, lx]; rfl)
  simp only [codeConcordant, tiesX, tiesY, tiesXY]
  ring

theorem countP_add3 {α : Type} {l : List α} {p q r : α → Bool} (h : ∀ x ∈ l, (p x).toNat + (q x).toNat + (r x).toNat = 1) :
    l.countP p + l.countP q + l.countP r = l.length := by
  induction l with
  | nil => rfl
  | cons x l ih =>
    have h1 := h x (by simp)
    have h2 := ih fun y hy => h y (by simp [hy])
    simp only [List.countP_cons, List.length_cons]
    revert h1
    cases p x <;> cases q x <;> cases r x <;> simp <;> omega

theorem pairs_ne {xs ys : List ℝ} (h : ys.Nodup) {q : (ℝ × ℝ) × ℝ × ℝ} (hq : q ∈ pairsOf (xs.zip ys)) (hl : ys.length = xs.length) :
    q.1.2 ≠ q.2.2 := by
  have h1 : (xs.zip ys).Pairwise fun p p' => p.2 ≠ p'.2 := by
    rw [← zip_snd hl] at h
    exact List.pairwise_map.1 h
  exact pairsOf_pairwise h1 hq

/-- Without ties in the second series every pair is concordant, discordant or tied in the first. -/
theorem pairs_split {xs ys : List ℝ} (h : ys.Nodup) (hl : ys.length = xs.length) :
    codeConcordant xs ys = concordant xs ys ∧ tiesY xs ys = 0 ∧ tiesXY xs ys = 0 ∧
      (concordant xs ys + discordant xs ys + tiesX xs ys : ℝ) = (xs.length * (xs.length - 1) : ℝ) / 2 := by
  refine ⟨?_, ?_, ?_, ?_⟩
  · refine List.countP_congr fun q hq => ?_
    have := pairs_ne h hq hl
    simp only [decide_eq_true_eq]
    rw [mul_pos_iff]
    constructor
    · rintro (⟨h1, h2⟩ | ⟨h1, h2⟩)
      · right; constructor <;> linarith
      · left; refine ⟨by linarith, ?_⟩; have := lt_of_le_of_ne h2 (Ne.symm this); linarith
    · rintro (⟨h1, h2⟩ | ⟨h1, h2⟩)
      · right; constructor <;> linarith
      · left; constructor <;> linarith
  · refine List.countP_eq_zero.2 fun q hq => ?_
    simpa using pairs_ne h hq hl
  · refine List.countP_eq_zero.2 fun q hq => ?_
    simpa using fun _ => pairs_ne h hq hl
  · have := pairsOf_length (xs.zip ys)
    rw [List.length_zip, hl, min_self] at this
    rw [← this, concordant, discordant, tiesX, numPairs, numPairs, numPairs]
    have key := countP_add3 (l := pairsOf (xs.zip ys)) (p := fun q => decide (0 < (q.1.1 - q.2.1) * (q.1.2 - q.2.2)))
      (q := fun q => decide ((q.1.1 - q.2.1) * (q.1.2 - q.2.2) < 0)) (r := fun q => decide (q.1.1 = q.2.1)) fun q hq => by
        have hy : q.1.2 - q.2.2 ≠ 0 := sub_ne_zero.2 (pairs_ne h hq hl)
        by_cases hx : q.1.1 = q.2.1
        · simp [hx]
        · have hx' : q.1.1 - q.2.1 ≠ 0 := sub_ne_zero.2 hx
          rcases lt_or_gt_of_ne (mul_ne_zero hx' hy) with h | h <;> simp [h, h.not_gt, hx]
    exact_mod_cast (by convert key)

theorem KendallIs.range {xs ys : List ℝ} {y : XF} (h : KendallIs xs ys y) (hl : ys.length = xs.length) (hd : ys.Nodup) : InRange (-1) 1 y := by
  obtain ⟨-, h1, -, h3⟩ := pairs_split hd hl
  have e : kendallDen xs ys = Real.sqrt ((concordant xs ys + discordant xs ys : ℝ) * (concordant xs ys + discordant xs ys + tiesX xs ys)) := by
    rw [kendallDen, h1, ← h3]; congr 1; push_cast; ring
  have c0 : (0 : ℝ) ≤ concordant xs ys := Nat.cast_nonneg _
  have d0 : (0 : ℝ) ≤ discordant xs ys := Nat.cast_nonneg _
  have t0 : (0 : ℝ) ≤ tiesX xs ys := Nat.cast_nonneg _
  have hb : |(concordant xs ys : ℝ) - discordant xs ys| ≤ kendallDen xs ys := by
    rw [e]
    refine Real.le_sqrt_of_sq_le ?_
    rw [sq_abs]
    nlinarith [mul_nonneg c0 d0, mul_nonneg c0 t0, mul_nonneg d0 t0]
  refine QuotIs.inRange h (fun h0 => ?_) fun h0 => ?_
  · rw [h0] at hb; exact abs_nonpos_iff.1 hb
  · have hp : 0 < kendallDen xs ys := lt_of_le_of_ne (Real.sqrt_nonneg _) (Ne.symm h0)
    rw [abs_le] at hb
    exact ⟨by rw [le_div_iff₀ hp]; linarith, by rw [div_le_one hp]; exact hb.2⟩

section
variable (s1 s2 : List XF) (w : ℕ) (h : s2.length = s1.length) (hw : 1 ≤ w) (hn : w ≤ s1.length + 1) (h1 : Fins s1) (h2 : Fins s2)
include h hw hn h1 h2

/-- C44: if no window of the second series has ties, `krcc` is Kendall's tau-b of the last `w` points (the first series may have
ties). -/
theorem krcc_reports (hd : ∀ i, w ≤ i + 1 → i < s1.length → (recent (vals s2) w i).Nodup) :
    ReportsP s1.length (w - 1) (fun i => KendallIs (recent (vals s1) w i) (recent (vals s2) w i)) (krcc s1 s2 w) := by
  refine (krcc_aligned s1 s2 w h hw hn).reportsP fun out e i y hi hy => ?_
  have := items_windows2 (f := fun ((xw, yw) : List XF × List XF) => krccWin w xw yw) (d := (FP.nan : XF))
    (P := fun i => KendallIs (recent (vals s1) w i) (recent (vals s2) w i)) hw h hn fun i hi hl => by
      have lx : (vals (recent s1 w i)).length = w := by rw [vals_length]; exact recent_length hi hl
      have ly : (vals (recent s2 w i)).length = w := by rw [vals_length]; exact recent_length hi (by omega)
      have hd' := hd i hi hl
      rw [← recent_vals] at hd'
      obtain ⟨y, hy, hq⟩ := krccWin_is (w := w) (h1.recent w i) (h2.recent w i) (by simpa using lx) (by simpa using ly) (.inl hd')
      refine ⟨y, hy, ?_⟩
      rw [← recent_vals, ← recent_vals]
      obtain ⟨e1, e2, e3, e4⟩ := pairs_split hd' (by rw [lx, ly])
      rw [lx] at e4
      rw [KendallIs]
      rw [e1, e2, e3, ← e4] at hq
      refine hq.congr ?_ rfl
      push_cast
      ring
  obtain ⟨o, eo, -, ho⟩ := this
  have e' : krcc s1 s2 w = some o := by
    rw [← eo]
    run_model [krcc]
    rfl
  cases e.symm.trans e'
  exact ho i y hi hy

/-- C44: if no window of the second series has ties, `krcc` is NaN or between -1 and 1. -/
theorem krcc_range (hd : ∀ i, w ≤ i + 1 → i < s1.length → (recent (vals s2) w i).Nodup) :
    ReportsP s1.length (w - 1) (fun _ => InRange (-1) 1) (krcc s1 s2 w) :=
  (krcc_reports s1 s2 w h hw hn h1 h2 hd).mono fun i y hi hl hy => KendallIs.range hy (by
    rw [recent_length (by omega) (by simp; omega), recent_length (by omega) (by simp; omega)]) (hd i (by omega) hl)
end

/-- The value of `krcc` on one full window. -/
theorem krcc_one {xs ys : List ℝ} (h : ys.length = xs.length) (hw : 1 ≤ xs.length) :
    ∃ y : XF, krcc (xs.map fin) (ys.map fin) xs.length = some (nans (xs.length - 1) ++ [y]) ∧ QuotIs
      (2 * codeConcordant xs ys + tiesX xs ys + tiesY xs ys - tiesXY xs ys - (xs.length * (xs.length - 1) : ℝ) / 2) (kendallDen xs ys) y := by
  obtain ⟨y, e, hy⟩ := krccWin_is (xw := xs.map fin) (yw := ys.map fin) (w := xs.length) (fins_map_fin _) (fins_map_fin _) (by simp) (by simp [h])
    (.inr (by simp))
  rw [vals_map_fin, vals_map_fin] at hy
  refine ⟨y, ?_, hy⟩
  have wo : ∀ l : List XF, 1 ≤ l.length → windowsOf l.length l = [l] := fun l hl => by
    rw [windowsOf]; simp
  have w1 := wo (xs.map fin) (by simpa using hw)
  have w2 := wo (ys.map fin) (by simp; omega)
  rw [List.length_map] at w1 w2
  rw [h] at w2
  run_model [krcc]
  simp only [w1, w2, List.zip_cons_cons, List.zip_nil_right]
  simp [mapP, e]

/-- C44, where the code and its documentation part: with ties in the second series `krcc` is not Kendall's tau-b. For the series 3, 2, 1
and 1, 1, 2, of which no pair is concordant and two are discordant, it reports 0; with the arguments swapped it reports `-2/√6`. -/
theorem krcc_ties_wrong : concordant [3, 2, 1] [1, 1, 2] = 0 ∧ discordant [3, 2, 1] [1, 1, 2] = 2 ∧
    (∃ y : XF, krcc [fin 3, fin 2, fin 1] [fin 1, fin 1, fin 2] 3 = some [FP.nan, FP.nan, y] ∧ y ⇓ 0) ∧
    ∃ y : XF, krcc [fin 1, fin 1, fin 2] [fin 3, fin 2, fin 1] 3 = some [FP.nan, FP.nan, y] ∧ y ⇓ -2 / Real.sqrt 6 := by
  refine ⟨?_, ?_, ?_, ?_⟩
  · norm_num [concordant, numPairs, pairsOf]
  · simp [discordant, numPairs, pairsOf]; norm_num
  · obtain ⟨y, e, h⟩ := krcc_one (xs := [3, 2, 1]) (ys := [1, 1, 2]) rfl (by simp)
    refine ⟨y, e, (h.1 ?_).congr ?_⟩
    · simp [kendallDen, tiesX, tiesY, numPairs, pairsOf]; norm_num
    · simp [codeConcordant, kendallDen, tiesX, tiesY, tiesXY, numPairs, pairsOf]; norm_num
  · obtain ⟨y, e, h⟩ := krcc_one (xs := [1, 1, 2]) (ys := [3, 2, 1]) rfl (by simp)
    refine ⟨y, e, (h.1 ?_).congr ?_⟩
    · simp [kendallDen, tiesX, tiesY, numPairs, pairsOf]; norm_num
    · simp [codeConcordant, kendallDen, tiesX, tiesY, tiesXY, numPairs, pairsOf]; norm_num

/-- C44, where the code and its documentation part: with ties in the second series `krcc` can exceed 1. -/
theorem krcc_ties_above_one : ∃ (y : XF) (r : ℝ), krcc [fin 3, fin 2, fin 1] [fin 2, fin 2, fin 1] 3 = some [FP.nan, FP.nan, y] ∧ y ⇓ r ∧ 1 < r := by
  obtain ⟨y, e, h⟩ := krcc_one (xs := [3, 2, 1]) (ys := [2, 2, 1]) rfl (by simp)
  refine ⟨y, 4 / Real.sqrt 6, e, (h.1 ?_).congr ?_, ?_⟩
  · simp [kendallDen, tiesX, tiesY, numPairs, pairsOf]; norm_num
  · simp [codeConcordant, kendallDen, tiesX, tiesY, tiesXY, numPairs, pairsOf]; norm_num
  · rw [lt_div_iff₀ (by positivity), one_mul, Real.sqrt_lt' (by norm_num)]; norm_num

/-- C44, where the code and its documentation part: a constant second series can give an infinite `krcc`. -/
theorem krcc_ties_infinite : ∃ b, krcc [fin 2, fin 1] [fin 1, fin 1] 2 = some [FP.nan, (FP.inf b : XF)] := by
  obtain ⟨y, e, h⟩ := krcc_one (xs := [2, 1]) (ys := [1, 1]) rfl (by simp)
  obtain ⟨b, rfl⟩ := h.2.2 (by norm_num [kendallDen, tiesX, tiesY, numPairs, pairsOf]) (by
    norm_num [codeConcordant, tiesX, tiesY, tiesXY, numPairs, pairsOf])
  exact ⟨b, e⟩

example : ReportsP 4 2 (fun _ => InRange (-1) 1) (krcc ([1, 1, 2, 5].map (fin (ρ := Rounding.exact))) ([3, 4, 2, 1].map fin) 3) :=
  krcc_range _ _ _ rfl (by norm_num) (by simp) (fins_map_fin _) (fins_map_fin _) fun i h1 h2 => by
    simp only [List.length_map, List.length_cons, List.length_nil] at h2
    rw [vals_map_fin]
    rcases (by omega : i = 2 ∨ i = 3) with rfl | rfl <;> norm_num [recent]

end Traquer.Correlation
