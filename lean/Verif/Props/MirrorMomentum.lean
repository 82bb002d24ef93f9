import Verif.Props.MirrorBars
import Verif.Model.Momentum
/-!
# C80: the mirror image, momentum
-/

namespace Traquer.Momentum
open FP FloatLit Traquer.Volatility
variable {ρ : Rounding} {p : Parity} {data data' high low close openp : List (FP ρ)}

theorem macd_mirror (h : Each (Par p) data data') (short long : ℕ) :
    Alike (Each (Par p)) (macd data short long) (macd data' short long) := by
  parity [macd]

theorem apo_mirror (h : Each (Par p) data data') (short long : ℕ) :
    Alike (Each (Par p)) (apo data short long) (apo data' short long) := by
  parity [apo]

theorem cmo_mirror (h : Each (Par .odd) data data') (window : ℕ) :
    Alike (Each (Par .odd)) (cmo data window) (cmo data' window) := by
  parity [cmo]

theorem qstick_mirror {o o' c c' : List (FP ρ)} (ho : Each (Par p) o o') (hc : Each (Par p) c c') (window : ℕ) :
    Alike (Each (Par p)) (qstick o c window) (qstick o' c' window) := by
  parity [qstick]

theorem tsi_mirror (h : Each (Par p) data data') (short long : ℕ) :
    Alike (Each (Par p)) (tsi data short long) (tsi data' short long) := by
  parity [tsi]

theorem gator_mirror (h : Each (Par p) data data') (jawWin jawOffset teethWin teethOffset lipsWin lipsOffset : ℕ) :
    Alike (Each (Both (Par .eq) (Par .eq))) (gator data jawWin jawOffset teethWin teethOffset lipsWin lipsOffset)
      (gator data' jawWin jawOffset teethWin teethOffset lipsWin lipsOffset) := by
  parity [gator, Trend.alligator, Trend.alligatorLine]

/-- The forecast oscillator of the opposite prices is the same percentage. -/
theorem cfo_mirror (window : ℕ) : Alike (Each SameNumber) (cfo data window) (cfo (mirror data) window) := by
  simp only [cfo, Option.bind_eq_bind]
  refine Alike.bind (Smooth.lrf_mirror (each_mirror_odd data) window) fun t t' ht => .answer (each_map (each_zip ht (each_mirror data)) ?_)
  rintro ⟨x, y⟩ ⟨x', y'⟩ ⟨e1, e2⟩
  exact Par.div_flip (Par.lit.mul (e2.odd.sub e1) rfl) e2

/-- The rate of change of the opposite prices is the same percentage. -/
theorem roc_mirror (window : ℕ) : Alike (Each SameNumber) (roc data window) (roc (mirror data) window) := by
  simp only [roc, Option.bind_eq_bind]
  refine Alike.bind Alike.same (forall_eq_rel fun k => Alike.bind (Alike.windows (each_mirror data)) fun ws ws' hw =>
    Alike.bind (P := Each (Par .same)) (Alike.mapP hw fun w w' e => ?_) fun r r' hr => .answer (each_append (each_par_nans (p := .same) k) hr))
  refine Alike.bind (Alike.getElem? e (by rw [e.length])) fun x x' hx => Alike.bind (Alike.getElem? e rfl) fun y y' hy => .answer ?_
  exact Par.mul (p := .eq) .lit ((Par.div_flip hx.odd hy).sub Par.lit.same) rfl

/-- Elder's bull and bear power change places. -/
theorem elder_ray_mirror (window : ℕ) :
    Alike (Each fun b b' => Opposite b.1 b'.2 ∧ Opposite b.2 b'.1)
      (elder_ray high low close window) (elder_ray (mirror low) (mirror high) (mirror close) window) := by
  simp only [elder_ray, Option.bind_eq_bind]
  refine Alike.bind (Smooth.ewma_mirror (each_mirror_odd close) window) fun m m' hm => .answer
    (each_map (each_zip3_cross (each_mirror_odd high) (each_mirror_odd low) hm) ?_)
  rintro ⟨x, y, z⟩ ⟨x', y', z'⟩ ⟨e1, e2, e3⟩
  exact ⟨e1.sub e3, e2.sub e3⟩

theorem pgo_mirror (window : ℕ) :
    Alike (Each Opposite) (pgo high low close window) (pgo (mirror low) (mirror high) (mirror close) window) := by
  simp only [pgo, Option.bind_eq_bind]
  rw [trueRange_mirror]
  refine Alike.bind Alike.same (forall_eq_rel fun t => Alike.bind Alike.same (forall_eq_rel fun a =>
    Alike.bind (Smooth.sma_mirror (each_mirror_odd close) window) fun m m' hm => .answer
      (each_map (each_zip3 (each_mirror_odd close) hm each_eq) ?_)))
  rintro ⟨x, y, z⟩ ⟨x', y', z'⟩ ⟨e1, e2, e3⟩
  exact Par.div (p := .odd) (e1.sub e2) e3

theorem bal_power_mirror (window : ℕ) :
    Alike (Each Opposite) (bal_power openp high low close window) (bal_power (mirror openp) (mirror low) (mirror high) (mirror close) window) := by
  simp only [bal_power]
  refine Smooth.ewma_mirror (p := .odd) (each_map (each_zip4_mid (each_mirror openp) (each_mirror high) (each_mirror low) (each_mirror close)) ?_) window
  rintro ⟨o, x, y, z⟩ ⟨o', x', y', z'⟩ ⟨e0, e1, e2, e3⟩
  exact Par.div (p := .odd) (e3.odd.sub e0.odd) (sub_flip e1 e2).symm

theorem vigorSmooth_mirror (h : Each (Par p) data data') : Each (Par p) (vigorSmooth data) (vigorSmooth data') := by
  refine each_map (each_windowsOf h) fun w w' hw => ?_
  rcases hw with _ | ⟨a, _ | ⟨b, _ | ⟨c, _ | ⟨d, _ | ⟨e, hw⟩⟩⟩⟩⟩
  case cons.cons.cons.cons.nil => exact ((d.add (Par.lit.mul c rfl)).add (Par.lit.mul b rfl) |>.add a).div Par.lit
  all_goals exact Par.nan

theorem relative_vigor_mirror (window : ℕ) :
    Alike (Each Opposite) (relative_vigor openp high low close window)
      (relative_vigor (mirror openp) (mirror low) (mirror high) (mirror close) window) := by
  simp only [relative_vigor, Option.bind_eq_bind]
  rw [ranges_mirror]
  refine Alike.bind (Smooth.sma_mirror (p := .odd) (vigorSmooth_mirror (each_map (each_zip (each_mirror_odd openp) (each_mirror_odd close)) ?_)) window)
    fun n n' hn => Alike.bind Alike.same (forall_eq_rel fun d => .answer (each_append (each_par_nans (p := .odd) 3) (each_map (each_zip hn each_eq) ?_)))
  · rintro ⟨x, y⟩ ⟨x', y'⟩ ⟨e1, e2⟩
    exact Par.sub (p := .odd) e2 e1
  · rintro ⟨x, y⟩ ⟨x', y'⟩ ⟨e1, e2⟩
    exact Par.div (p := .odd) e1 e2

theorem cci_mirror (window : ℕ) :
    Alike (Each Opposite) (cci high low close window) (cci (mirror low) (mirror high) (mirror close) window) := by
  have ht : Each (Par .odd) ((zip3 high low close).map fun (x : FP ρ × FP ρ × FP ρ) => (x.1 + x.2.1 + x.2.2) / 3)
      ((zip3 (mirror low) (mirror high) (mirror close)).map fun (x : FP ρ × FP ρ × FP ρ) => (x.1 + x.2.1 + x.2.2) / 3) := by
    refine each_map (each_zip3_cross (each_mirror_odd _) (each_mirror_odd _) (each_mirror_odd _)) ?_
    rintro ⟨x, y, z⟩ ⟨x', y', z'⟩ ⟨e1, e2, e3⟩
    exact ((Par.add_cross e1 e2).add e3).div .lit
  simp only [cci, Option.bind_eq_bind]
  revert ht
  generalize (zip3 high low close).map _ = t
  generalize (zip3 (mirror low) (mirror high) (mirror close)).map _ = t'
  intro ht
  refine Alike.bind Alike.same (forall_eq_rel fun k => Alike.bind (Alike.windows ht) fun ws ws' hw =>
    Alike.bind (P := Each (Par .odd)) (Alike.mapP hw fun w w' e => ?_) fun r r' hr => .answer (each_append (each_par_nans (p := .odd) k) hr))
  have hs : Par .odd (fsum w / flt window) (fsum w' / flt window) := (Par.fsum e).div .lit
  refine Alike.bind (Alike.getLast? e) fun x x' hx => .answer ?_
  refine (hx.sub hs).div (Par.mul .lit (Par.div (foldl_rel (X := Par .eq) .zero e fun _ _ h1 _ _ h2 => h1.add (h2.sub hs).fabs) .lit) rfl)

/-- The midpoints of two-bar extremes -/
theorem deli_mirror (window : ℕ) : Alike (Each Opposite) (deli high low window) (deli (mirror low) (mirror high) window) := by
  have hq : Each (Par .odd) (((pairs high).zip (pairs low)).map fun (x : (FP ρ × FP ρ) × (FP ρ × FP ρ)) => (fmax x.1.1 x.1.2 + fmin x.2.1 x.2.2) / 2)
      (((pairs (mirror low)).zip (pairs (mirror high))).map fun (x : (FP ρ × FP ρ) × (FP ρ × FP ρ)) => (fmax x.1.1 x.1.2 + fmin x.2.1 x.2.2) / 2) := by
    refine each_map (each_zip_cross (each_pairs (each_mirror_odd high)) (each_pairs (each_mirror_odd low))) ?_
    rintro ⟨⟨x, y⟩, z, w⟩ ⟨⟨x', y'⟩, z', w'⟩ ⟨⟨e1, e2⟩, e3, e4⟩
    exact (Par.add_cross (Par.fmax_odd e1 e2) (Par.fmin_odd e3 e4)).div .lit
  show Alike (Each (Par .odd)) _ _
  simp only [deli, Option.bind_eq_bind]
  revert hq
  generalize ((pairs high).zip (pairs low)).map _ = t
  generalize ((pairs (mirror low)).zip (pairs (mirror high))).map _ = t'
  intro ht
  repeat' parity_step

/-- The greater of two distances. -/
theorem fmax_fabs_comm (x y : FP ρ) : fmax (fabs x) (fabs y) = fmax (fabs y) (fabs x) := by
  have := fmax_right_comm (a := FP.nan) (b := fabs x) (c := fabs y) fun h1 h2 h3 => fabs_ext h3 h1 h2
  have e : ∀ z : FP ρ, fmax FP.nan z = z := fun z => rfl
  rwa [e, e] at this

/-- One term of the swing index. -/
theorem swingTerm_mirror {limit prevo o h l prevc c prevo' o' h' l' prevc' c' : FP ρ} (h1 : Flip prevo prevo') (h2 : Flip o o') (h3 : Flip h l')
    (h4 : Flip l h') (h5 : Flip prevc prevc') (h6 : Flip c c') :
    Par .odd (swingTerm limit prevo o h l prevc c) (swingTerm limit prevo' o' h' l' prevc' c') := by
  have e1 : fabs (h' - prevc') = fabs (l - prevc) := (h4.odd.sub h5.odd).fabs.symm
  have e2 : fabs (l' - prevc') = fabs (h - prevc) := (h3.odd.sub h5.odd).fabs.symm
  have e3 := sub_flip h3 h4
  have e4 : fabs (prevc' - prevo') = fabs (prevc - prevo) := (h5.odd.sub h1.odd).fabs.symm
  simp only [swingTerm]
  rw [e1, e2, e3, e4, fmax_fabs_comm (l - prevc)]
  have hr : ∀ m r3 r4 : FP ρ, (if fabs (l - prevc) ==. m then fabs (l - prevc) - fabs (h - prevc) / 2 + r4
      else if fabs (h - prevc) ==. m then fabs (h - prevc) - fabs (l - prevc) / 2 + r4 else r3 + r4)
      = (if fabs (h - prevc) ==. m then fabs (h - prevc) - fabs (l - prevc) / 2 + r4
      else if fabs (l - prevc) ==. m then fabs (l - prevc) - fabs (h - prevc) / 2 + r4 else r3 + r4) := by
    intro m r3 r4
    by_cases a : (fabs (l - prevc) ==. m) = true
    · by_cases b : (fabs (h - prevc) ==. m) = true
      · have : fabs (l - prevc) = fabs (h - prevc) := by
          change FP.feq _ _ = true at a b
          simp only [FP.feq, Bool.and_eq_true, Bool.not_eq_true', decide_eq_true_eq] at a b
          exact fabs_ext (a.2.trans b.2.symm) a.1.1 b.1.1
        rw [this]
      · rw [if_pos a, if_neg b, if_pos a]
    · rw [if_neg a]
      by_cases b : (fabs (h - prevc) ==. m) = true
      · rw [if_pos b, if_pos b]
      · rw [if_neg b, if_neg b, if_neg a]
  rw [hr]
  have hn : Par .odd (c - prevc + (c - o) / 2 + (prevc - prevo) / 4) (c' - prevc' + (c' - o') / 2 + (prevc' - prevo') / 4) :=
    ((h6.odd.sub h5.odd).add ((h6.odd.sub h2.odd).div .lit)).add ((h5.odd.sub h1.odd).div .lit)
  exact (((hn.div .lit).mul .lit rfl).mul .lit rfl).div .lit

theorem swing_mirror (limit : FP ρ) : Alike (Each (Par .odd)) (swing openp high low close limit)
    (swing (mirror openp) (mirror low) (mirror high) (mirror close) limit) := by
  simp only [swing, Option.bind_eq_bind]
  have ho := each_mirror openp
  have hh := each_mirror high
  have hl := each_mirror low
  have hc := each_mirror close
  refine Alike.bind (Alike.usub ho.length rfl) (forall_eq_rel fun n => Alike.bind (Alike.sliceTo ho rfl) fun po po' hpo =>
    Alike.bind (Alike.sliceFrom ho rfl) fun o o' ho1 => Alike.bind_cross (Alike.sliceFrom hh rfl) (Alike.sliceFrom hl rfl) fun h l' h1 l h' h2 =>
    Alike.bind (Alike.usub hc.length rfl) (forall_eq_rel fun n => Alike.bind (Alike.sliceTo hc rfl) fun pc pc' hpc =>
    Alike.bind (Alike.sliceFrom hc rfl) fun c c' hc1 => .answer (each_map (each_zip6_mid hpo ho1 h1 h2 hpc hc1) ?_)))
  rintro ⟨po, o, h, l, pc, c⟩ ⟨po', o', h', l', pc', c'⟩ ⟨e1, e2, e3, e4, e5, e6⟩
  exact swingTerm_mirror e1 e2 e3 e4 e5 e6

/-- The swing index changes sign. -/
theorem si_mirror (limit : FP ρ) : Alike (Each Opposite) (si openp high low close limit)
    (si (mirror openp) (mirror low) (mirror high) (mirror close) limit) := by
  simp only [si, Option.bind_eq_bind]
  exact Alike.bind (swing_mirror limit) fun s s' hs => .answer (each_cons (P := Par .odd) .nan hs)

/-- The oscillator changes sign, the width of the band stays. The hypothesis says that the constant of the code does not round to zero
(examples below: exact arithmetic and `f64`). -/
theorem rainbow_mirror (hr : ((0 : FP ρ) <. 0.000001) = true) (h : Each (Par .odd) data data') (window lookback : ℕ) :
    Alike (Each fun b b' => Opposite b.1 b'.1 ∧ SameNumber b.2 b'.2) (rainbow data window lookback) (rainbow data' window lookback) := by
  have hchain : ∀ (n : ℕ) {l l' : List (FP ρ)}, Each (Par .odd) l l' → Alike (Each (Each (Par .odd))) (smaChain window n l) (smaChain window n l') := by
    intro n
    induction n with
    | zero => exact fun _ => .answer .nil
    | succ n ih =>
      intro l l' hl
      simp only [smaChain, Option.bind_eq_bind]
      exact Alike.bind (Smooth.sma_mirror hl window) fun m m' hm => Alike.bind (ih hm) fun r r' hr => .answer (.cons hm hr)
  have e : Par .odd (-maxValue : FP ρ) maxValue := Flip.odd (neg_neg' _).symm
  have e' : Par .odd (maxValue : FP ρ) (-maxValue) := Flip.odd rfl
  have hpos : ∀ {x y : FP ρ}, SameNumber x y → fmax x 0.000001 = fmax y 0.000001 := by
    intro x y hxy
    refine SameNumber.congr_eq (f := fun x => fmax x 0.000001) ?_ hxy
    have h0 : (negz <. (0.000001 : FP ρ)) = true := by
      exact (SameNumber.lt (.zeros (.inl rfl) (.inr zero_lit)) (.refl _)).trans hr
    have h1 : (fin 0 <. (0.000001 : FP ρ)) = true := by rw [zero_lit] at hr; exact hr
    have h2 : isNaN (0.000001 : FP ρ) = false := by
      change FP.lt _ _ = true at hr
      simp only [FP.lt, Bool.and_eq_true, Bool.not_eq_true'] at hr
      exact hr.1.2
    show fmax negz 0.000001 = fmax (fin 0) 0.000001
    rw [fmax, fmax, h0, h1, h2]
    rfl
  simp only [rainbow, Option.bind_eq_bind]
  refine Alike.bind (hchain 10 h) fun s s' hs => Alike.bind Alike.same (forall_eq_rel fun k => ?_)
  rw [h.length]
  refine Alike.bind (P := Each fun b b' => Opposite b.1 b'.1 ∧ SameNumber b.2 b'.2) (Alike.mapP each_eq (forall_eq_rel fun i => ?_)) fun r r' hr => .answer
    (each_append (each_replicate _ ⟨Par.nan (p := .odd), Par.nan (p := .same)⟩) hr)
  refine Alike.bind (P := Each (Par .odd)) (Alike.mapP hs fun a a' ha => Alike.getElem? ha rfl) fun v v' hv => ?_
  have f1 := foldl_rel (X := fun (s s' : FP ρ × FP ρ × FP ρ) => Par .odd s.1 s'.1 ∧ Par .odd s.2.1 s'.2.2 ∧ Par .odd s.2.2 s'.2.1) (P := Par .odd)
      (f := fun (st : FP ρ × FP ρ × FP ρ) val => (st.1 + val, fmax st.2.1 val, fmin st.2.2 val))
      (g := fun (st : FP ρ × FP ρ × FP ρ) val => (st.1 + val, fmax st.2.1 val, fmin st.2.2 val))
      (s := (0, -maxValue, maxValue)) (t := (0, -maxValue, maxValue)) ⟨.zero, e, e'⟩ hv
      fun s s' h1 x x' hx => ⟨h1.1.add hx, h1.2.1.fmax_odd hx, h1.2.2.fmin_odd hx⟩
  refine Alike.bind Alike.same (forall_eq_rel fun lb => Alike.bind Alike.same (forall_eq_rel fun st => Alike.bind (Alike.sliceTo h rfl) fun u u' hu => ?_))
  have f2 := foldl_rel (X := fun (s s' : FP ρ × FP ρ) => Par .odd s.1 s'.2 ∧ Par .odd s.2 s'.1) (P := Par .odd)
      (f := fun (st : FP ρ × FP ρ) val => (fmax st.1 val, fmin st.2 val)) (g := fun (st : FP ρ × FP ρ) val => (fmax st.1 val, fmin st.2 val))
      (s := (-maxValue, maxValue)) (t := (-maxValue, maxValue)) ⟨e, e'⟩ (each_drop st hu)
      fun s s' h1 x x' hx => ⟨h1.1.fmax_odd hx, h1.2.fmin_odd hx⟩
  refine Alike.bind (Alike.getElem? h rfl) fun x x' hx => .answer ?_
  dsimp only at f1 f2 ⊢
  rw [hpos (Par.sub_swap f2.1 f2.2)]
  refine ⟨Par.div (p := .odd) (Par.lit.mul (hx.sub (f1.1.div .lit)) rfl) .lit, ?_⟩
  exact Par.div (p := .same) (Par.lit.mul (Par.sub_swap f1.2.1 f1.2.2) rfl) .lit

/-- The Coppock curve of the opposite prices is the same. -/
theorem coppock_mirror (window short long : ℕ) :
    Alike (Each SameNumber) (coppock data window short long) (coppock (mirror data) window short long) := by
  have h := each_mirror data
  simp only [coppock, Option.bind_eq_bind]
  rw [← h.length]
  refine Alike.bind (P := Each (Par .same)) (Alike.mapP each_eq (forall_eq_rel fun i => ?_)) fun r r' hr =>
    Alike.bind (Smooth.wma_mirror hr window) fun m m' hm => .answer (each_append (each_par_nans (p := .same) _) hm)
  refine Alike.bind (Alike.getElem? h rfl) fun x x' hx => Alike.bind Alike.same (forall_eq_rel fun j => Alike.bind (Alike.getElem? h rfl) fun y y' hy =>
    Alike.bind Alike.same (forall_eq_rel fun k => Alike.bind (Alike.getElem? h rfl) fun z z' hz => .answer ?_))
  exact Par.mul (p := .eq) .lit (((Par.div_flip hx.odd hy).add (Par.div_flip hx.odd hz)).sub Par.lit.same) rfl

/-- The price momentum oscillator of the opposite prices is the same. -/
theorem pmo_mirror (win1 win2 : ℕ) : Alike (Each SameNumber) (pmo data win1 win2) (pmo (mirror data) win1 win2) := by
  have hq : Each (Par .same) ((pairs data).map fun (x : FP ρ × FP ρ) => 1000 * (x.2 / x.1 - 1))
      ((pairs (mirror data)).map fun (x : FP ρ × FP ρ) => 1000 * (x.2 / x.1 - 1)) := by
    refine each_map (each_pairs (each_mirror data)) ?_
    rintro ⟨x, y⟩ ⟨x', y'⟩ ⟨e1, e2⟩
    exact Par.mul (p := .eq) .lit ((Par.div_flip e2.odd e1).sub Par.lit.same) rfl
  show Alike (Each (Par .same)) _ _
  simp only [pmo, Option.bind_eq_bind]
  revert hq
  generalize (pairs data).map _ = t
  generalize (pairs (mirror data)).map _ = t'
  intro ht
  repeat' parity_step

theorem fabs_fmin_zero (z : FP ρ) : fabs (fmin 0 z) = fmax 0 (-z) := by
  simp only [zero_lit]
  show FP.abs (fmin (fin 0) z) = fmax (fin 0) (FP.neg z)
  have h0 : FP.isNaN (fin 0 : FP ρ) = false := rfl
  simp only [fmin, fmax, isNaN_def, lt_def, h0]
  cases z with
  | nan => simp [FP.isNaN, FP.neg, FP.abs]
  | inf s => cases s <;> simp [FP.isNaN, FP.neg, FP.abs, FP.lt, FP.toE]
  | negz => simp [FP.isNaN, FP.neg, FP.abs, FP.lt, FP.toE]
  | fin r =>
    by_cases h : r = 0
    · simp [FP.isNaN, FP.neg, FP.abs, FP.lt, FP.toE, h]
    · by_cases g : r < 0
      · simp [FP.isNaN, FP.neg, FP.abs, FP.lt, FP.toE, h, g, abs_of_neg]
      · simp [FP.isNaN, FP.neg, FP.abs, FP.lt, FP.toE, h, g]

/-- Gains and losses change places, exactly. -/
theorem gains_mirror : gains (mirror data) = losses data := by
  refine (each_par_eq (each_map (each_pairs (each_mirror data)) ?_)).symm
  rintro ⟨x, y⟩ ⟨x', y'⟩ ⟨e1, e2⟩
  show fabs (fmin 0 (y - x)) = fmax 0 (y' - x')
  rw [fabs_fmin_zero]
  exact fmax_zero_same (Par.sub (p := .odd) (Flip.odd e2) (Flip.odd e1))

/-- Losses and gains change places, exactly. -/
theorem losses_mirror : losses (mirror data) = gains data := by
  refine (each_par_eq (each_map (each_pairs (each_mirror data)) ?_)).symm
  rintro ⟨x, y⟩ ⟨x', y'⟩ ⟨e1, e2⟩
  show fmax 0 (y - x) = fabs (fmin 0 (y' - x'))
  rw [fabs_fmin_zero]
  have h : SameNumber (-(y - x)) (y' - x') := Par.sub (p := .odd) (Flip.odd e2) (Flip.odd e1)
  have := h.neg
  rw [neg_neg'] at this
  exact fmax_zero_same this

theorem pringRoc_mirror (r : ℕ) : Alike (Each (Par .same)) (pringRoc data r) (pringRoc (mirror data) r) := by
  refine Alike.mapP (each_windowsOf (each_mirror data)) fun w w' e => ?_
  simp only [Option.bind_eq_bind]
  exact Alike.bind (Alike.getElem? e rfl) fun x x' hx => Alike.bind (Alike.getElem? e rfl) fun y y' hy =>
    .answer (Par.mul (p := .eq) .lit ((Par.div_flip hx.odd hy).sub Par.lit.same) rfl)

theorem addAt_mirror {l l' : List (FP ρ)} {v v' : FP ρ} (h : Each (Par p) l l') (g : Par p v v') (i : ℕ) :
    Alike (Each (Par p)) (addAt l i v) (addAt l' i v') := by
  simp only [addAt, Option.bind_eq_bind]
  exact Alike.bind (Alike.getElem? h rfl) fun x x' hx => .answer (each_set h rfl (hx.add g))

/-- The sums of rates of change stay. -/
theorem prings_mirror (rocs periods : List ℕ) (multipliers : List (FP ρ)) :
    Alike (Each SameNumber) (prings data rocs periods multipliers) (prings (mirror data) rocs periods multipliers) := by
  have hl : (mirror data).length = data.length := by simp [mirror]
  simp only [prings, Option.bind_eq_bind, hl]
  refine Alike.bind Alike.same (forall_eq_rel fun roc0 => Alike.bind Alike.same (forall_eq_rel fun period0 => Alike.bind Alike.same (forall_eq_rel fun a =>
    Alike.bind Alike.same (forall_eq_rel fun p1 => Alike.bind Alike.same (forall_eq_rel fun n => Alike.bind
      (Alike.foldlM (X := Each (Par .same)) (each_replicate n .zero) each_eq ?_) fun r r' hr => .answer (each_append (P := Par .same) (each_par_nans _) hr))))))
  rintro res res' hres ⟨rocWin, maWin, mult⟩ _ rfl
  simp only [pringStep, Option.bind_eq_bind]
  refine Alike.bind (pringRoc_mirror rocWin) fun roc roc' hroc => Alike.ite (by rw [List.isEmpty_iff_length_eq_zero, List.isEmpty_iff_length_eq_zero, hroc.length]) (.answer hres)
    (Alike.bind (Smooth.sma_mirror hroc maWin) fun m m' hm => Alike.bind Alike.same (forall_eq_rel fun k => ?_))
  have hd := each_drop k hm
  refine Alike.foldlM (X := Each (Par .same)) hres (each_zip (show Each Eq _ _ by rw [hd.length]; exact each_eq) hd) ?_
  rintro s s' hs ⟨c, v⟩ ⟨c', v'⟩ ⟨e1, e2⟩
  dsimp only at e1 e2 ⊢
  subst e1
  exact Alike.bind Alike.same (forall_eq_rel fun a => Alike.bind Alike.same (forall_eq_rel fun b => addAt_mirror hs (e2.mul .lit rfl) _))

theorem special_k_mirror : Alike (Each SameNumber) (special_k data) (special_k (mirror data)) := prings_mirror _ _ _

theorem kst_mirror (rocs periods : Option (ℕ × ℕ × ℕ × ℕ)) :
    Alike (Each SameNumber) (kst data rocs periods) (kst (mirror data) rocs periods) := prings_mirror _ _ _

end Traquer.Momentum
