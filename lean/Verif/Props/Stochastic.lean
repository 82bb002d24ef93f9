import Verif.Lemmas.Rounded
import Verif.Props.Rsi
import Verif.Props.ShapeMomentum
/-!
# C30: the stochastic family
-/

namespace Traquer
open FP FloatLit

/-- A window of two series and one item of a third, bar by bar. -/
theorem reportsP_windows3 {ρ : Rounding} {α β γ : Type} {a : List α} {b : List β} {c : List γ} {w : ℕ}
    {f : List α × List β × γ → FP ρ} {P : ℕ → FP ρ → Prop} (hw : 1 ≤ w) (hb : b.length = a.length) (hc : c.length = a.length)
    (hn : w ≤ a.length + 1) (h : ∀ (i : ℕ) x, w ≤ i + 1 → i < a.length → c[i]? = some x → P i (f (recent a w i, recent b w i, x))) :
    ReportsP a.length (w - 1) P (some (nans (w - 1) ++ (zip3 (windowsOf w a) (windowsOf w b) (c.drop (w - 1))).map f)) := by
  have key : ReportsP (a.length - (w - 1)) 0 (fun i => P (i + (w - 1)))
      (some ((zip3 (windowsOf w a) (windowsOf w b) (c.drop (w - 1))).map f)) := by
    refine reportsP_map (by simp; omega) (fun i b _ hi => by omega) fun i p hp _ => ?_
    obtain ⟨x, y, z⟩ := p
    obtain ⟨e1, e2, e3⟩ := zip3_getElem?.1 hp
    have hi := (List.getElem?_eq_some_iff.1 e1).1
    rw [windowsOf_length] at hi
    rw [show i = i + (w - 1) - (w - 1) by omega, windowsOf_recent hw (by omega) (by omega)] at e1 e2
    rw [List.getElem?_drop] at e3
    cases e1; cases e2
    exact h _ z (by omega) (by omega) (by rw [Nat.add_comm]; exact e3)
  refine ((key.pad (w - 1)).mono fun i y h1 _ hp => ?_).cast (by omega) (by omega)
  rwa [show i - (w - 1) + (w - 1) = i by omega] at hp

theorem SaneBars.mem {high low close : List ℝ} (h : SaneBars high low close) {w i : ℕ} {c : ℝ} (hw : 1 ≤ w) (h1 : w ≤ i + 1)
    (hi : i < high.length) (hc : close[i]? = some c) : minOf (recent low w i) ≤ c ∧ c ≤ maxOf (recent high w i) := by
  have key : ∀ (l : List ℝ) (x : ℝ), l[i]? = some x → x ∈ recent l w i := fun l x hx => by
    rw [List.mem_iff_getElem?]
    refine ⟨w - 1, ?_⟩
    rw [recent, List.getElem?_take_of_lt (by omega), List.getElem?_drop, show i + 1 - w + (w - 1) = i by omega]
    exact hx
  have el := getElem?_of_lt (show i < low.length by rw [h.low_length]; exact hi)
  have eh := getElem?_of_lt hi
  exact ⟨(minOf_le (key _ _ el)).trans (h.low_le i _ _ el hc), (h.le_high i _ _ hc eh).trans (le_maxOf (key _ _ eh))⟩

theorem recent_ne_nil {α : Type} {l : List α} {w i : ℕ} (hw : 1 ≤ w) (h1 : w ≤ i + 1) (h2 : i < l.length) : recent l w i ≠ [] := by
  rw [← List.length_pos_iff, recent_length h1 h2]; omega

end Traquer

namespace Traquer.Momentum
open FP FloatLit
open Traquer.Volatility (foldMax foldMin)

/-! ## wpr -/

/-- C30: `wpr` is `-100 * (highest high - close) / (highest high - lowest low)` over the last `w` bars. -/
theorem wpr_reports (high low close : List XF) (w : ℕ) (hw : 1 ≤ w) (hn : w ≤ high.length + 1) (hh : Fins high) (hl : Fins low)
    (hc : Fins close) (ll : low.length = high.length) (lc : close.length = high.length) :
    ReportsP high.length (w - 1) (fun i y => ∀ c, (vals close)[i]? = some c →
      maxOf (recent (vals high) w i) ≠ minOf (recent (vals low) w i) →
      y ⇓ -100 * ((maxOf (recent (vals high) w i) - c) / (maxOf (recent (vals high) w i) - minOf (recent (vals low) w i))))
      (wpr high low close w) := by
  run_model [wpr]
  refine reportsP_windows3 hw ll lc hn fun i x h1 h2 hx c hc' hne => ?_
  rw [vals_getElem?, hx] at hc'
  cases hc'
  have i1 := foldMax_is (hh.recent w i) (recent_ne_nil hw h1 h2)
  have i2 := foldMin_is (hl.recent w i) (recent_ne_nil hw h1 (by omega))
  rw [recent_vals] at i1 i2
  exact is_mul (is_neg (is_lit 100)) (is_div (is_sub i1 (hc x (List.mem_of_getElem? hx)).is) (is_sub i1 i2) (sub_ne_zero.2 hne))

/-- C30: for bars with `low ≤ close ≤ high`, `wpr` is NaN or between −100 and 0, in every rounding. -/
theorem wpr_range {ρ : Rounding} (high low close : List (FP ρ)) (w : ℕ) (hw : 1 ≤ w) (hn : w ≤ high.length + 1) (hh : Fins high)
    (hl : Fins low) (hc : Fins close) (hs : SaneBars (vals high) (vals low) (vals close)) :
    ReportsP high.length (w - 1) (fun _ y => InRange (-100) 0 y) (wpr high low close w) := by
  have ll : low.length = high.length := by simpa [vals] using hs.low_length
  have lc : close.length = high.length := by simpa [vals] using hs.close_length
  run_model [wpr]
  refine reportsP_windows3 hw ll lc hn fun i x h1 h2 hx => ?_
  have i1 := foldMax_is (hh.recent w i) (recent_ne_nil hw h1 h2)
  have i2 := foldMin_is (hl.recent w i) (recent_ne_nil hw h1 (by omega))
  rw [recent_vals] at i1 i2
  have hm := hs.mem (w := w) (i := i) (c := x.val) hw h1 (by simpa [vals] using h2) (by rw [vals_getElem?, hx]; rfl)
  have q := (rounds_sub i1 (hc x (List.mem_of_getElem? hx)).is).div_inRange (rounds_sub i1 i2) (by linarith [hm.2]) (by linarith [hm.1])
  have h100 : (-100 : FP ρ) ⇓ -((100 : ℕ) : ℝ) := (is_neg (isLit 100 (by norm_num))).congr (by norm_num)
  have := inRange_neg_mul (n := 100) (by norm_num) h100 q
  exact_mod_cast this

example (a b c d e f g h k : ℝ) (h1 : a ≤ b) (h2 : b ≤ c) (h3 : d ≤ e) (h4 : e ≤ f) (h5 : g ≤ h) (h6 : h ≤ k) (ρ : Rounding) :
    ReportsP 3 1 (fun _ y => InRange (-100) 0 y)
      (wpr ([c, f, k].map (fin : ℝ → FP ρ)) ([a, d, g].map fin) ([b, e, h].map fin) 2) := by
  refine wpr_range _ _ _ 2 (by decide) (by simp) (fins_map_fin _) (fins_map_fin _) (fins_map_fin _) ?_
  simp only [vals_map_fin]
  refine ⟨rfl, rfl, ?_, ?_⟩
  · intro i l c hl hc
    match i with
    | 0 | 1 | 2 => simp at hl hc; subst hl hc; assumption
    | i + 3 => simp at hl
  · intro i l c hl hc
    match i with
    | 0 | 1 | 2 => simp at hl hc; subst hl hc; assumption
    | i + 3 => simp at hl

/-! ## stochastic, kdj -/

/-- The unsmoothed %K: `100 * (close - lowest low) / (highest high - lowest low)`. -/
noncomputable def rawK (high low close : List ℝ) (w i : ℕ) : ℝ :=
  100 * (close[i]?.getD 0 - minOf (recent low w i)) / (maxOf (recent high w i) - minOf (recent low w i))

theorem stoch_raw {high low close : List XF} {w : ℕ} (hw : 1 ≤ w) (hn : w ≤ high.length + 1) (hh : Fins high) (hl : Fins low)
    (hc : Fins close) (ll : low.length = high.length) (lc : close.length = high.length) (j : ℕ) (y : XF)
    (hy : ((zip3 (windowsOf w high) (windowsOf w low) (close.drop (w - 1))).map fun (h, l, c) =>
      100 * (c - foldMin l) / (foldMax h - foldMin l))[j]? = some y) :
    j + (w - 1) < high.length ∧
    QuotIs (100 * ((vals close)[j + (w - 1)]?.getD 0 - minOf (recent (vals low) w (j + (w - 1)))))
      (maxOf (recent (vals high) w (j + (w - 1))) - minOf (recent (vals low) w (j + (w - 1)))) y := by
  rw [List.getElem?_map] at hy
  obtain ⟨⟨a, b, x⟩, hp, rfl⟩ := Option.map_eq_some_iff.1 hy
  obtain ⟨e1, e2, e3⟩ := zip3_getElem?.1 hp
  have hi := (List.getElem?_eq_some_iff.1 e1).1
  rw [windowsOf_length] at hi
  rw [show j = j + (w - 1) - (w - 1) by omega, windowsOf_recent hw (by omega) (by omega)] at e1 e2
  rw [List.getElem?_drop, Nat.add_comm] at e3
  cases e1; cases e2
  have i1 := foldMax_is (hh.recent w (j + (w - 1))) (recent_ne_nil hw (by omega) (by omega))
  have i2 := foldMin_is (hl.recent w (j + (w - 1))) (recent_ne_nil hw (by omega) (by omega))
  rw [recent_vals] at i1 i2
  refine ⟨by omega, quotIs (is_mul (is_lit 100) (is_sub (hc.getElem? e3) i2)) (is_sub i1 i2)⟩

/-- C30: both lines of the (smoothed) stochastic are NaN or between 0 and 100 for sane bars. -/
theorem stoch_range (high low close : List XF) (w s : ℕ) (hw : 1 ≤ w) (hs' : 1 ≤ s) (hn : w - 1 + 2 * (s - 1) ≤ high.length)
    (hh : Fins high) (hl : Fins low) (hc : Fins close) (hs : SaneBars (vals high) (vals low) (vals close)) :
    ∃ out, stoch high low close w s = some out ∧ out.length = high.length ∧ ∀ p ∈ out, InRange 0 100 p.1 ∧ InRange 0 100 p.2 := by
  have ll : low.length = high.length := by simpa [vals] using hs.low_length
  have lc : close.length = high.length := by simpa [vals] using hs.close_length
  obtain ⟨out, e, l, -⟩ := stoch_aligned high low close w s ll lc hw hs' hn
  refine ⟨out, e, l, ?_⟩
  run_at e [stoch]
  obtain ⟨fk, e1, e⟩ := Option.bind_eq_some_iff.1 e
  obtain ⟨t, e2, e⟩ := Option.bind_eq_some_iff.1 e
  obtain ⟨-, rfl⟩ := sliceFrom_some e2
  obtain ⟨kk, e3, e⟩ := Option.bind_eq_some_iff.1 e
  cases e
  have r1 : ∀ y ∈ fk, InRange 0 100 y := by
    refine sma_inRange hs' (fun y hy => ?_) e1
    obtain ⟨j, hj⟩ := List.mem_iff_getElem?.1 hy
    obtain ⟨hlt, q⟩ := stoch_raw hw (by omega) hh hl hc ll lc j y hj
    have ec := getElem?_of_lt (show j + (w - 1) < (vals close).length by rw [vals_length]; omega)
    have hm := hs.mem (w := w) hw (by omega) (by rw [vals_length]; omega) ec
    rw [ec] at q
    exact q.share (by simp only [Option.getD_some]; linarith [hm.1]) (by simp only [Option.getD_some]; linarith [hm.2]) (by norm_num)
  have r2 : ∀ y ∈ kk, InRange 0 100 y := sma_inRange hs' (fun y hy => r1 y (List.mem_of_mem_drop hy)) e3
  intro p hp
  obtain ⟨a, b⟩ := p
  obtain ⟨h1, h2⟩ := List.of_mem_zip hp
  exact ⟨inRange_nans r1 a h1, inRange_nans r2 b h2⟩

/-- C30: where the range of no window is zero, %K is the mean of the last `s` raw values and %D the mean of the last `s`
values of %K. -/
theorem stoch_reports (high low close : List XF) (w s : ℕ) (hw : 1 ≤ w) (hs' : 1 ≤ s) (hn : w - 1 + 2 * (s - 1) ≤ high.length)
    (hh : Fins high) (hl : Fins low) (hc : Fins close) (ll : low.length = high.length) (lc : close.length = high.length)
    (hne : ∀ i, w ≤ i + 1 → i < high.length → maxOf (recent (vals high) w i) ≠ minOf (recent (vals low) w i)) :
    ∃ out, stoch high low close w s = some out ∧
      Reports high.length (w - 1 + (s - 1)) (fun i => mean (lastOf (rawK (vals high) (vals low) (vals close) w) s i))
        (some (out.map fun p => p.1)) ∧
      Reports high.length (w - 1 + 2 * (s - 1))
        (fun i => mean (lastOf (fun j => mean (lastOf (rawK (vals high) (vals low) (vals close) w) s j)) s i))
        (some (out.map fun p => p.2)) := by
  have hraw : Reports (high.length - (w - 1)) 0 (fun j => rawK (vals high) (vals low) (vals close) w (j + (w - 1)))
      (some ((zip3 (windowsOf w high) (windowsOf w low) (close.drop (w - 1))).map fun (x : List XF × List XF × XF) =>
        100 * (x.2.2 - foldMin x.2.1) / (foldMax x.1 - foldMin x.2.1))) := by
    refine ⟨_, rfl, by simp; omega, fun i hi => by omega, fun i _ hi => ?_⟩
    have e := getElem?_of_lt (l := (zip3 (windowsOf w high) (windowsOf w low) (close.drop (w - 1))).map
      fun (x : List XF × List XF × XF) => 100 * (x.2.2 - foldMin x.2.1) / (foldMax x.1 - foldMin x.2.1)) (i := i) (by simp; omega)
    obtain ⟨h1, h2⟩ := stoch_raw hw (by omega) hh hl hc ll lc i _ e
    exact ⟨_, e, h2.1 (sub_ne_zero.2 (hne _ (by omega) (by omega)))⟩
  obtain ⟨fk, e1, r1, l1⟩ := (hraw.sma hs' (by omega)).some
  have r1' := r1.tail (s - 1) (by omega)
  obtain ⟨kk, e2, r2, l2⟩ := ((r1'.cast rfl (k' := 0) (by omega)).sma hs' (by omega)).some
  have es : sliceFrom fk (s - 1) = some (fk.drop (s - 1)) := by rw [sliceFrom, if_pos (by omega)]
  refine ⟨_, by run_model [stoch, e1, es, e2]; rfl, ?_, ?_⟩
  · rw [List.map_fst_zip (by simp; omega)]
    refine ((r1.pad (w - 1)).cast (by omega) (by omega)).congr fun i h1 h2 => ?_
    exact congrArg mean (lastOf_congr fun j hj => congrArg (rawK _ _ _ w) (by omega))
  · rw [List.map_snd_zip (by simp; omega)]
    refine ((r2.pad (w - 1 + (s - 1))).cast (by omega) (by omega)).congr fun i h1 h2 => ?_
    exact congrArg mean (lastOf_congr fun j hj => congrArg mean (lastOf_congr fun j' hj' => congrArg (rawK _ _ _ w) (by omega)))

/-- C30: %K and %D of `stochastic`. -/
theorem stochastic_range (high low close : List XF) (w : ℕ) (hw : 1 ≤ w) (hn : w + 3 ≤ high.length)
    (hh : Fins high) (hl : Fins low) (hc : Fins close) (hs : SaneBars (vals high) (vals low) (vals close)) :
    ∃ out, stochastic high low close w = some out ∧ out.length = high.length ∧ ∀ p ∈ out, InRange 0 100 p.1 ∧ InRange 0 100 p.2 :=
  stoch_range high low close w 3 hw (by decide) (by omega) hh hl hc hs

/-- C30: `kdj`'s K and D lie in 0..100 (J = `kf * K - df * D` need not). -/
theorem kdj_range (high low close : List XF) (kw dw : ℕ) (kf df : Option XF) (hw : 1 ≤ kw) (hd : 1 ≤ dw)
    (hn : kw - 1 + 2 * (dw - 1) ≤ high.length)
    (hh : Fins high) (hl : Fins low) (hc : Fins close) (hs : SaneBars (vals high) (vals low) (vals close)) :
    ∃ out, kdj high low close kw dw kf df = some out ∧ out.length = high.length ∧
      ∀ p ∈ out, InRange 0 100 p.1 ∧ InRange 0 100 p.2.1 ∧ p.2.2 = kf.getD 3 * p.1 - df.getD 2 * p.2.1 := by
  obtain ⟨out, e, l, h⟩ := stoch_range high low close kw dw hw hd hn hh hl hc hs
  refine ⟨_, by run_model [kdj, e]; rfl, by simp [l], fun p hp => ?_⟩
  obtain ⟨q, hq, rfl⟩ := List.mem_map.1 hp
  exact ⟨(h q hq).1, (h q hq).2, rfl⟩

/-! ## stc -/

example : ∃ out, kdj ([3, 5, 6, 6, 9].map (fin : ℝ → XF)) ([1, 2, 4, 3, 5].map fin) ([2, 4, 5, 3, 9].map fin) 2 2 none none = some out ∧
    out.length = 5 ∧ ∀ p ∈ out, InRange 0 100 p.1 ∧ InRange 0 100 p.2.1 ∧ p.2.2 = 3 * p.1 - 2 * p.2.1 :=
  kdj_range _ _ _ 2 2 none none (by decide) (by decide) (by simp) (fins_map_fin _) (fins_map_fin _) (fins_map_fin _)
    (by simp only [vals_map_fin]; exact saneBars_example)


/-- NaN or finite. -/
def NumOrNaN (x : XF) : Prop := x = FP.nan ∨ x.Finite

theorem foldl_fmax_ge {l : List XF} (h : ∀ x ∈ l, NumOrNaN x) (s : XF) (hs : NumOrNaN s) :
    NumOrNaN (l.foldl fmax s) ∧ ∀ x ∈ s :: l, ∀ r, x ⇓ r → ∃ m, l.foldl fmax s ⇓ m ∧ r ≤ m := by
  induction l generalizing s with
  | nil =>
    refine ⟨hs, fun x hx r hr => ⟨r, ?_, le_rfl⟩⟩
    simp at hx; subst hx; exact hr
  | cons z l ih =>
    have hz := h z (by simp)
    have hnan : ∀ y : XF, fmax (FP.nan : XF) y = y := fun y => by
      unfold fmax; rw [if_pos]; rfl
    have hnan' : ∀ y : XF, NumOrNaN y → fmax y (FP.nan : XF) = y := fun y hy => by
      rcases hy with rfl | hy
      · exact hnan _
      · unfold fmax
        rw [if_neg (by rw [hy.is.not_nan]; simp), if_pos (by rfl)]
    have hstep : NumOrNaN (fmax s z) ∧ ∀ x ∈ [s, z], ∀ r, x ⇓ r → ∃ m, fmax s z ⇓ m ∧ r ≤ m := by
      rcases hs with rfl | hs'
      · rw [hnan]
        refine ⟨hz, fun x hx r hr => ?_⟩
        simp at hx
        rcases hx with rfl | rfl
        · exact absurd rfl hr.ne_nan
        · exact ⟨r, hr, le_rfl⟩
      · rcases hz with rfl | hz
        · rw [hnan' _ (Or.inr hs')]
          refine ⟨Or.inr hs', fun x hx r hr => ?_⟩
          simp at hx
          rcases hx with rfl | rfl
          · exact ⟨r, hr, le_rfl⟩
          · exact absurd rfl hr.ne_nan
        · have := is_fmax hs'.is hz.is
          refine ⟨Or.inr this.1, fun x hx r hr => ⟨_, this, ?_⟩⟩
          simp at hx
          rcases hx with rfl | rfl
          · rw [← hr.2]; exact le_max_left _ _
          · rw [← hr.2]; exact le_max_right _ _
    obtain ⟨i1, i2⟩ := ih (fun x hx => h x (by simp [hx])) (fmax s z) hstep.1
    refine ⟨i1, fun x hx r hr => ?_⟩
    have : x ∈ [s, z] ∨ x ∈ l := by simp at hx ⊢; tauto
    rcases this with hx | hx
    · obtain ⟨m, hm, hle⟩ := hstep.2 x hx r hr
      obtain ⟨m', hm', hle'⟩ := i2 _ (by simp) m hm
      exact ⟨m', hm', hle.trans hle'⟩
    · exact i2 x (by simp [hx]) r hr

theorem foldl_fmin_le {l : List XF} (h : ∀ x ∈ l, NumOrNaN x) (s : XF) (hs : NumOrNaN s) :
    NumOrNaN (l.foldl fmin s) ∧ ∀ x ∈ s :: l, ∀ r, x ⇓ r → ∃ m, l.foldl fmin s ⇓ m ∧ m ≤ r := by
  induction l generalizing s with
  | nil =>
    refine ⟨hs, fun x hx r hr => ⟨r, ?_, le_rfl⟩⟩
    simp at hx; subst hx; exact hr
  | cons z l ih =>
    have hz := h z (by simp)
    have hnan : ∀ y : XF, fmin (FP.nan : XF) y = y := fun y => by
      unfold fmin; rw [if_pos]; rfl
    have hnan' : ∀ y : XF, NumOrNaN y → fmin y (FP.nan : XF) = y := fun y hy => by
      rcases hy with rfl | hy
      · exact hnan _
      · unfold fmin
        rw [if_neg (by rw [hy.is.not_nan]; simp), if_pos (by rfl)]
    have hstep : NumOrNaN (fmin s z) ∧ ∀ x ∈ [s, z], ∀ r, x ⇓ r → ∃ m, fmin s z ⇓ m ∧ m ≤ r := by
      rcases hs with rfl | hs'
      · rw [hnan]
        refine ⟨hz, fun x hx r hr => ?_⟩
        simp at hx
        rcases hx with rfl | rfl
        · exact absurd rfl hr.ne_nan
        · exact ⟨r, hr, le_rfl⟩
      · rcases hz with rfl | hz
        · rw [hnan' _ (Or.inr hs')]
          refine ⟨Or.inr hs', fun x hx r hr => ?_⟩
          simp at hx
          rcases hx with rfl | rfl
          · exact ⟨r, hr, le_rfl⟩
          · exact absurd rfl hr.ne_nan
        · have := is_fmin hs'.is hz.is
          refine ⟨Or.inr this.1, fun x hx r hr => ⟨_, this, ?_⟩⟩
          simp at hx
          rcases hx with rfl | rfl
          · rw [← hr.2]; exact min_le_left _ _
          · rw [← hr.2]; exact min_le_right _ _
    obtain ⟨i1, i2⟩ := ih (fun x hx => h x (by simp [hx])) (fmin s z) hstep.1
    refine ⟨i1, fun x hx r hr => ?_⟩
    have : x ∈ [s, z] ∨ x ∈ l := by simp at hx ⊢; tauto
    rcases this with hx | hx
    · obtain ⟨m, hm, hle⟩ := hstep.2 x hx r hr
      obtain ⟨m', hm', hle'⟩ := i2 _ (by simp) m hm
      exact ⟨m', hm', hle'.trans hle⟩
    · exact i2 x (by simp [hx]) r hr

theorem stcRaw_range {series out : List XF} {w s : ℕ} (hs : 1 ≤ s) (h : ∀ x ∈ series, NumOrNaN x)
    (ho : stcRaw series w s = some out) : ∀ y ∈ out, InRange 0 100 y := by
  simp only [stcRaw, Option.bind_eq_bind] at ho
  obtain ⟨ws, e1, ho⟩ := Option.bind_eq_some_iff.1 ho
  obtain ⟨r, e2, ho⟩ := Option.bind_eq_some_iff.1 ho
  have hws : ∀ u ∈ ws, ∀ x ∈ u, NumOrNaN x := fun u hu x hx => by
    unfold windows at e1
    split at e1
    · cases e1
    · cases e1; exact h x (mem_of_mem_windowsOf hu hx)
  refine wilder_inRange hs (fun y hy => ?_) ho
  obtain ⟨j, hj⟩ := List.mem_iff_getElem?.1 hy
  rw [mapP_getElem? e2] at hj
  obtain ⟨u, hu, hf⟩ := Option.bind_eq_some_iff.1 hj
  obtain ⟨last, el, hf⟩ := Option.bind_eq_some_iff.1 hf
  cases hf
  have hu' := hws u (List.mem_of_getElem? hu)
  have hlast := List.mem_of_getElem? el
  rcases hu' last hlast with rfl | hfin
  · exact inRange_of_isNaN (by have : isNaN (nan : XF) = true := rfl; nanp)
  · obtain ⟨M, hM, lM⟩ := (foldl_fmax_ge hu' FP.nan (Or.inl rfl)).2 last (by simp [hlast]) _ hfin.is
    obtain ⟨m, hm, lm⟩ := (foldl_fmin_le hu' FP.nan (Or.inl rfl)).2 last (by simp [hlast]) _ hfin.is
    exact (quotIs (is_mul (is_lit 100) (is_sub hfin.is hm)) (is_sub hM hm)).share (by linarith) (by linarith) (by norm_num)

theorem inRange_numOrNaN {lo hi : ℝ} {y : XF} (h : InRange lo hi y) : NumOrNaN y := by
  rcases h with rfl | ⟨r, hr, -⟩
  · exact Or.inl rfl
  · exact Or.inr hr.1

/-- C30: every value of `stc` is NaN or between 0 and 100. -/
theorem stc_range (close : List XF) (w short long : ℕ) (hw : 1 ≤ w) (h1 : 1 ≤ short) (h2 : 1 ≤ long) (hs : short ≤ close.length)
    (hn : long - 1 + 2 * (w - 1) + 2 ≤ close.length) (hd : Fins close) :
    ∃ out, stc close w short long = some out ∧ out.length = close.length ∧ ∀ y ∈ out, InRange 0 100 y := by
  obtain ⟨out, e, l, -⟩ := stc_aligned close w short long hw h1 h2 hs hn
  refine ⟨out, e, l, ?_⟩
  run_at e [stc]
  obtain ⟨m, e1, e⟩ := Option.bind_eq_some_iff.1 e
  obtain ⟨s1, e2, e⟩ := Option.bind_eq_some_iff.1 e
  obtain ⟨s2, e3, e⟩ := Option.bind_eq_some_iff.1 e
  cases e
  obtain ⟨a, ea, ra, la⟩ := (ewma_is close short h1 hs hd).some
  obtain ⟨b, eb, rb, lb⟩ := (ewma_is close long h2 (by omega) hd).some
  have hm : ∀ x ∈ m, NumOrNaN x := by
    run_at e1 [macd, ea, eb]
    cases e1
    intro x hx
    obtain ⟨j, hj⟩ := List.mem_iff_getElem?.1 hx
    rw [List.getElem?_map] at hj
    obtain ⟨⟨u, v⟩, hp, rfl⟩ := Option.map_eq_some_iff.1 hj
    obtain ⟨eu, ev⟩ := List.getElem?_zip_eq_some.1 hp
    by_cases c1 : j < short - 1
    · exact Or.inl (isNaN_iff.1 (by have := ra.at_nan eu c1; nanp))
    by_cases c2 : j < long - 1
    · exact Or.inl (isNaN_iff.1 (by have := rb.at_nan ev c2; nanp))
    · exact Or.inr (is_sub (ra.at eu (by omega)) (rb.at ev (by omega))).1
  have r1 := stcRaw_range (by decide) (fun x hx => hm x (List.mem_of_mem_drop hx)) e2
  have r2 := stcRaw_range (by decide) (fun x hx => inRange_numOrNaN (r1 x (List.mem_of_mem_drop hx))) e3
  exact inRange_nans fun y hy => r2 y (List.mem_of_mem_drop hy)

example (a b c d e f g : ℝ) : ∃ out, stc ([a, b, c, d, e, f, g].map (fin : ℝ → XF)) 2 2 3 = some out ∧ out.length = 7 ∧
    ∀ y ∈ out, InRange 0 100 y :=
  stc_range _ 2 2 3 (by decide) (by decide) (by decide) (by simp) (by simp) (fins_map_fin _)

end Traquer.Momentum
