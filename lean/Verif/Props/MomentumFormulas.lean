import Verif.Props.TrendFormulas
import Verif.Props.Percent
import Verif.Props.Stochastic
import Mathlib.Tactic.IntervalCases
/-!
# C68: further oscillators; C59: the Fisher transform
-/

namespace Traquer
open FP FloatLit
open Traquer.Trend (is_bar)

theorem zip6_getElem? {α β γ δ ε ζ : Type} {a : List α} {b : List β} {c : List γ} {d : List δ} {e : List ε} {g : List ζ} {i : ℕ}
    {p : α × β × γ × δ × ε × ζ} (h : (zip6 a b c d e g)[i]? = some p) :
    a[i]? = some p.1 ∧ b[i]? = some p.2.1 ∧ c[i]? = some p.2.2.1 ∧ d[i]? = some p.2.2.2.1 ∧ e[i]? = some p.2.2.2.2.1 ∧
      g[i]? = some p.2.2.2.2.2 := by
  obtain ⟨p1, p2, p3, p4, p5, p6⟩ := p
  rw [zip6_eq] at h
  simpa only [List.getElem?_zip_eq_some] using h

/-- Combining two or three finite series bar by bar. -/
theorem reports_zip2 {a b : List XF} {f : XF × XF → XF} {g : ℕ → ℝ} (hb : b.length = a.length)
    (h : ∀ i x y, a[i]? = some x → b[i]? = some y → f (x, y) ⇓ g i) : Reports a.length 0 g (some ((a.zip b).map f)) := by
  refine reports_map (by simp; omega) (fun i _ _ hi => by omega) fun i p hp _ => ?_
  obtain ⟨x, y⟩ := p
  obtain ⟨h1, h2⟩ := List.getElem?_zip_eq_some.1 hp
  exact h i x y h1 h2

theorem reports_zip3 {a b c : List XF} {f : XF × XF × XF → XF} {g : ℕ → ℝ} (hb : b.length = a.length) (hc : c.length = a.length)
    (h : ∀ i x y z, a[i]? = some x → b[i]? = some y → c[i]? = some z → f (x, y, z) ⇓ g i) :
    Reports a.length 0 g (some ((zip3 a b c).map f)) := by
  refine reports_map (by simp; omega) (fun i _ _ hi => by omega) fun i p hp _ => ?_
  obtain ⟨x, y, z⟩ := p
  obtain ⟨h1, h2, h3⟩ := zip3_getElem?.1 hp
  exact h i x y z h1 h2 h3

end Traquer

namespace Traquer.Momentum
open FP FloatLit
open Traquer.Trend (is_bar)
open Traquer.Smooth (ewma_next)

/-! ## si -/

/-- The divisor of Wilder's swing index, from the distances of the high and the low from the previous close, the range of the bar and a
quarter of the previous body. -/
noncomputable def swingR (r1 r2 r3 r4 : ℝ) : ℝ :=
  if r2 ≤ r1 ∧ r3 ≤ r1 then r1 - r2 / 2 + r4 else if r1 ≤ r2 ∧ r3 ≤ r2 then r2 - r1 / 2 + r4 else r3 + r4

/-- Wilder's swing index of a bar, `po, pc` being the previous open and close. -/
noncomputable def swingOf (limit po o h l pc c : ℝ) : ℝ :=
  50 * ((c - pc) + (c - o) / 2 + (pc - po) / 4) / swingR |h - pc| |l - pc| (h - l) (|pc - po| / 4) * (max |h - pc| |l - pc| / limit)

theorem swingR_cases {r1 r2 r3 r4 : ℝ} (h1 : 0 ≤ r1) (h2 : 0 ≤ r2) (h4 : 0 ≤ r4) (h0 : swingR r1 r2 r3 r4 = 0) : r1 = 0 ∧ r2 = 0 := by
  unfold swingR at h0
  split_ifs at h0 with a b
  · constructor <;> linarith [a.1]
  · constructor <;> linarith [b.1]
  · exfalso
    by_cases c : r2 ≤ r1
    · have : r1 < r3 := not_le.1 fun h => a ⟨c, h⟩
      linarith
    · have : r2 < r3 := not_le.1 fun h => b ⟨(not_le.1 c).le, h⟩
      linarith

theorem swingTerm_is {limit po o h l pc c : XF} {L po' o' h' l' pc' c' : ℝ} (hL : limit ⇓ L) (L0 : L ≠ 0) (hpo : po ⇓ po') (ho : o ⇓ o')
    (hh : h ⇓ h') (hl : l ⇓ l') (hpc : pc ⇓ pc') (hc : c ⇓ c') :
    (swingR |h' - pc'| |l' - pc'| (h' - l') (|pc' - po'| / 4) ≠ 0 → swingTerm limit po o h l pc c ⇓ swingOf L po' o' h' l' pc' c') ∧
    (swingR |h' - pc'| |l' - pc'| (h' - l') (|pc' - po'| / 4) = 0 → swingTerm limit po o h l pc c = FP.nan) := by
  have r1 := is_abs (is_sub hh hpc)
  have r2 := is_abs (is_sub hl hpc)
  have r3 := is_sub hh hl
  have r4 := is_div (is_abs (is_sub hpc hpo)) (is_lit 4) (by norm_num)
  have mr := is_fmax (is_fmax r1 r2) r3
  have num := is_add (is_add (is_sub hc hpc) (is_div (is_sub hc ho) (is_lit 2) (by norm_num)))
    (is_div (is_sub hpc hpo) (is_lit 4) (by norm_num))
  have hr : (if (fabs (h - pc) ==. fmax (fmax (fabs (h - pc)) (fabs (l - pc))) (h - l)) = true then
      fabs (h - pc) - fabs (l - pc) / 2 + fabs (pc - po) / 4
      else if (fabs (l - pc) ==. fmax (fmax (fabs (h - pc)) (fabs (l - pc))) (h - l)) = true then
        fabs (l - pc) - fabs (h - pc) / 2 + fabs (pc - po) / 4
      else h - l + fabs (pc - po) / 4) ⇓ swingR |h' - pc'| |l' - pc'| (h' - l') (|pc' - po'| / 4) := by
    rw [is_feq r1 mr, is_feq r2 mr]
    have half1 := is_add (is_sub r1 (is_div r2 (is_lit 2) (by norm_num))) r4
    have half2 := is_add (is_sub r2 (is_div r1 (is_lit 2) (by norm_num))) r4
    have e1 : |h' - pc'| = max (max |h' - pc'| |l' - pc'|) (h' - l') ↔ |l' - pc'| ≤ |h' - pc'| ∧ h' - l' ≤ |h' - pc'| := by
      rw [eq_comm, max_eq_iff, max_eq_left_iff]
      constructor
      · rintro (⟨h, h2⟩ | ⟨h, h2⟩)
        · exact ⟨h, h2.trans (max_eq_left h).le⟩
        · exact ⟨(le_max_right _ _).trans (h2.trans h.le), h.le⟩
      · rintro ⟨h1, h2⟩
        exact Or.inl ⟨h1, h2.trans (le_max_left _ _)⟩
    have e2 : |l' - pc'| = max (max |h' - pc'| |l' - pc'|) (h' - l') ↔ |h' - pc'| ≤ |l' - pc'| ∧ h' - l' ≤ |l' - pc'| := by
      rw [eq_comm, max_eq_iff, max_eq_right_iff]
      constructor
      · rintro (⟨h, h2⟩ | ⟨h, h2⟩)
        · exact ⟨h, h2.trans (max_eq_right h).le⟩
        · exact ⟨(le_max_left _ _).trans (h2.trans h.le), h.le⟩
      · rintro ⟨h1, h2⟩
        exact Or.inl ⟨h1, h2.trans (le_max_right _ _)⟩
    unfold swingR
    simp only [decide_eq_true_eq, e1, e2]
    split_ifs
    · exact half1
    · exact half2
    · exact is_add r3 r4
  have mx := is_fmax r1 r2
  refine ⟨fun h0 => ?_, fun h0 => ?_⟩
  · refine (is_div (is_mul (is_mul (is_div num hr h0) (is_lit 50)) mx) hL L0).congr ?_
    rw [swingOf, show (OfNat.ofNat 50 : ℝ) = 50 from rfl, show (OfNat.ofNat 2 : ℝ) = 2 from rfl, show (OfNat.ofNat 4 : ℝ) = 4 from rfl]
    field_simp
  · obtain ⟨z1, z2⟩ := swingR_cases (abs_nonneg _) (abs_nonneg _) (by positivity) h0
    rw [h0] at hr
    rw [z1, z2, max_self] at mx
    unfold swingTerm
    simp only
    have q := quotIs num hr
    have fz : ∀ {z : XF}, z ⇓ 0 → ∀ (x : XF), (x = FP.nan ∨ ∃ s, x = inf s) → x * 50 * z = FP.nan := by
      rintro z hz x (rfl | ⟨s, rfl⟩)
      · rfl
      · rcases is_iff.1 (is_lit 50) with e | ⟨e, e'⟩
        · rw [e]
          have : (inf s * fin (OfNat.ofNat 50 : ℝ) : XF) = inf s := by
            have h50 : ¬ ((OfNat.ofNat 50 : ℝ) = 0) := by norm_num
            have h51 : ¬ ((OfNat.ofNat 50 : ℝ) < 0) := by norm_num
            simp [mul_def, mul, sgn, h50, h51]
          rw [this]
          rcases is_iff.1 hz with rfl | ⟨rfl, -⟩
          · simp [mul_def, mul]
          · simp [mul_def, mul]
        · exact absurd e' (by norm_num)
    rw [fz mx _ (by
      by_cases n0 : c' - pc' + (c' - o') / OfNat.ofNat 2 + (pc' - po') / OfNat.ofNat 4 = 0
      · exact Or.inl (q.2.1 rfl n0)
      · exact Or.inr (q.2.2 rfl n0))]
    rfl

/-- C68: `si` is Wilder's swing index; it is NaN only at a bar whose high and low equal the previous close and open. -/
theorem si_reports (openp high low close : List XF) (limit : XF) {L : ℝ} (ho : openp.length = high.length) (hl : low.length = high.length)
    (hc : close.length = high.length) (hn : 1 ≤ high.length) (fo : Fins openp) (fh : Fins high) (fl : Fins low) (fc : Fins close)
    (hL : limit ⇓ L) (L0 : L ≠ 0) : ReportsP high.length 1 (fun i y =>
      let r := swingR |bar (vals high) i - bar (vals close) (i - 1)| |bar (vals low) i - bar (vals close) (i - 1)|
        (bar (vals high) i - bar (vals low) i) (|bar (vals close) (i - 1) - bar (vals openp) (i - 1)| / 4)
      (r ≠ 0 → y ⇓ swingOf L (bar (vals openp) (i - 1)) (bar (vals openp) i) (bar (vals high) i) (bar (vals low) i)
        (bar (vals close) (i - 1)) (bar (vals close) i)) ∧ (r = 0 → y = FP.nan)) (si openp high low close limit) := by
  obtain ⟨s, es, ls⟩ := swing_yields openp high low close limit ho hl hc hn
  have ew := es
  run_at ew [swing]
  cases ew
  simp only [si, es, Option.bind_eq_bind, Option.bind_some]
  refine reportsP_nans (k := 1) (by omega) fun i y hy => ?_
  rw [List.getElem?_map] at hy
  obtain ⟨p, e, rfl⟩ := Option.map_eq_some_iff.1 hy
  have hi : i < high.length - 1 := by
    have := (List.getElem?_eq_some_iff.1 e).1
    rw [List.length_map] at ls
    omega
  obtain ⟨h1, h2, h3, h4, h5, h6⟩ := zip6_getElem? e
  rw [List.getElem?_take_of_lt (by omega)] at h1 h5
  rw [List.getElem?_drop] at h2 h3 h4 h6
  have := swingTerm_is hL L0 (is_bar fo h1) (is_bar fo h2) (is_bar fh h3) (is_bar fl h4) (is_bar fc h5) (is_bar fc h6)
  simp only [show 1 + i - 1 = i by omega]
  exact this

/-! ## relative_vigor -/

/-- The weighted mean 1-2-2-1 of the last four values. -/
noncomputable def vigorOf (v : ℕ → ℝ) (i : ℕ) : ℝ := (v i + 2 * v (i - 1) + 2 * v (i - 2) + v (i - 3)) / 6

theorem vigorSmooth_reports {n : ℕ} {v : ℕ → ℝ} {m : List XF} (hm : Reports n 0 v (some m)) (hn : 3 ≤ n) :
    Reports n 3 (vigorOf v) (some (nans 3 ++ vigorSmooth m)) := by
  unfold vigorSmooth
  exact reports_windows_of (k := 0) (w := 4) (v' := vigorOf v) (n := n) (v := v) (m := m) (by simpa [nans] using hm) (by decide) (by omega) (by
      intro i l hi hin ll lf lv
      match l, ll with
      | [a, b, c, d], _ =>
        simp only [vals_cons, vals_nil, lastOf, List.range_succ, List.range_zero, List.nil_append, List.map_cons, List.map_nil,
          List.cons_append, List.cons.injEq, and_true] at lv
        obtain ⟨e0, e1, e2, e3⟩ := lv
        have fa := (lf a (by simp)).is
        have fb := (lf b (by simp)).is
        have fc := (lf c (by simp)).is
        have fd := (lf d (by simp)).is
        refine (is_div (is_add (is_add (is_add fd (is_mul (is_lit 2) fc)) (is_mul (is_lit 2) fb)) fa) (is_lit 6) (by norm_num)).congr ?_
        rw [vigorOf, e0, e1, e2, e3, show i + 1 - 4 + 0 = i - 3 by omega, show i + 1 - 4 + 1 = i - 2 by omega,
          show i + 1 - 4 + 2 = i - 1 by omega, show i + 1 - 4 + 3 = i by omega])

/-- C68: `relative_vigor` is the ratio of the means of the smoothed bodies and of the smoothed ranges. -/
theorem relative_vigor_reports (openp high low close : List XF) (w : ℕ) (hh : high.length = openp.length) (hl : low.length = openp.length)
    (hc : close.length = openp.length) (hw : 1 ≤ w) (hn : w + 2 ≤ openp.length) (fo : Fins openp) (fh : Fins high) (fl : Fins low)
    (fc : Fins close) : ReportsP openp.length (3 + (w - 1)) (fun i => QuotIs
      (mean (lastOf (vigorOf fun j => bar (vals close) j - bar (vals openp) j) w i))
      (mean (lastOf (vigorOf fun j => bar (vals high) j - bar (vals low) j) w i))) (relative_vigor openp high low close w) := by
  have r1 := vigorSmooth_reports (reports_zip2 (f := fun (o, c) => c - o) (g := fun j => bar (vals close) j - bar (vals openp) j) hc
    fun i x y hx hy => is_sub (is_bar fc hy) (is_bar fo hx)) (by omega)
  have r2 := vigorSmooth_reports (reports_zip2 (f := fun (h, l) => h - l) (g := fun j => bar (vals high) j - bar (vals low) j)
    (show low.length = high.length by omega) fun i x y hx hy => is_sub (is_bar fh hx) (is_bar fl hy)) (by omega)
  rw [hh] at r2
  have t1 := r1.tail 3 (by omega)
  have t2 := r2.tail 3 (by omega)
  rw [List.drop_left' (by simp)] at t1 t2
  obtain ⟨m1, e1, s1, l1⟩ := (t1.sma hw (by omega)).some
  obtain ⟨m2, e2, s2, l2⟩ := (t2.sma hw (by omega)).some
  simp only [relative_vigor, e1, e2, Option.bind_eq_bind, Option.bind_some]
  refine (((Reports.zipP (f := fun p : XF × XF => p.1 / p.2) s1 s2 (fun x y hx => by nanp)
    fun i x y hi hin hx hy => quotIs hx hy).pad 3).cast (by omega) (by omega)).mono fun i y h1 h2 h => ?_
  have e : ∀ v : ℕ → ℝ, lastOf (fun i => vigorOf v (3 + i)) w (i - 3) = lastOf (vigorOf v) w i := fun v =>
    lastOf_congr fun j hj => by congr 1; omega
  rw [e, e] at h
  exact h

/-! ## rsi, derivative -/

/-- The relative strength index: 100 times the average rise over the average rise plus the average fall. -/
noncomputable def rsiOf (x : List ℝ) (w i : ℕ) : ℝ :=
  100 * wilderOf w (rises x) (i - 1) / (wilderOf w (rises x) (i - 1) + wilderOf w (falls x) (i - 1))

theorem rsi_values (data : List XF) (w : ℕ) (hw : 1 ≤ w) (hn : w + 1 ≤ data.length) (hd : Fins data)
    (h0 : ∀ i, w ≤ i → i < data.length → wilderOf w (rises (vals data)) (i - 1) + wilderOf w (falls (vals data)) (i - 1) ≠ 0) :
    Reports data.length w (rsiOf (vals data) w) (rsi data w) :=
  (rsi_reports data w hw hn hd).mono fun i _ h1 h2 h => h.1 (h0 i h1 h2)

/-- C68: `derivative` is the twice smoothed RSI minus its own moving average. -/
theorem derivative_reports (data : List XF) (w1 w2 s : ℕ) (h1 : 1 ≤ w1) (h2 : 1 ≤ w2) (hs : 1 ≤ s) (hn : 2 * w1 + w2 ≤ data.length + 1)
    (hn' : 2 * w1 + s ≤ data.length + 2) (hd : Fins data)
    (h0 : ∀ i, w1 ≤ i → i < data.length → wilderOf w1 (rises (vals data)) (i - 1) + wilderOf w1 (falls (vals data)) (i - 1) ≠ 0) :
    let smooth := ewmaFrom (2 * w1 - 1) w2 (ewmaFrom w1 w1 (rsiOf (vals data) w1))
    Reports data.length (2 * w1 - 1 + (w2 - 1) + (s - 1)) (fun i => smooth i - mean (lastOf smooth s i)) (derivative data w1 w2 s) := by
  intro smooth
  obtain ⟨r, er, rr, lr⟩ := (rsi_values data w1 h1 (by omega) hd h0).some
  obtain ⟨m1, -, e1, r1, l1⟩ := ewma_after rr h1 (by omega)
  obtain ⟨m2, -, e2, r2, l2⟩ := ewma_next r1 h2 (by omega)
  have t2 := r2.tail (w1 + (w1 - 1)) (by omega)
  rw [List.drop_left' (by simp)] at t2
  obtain ⟨m3, e3, r3, l3⟩ := (t2.sma hs (by omega)).some
  simp only [derivative, er, e1, e2, e3, usub_of_le h1, Option.bind_eq_bind, Option.bind_some]
  have z := Reports.zipWith (f := fun p : XF × XF => p.2 - p.1) (g := fun a b => b - a) r3 t2 (fun x y h => by nanp) (fun x y h => by nanp)
    fun x y a b hx hy => is_sub hy hx
  refine ((z.pad (w1 + (w1 - 1))).cast (by omega) (by omega)).congr fun i h1' h2' => ?_
  have e : ewmaFrom (w1 + (w1 - 1)) w2 (ewmaFrom w1 w1 (rsiOf (vals data) w1)) = smooth := by
    simp only [smooth]; rw [show w1 + (w1 - 1) = 2 * w1 - 1 by omega]
  simp only [e]
  rw [show w1 + (w1 - 1) + (i - (w1 + (w1 - 1))) = i by omega]
  congr 2
  exact lastOf_congr fun j hj => by congr 1; omega

/-! ## cci -/

/-- The typical price of bar `i`. -/
noncomputable def typicalAt (high low close : List ℝ) (i : ℕ) : ℝ := (bar high i + bar low i + bar close i) / 3

/-- C68: `cci` is the distance of the typical price from its mean in units of 0.015 mean absolute deviations. -/
theorem cci_reports (high low close : List XF) (w : ℕ) (hl : low.length = high.length) (hc : close.length = high.length) (hw : 1 ≤ w)
    (hn : w ≤ high.length + 1) (fh : Fins high) (fl : Fins low) (fc : Fins close) : ReportsP high.length (w - 1) (fun i =>
      let win := lastOf (typicalAt (vals high) (vals low) (vals close)) w i
      QuotIs (typicalAt (vals high) (vals low) (vals close) i - mean win) (0.015 * meanAbsDev win)) (cci high low close w) := by
  have r := reports_zip3 (f := fun (h, l, c) => (h + l + c) / 3) (g := typicalAt (vals high) (vals low) (vals close)) hl hc
    fun i x y z hx hy hz => is_div (is_add (is_add (is_bar fh hx) (is_bar fl hy)) (is_bar fc hz)) (is_lit 3) (by norm_num)
  run_model [cci]
  have lt := r.length
  have := reportsP_mapP_windows (data := (zip3 high low close).map fun (h, l, c) => (h + l + c) / 3) (w := w) (f := fun l =>
    l.getLast?.bind fun last => some ((last - fsum l / flt w) /
      (0.015 * (l.foldl (fun acc x => acc + fabs (x - fsum l / flt w)) 0 / flt w)))) (P := fun i =>
      QuotIs (typicalAt (vals high) (vals low) (vals close) i - mean (lastOf (typicalAt (vals high) (vals low) (vals close)) w i))
        (0.015 * meanAbsDev (lastOf (typicalAt (vals high) (vals low) (vals close)) w i))) hw (by rw [lt]; exact hn) (by
    intro i h1 h2
    rw [lt] at h2
    obtain ⟨lf, lv⟩ := r.recent (w := w) (i := i) (by omega) h2
    have ll := recent_length (l := (zip3 high low close).map fun (h, l, c) => (h + l + c) / 3) (w := w) (i := i) h1 (by rw [lt]; exact h2)
    generalize recent ((zip3 high low close).map fun (h, l, c) => (h + l + c) / 3) w i = l at lf lv ll
    rw [← lv]
    have lw : (vals l).length = w := by simpa using ll
    have wr := (Smooth.natCast_pos (n := w) hw).ne'
    have av : fsum l / flt w ⇓ mean (vals l) := (is_div lf.fsum (is_flt w) wr).congr (by rw [mean, lw])
    have dv : l.foldl (fun acc x => acc + fabs (x - fsum l / flt w)) 0 / flt w ⇓ meanAbsDev (vals l) := by
      have := foldl_add_is (t := fun x : XF => fabs (x - fsum l / flt w)) (v := fun x => |val x - mean (vals l)|) (l := l) is_zero
        fun x hx => is_abs (is_sub (lf x hx).is av)
      refine (is_div this (is_flt w) wr).congr ?_
      rw [meanAbsDev]
      generalize mean (vals l) = c
      rw [mean, List.length_map, lw, zero_add]
      simp only [vals, List.map_map]
      rfl
    obtain ⟨x, hx⟩ : ∃ x, l.getLast? = some x := by
      have : l ≠ [] := by rintro rfl; simp at ll; omega
      exact ⟨_, List.getLast?_eq_some_getLast this⟩
    refine ⟨_, by rw [hx]; rfl, quotIs (is_sub ?_ av) (is_mul (is_sci 15 true 3) dv)⟩
    have hx' : l[w - 1]? = some x := by rw [← hx, List.getLast?_eq_getElem?, ll]
    have := lf.getElem? hx'
    refine this.congr ?_
    rw [lv, lastOf, List.getElem?_map, List.getElem?_range (by omega)]
    simp only [Option.map_some, Option.getD_some]
    congr 1
    omega)
  rw [lt] at this
  exact this

/-! ## deli -/

/-- The middle between the higher of the last two highs and the lower of the last two lows. -/
noncomputable def quoteAt (high low : List ℝ) (i : ℕ) : ℝ := (max (bar high (i - 1)) (bar high i) + min (bar low (i - 1)) (bar low i)) / 2

/-- C68: `deli` is the detrended price (the difference of the averages over `w` and `2 * w` bars) minus its own average. -/
theorem deli_reports (high low : List XF) (w : ℕ) (hl : low.length = high.length) (hw : 1 ≤ w) (hn : 3 * w ≤ high.length) (fh : Fins high)
    (fl : Fins low) :
    let dsp := fun i => ewmaFrom 1 w (quoteAt (vals high) (vals low)) i - ewmaFrom 1 (2 * w) (quoteAt (vals high) (vals low)) i
    Reports high.length (2 * w + (w - 1)) (fun i => dsp i - ewmaFrom (2 * w) w dsp i) (deli high low w) := by
  intro dsp
  set quotes : List XF := ((pairs high).zip (pairs low)).map fun (h, l) => (fmax h.1 h.2 + fmin l.1 l.2) / 2 with hq
  have lq : quotes.length = high.length - 1 := by simp [hq, hl]
  have rq : Reports high.length 1 (quoteAt (vals high) (vals low)) (some (nans 1 ++ quotes)) := by
    refine reports_nans (by omega) fun i hi => ⟨_, getElem?_of_lt hi, ?_⟩
    obtain ⟨y, e⟩ : ∃ y, y = quotes[i] := ⟨_, rfl⟩
    rw [← e]
    have e : quotes[i]? = some y := by rw [e]; exact getElem?_of_lt hi
    rw [hq, List.getElem?_map] at e
    obtain ⟨⟨p, q⟩, e1, e2⟩ := Option.map_eq_some_iff.1 e
    obtain ⟨h1, h2⟩ := List.getElem?_zip_eq_some.1 e1
    obtain ⟨a1, a2⟩ := pairs_getElem?_some h1
    obtain ⟨b1, b2⟩ := pairs_getElem?_some h2
    rw [← e2, quoteAt, show 1 + i - 1 = i by omega, show 1 + i = i + 1 by omega]
    exact is_div (is_add (is_fmax (is_bar fh a1) (is_bar fh a2)) (is_fmin (is_bar fl b1) (is_bar fl b2))) (is_lit 2) (by norm_num)
  obtain ⟨m1, -, e1, r1, l1⟩ := ewma_after rq hw (by omega)
  obtain ⟨m2, -, e2, r2, l2⟩ := ewma_after rq (w := 2 * w) (by omega) (by omega)
  rw [List.drop_left' (by simp)] at e1 e2
  have t1 := r1.tail 1 (by omega)
  have t2 := r2.tail 1 (by omega)
  rw [List.drop_left' (by simp)] at t1 t2
  have z := (Reports.zipWith (f := fun p : XF × XF => p.1 - p.2) (g := fun a b => a - b) t1 t2 (fun x y h => by nanp) (fun x y h => by nanp)
    fun x y a b hx hy => is_sub hx hy).cast (k' := 2 * w - 1) rfl (by omega)
  have zp : Reports high.length (1 + (2 * w - 1)) dsp (some (nans 1 ++ (m1.zip m2).map fun p : XF × XF => p.1 - p.2)) := by
    refine ((z.pad 1).cast (by omega) rfl).congr fun i h1 h2 => ?_
    simp only [dsp]
    rw [show 1 + (i - 1) = i by omega]
  obtain ⟨m3, s3, e3, r3, l3⟩ := ewma_next zp hw (by omega)
  have t3 := z.tail (2 * w - 1) (by omega)
  have u3 := r3.tail (1 + (2 * w - 1)) (by omega)
  rw [List.drop_left' (by simp)] at u3
  simp only [deli, ← hq, e1, e2, usub_of_le (show 1 ≤ 2 * w by omega), Option.bind_eq_bind, Option.bind_some]
  erw [s3]
  simp only [Option.bind_some]
  erw [e3]
  simp only [Option.bind_some]
  have y := Reports.zipWith (f := fun p : XF × XF => p.1 - p.2) (g := fun a b => a - b) (t3.cast (show _ = high.length - (1 + (2 * w - 1)) by omega) rfl) u3
    (fun x y h => by nanp) (fun x y h => by nanp) fun x y a b hx hy => is_sub hx hy
  refine ((y.pad (2 * w)).cast (by omega) (by omega)).congr fun i h1 h2 => ?_
  simp only [dsp]
  rw [show 1 + (2 * w - 1) + (i - 2 * w) = i by omega, show 1 + (2 * w - 1 + (i - 2 * w)) = i by omega, show 1 + (2 * w - 1) = 2 * w by omega]

/-! ## Concrete runs -/

abbrev op4 : List XF := [1, 3, 4, 5].map fin

example : ∃ y, (∃ out, si op4 hi4 lo4 cl4 (fin 2) = some out ∧ out[1]? = some y) ∧ y ⇓ 50 * (3 + 1 + 1 / 4) / (3 + 1 / 4) * (3 / 2) := by
  obtain ⟨out, e, -, -, h⟩ := si_reports op4 hi4 lo4 cl4 (fin 2) rfl rfl rfl (by simp) (fins_map_fin _) (fins_map_fin _) (fins_map_fin _)
    (fins_map_fin _) (is_fin 2) (by norm_num)
  obtain ⟨y, ey, hy, -⟩ := h 1 le_rfl (by simp)
  refine ⟨y, ⟨out, e, ey⟩, (hy ?_).congr ?_⟩
  · simp only [vals_map_fin]; norm_num [swingR, bar]
  · simp only [vals_map_fin]; norm_num [swingOf, swingR, bar]

/-- A bar that repeats a single price: there is no range to divide by. -/
example : ∃ out, si ([2, 2].map (fin : ℝ → XF)) ([2, 2].map fin) ([2, 2].map fin) ([2, 2].map fin) (fin 2) = some out ∧
    out[1]? = some FP.nan := by
  obtain ⟨out, e, -, -, h⟩ := si_reports ([2, 2].map fin) ([2, 2].map fin) ([2, 2].map fin) ([2, 2].map fin) (fin 2) rfl rfl rfl (by simp)
    (fins_map_fin _) (fins_map_fin _) (fins_map_fin _) (fins_map_fin _) (is_fin 2) (by norm_num)
  obtain ⟨y, ey, -, hy⟩ := h 1 le_rfl (by simp)
  exact ⟨out, e, ey.trans (congrArg some (hy (by simp only [vals_map_fin]; norm_num [swingR, bar])))⟩

example : ValueAt (relative_vigor op4 hi4 lo4 cl4 1) 3 ((-1 + 2 * (-1) + 2 * 2 + 1) / (3 + 2 * 1 + 2 * 3 + 2)) :=
  (relative_vigor_reports op4 hi4 lo4 cl4 1 rfl rfl rfl (by decide) (by simp) (fins_map_fin _) (fins_map_fin _) (fins_map_fin _)
    (fins_map_fin _)).quot 3 (by decide) (by simp)
    (by simp only [vals_map_fin]; norm_num [lastOf, vigorOf, bar, List.range_succ, mean])
    (by simp only [vals_map_fin]; norm_num [lastOf, vigorOf, bar, List.range_succ, mean])

example : ValueAt (derivative cl4 1 1 2) 2 (-50) :=
  (derivative_reports cl4 1 1 2 (by decide) (by decide) (by decide) (by simp) (by simp) (fins_map_fin _) (by
    simp only [vals_map_fin, List.length_map]
    intro i h1 h2
    simp only [List.length_cons, List.length_nil] at h2
    interval_cases i <;> norm_num [wilderOf, rises, falls, pairs, mean])).value 2 (by decide) (by simp) (by
    simp only [vals_map_fin]
    norm_num [ewmaFrom, rsiOf, wilderOf, rises, falls, pairs, lastOf, bar, List.range_succ, mean])

example : ValueAt (cci hi4 lo4 cl4 2) 1 (1 / 0.015) :=
  (cci_reports hi4 lo4 cl4 2 rfl rfl (by decide) (by simp) (fins_map_fin _) (fins_map_fin _) (fins_map_fin _)).quot 1 (by decide) (by simp)
    (by simp only [vals_map_fin]; norm_num [lastOf, typicalAt, bar, List.range_succ, mean, meanAbsDev, abs_of_pos, abs_of_neg])
    (by simp only [vals_map_fin]; norm_num [lastOf, typicalAt, bar, List.range_succ, mean, meanAbsDev, abs_of_pos, abs_of_neg])

example : ValueAt (deli hi4 lo4 1) 3 0 :=
  (deli_reports hi4 lo4 1 rfl (by decide) (by simp) (fins_map_fin _) (fins_map_fin _)).value 3 (by decide) (by simp) (by
    simp only [vals_map_fin]
    norm_num [ewmaFrom, quoteAt, lastOf, bar, List.range_succ, mean])

end Traquer.Momentum
