import Verif.Props.SmoothWeights
import Mathlib.Analysis.Real.Sqrt
/-!
# C24: composite averages; what hull and zlma compute
-/

namespace Traquer.Smooth
open FP FloatLit

theorem fins_of_const {data : List XF} {c : ℝ} (hc : ∀ x ∈ data, x ⇓ c) : Fins data := fun x hx => (hc x hx).1

theorem vals_of_const {data : List XF} {c : ℝ} (hc : ∀ x ∈ data, x ⇓ c) : ∀ r ∈ vals data, r = c := by
  intro r hr
  obtain ⟨x, hx, rfl⟩ := List.mem_map.1 hr
  exact (hc x hx).2

theorem const_tail {n k : ℕ} {c : ℝ} {m : List XF} (h : Reports n k (fun _ => c) (some m)) :
    ∀ x ∈ m.drop k, x ⇓ c := by
  intro x hx
  obtain ⟨i, hi⟩ := List.mem_iff_getElem?.1 hx
  rw [List.getElem?_drop] at hi
  exact h.at hi (by omega)

theorem ewma_of_const (data : List XF) (w : ℕ) (c : ℝ) (hw : 1 ≤ w) (hn : w ≤ data.length) (hc : ∀ x ∈ data, x ⇓ c) :
    Reports data.length (w - 1) (fun _ => c) (ewma data w) := by
  obtain ⟨v, h1, h2⟩ := ewma_within data w hw hn (fins_of_const hc)
  refine h1.congr fun i hi hi2 => ?_
  have := h2 i (by omega) hi2 c c (fun x hx => by
    rw [vals_of_const hc x (List.mem_of_mem_take hx)]
    exact ⟨le_refl _, le_refl _⟩)
  linarith [this.1, this.2]

/-- An `ewma` of the reported part of an `ewma`. -/
theorem ewma_again {n k w : ℕ} {c : ℝ} {m : List XF} (h : Reports n k (fun _ => c) (some m)) (hk : k ≤ n) (hw : 1 ≤ w)
    (hn : w ≤ n - k) : ∃ m', sliceFrom m k = some (m.drop k) ∧ ewma (m.drop k) w = some m' ∧
      Reports (n - k) (w - 1) (fun _ => c) (some m') ∧ m'.length = n - k := by
  have hl := h.length
  have := ewma_of_const (m.drop k) w c hw (by simp [hl]; omega) (const_tail h)
  rw [List.length_drop, hl] at this
  obtain ⟨m', e, r, l⟩ := this.some
  exact ⟨m', sliceFrom_of_le (by omega), e, r, l⟩

/-- C24: `dema` of a constant series is that constant. -/
theorem dema_const (data : List XF) (w : ℕ) (c : ℝ) (hw : 1 ≤ w) (hn : 2 * w ≤ data.length + 1)
    (hc : ∀ x ∈ data, x ⇓ c) : Reports data.length (2 * (w - 1)) (fun _ => c) (dema data w) := by
  obtain ⟨m1, e1, r1, l1⟩ := (ewma_of_const data w c hw (by omega) hc).some
  obtain ⟨m2, s1, e2, r2, l2⟩ := ewma_again r1 (by omega) hw (by omega)
  have r2' := r2.pad (w - 1)
  rw [show w - 1 + (data.length - (w - 1)) = data.length by omega] at r2'
  simp only [dema, e1, s1, e2, usub_of_le hw, Option.bind_eq_bind, Option.bind_some]
  have := r1.zipWith r2' (f := fun (ma1, ma2) => 2 * ma1 - ma2) (g := fun a b => 2 * a - b)
    (fun x y h => by nanp) (fun x y h => by nanp) (fun x y a b ha hb => is_sub (is_mul (is_lit 2) ha) hb)
  rw [show max (w - 1) (w - 1 + (w - 1)) = 2 * (w - 1) by omega] at this
  refine this.congr fun _ _ _ => by ring

/-- C24: `tema` of a constant series is that constant. -/
theorem tema_const (data : List XF) (w : ℕ) (c : ℝ) (hw : 1 ≤ w) (hn : 3 * w ≤ data.length + 2)
    (hc : ∀ x ∈ data, x ⇓ c) : Reports data.length (3 * (w - 1)) (fun _ => c) (tema data w) := by
  obtain ⟨m1, e1, r1, l1⟩ := (ewma_of_const data w c hw (by omega) hc).some
  obtain ⟨m2, s1, e2, r2, l2⟩ := ewma_again r1 (by omega) hw (by omega)
  obtain ⟨m3, s2, e3, r3, l3⟩ := ewma_again r2 (by omega) hw (by omega)
  have r2' := r2.pad (w - 1)
  rw [show w - 1 + (data.length - (w - 1)) = data.length by omega] at r2'
  have r3' := r3.pad ((w - 1) * 2)
  rw [show (w - 1) * 2 + (data.length - (w - 1) - (w - 1)) = data.length by omega] at r3'
  simp only [tema, e1, s1, e2, s2, e3, usub_of_le hw, Option.bind_eq_bind, Option.bind_some]
  refine reports_map (by simp; omega) ?_ ?_
  · rintro i ⟨x, y, z⟩ hi hk
    rw [zip3_getElem?] at hi
    have := r3'.at_nan hi.2.2 (by omega)
    nanp
  · rintro i ⟨x, y, z⟩ hi hk
    rw [zip3_getElem?] at hi
    have hx := r1.at hi.1 (by omega)
    have hy := r2'.at hi.2.1 (by omega)
    have hz := r3'.at hi.2.2 (by omega)
    exact (is_add (is_sub (is_mul (is_lit 3) hx) (is_mul (is_lit 3) hy)) hz).congr (by ring)

/-- A parameter clamped to an interval. -/
theorem clampLit_range {x lo hi : XF} {l u : ℝ} (hx : x ≠ nan) (hl : lo ⇓ l) (hu : hi ⇓ u) (hlu : l ≤ u) :
    ∃ r, clampLit x lo hi ⇓ r ∧ l ≤ r ∧ r ≤ u := by
  cases x with
  | nan => exact absurd rfl hx
  | inf b =>
    cases b
    · refine ⟨u, ?_, hlu, le_refl _⟩
      have h1 : ((inf false : XF) <. lo) = false := by
        rw [lt_def, lt, hl.toE]; simp [FP.toE]
      have h2 : (hi <. (inf false : XF)) = true := by
        have := hu.not_nan
        rw [isNaN_def] at this
        rw [lt_def, lt, hu.toE, this]; simp [FP.toE, FP.isNaN]
      simp only [clampLit, h1, h2]
      exact hu
    · refine ⟨l, ?_, le_refl _, hlu⟩
      have h1 : ((inf true : XF) <. lo) = true := by
        have := hl.not_nan
        rw [isNaN_def] at this
        rw [lt_def, lt, hl.toE, this]; simp [FP.toE, FP.isNaN]
      simp only [clampLit, h1]
      exact hl
  | negz => exact ⟨_, is_clampLit is_negz hl hu hlu, le_max_left _ _, max_le hlu (min_le_right _ _)⟩
  | fin r => exact ⟨_, is_clampLit (is_fin r) hl hu hlu, le_max_left _ _, max_le hlu (min_le_right _ _)⟩

/-- The default or the given parameter, clamped to `[0, 1]`. -/
theorem clampParam {p : Option XF} {m : ℕ} {e : ℕ} (hp : p ≠ some nan) :
    ∃ r, clampLit (p.getD (OfScientific.ofScientific m true e)) 0 1 ⇓ r ∧ 0 ≤ r ∧ r ≤ 1 := by
  refine clampLit_range ?_ is_zero is_one zero_le_one
  cases p with
  | none => exact (is_sci m true e).ne_nan
  | some x => simpa using hp

/-- C24: `t3` of a constant series is that constant, whatever the factor. -/
theorem t3_const (data : List XF) (w : ℕ) (factor : Option XF) (c : ℝ) (hw : 1 ≤ w) (hn : 6 * w ≤ data.length + 5)
    (hf : factor ≠ some nan) (hc : ∀ x ∈ data, x ⇓ c) :
    Reports data.length (6 * (w - 1)) (fun _ => c) (t3 data w factor) := by
  obtain ⟨m1, e1, r1, l1⟩ := (ewma_of_const data w c hw (by omega) hc).some
  obtain ⟨m2, s1, e2, r2, l2⟩ := ewma_again r1 (by omega) hw (by omega)
  obtain ⟨m3, s2, e3, r3, l3⟩ := ewma_again r2 (by omega) hw (by omega)
  obtain ⟨m4, s3, e4, r4, l4⟩ := ewma_again r3 (by omega) hw (by omega)
  obtain ⟨m5, s4, e5, r5, l5⟩ := ewma_again r4 (by omega) hw (by omega)
  obtain ⟨m6, s5, e6, r6, l6⟩ := ewma_again r5 (by omega) hw (by omega)
  obtain ⟨f, hF, -, -⟩ : ∃ r, clampLit (factor.getD 0.7) 0 1 ⇓ r ∧ 0 ≤ r ∧ r ≤ 1 := clampParam hf
  have r4' := r4.pad (w - 1)
  have r5' := r5.pad ((w - 1) * 2)
  have r6' := r6.pad ((w - 1) * 3)
  have h3 := is_powi 3 hF
  have h2 := is_powi 2 hF
  simp only [t3, e1, s1, e2, s2, e3, s3, e4, s4, e5, s5, e6, usub_of_le hw, Option.bind_eq_bind, Option.bind_some]
  have key : Reports (data.length - 2 * (w - 1)) (4 * (w - 1)) (fun _ => c) (some
      ((zip4 m3 (nans (w - 1) ++ m4) (nans ((w - 1) * 2) ++ m5) (nans ((w - 1) * 3) ++ m6)).map
        fun (e3, e4, e5, e6) => -(powi (clampLit (factor.getD 0.7) 0 1) 3) * e6 +
          (3 * powi (clampLit (factor.getD 0.7) 0 1) 2 + 3 * powi (clampLit (factor.getD 0.7) 0 1) 3) * e5 +
          ((-3 : XF) * clampLit (factor.getD 0.7) 0 1 - 6 * powi (clampLit (factor.getD 0.7) 0 1) 2
            - 3 * powi (clampLit (factor.getD 0.7) 0 1) 3) * e4 +
          (1 + 3 * clampLit (factor.getD 0.7) 0 1 + 3 * powi (clampLit (factor.getD 0.7) 0 1) 2
            + powi (clampLit (factor.getD 0.7) 0 1) 3) * e3)) := by
    refine reports_map (by simp; omega) ?_ ?_
    · rintro i ⟨x, y, z, u⟩ hi hk
      rw [zip4_getElem?] at hi
      have := r6'.at_nan hi.2.2.2 (by omega)
      nanp
    · rintro i ⟨x, y, z, u⟩ hi hk
      rw [zip4_getElem?] at hi
      have hx := r3.at hi.1 (by omega)
      have hy := r4'.at hi.2.1 (by omega)
      have hz := r5'.at hi.2.2.1 (by omega)
      have hu := r6'.at hi.2.2.2 (by omega)
      have hh := is_add (is_add (is_add (is_mul (is_neg h3) hu)
        (is_mul (is_add (is_mul (is_lit 3) h2) (is_mul (is_lit 3) h3)) hz))
        (is_mul (is_sub (is_sub (is_mul (is_neg (is_lit 3)) hF) (is_mul (is_lit 6) h2)) (is_mul (is_lit 3) h3)) hy))
        (is_mul (is_add (is_add (is_add is_one (is_mul (is_lit 3) hF)) (is_mul (is_lit 3) h2)) h3) hx)
      refine FP.Is.congr hh ?_
      simp only [OfNat.ofNat]
      ring
  have := key.pad ((w - 1) * 2)
  rw [show (w - 1) * 2 + (data.length - 2 * (w - 1)) = data.length by omega,
    show (w - 1) * 2 + 4 * (w - 1) = 6 * (w - 1) by omega] at this
  exact this

/-- `wma` over the output of another indicator. -/
theorem wma_after {n k w : ℕ} {v : ℕ → ℝ} {m : List XF} (hm : Reports n k v (some m)) (hw : 1 ≤ w) (hn : w ≤ n + 1) :
    Reports n (k + (w - 1))
      (fun i => weightedMean ((List.range' 1 w).map fun i : ℕ => (i : ℝ)) (lastOf v w i)) (wma m w) := by
  run_model [wma]
  refine hm.windows hw hn (fun l hl hx => ?_) fun i h1 h2 => ?_
  · exact dot_isNaN (by simp [wmaWeights, hl]) hx
  · obtain ⟨h3, h4⟩ := hm.recent h1 h2
    rw [← h4]
    exact dot_weightedMean (wmaWeights_vals w hw).1 h3 (wmaWeights_vals w hw).2

theorem hull_window (w : ℕ) (h : w < 2 ^ 64) : toUsize (floor (sqrt (flt w : XF))) = Nat.sqrt w := by
  have h1 := is_floor (is_sqrt (is_flt w) (by positivity))
  have hs : Real.sqrt w ≤ w := by
    rw [Real.sqrt_le_left (by positivity)]
    have : w ≤ w ^ 2 := Nat.le_self_pow (by norm_num) w
    exact_mod_cast this
  have hlt : ((⌊Real.sqrt w⌋ : ℤ) : ℝ) < 2 ^ 64 :=
    lt_of_le_of_lt (Int.floor_le _) (lt_of_le_of_lt hs (by exact_mod_cast h))
  rw [is_toUsize h1 hlt, ← Real.nat_floor_real_sqrt_eq_nat_sqrt, ← natCast_floor_eq_intCast_floor (Real.sqrt_nonneg _),
    Nat.floor_natCast]

/-- The weighted mean of wma. -/
noncomputable abbrev wmaOf (w : ℕ) (l : List ℝ) : ℝ := weightedMean ((List.range' 1 w).map fun i : ℕ => (i : ℝ)) l

/-- `hull` is the `wma` with window `⌊√w⌋` of twice the `wma` with window `⌈w/2⌉` less the `wma` with
window `w`. -/
theorem hull_reports (data : List XF) (w : ℕ) (hw : 1 ≤ w) (hb : w < 2 ^ 64) (hn : w ≤ data.length + 1) (hd : Fins data) :
    Reports data.length (w - 1 + (Nat.sqrt w - 1))
      (fun i => wmaOf (Nat.sqrt w) (lastOf (fun j => 2 * wmaOf ((w + 1) / 2) (recent (vals data) ((w + 1) / 2) j) -
        wmaOf w (recent (vals data) w j)) (Nat.sqrt w) i)) (hull data w) := by
  have e1 : divCeil w 2 = (w + 1) / 2 := divCeil_two _
  obtain ⟨m, em, rm, lm⟩ := (wma_reports data w hw hn hd).some
  obtain ⟨m2, em2, rm2, lm2⟩ := (wma_reports data ((w + 1) / 2) (by omega) (by omega) hd).some
  simp only [hull, em, e1, em2, hull_window w hb, Option.bind_eq_bind, Option.bind_some]
  have hz := rm2.zipWith rm (f := fun (x, y) => 2 * x - y) (g := fun a b => 2 * a - b)
    (fun x y h => by nanp) (fun x y h => by nanp) (fun x y a b ha hb => is_sub (is_mul (is_lit 2) ha) hb)
  rw [show max ((w + 1) / 2 - 1) (w - 1) = w - 1 by omega] at hz
  have hs : Nat.sqrt w ≤ w := Nat.sqrt_le_self w
  have := wma_after hz (w := Nat.sqrt w) (Nat.sqrt_pos.2 hw) (by omega)
  exact this

theorem wmaOf_const {w : ℕ} {c : ℝ} {l : List ℝ} (hl : l.length = w) (hw : 1 ≤ w) (h : ∀ x ∈ l, x = c) : wmaOf w l = c := by
  have := (weightedMean_nat_convex (us := List.range' 1 w) (l := l) (by simp [hl])
    ⟨1, by simp; omega, by decide⟩).within (lo := c) (hi := c) (fun x hx => by simp [h x hx])
  exact le_antisymm this.2 this.1

/-- C24: `hull` of a constant series is that constant. -/
theorem hull_const (data : List XF) (w : ℕ) (c : ℝ) (hw : 1 ≤ w) (hb : w < 2 ^ 64) (hn : w ≤ data.length + 1)
    (hc : ∀ x ∈ data, x ⇓ c) : Reports data.length (w - 1 + (Nat.sqrt w - 1)) (fun _ => c) (hull data w) := by
  refine (hull_reports data w hw hb hn (fins_of_const hc)).congr fun i h1 h2 => ?_
  have hs := Nat.sqrt_pos.2 hw
  have hr : ∀ u j, 1 ≤ u → u ≤ j + 1 → j < data.length → wmaOf u (recent (vals data) u j) = c := fun u j h1 h2 h3 =>
    wmaOf_const (recent_length h2 (by simpa using h3)) h1 fun x hx =>
      vals_of_const hc x (List.mem_of_mem_drop (List.mem_of_mem_take hx))
  refine wmaOf_const (by simp [lastOf]) hs fun x hx => ?_
  obtain ⟨j, hj, rfl⟩ := List.mem_map.1 hx
  rw [List.mem_range] at hj
  beta_reduce
  rw [hr _ _ (by omega) (by omega) (by omega), hr _ _ (by omega) (by omega) (by omega)]
  ring

/-- C24: `zlma` of a constant series is that constant. -/
theorem zlma_const (data : List XF) (w : ℕ) (c : ℝ) (hw : 1 ≤ w) (hn : (w - 1) / 2 + w ≤ data.length)
    (hc : ∀ x ∈ data, x ⇓ c) : Reports data.length ((w - 1) / 2 + (w - 1)) (fun _ => c) (zlma data w) := by
  have hs : sliceFrom data ((w - 1) / 2) = some (data.drop ((w - 1) / 2)) := sliceFrom_of_le (by omega)
  have h := ewma_of_const ((data.zip (data.drop ((w - 1) / 2))).map fun (prev, curr) => 2 * curr - prev) w c hw
    (by simp; omega) (by
      intro x hx
      obtain ⟨p, hp, rfl⟩ := List.mem_map.1 hx
      have := List.of_mem_zip hp
      exact (is_sub (is_mul (is_lit 2) (hc _ (List.mem_of_mem_drop this.2))) (hc _ this.1)).congr (by ring))
  obtain ⟨m, em, rm, lm⟩ := h.some
  have hp := rm.pad ((w - 1) / 2)
  simp only [zlma, usub_of_le hw, hs, em, Option.bind_eq_bind, Option.bind_some]
  simp only [List.length_map, List.length_zip, List.length_drop] at hp
  rw [show (w - 1) / 2 + min data.length (data.length - (w - 1) / 2) = data.length by omega] at hp
  exact hp

theorem all_of_scan {σ α : Type} {f : σ → α → σ × XF} {I : σ → Prop} {c : ℝ} {l : List α} {s : σ} (h0 : I s)
    (hs : ∀ s x, x ∈ l → I s → I (f s x).1 ∧ (f s x).2 ⇓ c) : ∀ y ∈ scan f s l, y ⇓ c := by
  induction l generalizing s with
  | nil => simp [scan]
  | cons x l ih =>
    intro y hy
    have := hs s x (by simp) h0
    rcases List.mem_cons.1 hy with rfl | hy
    · exact this.2
    · exact ih this.1 (fun s x hx => hs s x (by simp [hx])) y hy

theorem reports_of_all {k : ℕ} {c : ℝ} {l : List XF} (h : ∀ y ∈ l, y ⇓ c) :
    Reports (k + l.length) k (fun _ => c) (some (nans k ++ l)) :=
  reports_nans rfl fun _ hi => ⟨_, getElem?_of_lt hi, h _ (List.getElem_mem hi)⟩

theorem reports_scan {σ α : Type} {f : σ → α → σ × XF} (I : σ → Prop) {c : ℝ} {l : List α} {s : σ} {n k : ℕ}
    (hn : k + l.length = n) (h0 : I s) (hs : ∀ s x, x ∈ l → I s → I (f s x).1 ∧ (f s x).2 ⇓ c) :
    Reports n k (fun _ => c) (some (nans k ++ scan f s l)) := by
  have := reports_of_all (k := k) (all_of_scan h0 hs)
  rw [scan_length, hn] at this
  exact this

/-- C24: `hwma` of a constant series is that constant, whatever the smoothing factors. -/
theorem hwma_const (data : List XF) (alpha beta gamma : Option XF) (c : ℝ) (hn : 1 ≤ data.length)
    (ha : alpha ≠ some nan) (hb : beta ≠ some nan) (hg : gamma ≠ some nan) (hc : ∀ x ∈ data, x ⇓ c) :
    Reports data.length 0 (fun _ => c) (hwma data alpha beta gamma) := by
  obtain ⟨a, hA, -, -⟩ : ∃ r, clampLit (alpha.getD 0.2) 0 1 ⇓ r ∧ 0 ≤ r ∧ r ≤ 1 := clampParam ha
  obtain ⟨b, hB, -, -⟩ : ∃ r, clampLit (beta.getD 0.1) 0 1 ⇓ r ∧ 0 ≤ r ∧ r ≤ 1 := clampParam hb
  obtain ⟨g, hG, -, -⟩ : ∃ r, clampLit (gamma.getD 0.1) 0 1 ⇓ r ∧ 0 ≤ r ∧ r ≤ 1 := clampParam hg
  have h0 := getElem?_of_lt hn
  have hd0 := hc _ (List.getElem_mem hn)
  simp only [hwma, h0, Option.bind_eq_bind, Option.bind_some]
  have key := all_of_scan (c := c) (l := data) (s := (data[0], (0 : XF), (0 : XF)))
    (f := fun (state : XF × XF × XF) x =>
      let avg := (1 - clampLit (alpha.getD 0.2) 0 1) * (state.1 + state.2.1 + 0.5 * state.2.2) +
        clampLit (alpha.getD 0.2) 0 1 * x
      let trend := (1 - clampLit (beta.getD 0.1) 0 1) * (state.2.1 + state.2.2) +
        clampLit (beta.getD 0.1) 0 1 * (avg - state.1)
      let season := (1 - clampLit (gamma.getD 0.1) 0 1) * state.2.2 + clampLit (gamma.getD 0.1) 0 1 * (trend - state.2.1)
      ((avg, trend, season), avg + trend + 0.5 * season))
    (I := fun s => s.1 ⇓ c ∧ s.2.1 ⇓ 0 ∧ s.2.2 ⇓ 0) ⟨hd0, is_zero, is_zero⟩ (by
      rintro s x hx ⟨h1, h2, h3⟩
      have q1 := (is_add (is_mul (is_sub is_one hA) (is_add (is_add h1 h2) (is_mul (is_sci 5 true 1) h3)))
        (is_mul hA (hc x hx))).congr (b := c) (by ring)
      have q2 := (is_add (is_mul (is_sub is_one hB) (is_add h2 h3)) (is_mul hB (is_sub q1 h1))).congr (b := 0) (by ring)
      have q3 := (is_add (is_mul (is_sub is_one hG) h3) (is_mul hG (is_sub q2 h2))).congr (b := 0) (by ring)
      exact ⟨⟨q1, q2, q3⟩, (is_add (is_add q1 q2) (is_mul (is_sci 5 true 1) q3)).congr (by ring)⟩)
  have := reports_of_all (k := 0) key
  simp only [scan_length, zero_add] at this
  exact this

/-- C24: `ssf`, with two or three poles, reproduces a constant series. -/
theorem ssf_const (data : List XF) (w : ℕ) (tri : Option Bool) (c : ℝ) (hw : 1 ≤ w) (hn : 3 ≤ data.length)
    (hc : ∀ x ∈ data, x ⇓ c) :
    Reports data.length (if tri.getD false then 3 else 2) (fun _ => c) (ssf data w tri) := by
  have g0 := getElem?_of_lt (show 0 < data.length by omega)
  have g1 := getElem?_of_lt (show 1 < data.length by omega)
  have g2 := getElem?_of_lt (show 2 < data.length by omega)
  have h0 := hc _ (List.getElem_mem (show 0 < data.length by omega))
  have h1 := hc _ (List.getElem_mem (show 1 < data.length by omega))
  have h2 := hc _ (List.getElem_mem (show 2 < data.length by omega))
  have hw0 := (natCast_pos hw).ne'
  cases ht : tri.getD false
  · have s2 : sliceFrom data 2 = some (data.drop 2) := sliceFrom_of_le (by omega)
    simp only [ssf, ht, g0, g1, s2, Option.bind_eq_bind, Option.bind_some, Bool.false_eq_true, if_false]
    have hx : (FloatOps.pi * sqrt 2 / flt w : XF) ⇓ _ := is_div (is_mul is_pi (is_sqrt (is_lit 2) (by norm_num))) (is_flt w) hw0
    have hy := is_exp (is_neg hx)
    have hC := is_mul (is_neg hy) hy
    have hB := is_mul (is_mul (is_lit 2) hy) (is_cos hx)
    have hA := is_sub (is_sub is_one hB) hC
    refine reports_scan (fun s => s.1 ⇓ c ∧ s.2 ⇓ c) (by simp; omega) ⟨h0, h1⟩ ?_
    rintro s x hx ⟨q1, q2⟩
    have q3 := (is_add (is_add (is_mul hA (hc x (List.mem_of_mem_drop hx))) (is_mul hB q2)) (is_mul hC q1)).congr
      (b := c) (by ring)
    exact ⟨⟨q2, q3⟩, q3⟩
  · have s3 : sliceFrom data 3 = some (data.drop 3) := sliceFrom_of_le (by omega)
    simp only [ssf, ht, g0, g1, g2, s3, Option.bind_eq_bind, Option.bind_some, if_true]
    have hx : (FloatOps.pi / flt w : XF) ⇓ _ := is_div is_pi (is_flt w) hw0
    have hy := is_exp (is_neg hx)
    have hy2 := is_mul hy hy
    have hz := is_mul (is_mul (is_lit 2) hy) (is_cos (is_mul (is_sqrt (is_lit 3) (by norm_num)) hx))
    have hD := is_mul hy2 hy2
    have hC := is_mul (is_neg hy2) (is_add is_one hz)
    have hB := is_add hy2 hz
    have hA := is_sub (is_sub (is_sub is_one hB) hC) hD
    refine reports_scan (fun s => s.1 ⇓ c ∧ s.2.1 ⇓ c ∧ s.2.2 ⇓ c) (by simp; omega) ⟨h0, h1, h2⟩ ?_
    rintro s x hx ⟨q1, q2, q3⟩
    have q4 := (is_add (is_add (is_add (is_mul hA (hc x (List.mem_of_mem_drop hx))) (is_mul hB q3)) (is_mul hC q2))
      (is_mul hD q1)).congr (b := c) (by ring)
    exact ⟨⟨q2, q3, q4⟩, q4⟩

/-! ## The hypotheses are met by ordinary calls -/

theorem all_replicate (n : ℕ) (c : ℝ) : ∀ x ∈ List.replicate n (fin c : XF), x ⇓ c := fun _ hx => by
  rw [List.eq_of_mem_replicate hx]; exact is_fin c

example : Reports 20 4 (fun _ => 7) (dema (List.replicate 20 (fin 7 : XF)) 3) := by
  simpa using dema_const (List.replicate 20 (fin 7)) 3 7 (by decide) (by simp) (all_replicate _ _)
example : Reports 20 6 (fun _ => 7) (tema (List.replicate 20 (fin 7 : XF)) 3) := by
  simpa using tema_const (List.replicate 20 (fin 7)) 3 7 (by decide) (by simp) (all_replicate _ _)
example : Reports 20 12 (fun _ => 7) (t3 (List.replicate 20 (fin 7 : XF)) 3 none) := by
  simpa using t3_const (List.replicate 20 (fin 7)) 3 none 7 (by decide) (by simp) (by simp) (all_replicate _ _)
example : Reports 20 4 (fun _ => 7) (hull (List.replicate 20 (fin 7 : XF)) 4) := by
  simpa [show Nat.sqrt 4 = 2 from Nat.sqrt_eq 2] using
    hull_const (List.replicate 20 (fin 7)) 4 7 (by decide) (by decide) (by simp) (all_replicate _ _)
example : Reports 20 4 (fun _ => 7) (zlma (List.replicate 20 (fin 7 : XF)) 4) := by
  simpa using zlma_const (List.replicate 20 (fin 7)) 4 7 (by decide) (by simp) (all_replicate _ _)
example : Reports 20 0 (fun _ => 7) (hwma (List.replicate 20 (fin 7 : XF)) none none none) := by
  simpa using hwma_const (List.replicate 20 (fin 7)) none none none 7 (by simp) (by simp) (by simp) (by simp)
    (all_replicate _ _)
example : Reports 20 3 (fun _ => 7) (ssf (List.replicate 20 (fin 7 : XF)) 5 (some true)) := by
  simpa using ssf_const (List.replicate 20 (fin 7)) 5 (some true) 7 (by decide) (by simp) (all_replicate _ _)

end Traquer.Smooth
