import Verif.Lemmas.NearQuot
import Verif.Lemmas.AverageOrder
import Verif.Props.ErrorBands
/-! C91, conditioned accuracy in binary64: an indicator that divides by a computed quantity is accurate in proportion to how large that
quantity is next to the prices. `rsi`, `tsi`, `ppo`, `disparity`, `trix` and `pgo`. -/

namespace Traquer.Momentum
open FP FloatLit
open Smooth (ema1 ema3)

variable {M : ℝ}

/-- The rises and falls of a bounded series. -/
theorem gains_near (data : List F64) (hM : tiny64 ≤ M) (hB : M ≤ 2 ^ 800) (hd : Bounded M data) (hn : 1 ≤ data.length) :
    NearS M data.length 1 (fun i => max 0 (bar (vals data) i - bar (vals data) (i - 1))) 2 4 (nans 1 ++ gains data) := by
  have hS := Smooth.sized_of hM hB
  refine reportsP_after_nans (by simp [gains]; omega) fun i hi => ⟨_, getElem?_of_lt hi, ?_⟩
  have hg := getElem?_of_lt hi
  generalize (gains data)[i] = y at hg ⊢
  rw [gains, List.getElem?_map] at hg
  obtain ⟨⟨a, b⟩, hp, rfl⟩ := Option.map_eq_some_iff.1 hg
  obtain ⟨h1, h2⟩ := pairs_getElem?_some hp
  have n1 := near_bar hd h1
  have n2 := near_bar hd h2
  show Nearly M _ (max 0 (bar (vals data) (1 + i) - bar (vals data) (1 + i - 1))) 2 4
  rw [show 1 + i - 1 = i by omega, show 1 + i = i + 1 by omega]
  have := (n2.sub hS n1 (by norm_num) (by norm_num)).mono hS (c' := 2) (k' := 4) (by norm_num) (by norm_num)
  exact Nearly.fmax hS ((Nearly.exact (c := 2) isZero (by simpa using mul_nonneg zero_le_two hS.nonneg)).mono hS le_rfl (by norm_num)) this

theorem losses_near (data : List F64) (hM : tiny64 ≤ M) (hB : M ≤ 2 ^ 800) (hd : Bounded M data) (hn : 1 ≤ data.length) :
    NearS M data.length 1 (fun i => max 0 (bar (vals data) (i - 1) - bar (vals data) i)) 2 4 (nans 1 ++ losses data) := by
  have hS := Smooth.sized_of hM hB
  refine reportsP_after_nans (by simp [losses]; omega) fun i hi => ⟨_, getElem?_of_lt hi, ?_⟩
  have hg := getElem?_of_lt hi
  generalize (losses data)[i] = y at hg ⊢
  rw [losses, List.getElem?_map] at hg
  obtain ⟨⟨a, b⟩, hp, rfl⟩ := Option.map_eq_some_iff.1 hg
  obtain ⟨h1, h2⟩ := pairs_getElem?_some hp
  have n1 := near_bar hd h1
  have n2 := near_bar hd h2
  show Nearly M _ (max 0 (bar (vals data) (1 + i - 1) - bar (vals data) (1 + i))) 2 4
  rw [show 1 + i - 1 = i by omega, show 1 + i = i + 1 by omega]
  have := (n2.sub hS n1 (by norm_num) (by norm_num)).mono hS (c' := 2) (k' := 4) (by norm_num) (by norm_num)
  have := (Nearly.fmin hS ((Nearly.exact (c := 2) isZero (by simpa using mul_nonneg zero_le_two hS.nonneg)).mono hS le_rfl (by norm_num)) this).fabs
  have e : |min 0 (bar (vals data) (i + 1) - bar (vals data) i)| = max 0 (bar (vals data) i - bar (vals data) (i + 1)) := by
    rcases le_total 0 (bar (vals data) (i + 1) - bar (vals data) i) with h | h
    · rw [min_eq_left h, max_eq_left (by linarith), abs_zero]
    · rw [min_eq_right h, max_eq_right (by linarith), abs_of_nonpos h]; ring
  rwa [e] at this

/-- C91: the relative strength index is within `12600 w + 4416` units of rounding times the highest price over the average move. -/
theorem rsi_conditioned (data : List F64) (w : ℕ) (hw : 1 ≤ w) (h32 : w < 2 ^ 32) (hn : w + 1 ≤ data.length) (hM : tiny64 ≤ M)
    (hB : M ≤ 2 ^ 800) (hd : Bounded M data) :
    ReportsP data.length w (fun i y =>
      let up := wilderFrom 1 w (fun j => max 0 (bar (vals data) j - bar (vals data) (j - 1))) i
      let down := wilderFrom 1 w (fun j => max 0 (bar (vals data) (j - 1) - bar (vals data) j)) i
      QuotWithin M (12600 * w + 4416) 1 (100 * up) (up + down) y) (rsi data w) := by
  have hS := Smooth.sized_of hM hB
  have w32 : (w : ℝ) < 2 ^ 32 := by exact_mod_cast h32
  obtain ⟨g, -, eg, rg, lg⟩ := (gains_near data hM hB hd (by omega)).wilder hS (by norm_num) (by norm_num) hw (by omega) (by omega) (by linarith)
  obtain ⟨l, -, el, rl, ll⟩ := (losses_near data hM hB hd (by omega)).wilder hS (by norm_num) (by norm_num) hw (by omega) (by omega) (by linarith)
  have dr : ∀ x : List F64, (nans 1 ++ x).drop 1 = x := fun x => rfl
  rw [dr] at eg el
  simp only [rsi, eg, el, Option.bind_eq_bind, Option.bind_some]
  have key := ReportsP.zipP (f := fun p : F64 × F64 => 100 * p.1 / (p.1 + p.2)) (P := fun i y =>
      QuotWithin M (12600 * w + 4416) 1 (100 * wilderFrom 1 w (fun j => max 0 (bar (vals data) j - bar (vals data) (j - 1))) i)
        (wilderFrom 1 w (fun j => max 0 (bar (vals data) j - bar (vals data) (j - 1))) i +
          wilderFrom 1 w (fun j => max 0 (bar (vals data) (j - 1) - bar (vals data) j)) i) y) rg rl
    (fun y => isNaN_iff.1 (by have : Traquer.isNaN (nan : F64) = true := rfl; nanp))
    (fun x => isNaN_iff.1 (by have : Traquer.isNaN (nan : F64) = true := rfl; nanp)) fun i x y h1 h2 hin hx hy => ?_
  · rw [show max (1 + (w - 1)) (1 + (w - 1)) = w by omega, zip_nans (isNaN_iff.1 (by have : Traquer.isNaN (nan : F64) = true := rfl; nanp))] at key
    exact key
  · have p1 := wilderFrom_nonneg (n := data.length) (f := fun j => max 0 (bar (vals data) j - bar (vals data) (j - 1))) hw
      (fun j _ _ => le_max_left _ _) i h1 hin
    have p2 := wilderFrom_nonneg (n := data.length) (f := fun j => max 0 (bar (vals data) (j - 1) - bar (vals data) j)) hw
      (fun j _ _ => le_max_left _ _) i h1 hin
    refine Nearly.quot1 (Q := 100) hS (Nearly.smul hS (isLit 100 (by norm_num)) hx (by norm_num; linarith) (by norm_num))
      (hx.add hS hy (by linarith) (by norm_num)) ?_ (by norm_num) (by norm_num) (by norm_num; linarith)
    rw [abs_of_nonneg (by linarith), abs_of_nonneg (by linarith)]
    linarith

/-- The changes of a bounded series. -/
theorem changes_near (data : List F64) (hM : tiny64 ≤ M) (hB : M ≤ 2 ^ 800) (hd : Bounded M data) (hn : 1 ≤ data.length) :
    NearS M data.length 1 (fun i => bar (vals data) i - bar (vals data) (i - 1)) 2 4
      (nans 1 ++ (pairs data).map fun (p0, p1) => p1 - p0) := by
  have hS := Smooth.sized_of hM hB
  refine reportsP_after_nans (by simp; omega) fun i hi => ⟨_, getElem?_of_lt hi, ?_⟩
  have hg := getElem?_of_lt hi
  generalize ((pairs data).map fun (x : F64 × F64) => x.2 - x.1)[i] = y at hg ⊢
  rw [List.getElem?_map] at hg
  obtain ⟨⟨a, b⟩, hp, rfl⟩ := Option.map_eq_some_iff.1 hg
  obtain ⟨h1, h2⟩ := pairs_getElem?_some hp
  have n1 := near_bar hd h1
  have n2 := near_bar hd h2
  show Nearly M _ (bar (vals data) (1 + i) - bar (vals data) (1 + i - 1)) 2 4
  rw [show 1 + i - 1 = i by omega, show 1 + i = i + 1 by omega]
  exact (n2.sub hS n1 (by norm_num) (by norm_num)).mono hS (c' := 2) (k' := 4) (by norm_num) (by norm_num)

/-- C91: the true strength index is within `12000 (short + long) + 26210` units of rounding times the highest price over the twice
smoothed absolute change. -/
theorem tsi_conditioned (data : List F64) (short long : ℕ) (hs : 1 ≤ short) (hl : 1 ≤ long) (h32 : short < 2 ^ 32) (h32' : long < 2 ^ 32)
    (hn : long + short ≤ data.length) (hM : tiny64 ≤ M) (hB : M ≤ 2 ^ 800) (hd : Bounded M data) :
    ReportsP data.length (long + short - 1) (fun i =>
      let change := fun j => bar (vals data) j - bar (vals data) (j - 1)
      QuotWithin M (12000 * (short + long) + 26210) 1 (100 * ewmaFrom long short (ewmaFrom 1 long change) i)
        (ewmaFrom long short (ewmaFrom 1 long fun j => |change j|) i)) (tsi data short long) := by
  have hS := Smooth.sized_of hM hB
  have s32 : (short : ℝ) < 2 ^ 32 := by exact_mod_cast h32
  have l32 : (long : ℝ) < 2 ^ 32 := by exact_mod_cast h32'
  have c1 := changes_near data hM hB hd (by omega)
  have c2 : NearS M data.length 1 (fun i => |bar (vals data) i - bar (vals data) (i - 1)|) 2 4
      (nans 1 ++ ((pairs data).map fun (p0, p1) => p1 - p0).map Traquer.fabs) := by
    refine reportsP_after_nans (by simp; omega) fun i hi => ⟨_, getElem?_of_lt hi, ?_⟩
    rw [List.getElem_map]
    have hi' : i < ((pairs data).map fun (x : F64 × F64) => x.2 - x.1).length := by simpa using hi
    have : (nans 1 ++ (pairs data).map fun (x : F64 × F64) => x.2 - x.1)[1 + i]? = some ((pairs data).map fun (x : F64 × F64) => x.2 - x.1)[i] := by
      rw [List.getElem?_append_right (by simp)]
      simp only [nans_length, Nat.add_sub_cancel_left]
      exact getElem?_of_lt hi'
    exact (c1.at' this (by omega)).fabs
  have dr : ∀ x : List F64, (nans 1 ++ x).drop 1 = x := fun x => rfl
  obtain ⟨o1, -, e1, r1, l1⟩ := c1.ewma (w := long) hS (by norm_num) (by norm_num) hl (by omega) (by omega) (by linarith)
  obtain ⟨o2, -, e2, r2, l2⟩ := c2.ewma (w := long) hS (by norm_num) (by norm_num) hl (by omega) (by omega) (by linarith)
  obtain ⟨p1, -, e3, r3, l3⟩ := r1.ewma (w := short) hS (by norm_num) (by linarith) hs (by omega) (by omega) (by linarith)
  obtain ⟨p2, -, e4, r4, l4⟩ := r2.ewma (w := short) hS (by norm_num) (by linarith) hs (by omega) (by omega) (by linarith)
  have hdrop : ∀ x : List F64, (nans 1 ++ x).drop (1 + (long - 1)) = x.drop (long - 1) := fun x => by
    rw [← List.drop_drop]; rfl
  rw [dr] at e1 e2
  rw [hdrop] at e3 e4
  rw [show 1 + (long - 1) = long by omega] at r3 r4
  simp only [tsi, usub_of_le hl, e1, e2, e3, e4, Option.bind_eq_bind, Option.bind_some]
  have key := ReportsP.zipP (f := fun p : F64 × F64 => 100 * p.1 / p.2) (P := fun i =>
      QuotWithin M (12000 * (short + long) + 26210) 1
        (100 * ewmaFrom long short (ewmaFrom 1 long fun j => bar (vals data) j - bar (vals data) (j - 1)) i)
        (ewmaFrom long short (ewmaFrom 1 long fun j => |bar (vals data) j - bar (vals data) (j - 1)|) i)) r3 r4
    (fun y => isNaN_iff.1 (by have : Traquer.isNaN (nan : F64) = true := rfl; nanp))
    (fun x => isNaN_iff.1 (by have : Traquer.isNaN (nan : F64) = true := rfl; nanp)) fun i x y h1 h2 hin hx hy => ?_
  · rw [zip_nans (isNaN_iff.1 (by have : Traquer.isNaN (nan : F64) = true := rfl; nanp))] at key
    exact key.cast rfl (by omega)
  · refine Nearly.quot1 (Q := 100) hS (Nearly.smul hS (isLit 100 (by norm_num)) hx (by norm_num; linarith) (by norm_num))
      hy ?_ (by norm_num) (by norm_num) (by norm_num; linarith)
    have q := ewmaFrom_abs_le (k := long) (n := data.length) (f := ewmaFrom 1 long fun j => bar (vals data) j - bar (vals data) (j - 1)) hs
      (fun j h1 h2 => ewmaFrom_abs_le (n := data.length) hl (fun j _ _ => le_rfl) j (by omega) h2) i h1 hin
    rw [abs_mul, abs_of_pos (by norm_num : (0 : ℝ) < 100)]
    exact mul_le_mul_of_nonneg_left (q.trans (le_abs_self _)) (by norm_num)

/-- C91: the percentage price oscillator, in terms of the highest price over the long average. -/
theorem ppo_conditioned (data : List F64) (short long : ℕ) (hs : 1 ≤ short) (hl : 1 ≤ long) (h32 : short < 2 ^ 32) (h32' : long < 2 ^ 32)
    (hn : short ≤ data.length) (hn' : long ≤ data.length) (hM : tiny64 ≤ M) (hB : M ≤ 2 ^ 800) (hd : Bounded M data) :
    ReportsP data.length (max (short - 1) (long - 1)) (fun i => QuotWithin M (2000 * (short + long) + 5002) 2
      (100 * (ewmaFrom 0 short (bar (vals data)) i - ewmaFrom 0 long (bar (vals data)) i)) (ewmaFrom 0 long (bar (vals data)) i))
      (ppo data short long) := by
  have hS := Smooth.sized_of hM hB
  obtain ⟨s, es, rs⟩ := Smooth.ewma_near data short hs h32 hn hM hB hd
  obtain ⟨l, el, rl⟩ := Smooth.ewma_near data long hl h32' hn' hM hB hd
  simp only [ppo, es, el, Option.bind_eq_bind, Option.bind_some]
  refine ReportsP.zipP rs rl (fun y => isNaN_iff.1 (by have : Traquer.isNaN (nan : F64) = true := rfl; nanp))
    (fun x => isNaN_iff.1 (by have : Traquer.isNaN (nan : F64) = true := rfl; nanp)) fun i x y h1 h2 hin hx hy => ?_
  exact Nearly.percent hS hx hy (by linarith)

/-- C91: the disparity index, in terms of the highest price over the average. -/
theorem disparity_conditioned (data : List F64) (w : ℕ) (hw : 1 ≤ w) (h32 : w < 2 ^ 32) (hn : w ≤ data.length) (hM : tiny64 ≤ M)
    (hB : M ≤ 2 ^ 800) (hd : Bounded M data) :
    ReportsP data.length (w - 1) (fun i => QuotWithin M (6000 * w + 7407) 2
      (100 * (bar (vals data) i - ewmaFrom 0 w (bar (vals data)) i)) (ewmaFrom 0 w (bar (vals data)) i)) (disparity data w) := by
  have hS := Smooth.sized_of hM hB
  have w32 : (w : ℝ) < 2 ^ 32 := by exact_mod_cast h32
  have w0 : (0 : ℝ) ≤ w := by positivity
  obtain ⟨m, em, rm⟩ := Smooth.ewma_near data w hw h32 hn hM hB hd
  simp only [disparity, em, Option.bind_eq_bind, Option.bind_some]
  refine (ReportsP.zipP (NearS.ofBounded hd) rm (fun y => isNaN_iff.1 (by have : Traquer.isNaN (nan : F64) = true := rfl; nanp))
    (fun x => isNaN_iff.1 (by have : Traquer.isNaN (nan : F64) = true := rfl; nanp)) fun i x y h1 h2 hin hx hy => ?_).cast rfl (by omega)
  exact Nearly.quot2 hS (Nearly.smul hS (isLit 100 (by norm_num)) (hx.sub hS hy (by linarith) (by norm_num)) (by norm_num; linarith)
    (by norm_num)) hy (by norm_num) (by norm_num) (by linarith) (by norm_num; linarith)

/-- C91: trix, in terms of the highest price over the previous value of the triple average. -/
theorem trix_conditioned (data : List F64) (w : ℕ) (hw : 1 ≤ w) (h32 : w < 2 ^ 32) (hn : 3 * w ≤ data.length + 2) (hM : tiny64 ≤ M)
    (hB : M ≤ 2 ^ 800) (hd : Bounded M data) :
    ReportsP data.length (3 * (w - 1) + 1) (fun i => QuotWithin M (40000 * w + 41407) 2
      (100 * (ema3 w (bar (vals data)) i - ema3 w (bar (vals data)) (i - 1))) (ema3 w (bar (vals data)) (i - 1))) (trix data w) := by
  have hS := Smooth.sized_of hM hB
  have w32 : (w : ℝ) < 2 ^ 32 := by exact_mod_cast h32
  have w0 : (0 : ℝ) ≤ w := by positivity
  obtain ⟨m1, e1, r1⟩ := Smooth.ewma_near data w hw h32 (by omega) hM hB hd
  obtain ⟨m2, s1, e2, r2, l2⟩ := r1.ewma hS zero_le_one (by linarith) hw (by omega) (by omega) (by linarith)
  obtain ⟨m3, s2, e3, r3, l3⟩ := r2.ewma hS zero_le_one (by linarith) hw (by omega) (by omega) (by linarith)
  have hdrop : (nans (w - 1) ++ m2).drop (w - 1 + (w - 1)) = m2.drop (w - 1) := by
    rw [List.drop_append, List.drop_eq_nil_of_le (by simp), List.nil_append]; simp
  rw [hdrop] at e3
  have l1 := r1.length
  have s2' : sliceFrom m2 (w - 1) = some (m2.drop (w - 1)) := sliceFrom_of_le (by omega)
  have s3 : sliceFrom m3 1 = some (m3.drop 1) := sliceFrom_of_le (by omega)
  replace r3 := r3.congr (v' := ema3 w (bar (vals data))) fun i _ _ => by
    unfold ema3; rw [show 2 * (w - 1) = w - 1 + (w - 1) by omega]
  have at3 : ∀ {i : ℕ} {y : F64}, m3[i]? = some y → (nans (w - 1 + (w - 1)) ++ m3)[w - 1 + (w - 1) + i]? = some y := fun {i y} h => by
    rw [List.getElem?_append_right (by simp), nans_length, Nat.add_sub_cancel_left]; exact h
  simp only [trix, e1, s1, e2, s2', e3, s3, usub_of_le hw, Option.bind_eq_bind, Option.bind_some]
  have key : ReportsP (data.length - (w - 1 + (w - 1)) - 1) (w - 1) (fun i => QuotWithin M (40000 * w + 41407) 2
      (100 * (ema3 w (bar (vals data)) (w - 1 + (w - 1) + 1 + i) - ema3 w (bar (vals data)) (w - 1 + (w - 1) + i)))
      (ema3 w (bar (vals data)) (w - 1 + (w - 1) + i)))
      (some ((m3.zip (m3.drop 1)).map fun (prev, curr) => 100 * (curr - prev) / prev)) := by
    refine reportsP_map (by simp; omega) ?_ ?_
    · rintro i ⟨x, y⟩ hi hk
      obtain ⟨h1, h2⟩ := List.getElem?_zip_eq_some.1 hi
      have : Traquer.isNaN x = true := by rw [r3.at_nan (y := x) (at3 h1) (by omega)]; rfl
      nanp
    · rintro i ⟨x, y⟩ hi hk
      obtain ⟨h1, h2⟩ := List.getElem?_zip_eq_some.1 hi
      rw [List.getElem?_drop] at h2
      have hx := r3.at' (at3 h1) (by omega)
      have hy := r3.at' (at3 h2) (by omega)
      rw [← Nat.add_assoc] at hy
      exact Nearly.quot2 (y := x) hS (Nearly.smul hS (isLit 100 (by norm_num)) (hy.sub hS hx (by linarith) (by norm_num)) (by norm_num; linarith)
        (by norm_num)) hx (by norm_num) (by norm_num) (by linarith) (by norm_num; linarith)
  have := key.pad ((w - 1) * 2 + 1)
  refine (this.cast (by omega) (by omega)).mono fun i y h1 h2 h => ?_
  rw [show w - 1 + (w - 1) + 1 + (i - ((w - 1) * 2 + 1)) = i by omega, show w - 1 + (w - 1) + (i - ((w - 1) * 2 + 1)) = i - 1 by omega] at h
  exact h

/-- C91: the pretty good oscillator, in terms of the highest price over the average true range. -/
theorem pgo_conditioned (high low close : List F64) (w : ℕ) (hl : low.length = high.length) (hc : close.length = high.length)
    (hw : 1 ≤ w) (h32 : w < 2 ^ 32) (hn : w + 1 ≤ high.length) (hM : tiny64 ≤ M) (hB : M ≤ 2 ^ 800) (bh : Bounded M high)
    (bl : Bounded M low) (bc : Bounded M close) :
    ReportsP high.length w (fun i => QuotWithin M (124 * w + 188) 2 (bar (vals close) i - mean (lastOf (bar (vals close)) w i))
      (ewmaFrom 1 w (fun j => trueRangeOf (bar (vals high) j) (bar (vals low) j) (bar (vals close) (j - 1))) i)) (pgo high low close w) := by
  have hS := Smooth.sized_of hM hB
  have w32 : (w : ℝ) < 2 ^ 32 := by exact_mod_cast h32
  have w0 : (0 : ℝ) ≤ w := by positivity
  obtain ⟨t, et, lt, rt⟩ := Volatility.tr_near high low close hl hc hM hB bh bl bc (by omega)
  obtain ⟨a, -, ea, ra, la⟩ := rt.ewma hS (by norm_num) (by norm_num) hw (by omega) (by omega) (by linarith)
  obtain ⟨m, em, rm⟩ := Smooth.sma_near close w hw h32 (by omega) hM hB bc
  have dr : (nans 1 ++ t).drop 1 = t := rfl
  rw [dr] at ea
  have lm := rm.length
  simp only [pgo, et, ea, em, Option.bind_eq_bind, Option.bind_some]
  refine reportsP_map (by simp; omega) ?_ ?_
  · rintro i ⟨x, y, z⟩ hi hk
    rw [zip3_getElem?] at hi
    have : Traquer.isNaN z = true := by rw [ra.at_nan (y := z) hi.2.2 (by omega)]; rfl
    nanp
  · rintro i ⟨x, y, z⟩ hi hk
    rw [zip3_getElem?] at hi
    have hz := ra.at' (y := z) hi.2.2 (by omega)
    have hy := rm.at' (y := y) hi.2.1 (by omega)
    have hx := near_bar bc hi.1
    exact Nearly.quot2 hS (hx.sub hS hy (by linarith) (by norm_num)) hz (by norm_num) (by norm_num) (by linarith) (by norm_num; linarith)

section Examples

local notation "exH" => ([2, 6, 5, 9] : List F64)
local notation "exL" => ([1, 4, 2, 6] : List F64)
local notation "exC" => ([1, 5, 3, 7] : List F64)
private theorem exM : tiny64 ≤ 9 := Volatility.bands_example.2.2.2.1
private theorem exB : (9 : ℝ) ≤ 2 ^ 800 := Volatility.bands_example.2.2.2.2
private theorem exh : Bounded 9 exH := Volatility.bands_example.1
private theorem exl : Bounded 9 exL := Volatility.bands_example.2.1
private theorem exc : Bounded 9 exC := Volatility.bands_example.2.2.1

/-! With `M = 9` and a window of 2 or 1 every hypothesis of the theorems of this chapter is met. -/
example := rsi_conditioned exC 2 (by norm_num) (by norm_num) (by simp) exM exB exc
example := tsi_conditioned exC 1 2 (by norm_num) (by norm_num) (by norm_num) (by norm_num) (by simp) exM exB exc
example := ppo_conditioned exC 1 2 (by norm_num) (by norm_num) (by norm_num) (by norm_num) (by simp) (by simp) exM exB exc
example := disparity_conditioned exC 2 (by norm_num) (by norm_num) (by simp) exM exB exc
example := trix_conditioned exC 2 (by norm_num) (by norm_num) (by simp) exM exB exc
example := pgo_conditioned exH exL exC 2 rfl rfl (by norm_num) (by norm_num) (by simp) exM exB exh exl exc

/-- The condition of `QuotWithin` is met too: the third `rsi` of these closes is within `10^-10` of `200 / 3`. -/
example : ∃ r y, rsi exC 2 = some r ∧ r[2]? = some y ∧ Approx y (200 / 3) (10 ^ (-10 : ℤ)) := by
  obtain ⟨r, er, -, -, h⟩ := rsi_conditioned exC 2 (by norm_num) (by norm_num) (by simp) exM exB exc
  obtain ⟨y, hy, q⟩ := h 2 (by norm_num) (by simp)
  have v : vals exC = [1, 5, 3, 7] := by
    simp only [vals, List.map_cons, List.map_nil, (isLit (ρ := Rounding.binary64) 5 (by norm_num)).2, (isLit (ρ := Rounding.binary64) 3 (by norm_num)).2,
      (isLit (ρ := Rounding.binary64) 7 (by norm_num)).2, (isOne (ρ := Rounding.binary64)).2, Nat.cast_ofNat]
  refine ⟨r, y, er, hy, ?_⟩
  simp only [v] at q
  norm_num [wilderFrom, bar, mean, lastOf, List.range_succ, QuotWithin, unit64] at q
  exact q.mono (by norm_num)

end Examples

end Traquer.Momentum
