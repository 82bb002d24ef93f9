import Verif.Props.ErrorAverages
import Verif.Props.TrueRange
import Verif.Props.Bands
import Verif.Props.PlainFormulas
/-!
# C74: rounding errors of composed averages, ranges and bands
-/

namespace Traquer
open FP FloatLit
open Traquer.Trend (is_bar)

theorem near_bar {M : ℝ} {l : List F64} (hd : Bounded M l) {i : ℕ} {x : F64} (h : l[i]? = some x) : Nearly M x (bar (vals l) i) 1 0 :=
  (NearS.ofBounded hd).at' h (by omega)

variable {M : ℝ} {n k w : ℕ} {v : ℕ → ℝ} {c e : ℝ} {m : List F64}

/-- A moving average over an approximate series that starts with NaNs. -/
theorem NearS.smaPadded (hM : tiny64 ≤ M) (hB : M ≤ 2 ^ 800) (h : NearS M n k v c e m) (c0 : 0 ≤ c) (hc : c ≤ 2 ^ 10) (he : e ≤ 2 ^ 53)
    (hw : 1 ≤ w) (h32 : w < 2 ^ 32) (hn : w ≤ n + 1) : ∃ m', Smooth.sma m w = some m' ∧
      NearS M n (k + (w - 1)) (fun i => mean (lastOf v w i)) c (e + (w + 5) * (c + 1)) m' := by
  have hS := Smooth.sized_of hM hB
  have w32 : (w : ℝ) < 2 ^ 32 := by exact_mod_cast h32
  have hb2 := NearS.room (w := w) (c := c) hS c0 (by nlinarith)
  refine ⟨nans (w - 1) ++ (windowsOf w m).map fun l => fsum l / flt w, by run_model [Smooth.sma],
    h.windows hS he hw hn (fun l hl hx => ?_) fun i v' h1 h2 hb hv hd => ?_⟩
  · have := fsum_isNaN hx
    nanp
  · have hl : (recent m w i).length = w := recent_length (by omega) (by rw [h.length]; exact h2)
    have M1 : M ≤ (c + 1) * M := le_mul_of_one_le_left hS.nonneg (by linarith)
    have key := accurate64.near_mean (hS.nonneg.trans M1) (underflow64 (hM.trans M1)) (by unfold unit64; norm_num) hb (by omega) (by omega)
      (by rw [hl]; simpa using unit64_mul (c := 1) (w := w) (by norm_num) (by omega)) (by rw [hl]; exact hb2)
    rw [hv, hl] at key
    obtain ⟨z, hz, ez⟩ := key
    refine ⟨⟨z, hz, ?_⟩, mean_lastOf_bounded hw h.bound i (by omega) h2⟩
    have := mean_lastOf_near hw hd i (by omega) h2
    have := abs_add_le (z - mean (lastOf v' w i)) (mean (lastOf v' w i) - mean (lastOf v w i))
    rw [sub_add_sub_cancel] at this
    linarith

/-- The difference of two approximate values, with a shorter bill for small magnitudes. -/
theorem NearS.map2 {k₁ k₂ : ℕ} {v₁ v₂ : ℕ → ℝ} {c₁ c₂ e₁ e₂ : ℝ} {m₁ m₂ : List F64} {f : F64 × F64 → F64} {g : ℝ → ℝ → ℝ}
    (h₁ : NearS M n k₁ v₁ c₁ e₁ m₁) (h₂ : NearS M n k₂ v₂ c₂ e₂ m₂) (hl : ∀ y, Traquer.isNaN (f (nan, y)) = true)
    (hr : ∀ x, Traquer.isNaN (f (x, nan)) = true)
    (hf : ∀ x y a b, Nearly M x a c₁ e₁ → Nearly M y b c₂ e₂ → Nearly M (f (x, y)) (g a b) c e) :
    NearS M n (max k₁ k₂) (fun i => g (v₁ i) (v₂ i)) c e ((m₁.zip m₂).map f) :=
  ReportsP.zipP h₁ h₂ (fun y => isNaN_iff.1 (hl y)) (fun x => isNaN_iff.1 (hr x)) fun i x y _ _ _ hx hy => hf x y _ _ hx hy

end Traquer

namespace Traquer.Smooth
open FP FloatLit
open Traquer.Distribution (rounds_nat)

variable (data : List F64) (w : ℕ) {M : ℝ}

/-- The moving average of the data. -/
theorem sma_near (hw : 1 ≤ w) (h32 : w < 2 ^ 32) (hn : w ≤ data.length + 1) (hM : tiny64 ≤ M) (hB : M ≤ 2 ^ 800) (hd : Bounded M data) :
    ∃ m, sma data w = some m ∧ NearS M data.length (w - 1) (fun i => mean (lastOf (bar (vals data)) w i)) 1 (w + 5) m := by
  have hS := sized_of hM hB
  have w32 : (w : ℝ) < 2 ^ 32 := by exact_mod_cast h32
  have key := sma_error data w hw hn (by omega) hM (by
    have := NearS.room (w := w) (c := 0) hS le_rfl (by linarith)
    linarith) hd
  obtain ⟨m, e, -⟩ := id key
  refine ⟨m, e, ?_⟩
  rw [e] at key
  obtain ⟨o, h1, h2, h3, h4⟩ := key
  refine ⟨o, h1, h2, h3, fun i hi hin => ?_⟩
  obtain ⟨y, hy, p⟩ := h4 i hi hin
  rw [← lastOf_bar (by omega) (by simpa using hin)] at p
  exact ⟨y, hy, p, mean_lastOf_bounded hw (n := data.length) (fun j _ hj => (NearS.ofBounded hd).bound j (by omega) hj) i (by omega) hin⟩

/-- C74: the triangular average computed in binary64 is within `2 w + 18` units of the exact one. -/
theorem trima_error (hw : 1 ≤ w) (h32 : w < 2 ^ 32) (hn : w ≤ data.length + 1) (hM : tiny64 ≤ M) (hB : M ≤ 2 ^ 800) (hd : Bounded M data) :
    ReportsP data.length (w - 1)
      (fun i y => Approx y (mean (lastOf (fun j => mean (lastOf (bar (vals data)) ((w + 1) / 2) j)) (w / 2 + 1) i))
        ((2 * w + 18) * unit64 * M)) (trima data w) := by
  have hS := sized_of hM hB
  have e1 : divCeil w 2 = (w + 1) / 2 := divCeil_two _
  have e2 : (if w % 2 = 0 then (w + 1) / 2 + 1 else (w + 1) / 2) = w / 2 + 1 := by split <;> omega
  obtain ⟨m, em, rm⟩ := sma_near data ((w + 1) / 2) (by omega) (by omega) (by omega) hM hB hd
  have b : (((w + 1) / 2 : ℕ) : ℝ) < 2 ^ 32 := by exact_mod_cast (show (w + 1) / 2 < 2 ^ 32 by omega)
  obtain ⟨m', em', rm'⟩ := rm.smaPadded (w := w / 2 + 1) hM hB zero_le_one (by norm_num) (by linarith) (by omega) (by omega) (by omega)
  simp only [trima, e1, e2, em, em', Option.bind_eq_bind, Option.bind_some]
  rw [show w - 1 = (w + 1) / 2 - 1 + (w / 2 + 1 - 1) by omega]
  refine near_reports rm' hS ?_
  have h1 : 2 * ((w / 2 : ℕ) : ℝ) ≤ w := by exact_mod_cast (show 2 * (w / 2) ≤ w by omega)
  have h2 : 2 * (((w + 1) / 2 : ℕ) : ℝ) ≤ w + 1 := by exact_mod_cast (show 2 * ((w + 1) / 2) ≤ w + 1 by omega)
  push_cast at h2 ⊢
  linarith

/-- C74: the zero-lag average, within `40 (w + 1) + 9` units. -/
theorem zlma_error (hw : 1 ≤ w) (h32 : w < 2 ^ 32) (hn : (w - 1) / 2 + w ≤ data.length) (hM : tiny64 ≤ M) (hB : M ≤ 2 ^ 800)
    (hd : Bounded M data) :
    ReportsP data.length ((w - 1) / 2 + (w - 1)) (fun i y => Approx y (ewmaFrom ((w - 1) / 2) w (fun i =>
      2 * bar (vals data) i - bar (vals data) (i - (w - 1) / 2)) i) ((40 * (w + 1) + 9) * unit64 * M)) (zlma data w) := by
  have hS := sized_of hM hB
  have w32 : (w : ℝ) < 2 ^ 32 := by exact_mod_cast h32
  generalize hL : (w - 1) / 2 = L at *
  have hs : sliceFrom data L = some (data.drop L) := sliceFrom_of_le (by omega)
  have r : NearS M data.length L (fun i => 2 * bar (vals data) i - bar (vals data) (i - L)) 3 9
      (nans L ++ (data.zip (data.drop L)).map fun (prev, curr) => 2 * curr - prev) := by
    refine reportsP_after_nans (by simp; omega) fun i hi => ?_
    simp only [List.length_map, List.length_zip, List.length_drop] at hi
    have e1 := getElem?_of_lt (show i < data.length by omega)
    have e2 := getElem?_of_lt (show L + i < data.length by omega)
    refine ⟨_, by rw [List.getElem?_map, (List.getElem?_zip_eq_some (z := (_, _))).2 ⟨e1, by rw [List.getElem?_drop]; exact e2⟩]; rfl, ?_⟩
    beta_reduce
    rw [show L + i - L = i by omega]
    have := (Nearly.smul hS (isLit 2 (by norm_num)) (near_bar hd e2) (by norm_num) (by norm_num)).sub hS (near_bar hd e1) (by norm_num)
      (by norm_num)
    exact this.mono hS (by norm_num) (by norm_num)
  obtain ⟨m, -, e, r', -⟩ := r.ewma hS (by norm_num) (by norm_num) hw (by omega) hn (by linarith)
  rw [List.drop_append, List.drop_eq_nil_of_le (by simp), List.nil_append] at e
  simp only [nans_length, Nat.sub_self, List.drop_zero] at e
  simp only [zlma, usub_of_le hw, hL, hs, e, Option.bind_eq_bind, Option.bind_some]
  exact near_reports r' hS (by linarith)

/-- The window of the last average of `hull` is the exact integer square root. -/
theorem hull_window64 (w : ℕ) (hw : 1 ≤ w) (h26 : w < 2 ^ 26) : toUsize (floor (sqrt (flt w : F64))) = Nat.sqrt w := by
  obtain ⟨s, hs⟩ : ∃ s, Nat.sqrt w = s := ⟨_, rfl⟩
  have s1 : s * s ≤ w := hs ▸ Nat.sqrt_le w
  have s2 : w < (s + 1) * (s + 1) := hs ▸ Nat.lt_succ_sqrt w
  have s3 : s < 2 ^ 13 := by nlinarith
  have R := rounds_sqrt (isFlt (ρ := Rounding.binary64) (show w ≤ 2 ^ 53 by omega)) (by positivity)
  have w0 : (0 : ℝ) ≤ w := by positivity
  have sw : Real.sqrt w * Real.sqrt w = w := Real.mul_self_sqrt w0
  have r0 := Real.sqrt_nonneg (w : ℝ)
  have a1 : (s : ℝ) ≤ Real.sqrt w := Real.le_sqrt_of_sq_le (by rw [pow_two]; exact_mod_cast s1)
  have S3 : (s : ℝ) + 1 ≤ 2 ^ 13 := by exact_mod_cast s3
  have a2 : Real.sqrt w ≤ (s + 1) - 1 / 2 ^ 14 := by
    refine (Real.sqrt_le_left (by have : (0 : ℝ) ≤ s := by positivity
                                  linarith [show (1 : ℝ) / 2 ^ 14 ≤ 1 by norm_num])).2 ?_
    have : (w : ℝ) + 1 ≤ (s + 1) * (s + 1) := by exact_mod_cast s2
    nlinarith
  obtain ⟨z, hz, ez⟩ := accurate64.round (K := 2 ^ 13) R (by rw [abs_of_nonneg r0]; linarith [show (0 : ℝ) ≤ 1 / 2 ^ 14 by norm_num])
    (sized_one.fits (by norm_num) (by norm_num))
  have t := tiny_products
  generalize (2⁻¹ ^ 1075 : ℝ) = D at ez t
  have hb : z < s + 1 := by
    have := (abs_le.1 ez).2
    have h2 : unit64 * 2 ^ 13 + D < 1 / 2 ^ 14 := by
      refine lt_of_le_of_lt (add_le_add_right t _) ?_
      unfold unit64
      norm_num
    linarith
  have lb : (s : ℝ) ≤ z := by
    obtain ⟨-, e⟩ := R.is_rnd hz
    rw [e]
    have := Rounding.binary64.mono _ _ a1
    rwa [Rounding.binary64.nat s (by omega)] at this
  have zf : ⌊z⌋₊ = s := (Nat.floor_eq_iff (le_trans (by positivity) lb)).2 ⟨lb, hb⟩
  have hf : floor (sqrt (flt w : F64)) ⇓ (s : ℝ) := by
    have z0 : 0 ≤ z := le_trans (by positivity) lb
    have hfl : ⌊z⌋ = (s : ℤ) := by rw [← zf, Int.natCast_floor_eq_floor z0]
    rcases is_iff.1 hz with e | ⟨e, e2⟩
    · rw [e]
      refine rounds_nat (a := ((⌊z⌋ : ℤ) : ℝ)) ⟨false, rfl⟩ (by rw [hfl]; simp) (by omega)
    · rw [e]
      have : s = 0 := by
        rw [e2] at lb
        exact_mod_cast le_antisymm lb (by positivity)
      subst this
      exact is_negz.congr (by simp)
  have : (s : ℝ) < 2 ^ 13 := by exact_mod_cast s3
  rw [hs, Distribution.isUsize hf (by linarith), Nat.floor_natCast]

/-- C74: the Hull average, within `20 w + 20 √w + 40` units. The window of its last average is the exact integer square root. -/
theorem hull_error (hw : 1 ≤ w) (h26 : w < 2 ^ 26) (hn : w ≤ data.length + 1) (hM : tiny64 ≤ M) (hB : M ≤ 2 ^ 800) (hd : Bounded M data) :
    ReportsP data.length (w - 1 + (Nat.sqrt w - 1))
      (fun i y => Approx y (wmaOf (Nat.sqrt w) (lastOf (fun j => 2 * wmaOf ((w + 1) / 2) (lastOf (bar (vals data)) ((w + 1) / 2) j) -
        wmaOf w (lastOf (bar (vals data)) w j)) (Nat.sqrt w) i)) ((20 * w + 20 * Nat.sqrt w + 40) * unit64 * M)) (hull data w) := by
  have hS := sized_of hM hB
  have e1 : divCeil w 2 = (w + 1) / 2 := divCeil_two _
  have s1 : 1 ≤ Nat.sqrt w := Nat.sqrt_pos.2 hw
  have s2 : Nat.sqrt w ≤ w := Nat.sqrt_le_self w
  have w26 : (w : ℝ) < 2 ^ 26 := by exact_mod_cast h26
  have h2 : 2 * (((w + 1) / 2 : ℕ) : ℝ) ≤ w + 1 := by exact_mod_cast (show 2 * ((w + 1) / 2) ≤ w + 1 by omega)
  obtain ⟨m, em, rm⟩ := wma_near w hM hB (NearS.ofBounded hd) zero_le_one (by norm_num) (by norm_num) hw h26 hn
  obtain ⟨m2, em2, rm2⟩ := wma_near ((w + 1) / 2) hM hB (NearS.ofBounded hd) zero_le_one (by norm_num) (by norm_num) (by omega) (by omega)
    (by omega)
  have hz := rm2.map2 rm (c := 3) (e := 20 * w + 31) (f := fun (x, y) => 2 * x - y) (g := fun a b => 2 * a - b)
    (fun y => by have : Traquer.isNaN (FP.nan : F64) = true := rfl; nanp)
    (fun y => by have : Traquer.isNaN (FP.nan : F64) = true := rfl; nanp)
    (fun x y a b ha hb => by
      have := (Nearly.smul hS (isLit 2 (by norm_num)) ha (by norm_num; linarith) (by norm_num)).sub hS hb (by norm_num; linarith) (by norm_num)
      exact this.mono hS (by norm_num) (by norm_num; linarith))
  rw [show max (0 + ((w + 1) / 2 - 1)) (0 + (w - 1)) = w - 1 by omega] at hz
  obtain ⟨m3, em3, rm3⟩ := wma_near (Nat.sqrt w) hM hB hz (by norm_num) (by norm_num) (by linarith) s1 (by omega) (by omega)
  simp only [hull, em, e1, em2, hull_window64 w hw h26, em3, Option.bind_eq_bind, Option.bind_some]
  exact near_reports rm3 hS (by linarith)

end Traquer.Smooth

namespace Traquer.Volatility
open FP FloatLit

variable (high low close : List F64) (w : ℕ) {M : ℝ} (hl : low.length = high.length) (hc : close.length = high.length)
  (hM : tiny64 ≤ M) (hB : M ≤ 2 ^ 800) (bh : Bounded M high) (bl : Bounded M low) (bc : Bounded M close)
include hl hc hM hB bh bl bc

/-- C74: the weighted close, within 7 units. -/
theorem wcp_error : ReportsP high.length 0
    (fun i y => Approx y ((bar (vals high) i + bar (vals low) i + 2 * bar (vals close) i) / 4) (9 * unit64 * M)) (some (wcp high low close)) := by
  have hS := Smooth.sized_of hM hB
  refine reportsP_map (by simp [hl, hc]) (fun i b _ hi => by omega) ?_
  rintro i ⟨h, l, c⟩ hi -
  rw [zip3_getElem?] at hi
  have := (((near_bar bh hi.1).add hS (near_bar bl hi.2.1) (by norm_num) (by norm_num)).add hS
    (Nearly.smul hS (isLit 2 (by norm_num)) (near_bar bc hi.2.2) (by norm_num) (by norm_num)) (by norm_num) (by norm_num)).div hS
    (isLit 4 (by norm_num)) (by norm_num) (by norm_num) (by norm_num)
  exact (this.mono hS le_rfl (by norm_num)).approx

/-- The typical prices. -/
theorem typical_near : NearS M high.length 0 (fun i => (bar (vals high) i + bar (vals low) i + bar (vals close) i) / 3) 1 6
    ((zip3 high low close).map fun (x : F64 × F64 × F64) => (x.1 + x.2.1 + x.2.2) / 3) := by
  have hS := Smooth.sized_of hM hB
  refine reportsP_map (by simp [hl, hc]) (fun i b _ hi => by omega) ?_
  rintro i ⟨h, l, c⟩ hi -
  rw [zip3_getElem?] at hi
  have := (((near_bar bh hi.1).add hS (near_bar bl hi.2.1) (by norm_num) (by norm_num)).add hS
    (near_bar bc hi.2.2) (by norm_num) (by norm_num)).div hS
    (isLit 3 (by norm_num)) (by norm_num) (by norm_num) (by norm_num)
  exact this.mono hS (by norm_num) (by norm_num)

/-- C74: the moving average of the typical price, within `2 w + 16` units. -/
theorem typical_error (hw : 1 ≤ w) (h32 : w < 2 ^ 32) (hn : w ≤ high.length + 1) : ReportsP high.length (w - 1)
    (fun i y => Approx y (mean (lastOf (fun j => (bar (vals high) j + bar (vals low) j + bar (vals close) j) / 3) w i))
      ((2 * w + 16) * unit64 * M)) (typical high low close w) := by
  have hS := Smooth.sized_of hM hB
  obtain ⟨m, em, r⟩ := (typical_near high low close hl hc hM hB bh bl bc).smaPadded hM hB zero_le_one (by norm_num) (by norm_num) hw h32 hn
  rw [typical]
  simp only [em]
  rw [show w - 1 = 0 + (w - 1) by omega]
  exact Smooth.near_reports r hS (by linarith)

/-- The true ranges from bar 1 on. -/
theorem tr_near (hn : 1 ≤ high.length) : ∃ t, trueRange high low close = some t ∧ t.length = high.length - 1 ∧
    NearS M high.length 1 (fun i => trueRangeOf (bar (vals high) i) (bar (vals low) i) (bar (vals close) (i - 1))) 2 4 (nans 1 ++ t) := by
  have hS := Smooth.sized_of hM hB
  obtain ⟨t, e, lt⟩ := trueRange_yields high low close hl hc hn
  refine ⟨t, e, lt, reportsP_after_nans (by omega) fun i hi => ⟨_, getElem?_of_lt hi, ?_⟩⟩
  obtain ⟨h, l, c, eh, el, ec, ey⟩ := trueRange_items e (getElem?_of_lt hi)
  have nh := near_bar bh eh
  have nl := near_bar bl el
  have nc := near_bar bc ec
  beta_reduce
  rw [ey, show 1 + i - 1 = i by omega, add_comm 1 i, trueRangeOf, ← max_assoc]
  have := Nearly.fmax hS (Nearly.fmax hS (nh.sub hS nl (by norm_num) (by norm_num)) (nh.sub hS nc (by norm_num) (by norm_num)).fabs)
    (nl.sub hS nc (by norm_num) (by norm_num)).fabs
  exact this.mono hS (by norm_num) (by norm_num)

/-- C74: the true range, within 4 units. -/
theorem tr_error (hn : 1 ≤ high.length) : ReportsP high.length 1
    (fun i y => Approx y (trueRangeOf (bar (vals high) i) (bar (vals low) i) (bar (vals close) (i - 1))) (4 * unit64 * M))
    (tr high low close) := by
  obtain ⟨t, e, -, r⟩ := tr_near high low close hl hc hM hB bh bl bc hn
  run_model [tr, e]
  exact Smooth.near_reports r (Smooth.sized_of hM hB) le_rfl

/-- The average true range. -/
theorem atr_near (hw : 1 ≤ w) (h32 : w < 2 ^ 32) (hn : w + 1 ≤ high.length) : ∃ a, atr high low close w = some a ∧ a.length = high.length ∧
    NearS M high.length w (wilderFrom 1 w fun i => trueRangeOf (bar (vals high) i) (bar (vals low) i) (bar (vals close) (i - 1))) 2
      (21 * w + 4) a := by
  have hS := Smooth.sized_of hM hB
  have w32 : (w : ℝ) < 2 ^ 32 := by exact_mod_cast h32
  obtain ⟨t, e, lt, r⟩ := tr_near high low close hl hc hM hB bh bl bc (by omega)
  obtain ⟨m, -, em, rm, lm⟩ := r.wilder hS (by norm_num) (by norm_num) hw (by omega) (by omega) (by linarith)
  rw [show (nans 1 ++ t : List F64).drop 1 = t by simp [nans]] at em
  refine ⟨nan :: m, by run_model [atr, e, em], by simp; omega, ?_⟩
  rw [show 1 + (w - 1) = w by omega] at rm
  exact NearS.mono rm hS le_rfl (by linarith)

/-- C74: the average true range computed in binary64 stays within `21 w + 4` units of the exact one, however long the series. -/
theorem atr_error (hw : 1 ≤ w) (h32 : w < 2 ^ 32) (hn : w + 1 ≤ high.length) : ReportsP high.length w
    (fun i y => Approx y (wilderFrom 1 w (fun i => trueRangeOf (bar (vals high) i) (bar (vals low) i) (bar (vals close) (i - 1))) i)
      ((21 * w + 4) * unit64 * M)) (atr high low close w) := by
  obtain ⟨a, e, -, r⟩ := atr_near high low close w hl hc hM hB bh bl bc hw h32 hn
  rw [e]
  exact Smooth.near_reports r (Smooth.sized_of hM hB) le_rfl

/-- C74: keltner's bands, within `52 w + 35` units of two exact average true ranges around the exact exponential average. -/
theorem keltner_error (hw : 1 ≤ w) (h32 : w < 2 ^ 32) (hn : w + 1 ≤ high.length) : Items high.length w
    (fun i p => ∃ m a, m = ewmaFrom 0 w (bar (vals close)) i ∧
      a = wilderFrom 1 w (fun i => trueRangeOf (bar (vals high) i) (bar (vals low) i) (bar (vals close) (i - 1))) i ∧
      Approx p.1 m (10 * (w + 1) * unit64 * M) ∧ Approx p.2.1 (m + 2 * a) ((52 * w + 35) * unit64 * M) ∧
      Approx p.2.2 (m - 2 * a) ((52 * w + 35) * unit64 * M)) (keltner high low close w) := by
  have hS := Smooth.sized_of hM hB
  have w32 : (w : ℝ) < 2 ^ 32 := by exact_mod_cast h32
  obtain ⟨a, ea, la, ra⟩ := atr_near high low close w hl hc hM hB bh bl bc hw h32 hn
  obtain ⟨m, em, rm⟩ := Smooth.ewma_near close w hw h32 (by omega) hM hB bc
  have lm := rm.length
  refine ⟨_, by run_model [keltner, em, ea]; rfl, by simp; omega, fun i p hi hp => ?_⟩
  rw [List.getElem?_map] at hp
  obtain ⟨⟨x, y⟩, hz, rfl⟩ := Option.map_eq_some_iff.1 hp
  obtain ⟨z1, z2⟩ := List.getElem?_zip_eq_some.1 hz
  have i1 := rm.at' z1 (by omega)
  have i2 := Nearly.smul hS (isLit 2 (by norm_num)) (ra.at' z2 hi) (by norm_num; linarith) (by norm_num)
  refine ⟨_, _, rfl, rfl, i1.approx, ?_, ?_⟩
  · exact ((i1.add hS i2 (by norm_num; linarith) (by norm_num)).mono hS le_rfl (by norm_num; linarith)).approx
  · exact ((i1.sub hS i2 (by norm_num; linarith) (by norm_num)).mono hS le_rfl (by norm_num; linarith)).approx

end Traquer.Volatility
