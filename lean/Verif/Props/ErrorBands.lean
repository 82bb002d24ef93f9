import Verif.Props.ErrorComposed
import Verif.Props.HeikinAshi

/-! C74, rounding errors of differences and bands: `apo`, `elder_ray`, `qstick`, `starc` and `heikin_ashi` in binary64. -/

namespace Traquer.Momentum
open FP FloatLit

variable {M : ℝ}

/-- C74: the absolute price oscillator, within `10 (short + long) + 24` units. -/
theorem apo_error (data : List F64) (short long : ℕ) (hs : 1 ≤ short) (hl : 1 ≤ long) (h32 : short < 2 ^ 32) (h32' : long < 2 ^ 32)
    (hn : short ≤ data.length) (hn' : long ≤ data.length) (hM : tiny64 ≤ M) (hB : M ≤ 2 ^ 800) (hd : Bounded M data) :
    ReportsP data.length (max (short - 1) (long - 1))
      (fun i y => Approx y (ewmaFrom 0 short (bar (vals data)) i - ewmaFrom 0 long (bar (vals data)) i)
        ((10 * (short + long) + 24) * unit64 * M)) (apo data short long) := by
  have hS := Smooth.sized_of hM hB
  have w1 : (short : ℝ) < 2 ^ 32 := by exact_mod_cast h32
  have w2 : (long : ℝ) < 2 ^ 32 := by exact_mod_cast h32'
  obtain ⟨s, es, rs⟩ := Smooth.ewma_near data short hs h32 hn hM hB hd
  obtain ⟨l, el, rl⟩ := Smooth.ewma_near data long hl h32' hn' hM hB hd
  have := rs.map2 rl (c := 2) (e := 10 * (short + long) + 24) (f := fun (x, y) => x - y) (g := fun a b => a - b)
    (fun y => by have : Traquer.isNaN (FP.nan : F64) = true := rfl; nanp)
    (fun y => by have : Traquer.isNaN (FP.nan : F64) = true := rfl; nanp)
    (fun x y a b ha hb => (ha.sub hS hb (by linarith) (by norm_num)).mono hS (by norm_num) (by linarith))
  run_model [apo, es, el]
  exact Smooth.near_reports this hS le_rfl

/-- C74: the Elder-ray pair, within `10 w + 14` units. -/
theorem elder_ray_error (high low close : List F64) (w : ℕ) (hw : 1 ≤ w) (h32 : w < 2 ^ 32) (hl : low.length = high.length)
    (hc : close.length = high.length) (hn : w ≤ high.length) (hM : tiny64 ≤ M) (hB : M ≤ 2 ^ 800) (bh : Bounded M high) (bl : Bounded M low)
    (bc : Bounded M close) : Items high.length (w - 1)
      (fun i p => Approx p.1 (bar (vals high) i - ewmaFrom 0 w (bar (vals close)) i) ((10 * w + 14) * unit64 * M) ∧
        Approx p.2 (bar (vals low) i - ewmaFrom 0 w (bar (vals close)) i) ((10 * w + 14) * unit64 * M)) (elder_ray high low close w) := by
  have hS := Smooth.sized_of hM hB
  have w1 : (w : ℝ) < 2 ^ 32 := by exact_mod_cast h32
  obtain ⟨m, em, rm⟩ := Smooth.ewma_near close w hw h32 (by omega) hM hB bc
  have lm := rm.length
  refine ⟨_, by run_model [elder_ray, em]; rfl, by simp; omega, fun i p hi hp => ?_⟩
  rw [List.getElem?_map] at hp
  obtain ⟨⟨h, l, c⟩, hz, rfl⟩ := Option.map_eq_some_iff.1 hp
  rw [zip3_getElem?] at hz
  have i1 := rm.at' hz.2.2 (by omega)
  exact ⟨(((near_bar bh hz.1).sub hS i1 (by linarith) (by norm_num)).mono hS le_rfl (by linarith)).approx,
    (((near_bar bl hz.2.1).sub hS i1 (by linarith) (by norm_num)).mono hS le_rfl (by linarith)).approx⟩

/-- C74: qstick, within `30 w + 34` units. -/
theorem qstick_error (openp close : List F64) (w : ℕ) (hw : 1 ≤ w) (h32 : w < 2 ^ 32) (hl : openp.length = close.length)
    (hn : w ≤ close.length) (hM : tiny64 ≤ M) (hB : M ≤ 2 ^ 800) (bo : Bounded M openp) (bc : Bounded M close) :
    ReportsP close.length (w - 1)
      (fun i y => Approx y (ewmaFrom 0 w (fun j => bar (vals close) j - bar (vals openp) j) i) ((30 * w + 34) * unit64 * M))
      (qstick openp close w) := by
  have hS := Smooth.sized_of hM hB
  have w1 : (w : ℝ) < 2 ^ 32 := by exact_mod_cast h32
  have h0 : NearS M close.length 0 (fun j => bar (vals close) j - bar (vals openp) j) 2 4 ((close.zip openp).map fun (c, o) => c - o) := by
    refine reportsP_map (by simp [hl]) (fun i b _ hi => by omega) ?_
    rintro i ⟨c, o⟩ hi -
    obtain ⟨z1, z2⟩ := List.getElem?_zip_eq_some.1 hi
    exact ((near_bar bc z1).sub hS (near_bar bo z2) (by norm_num) (by norm_num)).mono hS (by norm_num) (by norm_num)
  obtain ⟨m, -, em, rm, lm⟩ := h0.ewma hS (by norm_num) (by norm_num) hw (by omega) (by omega) (by linarith)
  rw [List.drop_zero] at em
  rw [qstick, em]
  simp only [nans, List.replicate_zero, List.nil_append] at rm
  rw [show w - 1 = 0 + (w - 1) by omega]
  exact Smooth.near_reports rm hS (by linarith)

end Traquer.Momentum

namespace Traquer.Volatility
open FP FloatLit

variable {M : ℝ}

/-- C74: STARC bands with a multiplier `q` of at most 1000 in size. -/
theorem starc_error (high low close : List F64) (w mw : ℕ) {mult : F64} {q : ℝ} (hq : mult ⇓ q) (q3 : |q| ≤ 1000) (hl : low.length = high.length)
    (hc : close.length = high.length) (hM : tiny64 ≤ M) (hB : M ≤ 2 ^ 800) (bh : Bounded M high) (bl : Bounded M low) (bc : Bounded M close)
    (hw : 1 ≤ w) (h32 : w < 2 ^ 32) (hn : w + 1 ≤ high.length) (hw' : 1 ≤ mw) (h32' : mw < 2 ^ 32) (hn' : mw ≤ high.length + 1) :
    Items high.length (max w (mw - 1))
    (fun i p => ∃ m a, m = mean (lastOf (bar (vals close)) mw i) ∧
      a = wilderFrom 1 w (fun i => trueRangeOf (bar (vals high) i) (bar (vals low) i) (bar (vals close) (i - 1))) i ∧
      Approx p.1 (m + q * a) ((2 * mw + 16 + (21 * w + 8) * |q|) * unit64 * M) ∧
      Approx p.2 (m - q * a) ((2 * mw + 16 + (21 * w + 8) * |q|) * unit64 * M)) (starc high low close w mw (some mult)) := by
  have hS := Smooth.sized_of hM hB
  have w1 : (w : ℝ) < 2 ^ 32 := by exact_mod_cast h32
  have w2 : (mw : ℝ) < 2 ^ 32 := by exact_mod_cast h32'
  have q0 := abs_nonneg q
  have q4 : |q| * (21 * w + 4) ≤ 1000 * (21 * w + 4) := mul_le_mul_of_nonneg_right q3 (by positivity)
  obtain ⟨a, ea, la, ra⟩ := atr_near high low close w hl hc hM hB bh bl bc hw h32 hn
  obtain ⟨m, em, rm⟩ := Smooth.sma_near close mw hw' h32' (by omega) hM hB bc
  have lm := rm.length
  refine ⟨_, by run_model [starc, em, ea]; rfl, by simp; omega, fun i p hi hp => ?_⟩
  rw [List.getElem?_map] at hp
  obtain ⟨⟨x, y⟩, hz, rfl⟩ := Option.map_eq_some_iff.1 hp
  obtain ⟨z1, z2⟩ := List.getElem?_zip_eq_some.1 hz
  have i1 := rm.at' z2 (by omega)
  have i2 := Nearly.smul hS hq (ra.at' z1 (by omega)) (by linarith) (by linarith)
  refine ⟨_, _, rfl, rfl, ?_, ?_⟩
  · exact ((i1.add hS i2 (by linarith) (by linarith)).mono hS le_rfl (by linarith)).approx
  · exact ((i1.sub hS i2 (by linarith) (by linarith)).mono hS le_rfl (by linarith)).approx

/-- The mean of four prices. -/
theorem four_near (hM : tiny64 ≤ M) (hB : M ≤ 2 ^ 800) {o h l c : F64} {a b d e : ℝ} (ho : Nearly M o a 1 0) (hh : Nearly M h b 1 0)
    (hl : Nearly M l d 1 0) (hc : Nearly M c e 1 0) : Nearly M ((o + h + l + c) / 4) ((a + b + d + e) / 4) 1 7 := by
  have hS := Smooth.sized_of hM hB
  have := (((ho.add hS hh (by norm_num) (by norm_num)).add hS hl (by norm_num) (by norm_num)).add hS hc (by norm_num) (by norm_num)).div hS
    (isLit 4 (by norm_num)) (by norm_num) (by norm_num) (by norm_num)
  exact this.mono hS (by norm_num) (by norm_num)

/-- The mean of the previous candle's open and close. -/
theorem half_near (hM : tiny64 ≤ M) (hB : M ≤ 2 ^ 800) {o c : F64} {a b : ℝ} (ho : Nearly M o a 1 17) (hc : Nearly M c b 1 7) :
    Nearly M ((o + c) / 2) ((a + b) / 2) 1 17 := by
  have hS := Smooth.sized_of hM hB
  have := (ho.add hS hc (by norm_num) (by norm_num)).div hS (isLit 2 (by norm_num)) (by norm_num) (by norm_num) (by norm_num)
  exact this.mono hS (by norm_num) (by norm_num)

/-- C74: the Heikin-Ashi candles computed in binary64 stay within 17 units of the exact ones, however long the series: `O` and
`C` are the exact opens and closes. -/
theorem heikin_ashi_error (openp high low close : List F64) (ho : openp.length = high.length) (hl : low.length = high.length)
    (hc : close.length = high.length) (hn : 1 ≤ high.length) (hM : tiny64 ≤ M) (hB : M ≤ 2 ^ 800) (bo : Bounded M openp)
    (bh : Bounded M high) (bl : Bounded M low) (bc : Bounded M close) :
    ∃ O C : ℕ → ℝ, O 0 = (bar (vals openp) 0 + bar (vals close) 0) / 2 ∧ (∀ i, O (i + 1) = (O i + C i) / 2) ∧
      (∀ i, C i = (bar (vals openp) i + bar (vals high) i + bar (vals low) i + bar (vals close) i) / 4) ∧
      Items high.length 0 (fun i p => Approx p.1 (O i) (17 * unit64 * M) ∧ Approx p.2.2.2 (C i) (7 * unit64 * M) ∧
        (1 ≤ i → Approx p.2.1 (max (max (bar (vals high) i) (O i)) (C i)) (17 * unit64 * M) ∧
          Approx p.2.2.1 (min (min (bar (vals low) i) (O i)) (C i)) (17 * unit64 * M))) (heikin_ashi openp high low close) := by
  have hS := Smooth.sized_of hM hB
  obtain ⟨out, e, lo⟩ := heikin_ashi_yields openp high low close ho hl hc hn
  obtain ⟨o0, h0, l0, c0, bars, hz, rfl⟩ := heikin_ashi_eq e
  let C : ℕ → ℝ := fun i => (bar (vals openp) i + bar (vals high) i + bar (vals low) i + bar (vals close) i) / 4
  let O : ℕ → ℝ := fun i => Nat.rec ((bar (vals openp) 0 + bar (vals close) 0) / 2) (fun i r => (r + C i) / 2) i
  have z0 := zip4_getElem?.1 (show (zip4 openp high low close)[0]? = some (o0, h0, l0, c0) by rw [hz]; rfl)
  have n1 : Nearly M ((o0 + h0 + l0 + c0) / 4) (C 0) 1 7 :=
    four_near hM hB (near_bar bo z0.1) (near_bar bh z0.2.1) (near_bar bl z0.2.2.1) (near_bar bc z0.2.2.2)
  have n2 : Nearly M ((o0 + c0) / 2) (O 0) 1 17 :=
    half_near hM hB ((near_bar bo z0.1).mono hS le_rfl (by norm_num)) ((near_bar bc z0.2.2.2).mono hS le_rfl (by norm_num))
  refine ⟨O, C, rfl, fun i => rfl, fun i => rfl, _, e, lo, fun i p _ hp => ?_⟩
  cases i with
  | zero =>
    simp only [List.getElem?_cons_zero, Option.some.injEq] at hp
    subst hp
    exact ⟨n2.approx, n1.approx, fun h => absurd h (by omega)⟩
  | succ i =>
    rw [List.getElem?_cons_succ] at hp
    refine (scan_idx (I := fun j (s : F64 × F64) => Nearly M s.1 (O j) 1 17 ∧ Nearly M s.2 (C j) 1 7)
      (P := fun j (p : F64 × F64 × F64 × F64) => Approx p.1 (O (j + 1)) (17 * unit64 * M) ∧ Approx p.2.2.2 (C (j + 1)) (7 * unit64 * M) ∧
        (1 ≤ j + 1 → Approx p.2.1 (max (max (bar (vals high) (j + 1)) (O (j + 1))) (C (j + 1))) (17 * unit64 * M) ∧
          Approx p.2.2.1 (min (min (bar (vals low) (j + 1)) (O (j + 1))) (C (j + 1))) (17 * unit64 * M))) ?_ ⟨n2, n1⟩ i _ hp)
    rintro j s ⟨x1, x2, x3, x4⟩ hx ⟨i1, i2⟩
    have z := zip4_getElem?.1 (show (zip4 openp high low close)[j + 1]? = some (x1, x2, x3, x4) by rw [hz]; simpa using hx)
    have j2 : Nearly M ((x1 + x2 + x3 + x4) / 4) (C (j + 1)) 1 7 :=
      four_near hM hB (near_bar bo z.1) (near_bar bh z.2.1) (near_bar bl z.2.2.1) (near_bar bc z.2.2.2)
    have j1 : Nearly M ((s.1 + s.2) / 2) (O (j + 1)) 1 17 := half_near hM hB i1 i2
    have j3 := j2.mono hS le_rfl (show (7 : ℝ) ≤ 17 by norm_num)
    refine ⟨⟨j1, j2⟩, j1.approx, j2.approx, fun _ => ⟨?_, ?_⟩⟩
    · exact (Nearly.fmax hS (Nearly.fmax hS ((near_bar bh z.2.1).mono hS le_rfl (by norm_num)) j1) j3).approx
    · exact (Nearly.fmin hS (Nearly.fmin hS ((near_bar bl z.2.2.1).mono hS le_rfl (by norm_num)) j1) j3).approx

/-- Bars around 1, 5, 3, 7 meet the hypotheses. -/
theorem bands_example : Bounded 9 ([2, 6, 5, 9] : List F64) ∧ Bounded 9 ([1, 4, 2, 6] : List F64) ∧ Bounded 9 ([1, 5, 3, 7] : List F64) ∧
    tiny64 ≤ 9 ∧ (9 : ℝ) ≤ 2 ^ 800 := by
  refine ⟨?_, ?_, ?_, ?_, ?_⟩
  · intro x hx
    simp only [List.mem_cons, List.not_mem_nil, or_false] at hx
    rcases hx with rfl | rfl | rfl | rfl
    · exact ⟨2, isLit 2 (by norm_num), by norm_num⟩
    · exact ⟨6, isLit 6 (by norm_num), by norm_num⟩
    · exact ⟨5, isLit 5 (by norm_num), by norm_num⟩
    · exact ⟨9, isLit 9 (by norm_num), by norm_num⟩
  · intro x hx
    simp only [List.mem_cons, List.not_mem_nil, or_false] at hx
    rcases hx with rfl | rfl | rfl | rfl
    · exact ⟨1, isOne, by norm_num⟩
    · exact ⟨4, isLit 4 (by norm_num), by norm_num⟩
    · exact ⟨2, isLit 2 (by norm_num), by norm_num⟩
    · exact ⟨6, isLit 6 (by norm_num), by norm_num⟩
  · intro x hx
    simp only [List.mem_cons, List.not_mem_nil, or_false] at hx
    rcases hx with rfl | rfl | rfl | rfl
    · exact ⟨1, isOne, by norm_num⟩
    · exact ⟨5, isLit 5 (by norm_num), by norm_num⟩
    · exact ⟨3, isLit 3 (by norm_num), by norm_num⟩
    · exact ⟨7, isLit 7 (by norm_num), by norm_num⟩
  · have : tiny64 ≤ 1 := pow_le_one₀ (by norm_num) (by norm_num)
    linarith
  · calc (9 : ℝ) ≤ 2 ^ 4 := by norm_num
      _ ≤ 2 ^ 800 := pow_le_pow_right₀ (by norm_num) (by norm_num)

section Examples
open Momentum Smooth

local notation "exH" => ([2, 6, 5, 9] : List F64)
local notation "exL" => ([1, 4, 2, 6] : List F64)
local notation "exC" => ([1, 5, 3, 7] : List F64)
private theorem exM : tiny64 ≤ 9 := bands_example.2.2.2.1
private theorem exB : (9 : ℝ) ≤ 2 ^ 800 := bands_example.2.2.2.2
private theorem exh : Bounded 9 exH := bands_example.1
private theorem exl : Bounded 9 exL := bands_example.2.1
private theorem exc : Bounded 9 exC := bands_example.2.2.1

/-! With `M = 9` and a window of 2 every hypothesis of the theorems of this chapter is met. -/
example := wma_error exC 2 (by norm_num) (by norm_num) (by simp) exM exB exc
example := pwma_error exC 2 (by norm_num) (by norm_num) (by simp) exM exB exc
example := fwma_error exC 2 (by norm_num) (by norm_num) (by simp) exM exB exc
example := dema_error exC 2 (by norm_num) (by norm_num) (by simp) exM exB exc
example := tema_error exC 2 (by norm_num) (by norm_num) (by simp) exM exB exc
example := trima_error exC 2 (by norm_num) (by norm_num) (by simp) exM exB exc
example := zlma_error exC 2 (by norm_num) (by norm_num) (by simp) exM exB exc
example := hull_error exC 4 (by norm_num) (by norm_num) (by simp) exM exB exc
example := wcp_error exH exL exC rfl rfl exM exB exh exl exc
example := typical_error exH exL exC 2 rfl rfl exM exB exh exl exc (by norm_num) (by norm_num) (by simp)
example := tr_error exH exL exC rfl rfl exM exB exh exl exc (by simp)
example := atr_error exH exL exC 2 rfl rfl exM exB exh exl exc (by norm_num) (by norm_num) (by simp)
example := keltner_error exH exL exC 2 rfl rfl exM exB exh exl exc (by norm_num) (by norm_num) (by simp)
example := starc_error exH exL exC 2 3 (isLit 2 (by norm_num)) (by norm_num) rfl rfl exM exB exh exl exc (by norm_num) (by norm_num) (by simp)
  (by norm_num) (by norm_num) (by simp)
example := apo_error exC 2 3 (by norm_num) (by norm_num) (by norm_num) (by norm_num) (by simp) (by simp) exM exB exc
example := elder_ray_error exH exL exC 2 (by norm_num) (by norm_num) rfl rfl (by simp) exM exB exh exl exc
example := qstick_error exL exC 2 (by norm_num) (by norm_num) rfl (by simp) exM exB exl exc
example := heikin_ashi_error exL exH exL exC rfl rfl rfl (by simp) exM exB exl exh exl exc

end Examples

end Traquer.Volatility
