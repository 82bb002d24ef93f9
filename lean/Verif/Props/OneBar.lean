import Verif.Props.Range64
import Verif.Props.Quantile
import Verif.Props.ErrorDispersion
import Verif.Lemmas.Items
import Verif.Lemmas.Every
import Verif.Props.SignCases
import Verif.Props.FlatWindow

/-! C86: a window of one bar. The averages return the price itself, the dispersions zero, in every rounding. -/

namespace Traquer
open FP FloatLit
open Traquer.Distribution (rounds_nat)

variable {ρ : Rounding}

/-- The call does not panic and returns the series itself, from the first bar on (-0 and +0 are the same number). -/
abbrev Returns (data : List (FP ρ)) (r : Option (List (FP ρ))) : Prop := Reports data.length 0 (bar (vals data)) r

/-- All values are finite numbers of the format. -/
def Prices (data : List (FP ρ)) : Prop := ∀ x ∈ data, x.Finite ∧ Stored x

theorem FP.Rounds.congr {x : FP ρ} {a b : ℝ} (h : Rounds x a) (e : a = b) : Rounds x b := e ▸ h

/-- A number of the format that is the exact result of an operation is its result. -/
theorem FP.Rounds.is_of_stored {x y : FP ρ} {a : ℝ} (h : Rounds y a) (hx : x ⇓ a) (hs : Stored x) : y ⇓ a := by
  obtain ⟨h1, h2⟩ := hs a hx
  rcases h.cases with ⟨-, i⟩ | ⟨g, -⟩
  · rwa [h1] at i
  · rw [h1] at g
    exact absurd h2 g

theorem FP.Rounds.is_zero {y : FP ρ} (h : Rounds y 0) : y ⇓ 0 := by
  have := rounds_nat (n := 0) h (by simp) (by norm_num)
  simpa using this

variable {x s : FP ρ} {a b : ℝ}

theorem mul_one_is (hx : x ⇓ a) (hs : Stored x) {o : FP ρ} (ho : o ⇓ 1) : x * o ⇓ a :=
  ((rounds_mul hx ho).congr (mul_one a)).is_of_stored hx hs

theorem div_one_is (hx : x ⇓ a) (hs : Stored x) {o : FP ρ} (ho : o ⇓ 1) : x / o ⇓ a :=
  ((rounds_div hx ho one_ne_zero).congr (div_one a)).is_of_stored hx hs

theorem add_zero_is (hx : x ⇓ a) (hs : Stored x) {o : FP ρ} (ho : o ⇓ 0) : x + o ⇓ a :=
  ((rounds_add hx ho).congr (add_zero a)).is_of_stored hx hs

theorem zero_add_is (hx : x ⇓ a) (hs : Stored x) {o : FP ρ} (ho : o ⇓ 0) : o + x ⇓ a :=
  ((rounds_add ho hx).congr (zero_add a)).is_of_stored hx hs

theorem flt_one_is : (flt 1 : FP ρ) ⇓ 1 := (isFlt (ρ := ρ) (n := 1) (by norm_num)).congr (by norm_num)

theorem fsum_one (hx : x ⇓ a) (hs : Stored x) : fsum [x] ⇓ a := zero_add_is hx hs isZero

theorem Prices.fins {data : List (FP ρ)} (h : Prices data) : Fins data := fun x hx => (h x hx).1
theorem bar_is {data : List (FP ρ)} (hf : Fins data) {i : ℕ} {x : FP ρ} (h : data[i]? = some x) : x ⇓ bar (vals data) i :=
  (hf _ (List.mem_of_getElem? h)).is.congr (by simp [bar, vals, h])

theorem Prices.at {data : List (FP ρ)} (h : Prices data) {i : ℕ} (hi : i < data.length) :
    ∃ x, recent data 1 i = [x] ∧ x ⇓ bar (vals data) i ∧ Stored x := by
  refine ⟨data[i], ?_, bar_is h.fins (List.getElem?_eq_getElem hi), (h _ (List.getElem_mem hi)).2⟩
  simp only [recent, show i + 1 - 1 = i by omega, List.drop_eq_getElem_cons hi, List.take_succ_cons, List.take_zero]

/-- The ratio `2 / (w + 1)` for a window of 1. -/
theorem alpha_one : (2 / flt (1 + 1) : FP ρ) ⇓ 1 := by
  have := rounds_nat (n := 1) (rounds_div (isLit 2 (by norm_num)) (isFlt (ρ := ρ) (n := 2) (by norm_num)) (by norm_num)) (by norm_num) (by norm_num)
  exact this.congr (by norm_num)

end Traquer

namespace Traquer.Smooth
open FP FloatLit
open Traquer.Distribution (rounds_nat)

variable {ρ : Rounding} (data : List (FP ρ)) (hd : Prices data)
include hd

/-- C86: `sma` with a window of one bar returns the prices. -/
theorem sma_one : Returns data (sma data 1) := by
  run_model [sma]
  refine reports_windows le_rfl (by omega) fun i _ hi => ?_
  obtain ⟨x, e, h, hs⟩ := hd.at hi
  rw [e]
  exact div_one_is (fsum_one h hs) stored_fsum flt_one_is

/-- C86: `ewma`. -/
theorem ewma_one (hn : 1 ≤ data.length) : Returns data (ewma data 1) := by
  obtain ⟨x, r, rfl⟩ : ∃ x r, data = x :: r := by
    cases data with
    | nil => simp at hn
    | cons x r => exact ⟨x, r, rfl⟩
  have hx := hd x (by simp)
  have h0 : fsum [x] / flt 1 ⇓ x.val := div_one_is (fsum_one hx.1.is hx.2) stored_fsum flt_one_is
  simp only [ewma, sliceTo, sliceFrom, usub, List.length_cons, show 1 ≤ r.length + 1 by omega, if_true, Option.bind_eq_bind, Option.bind_some,
    List.take_succ_cons, List.take_zero, List.drop_succ_cons, List.drop_zero, le_refl, nans, Nat.sub_self, List.replicate_zero, List.nil_append]
  have key : ∀ (l : List (FP ρ)) (s : FP ρ), s.Finite → Prices l →
      ∀ i, i < l.length → ∃ y, (scanS (fun state x => x * (2 / flt (1 + 1)) + state * (1 - 2 / flt (1 + 1))) s l)[i]? = some y ∧ y ⇓ bar (vals l) i := by
    intro l
    induction l with
    | nil => intro s _ _ i hi; simp at hi
    | cons y l ih =>
      intro s hs hl i hi
      have hy := hl y (by simp)
      have h1 : s * (1 - 2 / flt (1 + 1)) ⇓ 0 := by
        have : (1 - 2 / flt (1 + 1) : FP ρ) ⇓ 0 := ((rounds_sub isOne alpha_one).congr (sub_self _)).is_zero
        exact ((rounds_mul hs.is this).congr (mul_zero _)).is_zero
      have h2 : y * (2 / flt (1 + 1)) + s * (1 - 2 / flt (1 + 1)) ⇓ y.val :=
        ((rounds_add (mul_one_is hy.1.is hy.2 alpha_one) h1).congr (add_zero _)).is_of_stored hy.1.is hy.2
      cases i with
      | zero => exact ⟨_, rfl, h2⟩
      | succ i =>
        obtain ⟨z, hz, iz⟩ := ih _ h2.1 (fun z hz => hl z (by simp [hz])) i (by simpa using hi)
        exact ⟨z, hz, iz⟩
  refine ⟨_, rfl, by simp, fun i h => by omega, fun i _ hi => ?_⟩
  cases i with
  | zero => exact ⟨_, rfl, h0⟩
  | succ i =>
    obtain ⟨y, hy, iy⟩ := key r _ h0.1 (fun z hz => hd z (by simp [hz])) i (by simpa using hi)
    exact ⟨y, hy, iy⟩

omit hd in
/-- C86: `wilder`, even bit for bit. -/
theorem wilder_one : wilder data 1 = some data := by simp [wilder]

/-- C86: `wma`. -/
theorem wma_one : Returns data (wma data 1) := by
  run_model [wma]
  refine reports_windows le_rfl (by omega) fun i _ hi => ?_
  obtain ⟨x, e, h, hs⟩ := hd.at hi
  have h1 : (flt (1 ^ 2 + 1) / 2 : FP ρ) ⇓ 1 := by
    have := rounds_nat (n := 1) (rounds_div (isFlt (ρ := ρ) (n := 1 ^ 2 + 1) (by norm_num)) (isLit 2 (by norm_num)) (by norm_num)) (by norm_num) (by norm_num)
    exact this.congr (by norm_num)
  have h2 : (flt 1 / (flt (1 ^ 2 + 1) / 2) : FP ρ) ⇓ 1 := by
    have := rounds_nat (n := 1) (rounds_div flt_one_is h1 (by norm_num)) (by norm_num) (by norm_num)
    exact this.congr (by norm_num)
  have h3 := mul_one_is h hs h2
  rw [e]
  exact fsum_one h3 (((rounds_mul h h2)).stored)

/-- C86: `pwma`. -/
theorem pwma_one : Returns data (pwma data 1) := by
  have ep : pascalRow 1 = some ([1], 1) := by decide
  run_model [pwma, ep]
  refine reports_windows le_rfl (by omega) fun i _ hi => ?_
  obtain ⟨x, e, h, hs⟩ := hd.at hi
  have h2 : (flt 1 / flt 1 : FP ρ) ⇓ 1 := by
    have := rounds_nat (n := 1) (rounds_div (flt_one_is (ρ := ρ)) flt_one_is (by norm_num)) (by norm_num) (by norm_num)
    exact this.congr (by norm_num)
  have h3 := mul_one_is h hs h2
  rw [e]
  exact fsum_one h3 (((rounds_mul h h2)).stored)

/-- C86: `trima`. -/
theorem trima_one : Returns data (trima data 1) := by
  obtain ⟨m, em, lm, -, h⟩ := sma_one data hd
  have hm : Prices m := fun x hx => by
    obtain ⟨i, hi, e⟩ := List.getElem_of_mem hx
    obtain ⟨y, hy, iy⟩ := h i (by omega) (by omega)
    rw [List.getElem?_eq_getElem hi, e] at hy
    cases hy
    refine ⟨iy.1, ?_⟩
    simp only [sma, windows, usub, le_refl, if_true, Option.bind_eq_bind, Option.bind_some, one_ne_zero, if_false, Option.some.injEq] at em
    subst em
    obtain ⟨w, -, e⟩ : ∃ w ∈ windowsOf 1 data, fsum w / flt 1 = x := by simpa [nans] using hx
    rw [← e]
    exact stored_div
  have := sma_one m hm
  have e : trima data 1 = sma m 1 := by simp [trima, divCeil, em]
  rw [e]
  obtain ⟨o, h1, h2, h3, h4⟩ := this
  refine ⟨o, h1, by omega, fun i hi => by omega, fun i hi hin => ?_⟩
  obtain ⟨y, hy, iy⟩ := h4 i hi (by omega)
  obtain ⟨z, hz, iz⟩ := h i hi hin
  exact ⟨y, hy, iy.congr ((bar_is hm.fins hz).2.symm.trans iz.2)⟩

end Traquer.Smooth

namespace Traquer.Smooth
open FP FloatLit
open Traquer.Distribution (rounds_nat)

variable {ρ : Rounding} (data : List (FP ρ)) (hd : Prices data)
include hd

omit hd in
theorem prices_of_returns {data m : List (FP ρ)} (h : Returns data (some m)) (hs : ∀ x ∈ m, Stored x) : Prices m := fun x hx => by
  obtain ⟨o, e, lo, -, f⟩ := h
  cases e
  obtain ⟨i, hi, e⟩ := List.getElem_of_mem hx
  obtain ⟨y, hy, iy⟩ := f i (by omega) (by omega)
  rw [List.getElem?_eq_getElem hi, e] at hy
  cases hy
  exact ⟨iy.1, hs _ hx⟩

omit hd in
theorem returns_trans {data m : List (FP ρ)} {r : Option (List (FP ρ))} (h : Returns data (some m)) (h' : Returns m r) : Returns data r := by
  obtain ⟨o, e, lo, -, f⟩ := h
  cases e
  refine Reports.congr (v := bar (vals m)) ?_ fun i h0 hi => ?_
  · rw [← lo]; exact h'
  · obtain ⟨y, hy, iy⟩ := f i h0 hi
    have : y ⇓ bar (vals m) i := ⟨iy.1, by simp [bar, vals, hy]⟩
    exact this.2.symm.trans iy.2

/-- The exponential average of window 1 as a series. -/
theorem ewma_one_series (hn : 1 ≤ data.length) : ∃ m, ewma data 1 = some m ∧ m.length = data.length ∧ Prices m ∧ Returns data (some m) := by
  obtain ⟨m, e, lm, h0, h⟩ := ewma_one data hd hn
  have r : Returns data (some m) := ⟨m, rfl, lm, h0, h⟩
  refine ⟨m, e, lm, prices_of_returns r fun x hx => ?_, r⟩
  have := e
  simp only [ewma, sliceTo, sliceFrom, usub, if_pos hn, le_refl, if_true, Option.bind_eq_bind, Option.bind_some, nans, Nat.sub_self,
    List.replicate_zero, List.nil_append, Option.some.injEq] at this
  rw [← this, List.mem_cons] at hx
  rcases hx with rfl | hx
  · exact stored_div
  · exact scanS_all (P := Stored) stored_div (fun _ _ _ _ => stored_add) x hx

/-- C86: `dema`, wherever doubling a price is exact and does not overflow. -/
theorem dema_one (hn : 1 ≤ data.length) (h2 : ∀ r ∈ vals data, ρ.rnd (2 * r) = 2 * r ∧ ρ.fits (2 * r)) : Returns data (dema data 1) := by
  obtain ⟨m, e, lm, pm, rm⟩ := ewma_one_series data hd hn
  obtain ⟨m2, e2, lm2, pm2, rm2⟩ := ewma_one_series m pm (by omega)
  have rm2 := returns_trans rm rm2
  have ed : dema data 1 = some ((m.zip m2).map fun (ma1, ma2) => 2 * ma1 - ma2) := by simp [dema, e, usub, sliceFrom, e2, nans]
  rw [ed]
  obtain ⟨o, eo, -, -, f⟩ := rm
  cases eo
  obtain ⟨o, eo, -, -, f2⟩ := rm2
  cases eo
  refine reports_map (n := data.length) (k := 0) (by simp [lm, lm2]) (fun i b _ h => by omega) ?_
  rintro i ⟨x, y⟩ hi -
  obtain ⟨z1, z2⟩ := List.getElem?_zip_eq_some.1 hi
  have hin : i < data.length := by
    have := (List.getElem?_eq_some_iff.1 z1).1
    omega
  obtain ⟨x', hx', ix⟩ := f i (Nat.zero_le _) hin
  obtain ⟨y', hy', iy⟩ := f2 i (Nat.zero_le _) hin
  cases hx'.symm.trans z1
  cases hy'.symm.trans z2
  obtain ⟨g1, g2⟩ := h2 (bar (vals data) i) (by
    rw [bar, List.getD_eq_getElem?_getD, List.getElem?_eq_getElem (by simpa [vals] using hin), Option.getD_some]
    exact List.getElem_mem _)
  have t : 2 * x ⇓ 2 * bar (vals data) i := by
    rcases (rounds_mul (isLit (ρ := ρ) 2 (by norm_num)) ix).cases with ⟨-, j⟩ | ⟨j, -⟩
    · exact j.congr (by simpa using g1)
    · exact absurd g2 (by simpa [g1] using j)
  have sx := (pm x (List.mem_of_getElem? z1)).2
  exact ((rounds_sub t iy).congr (by ring)).is_of_stored ix sx

end Traquer.Smooth

namespace Traquer.Distribution
open FP FloatLit

variable {ρ : Rounding} (data : List (FP ρ)) (hd : Prices data)
include hd

omit hd in
/-- The mean of one price and the deviation from it. -/
theorem winMean_one {x : FP ρ} {a : ℝ} (h : x ⇓ a) (hs : Stored x) : winMean [x] 1 ⇓ a ∧ x - winMean [x] 1 ⇓ 0 := by
  have hm : winMean [x] 1 ⇓ a := div_one_is (fsum_one h hs) stored_fsum flt_one_is
  exact ⟨hm, ((rounds_sub h hm).congr (sub_self a)).is_zero⟩

omit hd in
theorem powDev_one {x : FP ρ} {a : ℝ} (h : x ⇓ a) (hs : Stored x) : powDev [x] (winMean [x] 1) 2 / flt 1 ⇓ 0 := by
  obtain ⟨-, hz⟩ := winMean_one h hs
  have p : powi (x - winMean [x] 1) 2 ⇓ 0 := by
    rw [powi_sq]
    exact ((rounds_mul isOne ((rounds_mul hz hz).congr (by ring)).is_zero).congr (by ring)).is_zero
  have s : powDev [x] (winMean [x] 1) 2 ⇓ 0 := ((rounds_add isZero p).congr (add_zero 0)).is_zero
  exact ((rounds_div s flt_one_is one_ne_zero).congr (by norm_num)).is_zero

/-- C86: `variance` of one bar is zero. -/
theorem variance_one : Reports data.length 0 (fun _ => 0) (variance data 1) := by
  run_model [variance]
  refine reports_windows le_rfl (by omega) fun i _ hi => ?_
  obtain ⟨x, e, h, hs⟩ := hd.at hi
  rw [e]
  exact powDev_one h hs

/-- C86: `std_dev` of one bar is zero. -/
theorem std_dev_one : Reports data.length 0 (fun _ => 0) (std_dev data 1) := by
  run_model [std_dev, stdDevRaw]
  refine reports_windows le_rfl (by omega) fun i _ hi => ?_
  obtain ⟨x, e, h, hs⟩ := hd.at hi
  rw [e]
  exact ((rounds_sqrt (powDev_one h hs) le_rfl).congr Real.sqrt_zero).is_zero

/-- C86: `mad` of one bar is zero. -/
theorem mad_one : Reports data.length 0 (fun _ => 0) (mad data 1) := by
  run_model [mad]
  refine reports_windows le_rfl (by omega) fun i _ hi => ?_
  obtain ⟨x, e, h, hs⟩ := hd.at hi
  rw [e]
  obtain ⟨-, hz⟩ := winMean_one h hs
  have s : 0 + fabs (x - winMean [x] 1) ⇓ 0 := ((rounds_add isZero (is_abs hz)).congr (by simp)).is_zero
  exact ((rounds_div s flt_one_is one_ne_zero).congr (by norm_num)).is_zero

/-- C86: every quantile of one bar, whatever the finite `q`, is the price itself. -/
theorem quantile_one {q : FP ρ} (hq : q.Finite) : Returns data (quantile data 1 q) := by
  have i1 := isLit (ρ := ρ) 100 (by norm_num)
  have hc := is_clampLit hq.is isZero i1 (by norm_num)
  obtain ⟨r, hr, -⟩ := (rounds_div hc i1 (by norm_num)).between (n := 1) (by norm_num)
    (div_nonneg (le_max_left _ _) (by norm_num)) (by
      rw [div_le_iff₀ (by norm_num)]
      simp)
  have hp : posOf 1 q ⇓ (0 : ℕ) := ((rounds_mul (isFlt (n := 0) (by omega)) hr).congr (by simp)).is_zero.congr (by simp)
  refine (quantile_whole data 1 0 q le_rfl (by norm_num) (by omega) hd.fins (by omega) hp).congr fun i h1 h2 => ?_
  have : recent (vals data) 1 i = [bar (vals data) i] := by
    have h2' : i < (vals data).length := by simpa [vals] using h2
    simp only [recent, show i + 1 - 1 = i by omega, List.drop_eq_getElem_cons h2', List.take_succ_cons, List.take_zero, bar,
      List.getD_eq_getElem?_getD, List.getElem?_eq_getElem h2', Option.getD_some]
  rw [this]
  rfl

/-- C86: the median of one bar is the price itself. -/
theorem median_one : Returns data (median data 1) := quantile_one data hd (isLit (ρ := ρ) 50 (by norm_num)).1

end Traquer.Distribution

namespace Traquer.Smooth
open FP FloatLit
open Traquer.Distribution (rounds_nat)

/-- C86: no line passes through one point: `lrf` with a window of one bar is NaN at every bar. -/
theorem lrf_one {ρ : Rounding} (data : List (FP ρ)) (hd : Prices data) : lrf data 1 = some (data.map fun _ => nan) := by
  run_model [lrf]
  simp only [nans, Nat.sub_self, List.replicate_zero, List.nil_append]
  congr 1
  apply List.ext_getElem?
  intro i
  simp only [List.getElem?_map, windowsOf]
  by_cases hi : i < data.length
  · rw [List.getElem?_range (by omega), List.getElem?_eq_getElem hi]
    simp only [Option.map_some, Option.some.injEq]
    obtain ⟨x, e, h, hs⟩ := hd.at hi
    have e' : (data.drop i).take 1 = [x] := by simpa only [recent, show i + 1 - 1 = i by omega] using e
    rw [e']
    have hx : (flt (1 * (1 + 1)) / 2 : FP ρ) ⇓ 1 := by
      have := rounds_nat (n := 1) (rounds_div (isFlt (ρ := ρ) (n := 1 * (1 + 1)) (by norm_num)) (isLit 2 (by norm_num)) (by norm_num)) (by norm_num) (by norm_num)
      exact this.congr (by norm_num)
    have hx2 : (flt (1 * (1 + 1)) / 2 * flt (2 * 1 + 1) / 3 : FP ρ) ⇓ 1 := by
      have h3 := rounds_nat (n := 3) (rounds_mul hx (isFlt (ρ := ρ) (n := 2 * 1 + 1) (by norm_num))) (by norm_num) (by norm_num)
      have := rounds_nat (n := 1) (rounds_div h3 (isLit (ρ := ρ) 3 (by norm_num)) (by norm_num)) (by norm_num) (by norm_num)
      exact this.congr (by norm_num)
    have hdv : (flt 1 * (flt (1 * (1 + 1)) / 2 * flt (2 * 1 + 1) / 3) - flt (1 * (1 + 1)) / 2 * (flt (1 * (1 + 1)) / 2) : FP ρ) ⇓ 0 := by
      have a := rounds_nat (n := 1) (rounds_mul (flt_one_is (ρ := ρ)) hx2) (by norm_num) (by norm_num)
      have b := rounds_nat (n := 1) (rounds_mul hx hx) (by norm_num) (by norm_num)
      exact ((rounds_sub a b).congr (by simp)).is_zero
    have hy : (0 + x : FP ρ) ⇓ bar (vals data) i := zero_add_is h hs isZero
    have sy : Stored (0 + x) := stored_add
    have hxy : (0 + flt 1 * x : FP ρ) ⇓ bar (vals data) i := by
      have := ((rounds_mul flt_one_is h).congr (one_mul _)).is_of_stored h hs
      exact ((rounds_add isZero this).congr (zero_add _)).is_of_stored h hs
    have hnum : flt 1 * (0 + flt 1 * x) - flt (1 * (1 + 1)) / 2 * (0 + x) ⇓ 0 := by
      have a := ((rounds_mul flt_one_is hxy).congr (one_mul _)).is_of_stored h hs
      have b := ((rounds_mul hx hy).congr (one_mul _)).is_of_stored h hs
      exact ((rounds_sub a b).congr (sub_self _)).is_zero
    have hm : (flt 1 * (0 + flt 1 * x) - flt (1 * (1 + 1)) / 2 * (0 + x)) /
        (flt 1 * (flt (1 * (1 + 1)) / 2 * flt (2 * 1 + 1) / 3) - flt (1 * (1 + 1)) / 2 * (flt (1 * (1 + 1)) / 2)) = (nan : FP ρ) := by
      exact zeros_div hnum hdv
    show (flt 1 * (0 + flt 1 * x) - flt (1 * (1 + 1)) / 2 * (0 + x)) /
        (flt 1 * (flt (1 * (1 + 1)) / 2 * flt (2 * 1 + 1) / 3) - flt (1 * (1 + 1)) / 2 * (flt (1 * (1 + 1)) / 2)) * flt 1 + _ = (nan : FP ρ)
    rw [hm]
    rfl
  · rw [List.getElem?_eq_none (by simpa using hi), List.getElem?_eq_none (by omega)]
    rfl

end Traquer.Smooth

namespace Traquer
open FP

/-- The prices 1, 5, 3 are numbers of every format. -/
theorem prices_example {ρ : Rounding} : Prices ([fin (1 : ℕ), fin (5 : ℕ), fin (3 : ℕ)] : List (FP ρ)) := fun x hx => by
  simp only [List.mem_cons, List.not_mem_nil, or_false] at hx
  rcases hx with rfl | rfl | rfl
  · exact ⟨trivial, stored_nat 1 (by norm_num)⟩
  · exact ⟨trivial, stored_nat 5 (by norm_num)⟩
  · exact ⟨trivial, stored_nat 3 (by norm_num)⟩

example := Smooth.ewma_one _ (prices_example (ρ := Rounding.binary64)) (by simp)
example := Distribution.median_one _ (prices_example (ρ := Rounding.binary64))
example := Smooth.dema_one _ (prices_example (ρ := Rounding.binary64)) (by simp) fun r hr => by
  have hn : ∃ n : ℕ, r = n ∧ n ≤ 5 := by
    simp only [vals, List.map_cons, List.map_nil, FP.val, List.mem_cons, List.not_mem_nil, or_false] at hr
    rcases hr with rfl | rfl | rfl
    · exact ⟨1, rfl, by norm_num⟩
    · exact ⟨5, rfl, by norm_num⟩
    · exact ⟨3, rfl, by norm_num⟩
  obtain ⟨n, rfl, hn⟩ := hn
  have h1 := Rounding.binary64.nat (2 * n) (by omega)
  have h2 := Rounding.binary64.fits_nat (2 * n) (by omega)
  push_cast at h1 h2
  exact ⟨h1, h2⟩

end Traquer
