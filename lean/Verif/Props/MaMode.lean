import Verif.Props.Composed
/-!
# C57: the average chosen by its mode
-/

namespace Traquer.Smooth
open FP FloatLit

/-- The first bar at which the average of the given mode is a number. -/
def MaMode.start (w : ℕ) : MaMode → ℕ
  | .DEMA => 2 * (w - 1)
  | .TEMA => 3 * (w - 1)
  | .Hull => w - 1 + (Nat.sqrt w - 1)
  | .Variable => max w 9
  | .Vidya => 23
  | .ZeroLag => (w - 1) / 2 + (w - 1)
  | _ => w - 1

/-- The series is long enough and, for the averages that divide by a quantity of the series, that quantity is not 0. -/
def MaMode.Ready (w : ℕ) (x : List ℝ) : MaMode → Prop
  | .EWMA | .Wilder => w ≤ x.length
  | .DEMA => 2 * w ≤ x.length + 1
  | .TEMA => 3 * w ≤ x.length + 2
  | .Hull => w ≤ x.length + 1 ∧ w < 2 ^ 64
  | .LinReg => w ≤ x.length + 1 ∧ 2 ≤ w
  | .Pascal => w ≤ x.length + 1 ∧ w ≤ 63
  | .Variable => max w 9 ≤ x.length ∧
      ∀ i, 9 ≤ i → i < x.length → (rises (recent x 10 i)).sum + (falls (recent x 10 i)).sum ≠ 0
  | .Vidya => 23 ≤ x.length ∧ ∀ i, 23 ≤ i → i < x.length → mean (lastOf (fun j => stdDev (recent x 5 j)) 20 i) ≠ 0
  | .ZeroLag => (w - 1) / 2 + w ≤ x.length
  | _ => w ≤ x.length + 1

/-- What the average of the given mode over `w` bars is at bar `i`. -/
def MaMode.Is (w : ℕ) (x : List ℝ) (i : ℕ) (v : ℝ) : MaMode → Prop
  | .SMA => v = mean (recent x w i)
  | .EWMA => v = ema1 w (bar x) i
  | .DEMA => v = 2 * ema1 w (bar x) i - ema2 w (bar x) i
  | .TEMA => v = 3 * ema1 w (bar x) i - 3 * ema2 w (bar x) i + ema3 w (bar x) i
  | .WMA => v = weightedMean ((List.range' 1 w).map fun k : ℕ => (k : ℝ)) (recent x w i)
  | .Hull => v = wmaOf (Nat.sqrt w) (lastOf (fun j => 2 * wmaOf ((w + 1) / 2) (recent x ((w + 1) / 2) j) -
      wmaOf w (recent x w j)) (Nat.sqrt w) i)
  | .LinReg => ∃ a b, v = a + b * w ∧ ∀ a' b', lineError a b (recent x w i) ≤ lineError a' b' (recent x w i)
  | .Pascal => v = weightedMean ((List.range w).map fun k => ((w - 1).choose k : ℝ)) (recent x w i)
  | .Triangle => v = mean (lastOf (fun j => mean (recent x ((w + 1) / 2) j)) (w / 2 + 1) i)
  | .Variable => v = adaptive 9 (fun i => 2 / ((w : ℝ) + 1) * |((rises (recent x 10 i)).sum - (falls (recent x 10 i)).sum) /
      ((rises (recent x 10 i)).sum + (falls (recent x 10 i)).sum)|) (bar x) i
  | .Vidya => v = adaptive 23 (fun i => 2 / ((w : ℝ) + 1) * (stdDev (recent x 5 i) /
      mean (lastOf (fun j => stdDev (recent x 5 j)) 20 i))) (bar x) i
  | .Wilder => v = wilderFrom 0 w (bar x) i
  | .ZeroLag => v = ewmaFrom ((w - 1) / 2) w (fun i => 2 * bar x i - bar x (i - (w - 1) / 2)) i

/-- C57: `ma` with a given mode reports the average that mode names. -/
theorem ma_reports (data : List XF) (w : ℕ) (mode : MaMode) (hw : 1 ≤ w) (hd : Fins data) (hr : mode.Ready w (vals data)) :
    ReportsP data.length (mode.start w) (fun i y => ∃ v, y ⇓ v ∧ mode.Is w (vals data) i v) (ma data w mode) := by
  have hl : (vals data).length = data.length := by simp
  cases mode <;> simp only [MaMode.Ready, hl] at hr
  case SMA => exact (sma_reports data w hw hr hd).toP fun i y _ _ h => ⟨_, h, rfl⟩
  case EWMA => exact (ewma_values data w hw hr hd).toP fun i y _ _ h => ⟨_, h, rfl⟩
  case DEMA => exact (dema_reports data w hw hr hd).toP fun i y _ _ h => ⟨_, h, rfl⟩
  case TEMA => exact (tema_reports data w hw hr hd).toP fun i y _ _ h => ⟨_, h, rfl⟩
  case WMA => exact (wma_reports data w hw hr hd).toP fun i y _ _ h => ⟨_, h, rfl⟩
  case Hull => exact (hull_reports data w hw hr.2 hr.1 hd).toP fun i y _ _ h => ⟨_, h, rfl⟩
  case LinReg =>
    obtain ⟨a, b, h1, h2⟩ := lrf_least_squares data w hr.2 hr.1 hd
    exact h1.toP fun i y hi hin h => ⟨_, h, a i, b i, rfl, h2 i (by have : w - 1 ≤ i := hi; omega) hin⟩
  case Pascal =>
    refine (pwma_reports data w hw hr.2 hr.1 hd).toP fun i y _ _ h => ⟨_, h, ?_⟩
    rw [List.map_map]; rfl
  case Triangle => exact (trima_reports data w hw hr hd).toP fun i y _ _ h => ⟨_, h, rfl⟩
  case Variable => exact (vma_reports data w hr.1 hd hr.2).toP fun i y _ _ h => ⟨_, h, rfl⟩
  case Vidya => exact (vidya_reports data w hr.1 hd hr.2).toP fun i y _ _ h => ⟨_, h, rfl⟩
  case Wilder => exact (wilder_values data w hw hr hd).toP fun i y _ _ h => ⟨_, h, rfl⟩
  case ZeroLag => exact (zlma_reports data w hw hr hd).toP fun i y _ _ h => ⟨_, h, rfl⟩

/-- Averages 1.5, 2.5 and their average 2, so 5 - 2. -/
example : ∃ out y, ma ([1, 2, 3].map (fin : ℝ → XF)) 2 .DEMA = some out ∧ out[2]? = some y ∧ y ⇓ 3 := by
  obtain ⟨out, e, -, -, h⟩ := ma_reports ([1, 2, 3].map (fin : ℝ → XF)) 2 .DEMA (by decide) (fins_map_fin _)
    (by simp [MaMode.Ready])
  obtain ⟨y, ey, v, hy, hv⟩ := h 2 (by decide) (by simp)
  refine ⟨out, y, e, ey, hy.congr ?_⟩
  rw [hv, vals_map_fin]
  norm_num [ewmaFrom, lastOf, mean, bar, List.range_succ]

/-- A steadily rising price moves the variable average with full gain, here 2 / 10 of the way from 0 to 10. -/
example : ∃ out y, ma ([1, 2, 3, 4, 5, 6, 7, 8, 9, 10].map (fin : ℝ → XF)) 9 .Variable = some out ∧ out[9]? = some y ∧ y ⇓ 2 := by
  have hx : ∀ i, 9 ≤ i → i < 10 → recent ([1, 2, 3, 4, 5, 6, 7, 8, 9, 10] : List ℝ) 10 i = [1, 2, 3, 4, 5, 6, 7, 8, 9, 10] := by
    intro i h1 h2
    obtain rfl : i = 9 := by omega
    rfl
  have hr : (rises ([1, 2, 3, 4, 5, 6, 7, 8, 9, 10] : List ℝ)).sum = 9 := by norm_num [rises, pairs]
  have hf : (falls ([1, 2, 3, 4, 5, 6, 7, 8, 9, 10] : List ℝ)).sum = 0 := by norm_num [falls, pairs]
  obtain ⟨out, e, -, -, h⟩ := ma_reports ([1, 2, 3, 4, 5, 6, 7, 8, 9, 10].map (fin : ℝ → XF)) 9 .Variable (by decide) (fins_map_fin _)
    (by
      rw [vals_map_fin]
      refine ⟨by simp, fun i h1 h2 => ?_⟩
      rw [hx i h1 (by simpa using h2), hr, hf]; norm_num)
  obtain ⟨y, ey, v, hy, hv⟩ := h 9 (by decide) (by simp)
  refine ⟨out, y, e, ey, hy.congr ?_⟩
  rw [hv, vals_map_fin, adaptive, if_neg (by norm_num), hx _ (by norm_num) (by norm_num), hr, hf, adaptive, if_pos (by norm_num)]
  norm_num [bar]

end Traquer.Smooth
