import Verif.Props.Stochastic
import Verif.Props.Pearson
import Verif.Props.VolatilityFormulas
import Verif.Lemmas.Witness
/-!
# C30, C43, C70: what `stochastic`, `rsq` and `typical` compute
-/

namespace Traquer.Momentum
open FP FloatLit

/-- C30: `stochastic` smooths the raw value over 3 bars for %K and again over 3 bars for %D. -/
theorem stochastic_reports (high low close : List XF) (w : ℕ) (hw : 1 ≤ w) (hn : w + 3 ≤ high.length)
    (hh : Fins high) (hl : Fins low) (hc : Fins close) (ll : low.length = high.length) (lc : close.length = high.length)
    (hne : ∀ i, w ≤ i + 1 → i < high.length → maxOf (recent (vals high) w i) ≠ minOf (recent (vals low) w i)) :
    ∃ out, stochastic high low close w = some out ∧
      Reports high.length (w + 1) (fun i => mean (lastOf (rawK (vals high) (vals low) (vals close) w) 3 i)) (some (out.map fun p => p.1)) ∧
      Reports high.length (w + 3) (fun i => mean (lastOf (fun j => mean (lastOf (rawK (vals high) (vals low) (vals close) w) 3 j)) 3 i))
        (some (out.map fun p => p.2)) := by
  obtain ⟨out, e, h1, h2⟩ := stoch_reports high low close w 3 hw (by decide) (by omega) hh hl hc ll lc hne
  exact ⟨out, e, h1.cast rfl (by omega), h2.cast rfl (by omega)⟩

end Traquer.Momentum

namespace Traquer.Correlation
open FP FloatLit

/-- C43: `rsq` is the square of Pearson's coefficient, NaN if one of the two windows is constant. -/
theorem rsq_reports (s1 s2 : List XF) (w : ℕ) (h : s2.length = s1.length) (hw : 1 ≤ w) (hn : w ≤ s1.length + 1) (h1 : Fins s1) (h2 : Fins s2) :
    ReportsP s1.length (w - 1) (fun i y =>
      (¬ Flat (recent (vals s1) w i) → ¬ Flat (recent (vals s2) w i) → y ⇓ pearson (recent (vals s1) w i) (recent (vals s2) w i) ^ 2) ∧
      (Flat (recent (vals s1) w i) ∨ Flat (recent (vals s2) w i) → y = FP.nan)) (rsq s1 s2 w) := by
  obtain ⟨o, e, l, hn', hy⟩ := pcc_reports s1 s2 w h hw hn h1 h2
  refine ⟨o.map fun x => x * x, by simp only [rsq, e, Option.bind_eq_bind, Option.bind_some], by simpa using l, fun i hi hl => ?_, fun i hi hl => ?_⟩
  · rw [List.getElem?_map, hn' i hi hl]; rfl
  · obtain ⟨y, ey, hy⟩ := hy i hi hl
    refine ⟨y * y, by rw [List.getElem?_map, ey]; rfl, fun a b => ?_, fun a => ?_⟩
    · rw [sq]; exact is_mul (hy.1 a b) (hy.1 a b)
    · rw [hy.2 a]; rfl

example : Fins ([1, 2, 4].map fin : List XF) ∧ Fins ([3, 1, 1].map fin : List XF) ∧ ¬ Flat (recent (vals ([1, 2, 4].map fin : List XF)) 2 1) ∧
    ¬ Flat (recent (vals ([3, 1, 1].map fin : List XF)) 2 1) ∧ Flat (recent (vals ([3, 1, 1].map fin : List XF)) 2 2) := by
  refine ⟨fins_map_fin _, fins_map_fin _, ?_, ?_, ?_⟩ <;> norm_num [recent, vals, FP.val, Flat]

end Traquer.Correlation

namespace Traquer.Volatility
open FP FloatLit
open Traquer.Trend (is_bar)

/-- C70: `typical` is the mean over the window of `(high + low + close) / 3`. -/
theorem typical_reports (high low close : List XF) (w : ℕ) (hw : 1 ≤ w) (hn : w ≤ high.length + 1) (hl : low.length = high.length)
    (hc : close.length = high.length) (fh : Fins high) (fl : Fins low) (fc : Fins close) :
    Reports high.length (w - 1)
      (fun i => mean (lastOf (fun j => (bar (vals high) j + bar (vals low) j + bar (vals close) j) / 3) w i)) (typical high low close w) := by
  have h : Reports high.length 0 (fun i => (bar (vals high) i + bar (vals low) i + bar (vals close) i) / 3)
      (some ((zip3 high low close).map fun (x : XF × XF × XF) => (x.1 + x.2.1 + x.2.2) / 3)) := by
    refine reports_map (by simp [hl, hc]) (fun i b _ hi => by omega) ?_
    rintro i ⟨h, l, c⟩ hi -
    rw [zip3_getElem?] at hi
    exact is_div (is_add (is_add (is_bar fh hi.1) (is_bar fl hi.2.1)) (is_bar fc hi.2.2)) (is_lit 3) (by norm_num)
  exact (h.sma hw hn).cast rfl (by omega)

example : ValueAt (typical ([3, 6].map fin) ([1, 2].map fin) ([2, 4].map fin) 2) 1 3 := by
  refine (typical_reports ([3, 6].map fin) ([1, 2].map fin) ([2, 4].map fin) 2 (by decide) (by simp) rfl rfl (fins_map_fin _) (fins_map_fin _) (fins_map_fin _)).value
    1 le_rfl (by simp) ?_
  norm_num [lastOf, mean, bar, vals, FP.val, List.range_succ]

end Traquer.Volatility
