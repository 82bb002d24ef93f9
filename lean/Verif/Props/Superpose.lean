import Verif.Lemmas.Superpose
import Verif.Props.Composed
import Verif.Props.Recursive
import Verif.Props.Alma
import Verif.Props.Oscillators
import Verif.Props.TrendFormulas
import Verif.Props.FlatWindow
import Mathlib.Tactic.IntervalCases
/-!
# C83: superposition — the average of a blend of two series is the blend of the averages (exact arithmetic)
-/

namespace Traquer.Smooth
open FP FloatLit

theorem reports_lastOf {n k : ℕ} {V : (ℕ → ℝ) → ℕ → ℝ} {v : ℕ → ℝ} {x : ℕ → ℝ} {r : Option (List XF)} (h : Reports n k v r)
    (e : ∀ i, k ≤ i → i < n → v i = V x i) : Reports n k (V x) r := h.congr e

/-- C83 -/
theorem sma_superposes {w : ℕ} (hw : 1 ≤ w) : Superposes (fun n => w ≤ n + 1) fun x => sma x w :=
  superposes_of (k := fun _ => w - 1) (Lin.mean w) fun d hd hn => (sma_reports d w hw hn hd).congr fun i h1 h2 => by
    rw [lastOf_bar (by omega) (by simpa using h2)]

/-- C83 -/
theorem ewma_superposes {w : ℕ} (hw : 1 ≤ w) : Superposes (fun n => w ≤ n) fun x => ewma x w :=
  superposes_of (k := fun _ => w - 1) (Lin.ewma 0 w) fun d hd hn => ewma_values d w hw hn hd

/-- C83 -/
theorem wilder_superposes {w : ℕ} (hw : 1 ≤ w) : Superposes (fun n => w ≤ n) fun x => wilder x w :=
  superposes_of (k := fun _ => w - 1) (Lin.wilder 0 w) fun d hd hn => wilder_values d w hw hn hd

/-- C83 -/
theorem wma_superposes {w : ℕ} (hw : 1 ≤ w) : Superposes (fun n => w ≤ n + 1) fun x => wma x w :=
  superposes_of (k := fun _ => w - 1) (Lin.weighted (fun _ => (List.range' 1 w).map fun i : ℕ => (i : ℝ)) fun _ => w) fun d hd hn =>
    (wma_reports d w hw hn hd).congr fun i h1 h2 => by rw [lastOf_bar (by omega) (by simpa using h2)]

/-- C83 -/
theorem pwma_superposes {w : ℕ} (hw : 1 ≤ w) (hp : w ≤ 63) : Superposes (fun n => w ≤ n + 1) fun x => pwma x w :=
  superposes_of (k := fun _ => w - 1)
    (Lin.weighted (fun _ => ((List.range w).map fun k => (w - 1).choose k).map fun u : ℕ => (u : ℝ)) fun _ => w) fun d hd hn =>
    (pwma_reports d w hw hp hn hd).congr fun i h1 h2 => by rw [lastOf_bar (by omega) (by simpa using h2)]

/-- C83 -/
theorem fwma_superposes {w : ℕ} (hw : 2 ≤ w) : Superposes (fun n => w ≤ n + 1) fun x => fwma x w :=
  superposes_of (k := fun _ => w - 1)
    (Lin.weighted (fun _ => ((List.range' 1 w).map Nat.fib).map fun u : ℕ => (u : ℝ)) fun _ => w) fun d hd hn =>
    (fwma_reports d w hw hn hd).congr fun i h1 h2 => by rw [lastOf_bar (by omega) (by simpa using h2)]

/-- Bars of one average that another one looks at. -/
theorem lastOf_congr {u v : ℕ → ℝ} {w i : ℕ} (h : ∀ j, i + 1 - w ≤ j → j < i + 1 - w + w → u j = v j) : lastOf u w i = lastOf v w i :=
  List.map_congr_left fun j hj => h _ (by omega) (by have := List.mem_range.1 hj; omega)

theorem trima_values (d : List XF) (w : ℕ) (hw : 1 ≤ w) (hn : w ≤ d.length + 1) (hd : Fins d) :
    Reports d.length (w - 1) (fun i => mean (lastOf (fun j => mean (lastOf (bar (vals d)) ((w + 1) / 2) j)) (w / 2 + 1) i)) (trima d w) :=
  (trima_reports d w hw hn hd).congr fun i h1 h2 => by
    congr 1
    refine lastOf_congr fun j h3 h4 => ?_
    rw [lastOf_bar (by omega) (by simp; omega)]

/-- C83 -/
theorem trima_superposes {w : ℕ} (hw : 1 ≤ w) : Superposes (fun n => w ≤ n + 1) fun x => trima x w :=
  superposes_of (k := fun _ => w - 1) ((Lin.mean (w / 2 + 1)).comp (Lin.mean ((w + 1) / 2))) fun d hd hn => trima_values d w hw hn hd

theorem lrf_values (d : List XF) (w : ℕ) (hw : 2 ≤ w) (hn : w ≤ d.length + 1) (hd : Fins d) :
    Reports d.length (w - 1) (fun i => slope (lastOf (bar (vals d)) w i) * w + intercept (lastOf (bar (vals d)) w i)) (lrf d w) := by
  run_model [lrf]
  refine reports_windows (by omega) hn fun i h1 h2 => ?_
  have l := recent_length h1 h2
  have := lrfWin_is (hd.recent w i) (by omega)
  rw [l] at this
  refine this.congr ?_
  rw [lastOf_bar (by omega) (by simpa using h2), recent_vals]

theorem lin_xySum (w : ℕ) : Lin fun x i => xySum (lastOf x w i) := fun s t x y i => by
  have key : ∀ (ks l : List ℕ) (x y : ℕ → ℝ), ((ks.zip (l.map fun j => s * x j + t * y j)).map fun p => (p.1 : ℝ) * p.2).sum =
      s * ((ks.zip (l.map x)).map fun p => (p.1 : ℝ) * p.2).sum + t * ((ks.zip (l.map y)).map fun p => (p.1 : ℝ) * p.2).sum := by
    intro ks
    induction ks with
    | nil => simp
    | cons k ks ih =>
      intro l x y
      cases l with
      | nil => simp
      | cons a l => simp only [List.map_cons, List.zip_cons_cons, List.sum_cons, ih]; ring
  simp only [xySum, lastOf, List.length_map]
  exact key _ _ (fun j => x (i + 1 - w + j)) fun j => y (i + 1 - w + j)

theorem lin_lrf (w : ℕ) : Lin fun x i => slope (lastOf x w i) * w + intercept (lastOf x w i) := fun s t x y i => by
  have h1 := Lin.sum w s t x y i
  have h2 := lin_xySum w s t x y i
  have hl : ∀ z : ℕ → ℝ, (lastOf z w i).length = w := fun z => by simp [lastOf]
  simp only at h1 h2
  simp only [slope, intercept, ySum, hl, h1, h2]
  ring

/-- C83 -/
theorem lrf_superposes {w : ℕ} (hw : 2 ≤ w) : Superposes (fun n => w ≤ n + 1) fun x => lrf x w :=
  superposes_of (k := fun _ => w - 1) (lin_lrf w) fun d hd hn => lrf_values d w hw hn hd

/-- C83 -/
theorem alma_superposes {w : ℕ} (sigma : XF) (mu : Option XF) {s m : ℝ} (hw : 1 ≤ w) (hs : sigma ⇓ s) (h0 : s ≠ 0) (hm : mu.getD 0.85 ⇓ m) :
    Superposes (fun n => w ≤ n) fun x => alma x w sigma mu :=
  superposes_of (k := fun _ => w) (Lin.weighted_reverse (fun _ => almaGauss w s m) fun _ => w) fun d hd hn =>
    (alma_reports d w sigma mu s m hw hn hs h0 hm hd).congr fun i h1 h2 => by rw [lastOf_bar (by omega) (by simpa using h2)]

/-- C83 -/
theorem kernel_superposes (sigma : XF) {s : ℝ} (hs : sigma ⇓ s) (h0 : s ≠ 0) : Superposes (fun _ => True) fun x => some (kernel x sigma) :=
  superposes_of (k := fun _ => 0) (Lin.weighted_reverse (fun i => gauss s (min (i + 1) 255)) fun i => min (i + 1) 255) fun d hd _ =>
    (kernel_reports d sigma s hs h0 hd).congr fun i h1 h2 => by rw [lastOf_bar (by omega) (by simpa using h2)]

theorem Lin.ema1 (w : ℕ) : Lin (ema1 w) := Lin.ewma 0 w
theorem Lin.ema2 (w : ℕ) : Lin (ema2 w) := (Lin.ewma (w - 1) w).comp (Lin.ema1 w)
theorem Lin.ema3 (w : ℕ) : Lin (ema3 w) := (Lin.ewma (2 * (w - 1)) w).comp (Lin.ema2 w)
theorem Lin.ema4 (w : ℕ) : Lin (ema4 w) := (Lin.ewma (3 * (w - 1)) w).comp (Lin.ema3 w)
theorem Lin.ema5 (w : ℕ) : Lin (ema5 w) := (Lin.ewma (4 * (w - 1)) w).comp (Lin.ema4 w)
theorem Lin.ema6 (w : ℕ) : Lin (ema6 w) := (Lin.ewma (5 * (w - 1)) w).comp (Lin.ema5 w)

/-- C83 -/
theorem dema_superposes {w : ℕ} (hw : 1 ≤ w) : Superposes (fun n => 2 * w ≤ n + 1) fun x => dema x w :=
  superposes_of (k := fun _ => 2 * (w - 1)) (((Lin.ema1 w).mul 2).sub (Lin.ema2 w)) fun d hd hn => dema_reports d w hw hn hd

/-- C83 -/
theorem tema_superposes {w : ℕ} (hw : 1 ≤ w) : Superposes (fun n => 3 * w ≤ n + 2) fun x => tema x w :=
  superposes_of (k := fun _ => 3 * (w - 1)) ((((Lin.ema1 w).mul 3).sub ((Lin.ema2 w).mul 3)).add (Lin.ema3 w)) fun d hd hn =>
    tema_reports d w hw hn hd

/-- C83 -/
theorem t3_superposes {w : ℕ} (factor : Option XF) {f : ℝ} (hw : 1 ≤ w) (hf : factor.getD 0.7 ⇓ f) :
    Superposes (fun n => 6 * w ≤ n + 5) fun x => t3 x w factor :=
  superposes_of (k := fun _ => 6 * (w - 1)) (((((Lin.ema6 w).mul _).add ((Lin.ema5 w).mul _)).add ((Lin.ema4 w).mul _)).add ((Lin.ema3 w).mul _))
    fun d hd hn => t3_reports d w factor f hw hn hf hd

theorem hull_values (d : List XF) (w : ℕ) (hw : 1 ≤ w) (hb : w < 2 ^ 64) (hn : w ≤ d.length + 1) (hd : Fins d) :
    Reports d.length (w - 1 + (Nat.sqrt w - 1))
      (fun i => wmaOf (Nat.sqrt w) (lastOf (fun j => 2 * wmaOf ((w + 1) / 2) (lastOf (bar (vals d)) ((w + 1) / 2) j) -
        wmaOf w (lastOf (bar (vals d)) w j)) (Nat.sqrt w) i)) (hull d w) :=
  (hull_reports d w hw hb hn hd).congr fun i h1 h2 => by
    congr 1
    have hs : 1 ≤ Nat.sqrt w := Nat.sqrt_pos.2 (by omega)
    refine lastOf_congr fun j h3 h4 => ?_
    rw [lastOf_bar (by omega) (by simp; omega), lastOf_bar (by omega) (by simp; omega)]

/-- C83 -/
theorem hull_superposes {w : ℕ} (hw : 1 ≤ w) (hb : w < 2 ^ 64) : Superposes (fun n => w ≤ n + 1) fun x => hull x w :=
  superposes_of (k := fun _ => w - 1 + (Nat.sqrt w - 1))
    ((Lin.weighted (fun _ => (List.range' 1 (Nat.sqrt w)).map fun i : ℕ => (i : ℝ)) fun _ => Nat.sqrt w).comp
      (((Lin.weighted (fun _ => (List.range' 1 ((w + 1) / 2)).map fun i : ℕ => (i : ℝ)) fun _ => (w + 1) / 2).mul 2).sub
        (Lin.weighted (fun _ => (List.range' 1 w).map fun i : ℕ => (i : ℝ)) fun _ => w)))
    fun d hd hn => hull_values d w hw hb hn hd

/-- C83 -/
theorem zlma_superposes {w : ℕ} (hw : 1 ≤ w) : Superposes (fun n => (w - 1) / 2 + w ≤ n) fun x => zlma x w :=
  superposes_of (k := fun _ => (w - 1) / 2 + (w - 1))
    ((Lin.ewma ((w - 1) / 2) w).comp ((Lin.price.mul 2).sub (Lin.ago fun i => i - (w - 1) / 2))) fun d hd hn => zlma_reports d w hw hn hd

/-- C83 -/
theorem hwma_superposes (alpha beta gamma : Option XF) {a b g : ℝ} (ha : alpha.getD 0.2 ⇓ a) (hb : beta.getD 0.1 ⇓ b)
    (hg : gamma.getD 0.1 ⇓ g) : Superposes (fun n => 1 ≤ n) fun x => hwma x alpha beta gamma :=
  superposes_of (k := fun _ => 0) (Lin.holt _ _ _) fun d hd hn => hwma_reports d alpha beta gamma a b g hn hd ha hb hg

/-- C83 -/
theorem ssf_superposes {w : ℕ} (tri : Option Bool) (hw : 1 ≤ w) : Superposes (fun n => 3 ≤ n) fun x => ssf x w tri := by
  refine superposes_of (k := fun _ => if tri.getD false then 3 else 2)
    (V := fun x i => if tri.getD false then smoother3 w x i else smoother2 w x i) ?_ fun d hd hn => ?_
  · exact Lin.ite (fun _ => tri.getD false = true) (Lin.smooth3 w) (Lin.smooth2 w)
  · exact (ssf_reports d w tri hw hn hd).congr fun i _ _ => by split <;> rfl

end Traquer.Smooth

namespace Traquer.Momentum
open FP FloatLit
open Traquer.Smooth (ema1)

/-- C83 -/
theorem macd_superposes {short long : ℕ} (hs : 1 ≤ short) (hl : 1 ≤ long) :
    Superposes (fun n => max short long ≤ n) fun x => macd x short long :=
  superposes_of (k := fun _ => max short long - 1) ((Lin.ewma 0 short).sub (Lin.ewma 0 long)) fun d hd hn => macd_reports d short long hs hl hn hd

/-- C83 -/
theorem apo_superposes {short long : ℕ} (hs : 1 ≤ short) (hl : 1 ≤ long) :
    Superposes (fun n => max short long ≤ n) fun x => apo x short long :=
  superposes_of (k := fun _ => max short long - 1) ((Lin.ewma 0 short).sub (Lin.ewma 0 long)) fun d hd hn => apo_reports d short long hs hl hn hd

/-- C83: both series blended with the same factors. -/
theorem qstick_superposes {w : ℕ} (hw : 1 ≤ w) : Superposes₂ (fun n => w ≤ n) fun o c => qstick o c w := by
  refine superposes₂_of (k := fun _ => w - 1) (V := fun o c => ewmaFrom 0 w fun i => c i - o i) (fun s t x x' y y' i => ?_)
    fun o c ho hc hl hn => qstick_reports o c w hl hw hn ho hc
  have := Lin.ewma 0 w s t (fun j => x' j - x j) (fun j => y' j - y j) i
  rw [← this]
  show ewmaFrom 0 w (fun i => s * x' i + t * y' i - (s * x i + t * y i)) i = _
  congr 1
  funext j
  ring

end Traquer.Momentum

namespace Traquer.Trend
open FP FloatLit

/-- C83 -/
theorem dpo_superposes {w : ℕ} (hw : 3 ≤ w) : Superposes (fun n => w ≤ n) fun x => dpo x w none :=
  superposes_of (k := fun _ => w - 1) ((Lin.ago fun i => i - (w / 2 + 1)).sub (Lin.mean w)) fun d hd hn =>
    dpo_reports d w none hw hn hd ((Smooth.sma_reports d w (by omega) (by omega) hd).congr fun i h1 h2 => by
      rw [lastOf_bar (by omega) (by simpa using h2)])

end Traquer.Trend

namespace Traquer
open FP FloatLit

/-! ## Concrete cases, and averages that do not superpose -/

example : ∃ a b c, Smooth.hull ([1, 2, 4, 8, 16].map fin) 4 = some a ∧ Smooth.hull ([3, 1, 4, 1, 5].map fin) 4 = some b ∧
    Smooth.hull (blend 2 (-3) ([1, 2, 4, 8, 16].map fin) ([3, 1, 4, 1, 5].map fin)) 4 = some c ∧ List.Forall₂ SameNumber c (blend 2 (-3) a b) :=
  Smooth.hull_superposes (by decide) (by decide) 2 (-3) _ _ (fins_map_fin _) (fins_map_fin _) (by simp) (by simp)

/-- C83: an adaptive average does not superpose: `kama` of 1, 2, 4 and of their opposites are numbers, but of the sum, a flat series, NaN. -/
theorem kama_not_superposes : ¬ Superposes (fun n => 2 ≤ n) fun x => Smooth.kama x 2 none none := by
  intro h
  obtain ⟨a, b, c, ea, eb, ec, hc⟩ := h 1 1 ([1, 2, 4].map fin) ([-1, -2, -4].map fin) (fins_map_fin _) (fins_map_fin _) (by simp) (by simp)
  simp only at ec
  have hx : ∀ xs : List ℝ, xs.length = 3 → bar xs 0 ≠ bar xs 1 → bar xs 1 ≠ bar xs 2 → ∀ o, Smooth.kama (xs.map (fin : ℝ → XF)) 2 none none = some o →
      ∃ y r, o[1]? = some y ∧ y ⇓ r := by
    intro xs hl h1 h2 o ho
    match xs, hl with
    | [p, q, r], _ =>
      obtain ⟨o', e, -, -, g⟩ := Smooth.kama_reports ([p, q, r].map fin) 2 none none (by decide) (by simp) (fins_map_fin _) (by
        simp only [vals_map_fin, List.length_map]
        intro i h3 h4
        simp only [List.length_cons, List.length_nil] at h4
        simp only [bar, List.getD_cons_zero, List.getD_cons_succ] at h1 h2
        have h5 : 1 ≤ i := by omega
        interval_cases i
        · simpa [recent, changes, pairs, sub_eq_zero] using fun e => h1 e.symm
        · simpa [recent, changes, pairs, sub_eq_zero] using fun e => h2 e.symm)
      rw [ho] at e
      cases e
      obtain ⟨y, h3, h4⟩ := g 1 le_rfl (by simp)
      exact ⟨y, _, h3, h4⟩
  obtain ⟨y1, r1, g1, i1⟩ := hx [1, 2, 4] rfl (by norm_num [bar]) (by norm_num [bar]) a ea
  obtain ⟨y2, r2, g2, i2⟩ := hx [-1, -2, -4] rfl (by norm_num [bar]) (by norm_num [bar]) b eb
  have hz : ∀ z ∈ blend 1 1 ([1, 2, 4].map fin) ([-1, -2, -4].map fin), z ⇓ 0 := by
    simp only [blend, List.map_cons, List.map_nil, List.zipWith_cons_cons, List.zipWith_nil_right, List.mem_cons, List.not_mem_nil, or_false]
    rintro z (rfl | rfl | rfl) <;> exact (blend_is (is_fin _) (is_fin _)).congr (by norm_num)
  obtain ⟨c', e, -, hn⟩ := Smooth.kama_poisoned (blend 1 1 ([1, 2, 4].map fin) ([-1, -2, -4].map fin)) 2 none none 1 0 (by decide) (by decide)
    (by simp [blend]) (fun x hx => hz x (List.mem_of_mem_drop (List.mem_of_mem_take hx)))
  rw [e] at ec
  cases ec
  have hl := hc.length_eq
  have h1 : (blend 1 1 a b)[1]? = some (fin 1 * y1 + fin 1 * y2) := by simp [blend, List.getElem?_zipWith, g1, g2]
  have l1 := (List.getElem?_eq_some_iff.1 h1).1
  have h2 := hn 1 _ le_rfl (List.getElem?_eq_getElem (by omega))
  have h3 := (List.forall₂_iff_get.1 hc).2 1 (by omega) l1
  simp only [List.get_eq_getElem] at h3
  rw [h2, (List.getElem?_eq_some_iff.1 h1).2] at h3
  have h4 := blend_is (s := 1) (t := 1) i1 i2
  rcases h3 with ⟨-, h5⟩ | h5
  · rw [h5] at h4; exact h4.1.elim
  · simp [FloatOps.feq, FP.feq, FP.isNaN] at h5

end Traquer
