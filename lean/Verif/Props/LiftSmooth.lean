import Verif.Lemmas.LiftTactic
import Verif.Props.SmoothConst
import Verif.Props.Alma
/-!
# C82: moving averages follow a rise of all prices
-/

namespace Traquer
open FP FloatLit

/-- Windows of two series, with their length. -/
theorem alike_windows_sized {α β : Type} {P : α → β → Prop} {l : List α} {l' : List β} (n : ℕ) (h : Each P l l') :
    Alike (Each fun w w' => w.length = n ∧ Each P w w') (windows n l) (windows n l') := by
  rw [windows, windows]
  split
  · exact .panic
  · refine .answer ?_
    have := each_windowsOf (n := n) h
    obtain ⟨h1, h2⟩ := each_iff.1 this
    refine each_iff.2 ⟨h1, fun i x y hx hy => ⟨windowsOf_mem_length (List.mem_of_getElem? hx), h2 i x y hx hy⟩⟩

end Traquer

namespace Traquer.Smooth
open FP FloatLit
variable {c : ℝ} {data data' : List XF}

theorem raised_mean {l l' : List XF} (h : Each (Raised c) l l') {n : ℕ} (hn : l.length = n) (h0 : 0 < n) :
    Raised c (fsum l / flt n) (fsum l' / flt n) := by
  rw [eval_flt]
  refine ((Raised.fsum h).div_pos (Nat.cast_pos.2 h0)).congr ?_
  have : (n : ℝ) ≠ 0 := Nat.cast_ne_zero.2 (by omega)
  rw [hn]
  field_simp

/-- C82: the moving average. -/
theorem sma_lift (h : Each (Lifted c 1) data data') (window : ℕ) : Alike (Each (Lifted c 1)) (sma data window) (sma data' window) := by
  rcases Nat.eq_zero_or_pos window with rfl | hw
  · exact .panic
  simp only [sma, Option.bind_eq_bind]
  refine Alike.bind Alike.same (forall_eq_rel fun k => Alike.bind (alike_windows_sized window (each_raised.1 h)) fun ws ws' hws => .answer ?_)
  exact each_append (lifted_each_nans k) (each_map hws fun w w' g => .of_raised (raised_mean g.2 g.1 hw))

lifts_rule sma_lift

/-- C82: the exponential average. -/
theorem ewma_lift (h : Each (Lifted c 1) data data') (window : ℕ) : Alike (Each (Lifted c 1)) (ewma data window) (ewma data' window) := by
  rcases Nat.eq_zero_or_pos window with rfl | hw
  · simp only [ewma, sliceTo, usub]
    exact .panic
  simp only [ewma, Option.bind_eq_bind]
  have ha : (2 / flt (window + 1) : XF) = fin (2 / (window + 1 : ℕ)) := by
    rw [eval_flt, eval_lit]
    exact eval_div_pos _ (by positivity)
  have hb : (1 - 2 / flt (window + 1) : XF) = fin (1 - 2 / (window + 1 : ℕ)) := by rw [ha, eval_one, eval_sub]
  rw [hb, ha]
  generalize ee : (2 / (window + 1 : ℕ) : ℝ) = a
  have ha : 0 < a := by rw [← ee]; positivity
  by_cases hl : window ≤ data.length
  · have e1 : sliceTo data window = some (data.take window) := sliceTo_of_le hl
    have e2 : sliceTo data' window = some (data'.take window) := sliceTo_of_le (h.length ▸ hl)
    rw [e1, e2, Option.bind_some, Option.bind_some]
    have hi : Raised c (fsum (data.take window) / flt window) (fsum (data'.take window) / flt window) :=
      raised_mean (each_take _ (each_raised.1 h)) (by simp; omega) hw
    refine Alike.bind Alike.same (forall_eq_rel fun k => Alike.bind (Alike.sliceFrom h rfl) fun r r' hr => .answer ?_)
    refine each_append (lifted_each_nans k) (each_cons (.of_raised hi) ?_)
    refine each_raised.2 (each_scanS (X := Raised c) hi (each_raised.1 hr) fun s t hs x y hx => ?_)
    exact ((hx.mul_pos ha).add_weak (hs.weak.mul_const (is_fin _))).congr (by ring)
  · have e1 : sliceTo data window = none := if_neg hl
    have e2 : sliceTo data' window = none := if_neg (h.length ▸ hl)
    rw [e1, e2]
    exact .panic

lifts_rule ewma_lift

/-- C82: the double exponential average. -/
theorem dema_lift (h : Each (Lifted c 1) data data') (window : ℕ) : Alike (Each (Lifted c 1)) (dema data window) (dema data' window) := by
  lifts [dema]

lifts_rule dema_lift

theorem tema_lift (h : Each (Lifted c 1) data data') (window : ℕ) : Alike (Each (Lifted c 1)) (tema data window) (tema data' window) := by
  lifts [tema]

lifts_rule tema_lift

/-- C82: Wilder's average. -/
theorem wilder_lift (h : Each (Lifted c 1) data data') (window : ℕ) : Alike (Each (Lifted c 1)) (wilder data window) (wilder data' window) := by
  simp only [wilder, Option.bind_eq_bind]
  split
  · exact .answer h
  rename_i h1
  rcases Nat.eq_zero_or_pos window with rfl | hw
  · exact .panic
  obtain ⟨k, rfl⟩ : ∃ k, window = k + 1 := ⟨window - 1, by omega⟩
  have hk : 0 < k := by omega
  have ek : usub (k + 1) 1 = some k := usub_of_le (by omega)
  rw [ek, Option.bind_some, Option.bind_some]
  by_cases hl : k ≤ data.length
  · have e1 : sliceTo data k = some (data.take k) := sliceTo_of_le hl
    have e2 : sliceTo data' k = some (data'.take k) := sliceTo_of_le (h.length ▸ hl)
    rw [e1, e2, Option.bind_some, Option.bind_some]
    have hi : Raised c (fsum (data.take k) / flt k) (fsum (data'.take k) / flt k) :=
      raised_mean (each_take _ (each_raised.1 h)) (by simp; omega) hk
    refine Alike.bind (Alike.sliceFrom h rfl) fun r r' hr => .answer (each_append (lifted_each_nans k) ?_)
    refine each_raised.2 (each_scanS (X := Raised c) hi (each_raised.1 hr) fun s t hs x y hx => ?_)
    rw [eval_flt, eval_flt]
    refine (((hs.mul_pos (Nat.cast_pos.2 hk)).add hx).div_pos (by positivity)).congr ?_
    push_cast
    field_simp
  · have e1 : sliceTo data k = none := if_neg hl
    have e2 : sliceTo data' k = none := if_neg (h.length ▸ hl)
    rw [e1, e2]
    exact .panic

lifts_rule wilder_lift

theorem raised_foldl_weighted {l l' : List XF} {ws : List ℝ} (h : Each (Raised c) l l') (hl : ws.length = l.length) (hp : ∀ w ∈ ws, 0 < w)
    {t : ℝ} {a b : XF} (g : Raised t a b) :
    Raised (t + c * ws.sum) (((l.zip (ws.map fin)).map fun (v, w) => v * w).foldl (· + ·) a)
      (((l'.zip (ws.map fin)).map fun (v, w) => v * w).foldl (· + ·) b) := by
  induction h generalizing ws t a b with
  | nil =>
    rw [List.length_nil, List.length_eq_zero_iff] at hl
    subst hl
    exact g.congr (by simp)
  | cons hx _ ih =>
    cases ws with
    | nil => cases hl
    | cons w ws =>
      refine (ih (Nat.succ.inj hl) (fun v hv => hp v (List.mem_cons_of_mem _ hv)) (g.add (hx.mul_pos (hp w List.mem_cons_self)))).congr ?_
      rw [List.sum_cons]; ring

/-- Positive finite weights as numbers. -/
theorem weights_eq {ws : List XF} (hf : Fins ws) (hp : ∀ w ∈ vals ws, 0 < w) : ws = (vals ws).map fin := by
  rw [vals, List.map_map]
  refine (List.map_id ws).symm.trans (List.map_congr_left fun x hx => ?_)
  rcases is_iff.1 (hf x hx).is with e | ⟨e, h0⟩
  · exact e
  · exact absurd h0 (hp _ (List.mem_map_of_mem hx)).ne'

/-- Weights `u / Σu` with positive `u`. -/
theorem raised_dot {ws l l' : List XF} {us : List ℝ} (h : Each (Raised c) l l') (hl : l.length = us.length) (h0 : us ≠ [])
    (hw : Fins ws ∧ vals ws = us.map fun u => u / us.sum) (hp : ∀ u ∈ us, 0 < u) : Raised c (dot ws l) (dot ws l') := by
  have hs : 0 < us.sum := List.sum_pos us hp h0
  have hp' : ∀ w ∈ vals ws, 0 < w := by
    rw [hw.2]
    intro w hw
    obtain ⟨u, hu, rfl⟩ := List.mem_map.1 hw
    exact div_pos (hp u hu) hs
  rw [weights_eq hw.1 hp']
  refine (raised_foldl_weighted (t := 0) (a := 0) (b := 0) h (by rw [hw.2, List.length_map, hl]) hp' ?_).congr ?_
  · rw [eval_zero]; exact .of_fin (by simp)
  · have : (us.map fun u => u / us.sum).sum = 1 := by
      have e : (us.map fun u => u / us.sum) = us.map fun u => u * us.sum⁻¹ := rfl
      rw [e, List.sum_map_mul_right, List.map_id', mul_inv_cancel₀ hs.ne']
    rw [hw.2, this]; ring

/-- C82: the linearly weighted average. -/
theorem wma_lift (h : Each (Lifted c 1) data data') (window : ℕ) : Alike (Each (Lifted c 1)) (wma data window) (wma data' window) := by
  rcases Nat.eq_zero_or_pos window with rfl | hw
  · exact .panic
  simp only [wma, Option.bind_eq_bind]
  refine Alike.bind Alike.same (forall_eq_rel fun k => Alike.bind (alike_windows_sized window (each_raised.1 h)) fun ws ws' hws => .answer ?_)
  refine each_append (lifted_each_nans k) (each_map hws fun w w' g => .of_raised ?_)
  refine raised_dot g.2 (by simp [g.1]) (by simp; omega) (wmaWeights_vals window hw) fun u hu => ?_
  obtain ⟨i, hi, rfl⟩ := List.mem_map.1 hu
  rw [List.mem_range'_1] at hi
  exact Nat.cast_pos.2 (by omega)

lifts_rule wma_lift

/-- C82: Pascal's average. -/
theorem pwma_lift (h : Each (Lifted c 1) data data') (window : ℕ) : Alike (Each (Lifted c 1)) (pwma data window) (pwma data' window) := by
  by_cases hw : 1 ≤ window ∧ window ≤ 63
  · obtain ⟨h1, h2⟩ := hw
    have hr := pascalRow_eq h1 h2
    have hW := fins_vals_map (l := (List.range window).map fun k => (window - 1).choose k)
      (f := fun i => (flt i / flt (2 ^ (window - 1)) : XF)) (g := fun i => (i : ℝ) / 2 ^ (window - 1))
      (fun a _ => (is_div (is_flt a) (is_flt _) (by positivity)).congr (by push_cast; rfl))
    simp only [pwma, Option.bind_eq_bind, hr, Option.bind_some]
    refine Alike.bind Alike.same (forall_eq_rel fun k => Alike.bind (alike_windows_sized window (each_raised.1 h)) fun ws ws' hws => .answer ?_)
    refine each_append (lifted_each_nans k) (each_map hws fun w w' g => .of_raised ?_)
    refine raised_dot (us := ((List.range window).map fun k => (window - 1).choose k).map fun u : ℕ => (u : ℝ)) g.2 (by simp [g.1])
      (by simp; omega) ⟨hW.1, ?_⟩ fun u hu => ?_
    · rw [hW.2, pascal_sum window h1]
      simp only [List.map_map, Function.comp_def]
    · obtain ⟨i, hi, rfl⟩ := List.mem_map.1 hu
      obtain ⟨j, hj, rfl⟩ := List.mem_map.1 hi
      rw [List.mem_range] at hj
      exact Nat.cast_pos.2 (Nat.choose_pos (by omega))
  · have e : ∀ d : List XF, pwma d window = none := fun d => (pwma_panics_iff d window).2 (by omega)
    rw [e, e]; exact .panic

lifts_rule pwma_lift

/-- C82: the Fibonacci average. -/
theorem fwma_lift (h : Each (Lifted c 1) data data') (window : ℕ) : Alike (Each (Lifted c 1)) (fwma data window) (fwma data' window) := by
  by_cases hw : 2 ≤ window
  · simp only [fwma, Option.bind_eq_bind, usub_of_le hw, Option.bind_some]
    refine Alike.bind Alike.same (forall_eq_rel fun k => Alike.bind (alike_windows_sized window (each_raised.1 h)) fun ws ws' hws => .answer ?_)
    refine each_append (lifted_each_nans k) (each_map hws fun w w' g => .of_raised ?_)
    refine raised_dot g.2 (by simp [g.1]) (by simp; omega) (fwmaWeights_vals window hw) fun u hu => ?_
    obtain ⟨i, hi, rfl⟩ := List.mem_map.1 hu
    obtain ⟨j, hj, rfl⟩ := List.mem_map.1 hi
    rw [List.mem_range'_1] at hj
    exact Nat.cast_pos.2 (Nat.fib_pos.2 (by omega))
  · have e : ∀ d : List XF, fwma d window = none := fun d => (fwma_panics_iff d window).2 (by omega)
    rw [e, e]; exact .panic

/-- C82: the triangular average. -/
theorem trima_lift (h : Each (Lifted c 1) data data') (window : ℕ) : Alike (Each (Lifted c 1)) (trima data window) (trima data' window) := by
  lifts [trima]

lifts_rule trima_lift

/-- C82: Hull's average. -/
theorem hull_lift (h : Each (Lifted c 1) data data') (window : ℕ) : Alike (Each (Lifted c 1)) (hull data window) (hull data' window) := by
  lifts [hull]

lifts_rule hull_lift

/-- C82: the zero-lag average. -/
theorem zlma_lift (h : Each (Lifted c 1) data data') (window : ℕ) : Alike (Each (Lifted c 1)) (zlma data window) (zlma data' window) := by
  lifts [zlma]

lifts_rule zlma_lift

end Traquer.Smooth
