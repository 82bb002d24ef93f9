import Verif.Props.LiftSmooth
/-!
# C82: the remaining moving averages
-/

namespace Traquer.Smooth
open FP FloatLit
variable {c : ℝ} {data data' : List XF}

theorem raised_foldl_pair {l l' : List XF} {ws : List ℝ} (h : Each (Raised c) l l') (hl : ws.length = l.length) (hp : ∀ w ∈ ws, 0 < w)
    {t s : ℝ} {a b : XF × XF} (g : Raised t a.1 b.1) (g' : Raised s a.2 b.2) :
    Raised (t + c * ws.length) (((ws.map fin).zip l).foldl (fun (st : XF × XF) (cv : XF × XF) => (st.1 + cv.2, st.2 + cv.1 * cv.2)) a).1
      (((ws.map fin).zip l').foldl (fun (st : XF × XF) (cv : XF × XF) => (st.1 + cv.2, st.2 + cv.1 * cv.2)) b).1 ∧
    Raised (s + c * ws.sum) (((ws.map fin).zip l).foldl (fun (st : XF × XF) (cv : XF × XF) => (st.1 + cv.2, st.2 + cv.1 * cv.2)) a).2
      (((ws.map fin).zip l').foldl (fun (st : XF × XF) (cv : XF × XF) => (st.1 + cv.2, st.2 + cv.1 * cv.2)) b).2 := by
  induction h generalizing ws t s a b with
  | nil =>
    rw [List.length_nil, List.length_eq_zero_iff] at hl
    subst hl
    exact ⟨g.congr (by simp), g'.congr (by simp)⟩
  | cons hx _ ih =>
    cases ws with
    | nil => cases hl
    | cons w ws =>
      obtain ⟨i1, i2⟩ := ih (a := (_, _)) (b := (_, _)) (Nat.succ.inj hl) (fun v hv => hp v (List.mem_cons_of_mem _ hv)) (g.add hx) (g'.add (hx.pos_mul (hp w List.mem_cons_self)))
      refine ⟨i1.congr ?_, i2.congr ?_⟩
      · rw [List.length_cons]; push_cast; ring
      · rw [List.sum_cons]; ring

/-- A line through one point. -/
theorem lrfWin_one {x : XF} (hx : x ≠ negz) : lrfWin 1 [x] = FP.nan := by
  have e1 : (flt (1 * (1 + 1)) / 2 : XF) = fin 1 := by
    rw [eval_flt, eval_lit, eval_div_pos _ (by norm_num)]; norm_num
  have e2 : (flt (1 * (1 + 1)) / 2 * flt (2 * 1 + 1) / 3 : XF) = fin 1 := by
    rw [e1, eval_flt, eval_lit, eval_mul_pos _ (by norm_num), eval_div_pos _ (by norm_num)]; norm_num
  have e3 : (flt 1 : XF) = fin 1 := by rw [eval_flt]; norm_num
  have e4 : (fin 1 * fin 1 - fin 1 * fin 1 : XF) = fin 0 := by rw [eval_mul_pos _ one_pos, eval_sub]; norm_num
  have key : (fin 1 * (0 + fin 1 * x) - fin 1 * (0 + x)) / (fin 0 : XF) = FP.nan := by
    rw [eval_zero]
    cases x with
    | nan => rfl
    | inf b =>
      have e : (fin 1 * FP.inf b : XF) = FP.inf b := by rw [mul_def]; simp [FP.mul, FP.sgn, not_lt.2 (zero_le_one (α := ℝ))]
      have e' : (fin 0 + FP.inf b : XF) = FP.inf b := rfl
      have e'' : (FP.inf b - FP.inf b : XF) = FP.nan := by cases b <;> rfl
      rw [e, e', e, e'']
      rfl
    | negz => exact absurd rfl hx
    | fin r =>
      rw [eval_pos_mul _ one_pos, eval_add, eval_add, eval_pos_mul _ one_pos, eval_pos_mul _ one_pos, eval_sub]
      rw [div_def]
      simp [FP.div]
  simp only [lrfWin, List.range'_one, List.map_cons, List.map_nil, List.zip_cons_cons, List.zip_nil_left, List.foldl_cons, List.foldl_nil]
  rw [e2, e1, e3, e4, key]
  rfl

theorem raised_lrfWin {l l' : List XF} (h : Each (Raised c) l l') {w : ℕ} (hw : 1 ≤ w) (hl : l.length = w) : Raised c (lrfWin w l) (lrfWin w l') := by
  by_cases h2 : w = 1
  · subst h2
    obtain ⟨x, rfl⟩ := List.length_eq_one_iff.1 hl
    cases h with
    | cons hx h =>
      cases h
      have hz : ∀ {x y : XF}, Raised c x y → x ≠ negz ∧ y ≠ negz := fun h => by
        rcases h with ⟨r, rfl, rfl⟩ | ⟨rfl, rfl⟩ | ⟨b, rfl, rfl⟩ <;> simp
      rw [lrfWin_one (hz hx).1, lrfWin_one (hz hx).2]
      exact .nan
  have e0 : ((List.range' 1 w).map fun x => (flt x : XF)) = ((List.range' 1 w).map fun i : ℕ => (i : ℝ)).map fin := by
    rw [List.map_map]
    exact List.map_congr_left fun x _ => eval_flt x
  have e1 : (flt (w * (w + 1)) / 2 : XF) = fin ((w : ℝ) * (w + 1) / 2) := by
    rw [eval_flt, eval_lit, eval_div_pos _ (by norm_num)]; push_cast; rfl
  have e2 : (flt (w * (w + 1)) / 2 * flt (2 * w + 1) / 3 : XF) = fin ((w : ℝ) * (w + 1) / 2 * (2 * w + 1) / 3) := by
    rw [e1, eval_flt, eval_lit, eval_mul_pos _ (by positivity), eval_div_pos _ (by norm_num)]; push_cast; rfl
  have e3 : (flt w * (flt (w * (w + 1)) / 2 * flt (2 * w + 1) / 3) - flt (w * (w + 1)) / 2 * (flt (w * (w + 1)) / 2) : XF)
      = fin (w * ((w : ℝ) * (w + 1) / 2 * (2 * w + 1) / 3) - (w : ℝ) * (w + 1) / 2 * ((w : ℝ) * (w + 1) / 2)) := by
    have hwr : (0 : ℝ) < w := Nat.cast_pos.2 hw
    rw [e2, e1, eval_flt, eval_mul_pos _ (by positivity), eval_mul_pos _ (by positivity), eval_sub]
  simp only [lrfWin]
  obtain ⟨k1, k2⟩ := raised_foldl_pair (ws := (List.range' 1 w).map fun i : ℕ => (i : ℝ)) (a := (0, 0)) (b := (0, 0)) (t := 0) (s := 0) h (by simp [hl]) (fun u hu => by
    obtain ⟨i, hi, rfl⟩ := List.mem_map.1 hu
    rw [List.mem_range'_1] at hi
    exact Nat.cast_pos.2 (by omega)) (by rw [eval_zero]; exact .of_fin (by simp)) (by rw [eval_zero]; exact .of_fin (by simp))
  rw [e3, e2, e1, e0]
  generalize List.foldl _ ((0 : XF), (0 : XF)) ((List.map fin ((List.range' 1 w).map fun i : ℕ => (i : ℝ))).zip l) = A at k1 k2 ⊢
  generalize List.foldl _ ((0 : XF), (0 : XF)) ((List.map fin ((List.range' 1 w).map fun i : ℕ => (i : ℝ))).zip l') = B at k1 k2 ⊢
  rw [sum_range'_cast] at k2
  simp only [List.length_map, List.length_range'] at k1
  have hwr : (0 : ℝ) < w := Nat.cast_pos.2 hw
  have hm := (k2.pos_mul hwr).sub (k1.pos_mul (w := (w : ℝ) * (w + 1) / 2) (by positivity))
  have hb := (k1.mul_pos (w := (w : ℝ) * (w + 1) / 2 * (2 * w + 1) / 3) (by positivity)).sub (k2.pos_mul (w := (w : ℝ) * (w + 1) / 2) (by positivity))
  rw [eval_flt]
  by_cases h2 : 2 ≤ w
  · have hD := divisor_pos (w := (w : ℝ)) (by exact_mod_cast h2)
    refine (((hm.div_pos hD).mul_pos hwr).add (hb.div_pos hD)).congr ?_
    have e5 : (w : ℝ) * (0 + c * ((w ^ 2 + w) / 2)) - (w : ℝ) * (w + 1) / 2 * (0 + c * w) = 0 := by ring
    have e6 : (0 + c * w) * ((w : ℝ) * (w + 1) / 2 * (2 * w + 1) / 3) - (w : ℝ) * (w + 1) / 2 * (0 + c * ((w ^ 2 + w) / 2))
        = c * (w * ((w : ℝ) * (w + 1) / 2 * (2 * w + 1) / 3) - (w : ℝ) * (w + 1) / 2 * ((w : ℝ) * (w + 1) / 2)) := by ring
    rw [e5, e6, mul_div_cancel_right₀ _ hD.ne']
    ring
  · omega

/-- C82: the linear regression average. -/
theorem lrf_lift (h : Each (Lifted c 1) data data') (window : ℕ) : Alike (Each (Lifted c 1)) (lrf data window) (lrf data' window) := by
  rcases Nat.eq_zero_or_pos window with rfl | hw
  · exact .panic
  simp only [lrf, Option.bind_eq_bind]
  refine Alike.bind Alike.same (forall_eq_rel fun k => Alike.bind (alike_windows_sized window (each_raised.1 h)) fun ws ws' hws => .answer ?_)
  exact each_append (lifted_each_nans k) (each_map hws fun w w' g => .of_raised (raised_lrfWin g.2 hw g.1))

lifts_rule lrf_lift

/-- C82: every average offered by `ma` except the two that start at zero. -/
theorem ma_lift (h : Each (Lifted c 1) data data') (window : ℕ) (mode : MaMode) (h1 : mode ≠ .Variable) (h2 : mode ≠ .Vidya) :
    Alike (Each (Lifted c 1)) (ma data window mode) (ma data' window mode) := by
  cases mode <;> simp only [ma] <;> first | exact absurd rfl h1 | exact absurd rfl h2 | (repeat' lifts_step)

theorem raised_foldl_mean {l l' : List XF} {ws : List ℝ} (h : Each (Raised c) l l') (hl : ws.length = l.length) (hp : ∀ w ∈ ws, 0 < w)
    {t v : ℝ} {a b : XF × XF} (g : Raised t a.1 b.1) (ga : a.2 = fin v) (gb : b.2 = fin v) :
    Raised (t + c * ws.sum) (((ws.map fin).zip l).foldl (fun (st : XF × XF) (wv : XF × XF) => (st.1 + wv.1 * wv.2, st.2 + wv.1)) a).1
      (((ws.map fin).zip l').foldl (fun (st : XF × XF) (wv : XF × XF) => (st.1 + wv.1 * wv.2, st.2 + wv.1)) b).1 ∧
    (((ws.map fin).zip l).foldl (fun (st : XF × XF) (wv : XF × XF) => (st.1 + wv.1 * wv.2, st.2 + wv.1)) a).2 = fin (v + ws.sum) ∧
    (((ws.map fin).zip l').foldl (fun (st : XF × XF) (wv : XF × XF) => (st.1 + wv.1 * wv.2, st.2 + wv.1)) b).2 = fin (v + ws.sum) := by
  induction h generalizing ws t v a b with
  | nil =>
    rw [List.length_nil, List.length_eq_zero_iff] at hl
    subst hl
    exact ⟨g.congr (by simp), by simpa using ga, by simpa using gb⟩
  | cons hx _ ih =>
    cases ws with
    | nil => cases hl
    | cons w ws =>
      obtain ⟨i1, i2, i3⟩ := ih (a := (_, a.2 + fin w)) (b := (_, b.2 + fin w)) (v := v + w) (Nat.succ.inj hl) (fun v hv => hp v (List.mem_cons_of_mem _ hv))
        (g.add (hx.pos_mul (hp w List.mem_cons_self))) (by rw [ga, eval_add]) (by rw [gb, eval_add])
      refine ⟨i1.congr ?_, i2.trans ?_, i3.trans ?_⟩
      · rw [List.sum_cons]; ring
      · rw [List.sum_cons, add_assoc]
      · rw [List.sum_cons, add_assoc]

/-- A mean with positive weights. -/
theorem raised_weighted {l l' ws : List XF} (h : Each (Raised c) l l') (hf : Fins ws) (hp : ∀ w ∈ vals ws, 0 < w) (hl : ws.length = l.length)
    (h0 : ws ≠ []) :
    Raised c
      (((ws.zip l).foldl (fun (st : XF × XF) (wv : XF × XF) => (st.1 + wv.1 * wv.2, st.2 + wv.1)) (0, 0)).1 /
        ((ws.zip l).foldl (fun (st : XF × XF) (wv : XF × XF) => (st.1 + wv.1 * wv.2, st.2 + wv.1)) (0, 0)).2)
      (((ws.zip l').foldl (fun (st : XF × XF) (wv : XF × XF) => (st.1 + wv.1 * wv.2, st.2 + wv.1)) (0, 0)).1 /
        ((ws.zip l').foldl (fun (st : XF × XF) (wv : XF × XF) => (st.1 + wv.1 * wv.2, st.2 + wv.1)) (0, 0)).2) := by
  have hs : 0 < (vals ws).sum := List.sum_pos _ hp (by simpa [vals] using h0)
  have e := weights_eq hf hp
  have := raised_foldl_mean (ws := vals ws) (a := (0, 0)) (b := (0, 0)) (t := 0) (v := 0) h (by simpa using hl) hp
    (by rw [eval_zero]; exact .of_fin (by simp)) eval_zero eval_zero
  rw [← e] at this
  obtain ⟨i1, i2, i3⟩ := this
  rw [i2, i3]
  refine (i1.div_pos (by simpa using hs)).congr ?_
  field_simp
  ring

theorem zip_take_right {α β : Type} (l : List α) (R : List β) (n : ℕ) : l.zip (R.take n) = (l.take n).zip (R.take n) := by
  induction n generalizing l R with
  | zero => simp
  | succ n ih =>
    cases l with
    | nil => simp
    | cons a l =>
      cases R with
      | nil => simp
      | cons b R => simp [ih l R]

theorem each_self {α : Type} {P : α → Prop} {l : List α} (h : ∀ x ∈ l, P x) : Each (fun a b => a = b ∧ P a) l l := by
  induction l with
  | nil => exact .nil
  | cons a l ih => exact .cons ⟨rfl, h a List.mem_cons_self⟩ (ih fun x hx => h x (List.mem_cons_of_mem _ hx))

theorem kernelWeights_pos {sigma : XF} {s : ℝ} (hs : sigma ⇓ s) (h0 : s ≠ 0) :
    Fins (kernelWeights sigma) ∧ ∀ w ∈ vals (kernelWeights sigma), 0 < w := by
  have := fins_vals_map (l := List.range 256) (f := fun x => exp ((-(1 / (2 * sigma * sigma))) * flt (x * x)))
    (g := fun x => Real.exp (-(1 / (2 * s * s)) * (x * x : ℕ))) fun x _ =>
      is_exp (is_mul (is_neg (is_div is_one (is_mul (is_mul (is_lit 2) hs) hs) (by positivity))) (is_flt _))
  refine ⟨this.1, ?_⟩
  rw [kernelWeights, this.2]
  intro w hw
  obtain ⟨x, -, rfl⟩ := List.mem_map.1 hw
  exact Real.exp_pos _

/-- C82: the Gaussian average, for a width that is a number other than zero. -/
theorem kernel_lift (h : Each (Lifted c 1) data data') {sigma : XF} {s : ℝ} (hs : sigma ⇓ s) (h0 : s ≠ 0) :
    Each (Lifted c 1) (kernel data sigma) (kernel data' sigma) := by
  obtain ⟨f1, f2⟩ := kernelWeights_pos hs h0
  rw [kernel, kernel]
  refine (each_map (P := fun i j => i = j ∧ i < data.length) ?_ ?_)
  · rw [h.length]
    refine each_iff.2 ⟨rfl, fun i x y hx hy => ?_⟩
    have := (List.getElem?_eq_some_iff.1 hx).1
    rw [List.length_range] at this
    rw [List.getElem?_range this] at hx hy
    cases hx; cases hy
    exact ⟨rfl, this⟩
  · rintro i j ⟨rfl, hi⟩
    refine .of_raised ?_
    have hp : Each (Raised c) (data.take (i + 1)).reverse (data'.take (i + 1)).reverse := each_reverse (each_take _ (each_raised.1 h))
    have hl := hp.length
    have hn : (data.take (i + 1)).reverse.length = i + 1 := by simp; omega
    simp only [kernelAt]
    rw [← hl, hn]
    generalize (data.take (i + 1)).reverse = P at *
    generalize (data'.take (i + 1)).reverse = Q at *
    have e : ∀ R : List XF, (kernelWeights sigma).zip (R.take (min (i + 1) 255)) =
        ((kernelWeights sigma).take (min (i + 1) 255)).zip (R.take (min (i + 1) 255)) := by
      exact fun R => zip_take_right _ _ _
    rw [e, e]
    refine raised_weighted (each_take _ hp) (fun x hx => f1 x (List.mem_of_mem_take hx)) (fun w hw => f2 w ?_) ?_ ?_
    · rw [vals, List.map_take] at hw
      exact List.mem_of_mem_take hw
    · simp [kernelWeights]; omega
    · simp [kernelWeights]

/-- C82: Arnaud Legoux' average. -/
theorem alma_lift (h : Each (Lifted c 1) data data') (window : ℕ) {sigma : XF} {mu : Option XF} {s m : ℝ} (hs : sigma ⇓ s) (h0 : s ≠ 0)
    (hm : mu.getD 0.85 ⇓ m) : Alike (Each (Lifted c 1)) (alma data window sigma mu) (alma data' window sigma mu) := by
  rcases Nat.eq_zero_or_pos window with rfl | hw
  · exact .panic
  obtain ⟨f1, f2⟩ := almaWeights_is hw hs h0 hm
  simp only [alma, Option.bind_eq_bind, usub_of_le hw, Option.bind_some]
  generalize hg : almaWeights window sigma (mu.getD 0.85 * flt (window - 1)) = ws at *
  have hl : ws.length = window := by rw [← hg]; simp [almaWeights]
  refine Alike.bind (P := Each (Lifted c 1)) ?_ fun r r' hr => .answer (each_append (lifted_each_nans _) hr)
  refine Alike.mapP (P := fun i j => i = j ∧ window ≤ i ∧ i < data.length) ?_ ?_
  · rw [← h.length]
    refine each_self fun i hi => ?_
    rw [List.mem_iff_getElem?] at hi
    obtain ⟨j, hj⟩ := hi
    rw [List.getElem?_drop] at hj
    have := (List.getElem?_eq_some_iff.1 hj).1
    rw [List.length_range] at this
    rw [List.getElem?_range this] at hj
    cases hj
    omega
  rintro i j ⟨rfl, hi, hi'⟩
  rw [hl]
  have e1 := mapP_lags data window i (by omega) hi'
  have e2 := mapP_lags data' window i (by omega) (h.length ▸ hi')
  refine Alike.bind (P := fun l l' => l.length = ws.length ∧ Each (Lifted c 1) l l') ?_ fun v v' hv => .answer ?_
  · rw [e1, e2]
    exact .answer ⟨by rw [List.length_reverse, recent_length (by omega) hi', hl], each_reverse (each_take _ (each_drop _ h))⟩
  · refine .of_raised (raised_weighted (each_raised.1 hv.2) f1 ?_ hv.1.symm ?_)
    · rw [f2]
      intro w hw
      obtain ⟨x, -, rfl⟩ := List.mem_map.1 hw
      exact Real.exp_pos _
    · intro e
      rw [e, List.length_nil] at hl
      omega

end Traquer.Smooth
