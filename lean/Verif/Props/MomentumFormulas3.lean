import Verif.Props.MomentumFormulas2
import Mathlib.Tactic.IntervalCases
/-!
# C68: rainbow, kst, special_k, qqe and crsi
-/

namespace Traquer.Momentum
open FP FloatLit
open Traquer.Trend (is_bar)
open Traquer.Smooth (ewma_next f64Max f64Max_ge foldl_max_seed foldl_min_seed)

/-! ## rainbow -/

/-- `j` times the moving average of a series. -/
noncomputable def smaIter (w : ℕ) (v : ℕ → ℝ) : ℕ → ℕ → ℝ
  | 0 => v
  | j + 1 => fun i => mean (lastOf (smaIter w v j) w i)

theorem smaIter_succ' (w : ℕ) (v : ℕ → ℝ) (j : ℕ) : smaIter w v (j + 1) = smaIter w (fun i => mean (lastOf v w i)) j := by
  induction j with
  | zero => rfl
  | succ j ih =>
    show (fun i => mean (lastOf (smaIter w v (j + 1)) w i)) = fun i => mean (lastOf (smaIter w (fun i => mean (lastOf v w i)) j) w i)
    rw [ih]

theorem mean_abs_le {l : List ℝ} {b : ℝ} (hb : 0 ≤ b) (h : ∀ x ∈ l, |x| ≤ b) : |mean l| ≤ b := by
  have h2 : List.Forall₂ (fun a c => |a| ≤ c) l (l.map fun _ => b) := by
    induction l with
    | nil => exact .nil
    | cons x l ih => exact .cons (h x (by simp)) (ih fun y hy => h y (by simp [hy]))
  refine (abs_mean_le h2).trans ?_
  cases l with
  | nil => simpa [mean] using hb
  | cons x l => rw [List.map_const', mean_replicate (by simp)]

theorem smaIter_abs_le {w : ℕ} {v : ℕ → ℝ} {b : ℝ} (hb : 0 ≤ b) (h : ∀ i, |v i| ≤ b) (j i : ℕ) : |smaIter w v j i| ≤ b := by
  induction j generalizing i with
  | zero => exact h i
  | succ j ih =>
    refine mean_abs_le hb fun x hx => ?_
    obtain ⟨t, -, rfl⟩ := List.mem_map.1 hx
    exact ih _

theorem smaChain_reports {n k w : ℕ} {v : ℕ → ℝ} {m : List XF} (hm : Reports n k v (some m)) (hw : 1 ≤ w) (hn : w ≤ n + 1) (c : ℕ) :
    ∃ ms, smaChain w c m = some ms ∧ ms.length = c ∧ ∀ j s, ms[j]? = some s → Reports n (k + (j + 1) * (w - 1)) (smaIter w v (j + 1)) (some s) := by
  induction c generalizing k v m with
  | zero => exact ⟨[], rfl, rfl, fun j s h => by simp at h⟩
  | succ c ih =>
    obtain ⟨m', e, r, l⟩ := (hm.sma hw hn).some
    obtain ⟨ms, es, ls, hs⟩ := ih r
    refine ⟨m' :: ms, ?_, by simp [ls], fun j s h => ?_⟩
    · simp only [smaChain, e, es, Option.bind_eq_bind, Option.bind_some]
    · cases j with
      | zero =>
        simp only [List.getElem?_cons_zero, Option.some.injEq] at h
        subst h
        exact r.cast rfl (by ring)
      | succ j =>
        rw [List.getElem?_cons_succ] at h
        have := (hs j s h).cast (k' := k + (j + 1 + 1) * (w - 1)) rfl (by ring)
        rwa [smaIter_succ']

theorem foldl_three (l : List XF) (a b c : XF) :
    l.foldl (fun (st : XF × XF × XF) val => (st.1 + val, fmax st.2.1 val, fmin st.2.2 val)) (a, b, c) =
      (l.foldl (· + ·) a, l.foldl fmax b, l.foldl fmin c) := by
  induction l generalizing a b c with
  | nil => rfl
  | cons x l ih => exact ih _ _ _

theorem foldl_two (l : List XF) (b c : XF) :
    l.foldl (fun (st : XF × XF) val => (fmax st.1 val, fmin st.2 val)) (b, c) = (l.foldl fmax b, l.foldl fmin c) := by
  induction l generalizing b c with
  | nil => rfl
  | cons x l ih => exact ih _ _

/-- The ten averages of `rainbow` at bar `i`. -/
noncomputable def rainbowLines (x : List ℝ) (w i : ℕ) : List ℝ := (List.range 10).map fun j => smaIter w (bar x) (j + 1) i

/-- C68: `rainbow` compares the price with the mean of ten successive averages, and the spread of these averages, with the range of the
price over the lookback. -/
theorem rainbow_reports (data : List XF) (w lookback : ℕ) (hw : 1 ≤ w) (hn : w ≤ data.length + 1) (hlb : 1 ≤ lookback)
    (hk : lookback ≤ (w - 1) * 10 + 1) (hk' : (w - 1) * 10 ≤ data.length) (hd : Fins data) (hb : ∀ x ∈ vals data, |x| ≤ f64Max) :
    Items data.length ((w - 1) * 10) (fun i y =>
      let range := max (maxOf (recent (vals data) lookback i) - minOf (recent (vals data) lookback i)) 0.000001
      y.1 ⇓ 100 * (bar (vals data) i - mean (rainbowLines (vals data) w i)) / range ∧
      y.2 ⇓ 100 * (maxOf (rainbowLines (vals data) w i) - minOf (rainbowLines (vals data) w i)) / range) (rainbow data w lookback) := by
  have fpos : (0 : ℝ) ≤ f64Max := le_trans (by norm_num) f64Max_ge
  obtain ⟨ms, em, lm, hm⟩ := smaChain_reports hd.reports hw hn 10
  have hbar : ∀ i, |bar (vals data) i| ≤ f64Max := fun i => by
    by_cases h : i < (vals data).length
    · rw [bar, List.getD_eq_getElem?_getD, getElem?_of_lt h]; exact hb _ (List.getElem_mem h)
    · rw [bar, List.getD_eq_getElem?_getD, List.getElem?_eq_none (by omega)]; simpa using fpos
  have step : ∀ i, (w - 1) * 10 ≤ i → i < data.length → ∃ y : XF × XF, (do
      let vals ← mapP (fun (sma : List XF) => sma[i]?) ms
      let (total, hsma, lsma) := vals.foldl
        (fun (st : XF × XF × XF) val => (st.1 + val, fmax st.2.1 val, fmin st.2.2 val))
        (0, -maxValue, maxValue)
      let lb ← usub lookback 1
      let start ← usub i lb
      let upto ← sliceTo data (i + 1)
      let (hlook, llook) := (upto.drop start).foldl
        (fun (st : XF × XF) val => (fmax st.1 val, fmin st.2 val)) (-maxValue, maxValue)
      let x ← data[i]?
      let osc := 100 * (x - total / 10) / fmax (hlook - llook) 0.000001
      let band := 100 * (hsma - lsma) / fmax (hlook - llook) 0.000001
      some (osc, band)) = some y ∧
      y.1 ⇓ 100 * (bar (vals data) i - mean (rainbowLines (vals data) w i)) /
        max (maxOf (recent (vals data) lookback i) - minOf (recent (vals data) lookback i)) 0.000001 ∧
      y.2 ⇓ 100 * (maxOf (rainbowLines (vals data) w i) - minOf (rainbowLines (vals data) w i)) /
        max (maxOf (recent (vals data) lookback i) - minOf (recent (vals data) lookback i)) 0.000001 := by
    intro i hi hin
    have get : ∀ j s, ms[j]? = some s → ∃ y, s[i]? = some y ∧ y ⇓ smaIter w (bar (vals data)) (j + 1) i := fun j s h =>
      (hm j s h).get (by
        have hj := (List.getElem?_eq_some_iff.1 h).1
        rw [lm] at hj
        have : (j + 1) * (w - 1) ≤ 10 * (w - 1) := Nat.mul_le_mul_right _ (by omega)
        rw [Nat.zero_add]
        rw [Nat.mul_comm] at hi
        omega) hin
    obtain ⟨vs, ev⟩ := mapP_isSome (f := fun (sma : List XF) => sma[i]?) (l := ms) fun s hs => by
      obtain ⟨j, hj⟩ := List.mem_iff_getElem?.1 hs
      obtain ⟨y, ey, -⟩ := get j s hj
      rw [ey]; rfl
    have lvs : vs.length = 10 := by rw [mapP_length ev, lm]
    have gv : ∀ j y, vs[j]? = some y → y ⇓ smaIter w (bar (vals data)) (j + 1) i := fun j y hy => by
      rw [mapP_getElem? ev] at hy
      obtain ⟨s, hs, e⟩ := Option.bind_eq_some_iff.1 hy
      obtain ⟨y', ey, h⟩ := get j s hs
      rw [ey] at e
      cases e
      exact h
    have fv : Fins vs := fun y hy => by
      obtain ⟨j, hj⟩ := List.mem_iff_getElem?.1 hy
      exact (gv j y hj).finite
    have vv : vals vs = rainbowLines (vals data) w i := by
      apply List.ext_getElem?
      intro j
      by_cases hj : j < 10
      · have e := getElem?_of_lt (show j < vs.length by omega)
        rw [vals, List.getElem?_map, e, rainbowLines, List.getElem?_map, List.getElem?_range hj]
        exact congrArg some (gv j _ e).2
      · rw [List.getElem?_eq_none (by simp [lvs]; omega), List.getElem?_eq_none (by simp [rainbowLines]; omega)]
    have ne : rainbowLines (vals data) w i ≠ [] := by simp [rainbowLines]
    have bl : ∀ x ∈ rainbowLines (vals data) w i, |x| ≤ f64Max := fun x hx => by
      obtain ⟨t, -, rfl⟩ := List.mem_map.1 hx
      exact smaIter_abs_le fpos hbar _ _
    have fr : Fins (recent data lookback i) := hd.recent _ _
    have vr : vals (recent data lookback i) = recent (vals data) lookback i := recent_vals _ _ _
    have lr := recent_length (l := data) (w := lookback) (i := i) (by omega) hin
    have nr : recent (vals data) lookback i ≠ [] := by
      rw [← vr]; intro h
      have := congrArg List.length h
      simp [lr] at this
      omega
    have br : ∀ x ∈ recent (vals data) lookback i, |x| ≤ f64Max := fun x hx => hb x (List.mem_of_mem_drop (List.mem_of_mem_take hx))
    have er : List.drop (i - (lookback - 1)) (data.take (i + 1)) = recent data lookback i := by
      show _ = (data.drop (i + 1 - lookback)).take lookback
      rw [List.drop_take]
      congr 1
      · omega
      · congr 1; omega
    have mx : (maxValue : XF) ⇓ f64Max := is_maxValue.congr rfl
    have x1 := foldl_fmax_is fv (is_neg mx)
    have x2 := foldl_fmin_is fv mx
    have x3 := foldl_fmax_is fr (is_neg mx)
    have x4 := foldl_fmin_is fr mx
    rw [vv, foldl_max_seed ne fun x hx => (abs_le.1 (bl x hx)).1] at x1
    rw [vv, foldl_min_seed ne fun x hx => (abs_le.1 (bl x hx)).2] at x2
    rw [vr, foldl_max_seed nr fun x hx => (abs_le.1 (br x hx)).1] at x3
    rw [vr, foldl_min_seed nr fun x hx => (abs_le.1 (br x hx)).2] at x4
    have tot : vs.foldl (· + ·) 0 / 10 ⇓ mean (rainbowLines (vals data) w i) := by
      have := foldl_add_is (t := fun x : XF => x) (v := val) (l := vs) is_zero fun x hx => (fv x hx).is
      refine (is_div this (is_lit 10) (by norm_num)).congr ?_
      rw [mean, ← vv, vals_length, lvs, zero_add]
      rfl
    have e0 := getElem?_of_lt hin
    have rp : max (maxOf (recent (vals data) lookback i) - minOf (recent (vals data) lookback i)) 0.000001 ≠ 0 :=
      (lt_max_of_lt_right (by norm_num)).ne'
    have rg := is_fmax (is_sub x3 x4) (is_sci 1 true 6)
    refine ⟨(_, _), ?_, is_div (is_mul (is_lit 100) (is_sub (is_bar hd e0) tot)) rg rp, is_div (is_mul (is_lit 100) (is_sub x1 x2)) rg rp⟩
    simp only [ev, usub_of_le hlb, usub_of_le (show lookback - 1 ≤ i by omega), sliceTo_of_le (show i + 1 ≤ data.length by omega), e0,
      Option.bind_eq_bind, Option.bind_some, er, foldl_three, foldl_two]
  simp only [rainbow, em, usub_of_le hw, Option.bind_eq_bind, Option.bind_some]
  obtain ⟨r, hr⟩ := mapP_isSome (l := (List.range data.length).drop ((w - 1) * 10)) (f := fun i => (do
      let vals ← mapP (fun (sma : List XF) => sma[i]?) ms
      let (total, hsma, lsma) := vals.foldl
        (fun (st : XF × XF × XF) val => (st.1 + val, fmax st.2.1 val, fmin st.2.2 val))
        (0, -maxValue, maxValue)
      let lb ← usub lookback 1
      let start ← usub i lb
      let upto ← sliceTo data (i + 1)
      let (hlook, llook) := (upto.drop start).foldl
        (fun (st : XF × XF) val => (fmax st.1 val, fmin st.2 val)) (-maxValue, maxValue)
      let x ← data[i]?
      let osc := 100 * (x - total / 10) / fmax (hlook - llook) 0.000001
      let band := 100 * (hsma - lsma) / fmax (hlook - llook) 0.000001
      some (osc, band))) (by
    intro i hi
    obtain ⟨t, ht⟩ := List.mem_iff_getElem?.1 hi
    rw [List.getElem?_drop] at ht
    obtain ⟨h1, h2⟩ := List.getElem?_eq_some_iff.1 ht
    rw [List.getElem_range] at h2
    rw [List.length_range] at h1
    obtain ⟨y, ey, -⟩ := step i (by omega) (by omega)
    rw [ey]; rfl)
  have hr' := hr
  simp only [Option.bind_eq_bind] at hr'
  erw [hr']
  simp only [Option.bind_some]
  have lr := mapP_length hr
  simp only [List.length_drop, List.length_range] at lr
  refine items_pad _ (by omega) fun i y hy => ?_
  rw [mapP_getElem? hr, List.getElem?_drop] at hy
  obtain ⟨t, ht, e⟩ := Option.bind_eq_some_iff.1 hy
  obtain ⟨h1, h2⟩ := List.getElem?_eq_some_iff.1 ht
  rw [List.getElem_range] at h2
  rw [List.length_range] at h1
  subst h2
  obtain ⟨y', ey, h⟩ := step _ (Nat.le_add_right _ i) h1
  rw [ey] at e
  cases e
  exact h

/-! ## kst, special_k -/

/-- The rate of change over `r` bars, in percent. -/
noncomputable def rocOver (x : ℕ → ℝ) (r i : ℕ) : ℝ := 100 * (x i / x (i - r) - 1)

/-- The contribution of one rate of change to Pring's sum at bar `i`: its moving average times its weight, nothing before the average exists. -/
noncomputable def pringPart (x : ℕ → ℝ) (p : ℕ × ℕ × ℝ) (i : ℕ) : ℝ :=
  if p.1 + p.2.1 ≤ i + 1 then p.2.2 * mean (lastOf (rocOver x p.1) p.2.1 i) else 0

theorem pringRoc_reports {data : List XF} (hd : Fins data) (h0 : ∀ x ∈ data, ¬ x ⇓ 0) (r : ℕ) :
    ∃ m, pringRoc data r = some m ∧ m.length = data.length - r ∧
      ∀ i y, m[i]? = some y → y ⇓ rocOver (bar (vals data)) r (r + i) := by
  have key : ∀ i l, (windowsOf (r + 1) data)[i]? = some l → ∃ y, (do
      let last ← l[r]?
      let first ← l[0]?
      some (100 * (last / first - 1))) = some y ∧ y ⇓ rocOver (bar (vals data)) r (r + i) := by
    intro i l hl
    obtain ⟨rfl, hi⟩ := windowsOf_at (by omega) hl
    have g : ∀ j, j < r + 1 → (recent data (r + 1) (i + (r + 1) - 1))[j]? = data[i + j]? := fun j hj => by
      show ((data.drop _).take (r + 1))[j]? = _
      rw [List.getElem?_take_of_lt hj, List.getElem?_drop]
      congr 1; omega
    have e1 := getElem?_of_lt (show i + r < data.length by omega)
    have e2 := getElem?_of_lt (show i + 0 < data.length by omega)
    refine ⟨_, by rw [g r (by omega), g 0 (by omega), e1, e2]; rfl, ?_⟩
    have h2 := is_bar hd e2
    have hne : bar (vals data) (i + 0) ≠ 0 := fun h => h0 _ (List.getElem_mem _) (h ▸ h2)
    refine (is_mul (is_lit 100) (is_sub (is_div (is_bar hd e1) h2 hne) is_one)).congr ?_
    rw [rocOver, show r + i - r = i + 0 by omega, Nat.add_comm r i]
  obtain ⟨m, em⟩ := mapP_isSome (l := windowsOf (r + 1) data) (f := fun (w : List XF) => do
    let last ← w[r]?
    let first ← w[0]?
    some (100 * (last / first - 1))) (by
      intro l hl
      obtain ⟨i, hi⟩ := List.mem_iff_getElem?.1 hl
      obtain ⟨y, ey, -⟩ := key i l hi
      rw [ey]; rfl)
  refine ⟨m, em, by rw [mapP_length em, windowsOf_length]; omega, fun i y hy => ?_⟩
  rw [mapP_getElem? em] at hy
  obtain ⟨l, hl, e⟩ := Option.bind_eq_some_iff.1 hy
  obtain ⟨y', ey, h⟩ := key i l hl
  rw [ey] at e
  cases e
  exact h

/-- Adding a series to the tail of another one. -/
theorem addAll (vs : List XF) (c d : ℕ) (mult : XF) (res : List XF) (h : vs ≠ [] → c + vs.length + d ≤ res.length) :
    ∃ res', ((List.range' c vs.length).zip vs).foldlM (fun res ((c, val) : ℕ × XF) => addAt res (c + d) (val * mult)) res = some res' ∧
      res'.length = res.length ∧ ∀ (t : ℕ) x, res[t]? = some x → res'[t]? =
        some (if h : c + d ≤ t ∧ t - (c + d) < vs.length then x + vs[t - (c + d)]'h.2 * mult else x) := by
  induction vs generalizing c res with
  | nil => exact ⟨res, rfl, rfl, fun t x hx => by simpa using hx⟩
  | cons v vs ih =>
    have h := h (by simp)
    simp only [List.length_cons] at h
    have e := getElem?_of_lt (show c + d < res.length by omega)
    obtain ⟨r', er, lr, hr⟩ := ih (c + 1) (res.set (c + d) (res[c + d]'(by omega) + v * mult)) (fun _ => by simp; omega)
    refine ⟨r', ?_, by simpa using lr, fun t x hx => ?_⟩
    · simp only [List.length_cons, List.range'_succ, List.zip_cons_cons, List.foldlM_cons, addAt, e, Option.bind_eq_bind, Option.bind_some] at er ⊢
      exact er
    · by_cases ht : t = c + d
      · subst ht
        rw [e] at hx
        cases hx
        rw [hr (c + d) (res[c + d]'(by omega) + v * mult) (by rw [List.getElem?_set_self (by omega)])]
        rw [dif_neg (by omega), dif_pos ⟨le_rfl, by simp⟩]
        simp
      · rw [hr t x (by rw [List.getElem?_set_ne (Ne.symm ht)]; exact hx)]
        by_cases h1 : c + 1 + d ≤ t ∧ t - (c + 1 + d) < vs.length
        · rw [dif_pos h1, dif_pos ⟨by omega, by simp only [List.length_cons]; omega⟩]
          congr 3
          rw [List.getElem_cons, dif_neg (by omega)]
          congr 1
          omega
        · rw [dif_neg h1, dif_neg (by simp only [List.length_cons]; omega)]

theorem pringStep_reports {data : List XF} (hd : Fins data) (h0 : ∀ x ∈ data, ¬ x ⇓ 0) {r0 p0 r p : ℕ} {mult : XF} {a : ℝ} (hm : mult ⇓ a)
    (hr : r0 ≤ r) (hp : p0 ≤ p) (h1 : 1 ≤ p0) {res : List XF} {acc : ℕ → ℝ} (lr : res.length = data.length - r0 - (p0 - 1))
    (hres : ∀ i y, res[i]? = some y → y ⇓ acc (r0 + (p0 - 1) + i)) :
    ∃ res', pringStep data r0 p0 res (r, p, mult) = some res' ∧ res'.length = res.length ∧
      ∀ i y, res'[i]? = some y → y ⇓ acc (r0 + (p0 - 1) + i) + pringPart (bar (vals data)) (r, p, a) (r0 + (p0 - 1) + i) := by
  obtain ⟨m, em, lm, gm⟩ := pringRoc_reports hd h0 r
  unfold pringStep
  simp only [em, Option.bind_eq_bind, Option.bind_some]
  by_cases hm0 : m.isEmpty
  · rw [if_pos hm0]
    refine ⟨res, rfl, rfl, fun i y hy => ?_⟩
    have hi := (List.getElem?_eq_some_iff.1 hy).1
    have : m.length = 0 := by rw [List.isEmpty_iff.1 hm0]; rfl
    rw [pringPart, if_neg (by simp only; omega), add_zero]
    exact hres i y hy
  · rw [if_neg hm0]
    have es : Smooth.sma m p = some (nans (p - 1) ++ (windowsOf p m).map fun w => fsum w / flt p) := by
      run_model [Smooth.sma]
    set vs : List XF := (windowsOf p m).map fun w => fsum w / flt p with evs
    have lv : vs.length = m.length + 1 - p := by simp [evs]
    have gv : ∀ c (hc : c < vs.length), vs[c] ⇓ mean (lastOf (rocOver (bar (vals data)) r) p (r + (p - 1) + c)) := by
      intro c hc
      have fm : Reports data.length r (rocOver (bar (vals data)) r) (some (nans r ++ m)) :=
        reportsP_nans (P := fun i y => y ⇓ _) (by
          have : m.length ≠ 0 := fun h => hm0 (by rw [List.length_eq_zero_iff.1 h]; rfl)
          omega) gm
      have := reports_windows_of (f := fun w => fsum w / flt p) (v' := fun i => mean (lastOf (rocOver (bar (vals data)) r) p i)) fm
        (show 1 ≤ p by omega) (by omega) (by
          intro i l hi hin ll lf lv
          refine (is_div lf.fsum (is_flt p) (Smooth.natCast_pos (by omega)).ne').congr ?_
          rw [← lv, mean, vals_length, ll])
      have e : (nans (r + (p - 1)) ++ vs)[r + (p - 1) + c]? = some vs[c] := by
        rw [List.getElem?_append_right (by simp), nans_length, Nat.add_sub_cancel_left]
        exact getElem?_of_lt hc
      exact this.at e (by omega)
    simp only [es, usub_of_le (show 1 ≤ p by omega), Option.bind_some, List.drop_left' (show (nans (p - 1) : List XF).length = p - 1 by simp)]
    obtain ⟨res', e', l', g'⟩ := addAll vs 0 (r - r0 + (p - p0)) mult res (fun hne => by
      have := List.length_pos_iff.2 hne
      omega)
    refine ⟨res', ?_, l', fun i y hy => ?_⟩
    · rw [List.range_eq_range', ← e']
      congr 1
      funext res ⟨c, val⟩
      simp only [usub_of_le hr, usub_of_le hp, Option.bind_some, Nat.add_assoc]
    · have hi := (List.getElem?_eq_some_iff.1 hy).1
      have ei := getElem?_of_lt (show i < res.length by omega)
      have := g' i _ ei
      rw [hy] at this
      have hx := hres i _ ei
      by_cases hc : 0 + (r - r0 + (p - p0)) ≤ i ∧ i - (0 + (r - r0 + (p - p0))) < vs.length
      · rw [dif_pos hc] at this
        cases this
        have ev := gv _ hc.2
        rw [show r + (p - 1) + (i - (0 + (r - r0 + (p - p0)))) = r0 + (p0 - 1) + i by omega] at ev
        rw [pringPart, if_pos (by simp only; omega)]
        exact (is_add hx (is_mul ev hm)).congr (by ring)
      · rw [dif_neg hc] at this
        cases this
        rw [pringPart, if_neg (by simp only; omega), add_zero]
        exact hx

/-- C68: Pring's sums are, at each bar, the sum of the smoothed rates of change that are available. -/
theorem prings_reports (data : List XF) (rocs periods : List ℕ) (mults : List XF) (r0 p0 : ℕ) (hr0 : rocs[0]? = some r0)
    (hp0 : periods[0]? = some p0) (hr : ∀ r ∈ rocs, r0 ≤ r) (hp : ∀ p ∈ periods, p0 ≤ p) (h1 : 1 ≤ p0) (hn : r0 + (p0 - 1) ≤ data.length)
    (fm : Fins mults) (hd : Fins data) (h0 : ∀ x ∈ data, ¬ x ⇓ 0) : Reports data.length (r0 + (p0 - 1))
      (fun i => ((zip3 rocs periods (vals mults)).map fun p => pringPart (bar (vals data)) p i).sum) (prings data rocs periods mults) := by
  have key : ∀ (l : List (ℕ × ℕ × XF)) (res : List XF) (acc : ℕ → ℝ), (∀ q ∈ l, r0 ≤ q.1 ∧ p0 ≤ q.2.1 ∧ q.2.2.Finite) →
      res.length = data.length - r0 - (p0 - 1) → (∀ i y, res[i]? = some y → y ⇓ acc (r0 + (p0 - 1) + i)) →
      ∃ res', l.foldlM (pringStep data r0 p0) res = some res' ∧ res'.length = res.length ∧ ∀ i y, res'[i]? = some y →
        y ⇓ acc (r0 + (p0 - 1) + i) +
          ((l.map fun q => (q.1, q.2.1, val q.2.2)).map fun p => pringPart (bar (vals data)) p (r0 + (p0 - 1) + i)).sum := by
    intro l
    induction l with
    | nil => exact fun res acc _ _ h => ⟨res, rfl, rfl, fun i y hy => (h i y hy).congr (by simp)⟩
    | cons q l ih =>
      intro res acc hq lr hres
      obtain ⟨r, p, mu⟩ := q
      obtain ⟨q1, q2, q3⟩ := hq _ (List.mem_cons_self ..)
      obtain ⟨s, es, ls, gs⟩ := pringStep_reports hd h0 q3.is q1 q2 h1 lr hres
      obtain ⟨s', es', ls', gs'⟩ := ih s (fun i => acc i + pringPart (bar (vals data)) (r, p, val mu) i)
        (fun q hq' => hq q (List.mem_cons_of_mem _ hq')) (by omega) gs
      refine ⟨s', ?_, by omega, fun i y hy => (gs' i y hy).congr ?_⟩
      · rw [List.foldlM_cons]
        simp only [es, Option.bind_eq_bind, Option.bind_some]
        exact es'
      · simp only [List.map_cons, List.sum_cons]
        ring
  obtain ⟨res, er, lr, gr⟩ := key (zip3 rocs periods mults) (List.replicate (data.length - r0 - (p0 - 1)) 0) (fun _ => 0) (by
    intro q hq
    obtain ⟨i, hi⟩ := List.mem_iff_getElem?.1 hq
    obtain ⟨q1, q2, q3⟩ := q
    obtain ⟨e1, e2, e3⟩ := zip3_getElem?.1 hi
    exact ⟨hr _ (List.mem_of_getElem? e1), hp _ (List.mem_of_getElem? e2), fm _ (List.mem_of_getElem? e3)⟩) (by simp) (by
    intro i y hy
    rw [List.getElem?_replicate] at hy
    split at hy
    · cases hy; exact is_zero
    · cases hy)
  simp only [List.length_replicate] at lr
  simp only [prings, hr0, hp0, usub_of_le h1, usub_of_le (show r0 ≤ data.length by omega), usub_of_le (show p0 - 1 ≤ data.length - r0 by omega),
    er, Option.bind_eq_bind, Option.bind_some]
  refine reportsP_nans (P := fun i y => y ⇓ _) (by omega) fun i y hy => (gr i y hy).congr ?_
  rw [zero_add]
  congr 2
  simp only [zip3_eq, vals, List.zip_map_right]
  rfl

/-- C68: `kst` is the weighted sum of four smoothed rates of change. -/
theorem kst_reports (data : List XF) (rocs periods : Option (ℕ × ℕ × ℕ × ℕ)) (r1 r2 r3 r4 p1 p2 p3 p4 : ℕ)
    (er : rocs.getD (10, 15, 20, 30) = (r1, r2, r3, r4)) (ep : periods.getD (10, 10, 10, 15) = (p1, p2, p3, p4)) (hr : r1 ≤ r2 ∧ r1 ≤ r3 ∧ r1 ≤ r4)
    (hp : p1 ≤ p2 ∧ p1 ≤ p3 ∧ p1 ≤ p4) (h1 : 1 ≤ p1) (hn : r1 + (p1 - 1) ≤ data.length) (hd : Fins data) (h0 : ∀ x ∈ data, ¬ x ⇓ 0) :
    Reports data.length (r1 + (p1 - 1)) (fun i => let part := pringPart (bar (vals data))
      part (r1, p1, 1) i + part (r2, p2, 2) i + part (r3, p3, 3) i + part (r4, p4, 4) i) (kst data rocs periods) := by
  simp only [kst, er, ep]
  refine (prings_reports data [r1, r2, r3, r4] [p1, p2, p3, p4] [1, 2, 3, 4] r1 p1 rfl rfl (by simp; omega) (by simp; omega) h1 hn ?_ hd h0).congr
    fun i _ _ => ?_
  · intro x hx
    simp only [List.mem_cons, List.not_mem_nil, or_false] at hx
    rcases hx with rfl | rfl | rfl | rfl
    exacts [is_one.1, (is_lit 2).1, (is_lit 3).1, (is_lit 4).1]
  · have e : vals ([1, 2, 3, 4] : List XF) = [1, 2, 3, 4] := by
      simp only [vals_cons, vals_nil, is_one.2, (is_lit 2).2, (is_lit 3).2, (is_lit 4).2]
    rw [e]
    simp [zip3_eq, add_assoc]

/-- C68: `special_k` is the weighted sum of twelve smoothed rates of change. -/
theorem special_k_reports (data : List XF) (hn : 19 ≤ data.length) (hd : Fins data) (h0 : ∀ x ∈ data, ¬ x ⇓ 0) :
    Reports data.length 19 (fun i => (([(10, 10, 1), (15, 10, 2), (20, 10, 3), (30, 15, 4), (50, 50, 1), (65, 65, 2), (75, 75, 3), (100, 100, 4),
      (195, 130, 1), (265, 130, 2), (390, 130, 3), (530, 195, 4)] : List (ℕ × ℕ × ℝ)).map fun p => pringPart (bar (vals data)) p i).sum)
      (special_k data) := by
  refine (prings_reports data [10, 15, 20, 30, 50, 65, 75, 100, 195, 265, 390, 530] [10, 10, 10, 15, 50, 65, 75, 100, 130, 130, 130, 195]
    [1, 2, 3, 4, 1, 2, 3, 4, 1, 2, 3, 4] 10 10 rfl rfl (by simp) (by simp) (by decide) (by omega) ?_ hd h0).congr fun i _ _ => ?_
  · intro x hx
    simp only [List.mem_cons, List.not_mem_nil, or_false] at hx
    rcases hx with rfl | rfl | rfl | rfl | rfl | rfl | rfl | rfl | rfl | rfl | rfl | rfl
    exacts [is_one.1, (is_lit 2).1, (is_lit 3).1, (is_lit 4).1, is_one.1, (is_lit 2).1, (is_lit 3).1, (is_lit 4).1, is_one.1, (is_lit 2).1,
      (is_lit 3).1, (is_lit 4).1]
  · have e : vals ([1, 2, 3, 4, 1, 2, 3, 4, 1, 2, 3, 4] : List XF) = [1, 2, 3, 4, 1, 2, 3, 4, 1, 2, 3, 4] := by
      simp only [vals_cons, vals_nil, is_one.2, (is_lit 2).2, (is_lit 3).2, (is_lit 4).2]
    rw [e]
    rfl

/-! ## qqe -/

/-- The trailing line of `qqe`: it follows the series `x` at the distance `d`, never moving away from it, and jumps when crossed. It starts at 0
at bar `k`. -/
noncomputable def trail (x d : ℕ → ℝ) (k : ℕ) : ℕ → ℝ
  | 0 => 0
  | j + 1 =>
    let t := trail x d k j
    let cur := x (k + j + 1)
    let prev := x (k + j)
    let dist := d (k + j + 1)
    if t < cur then if t < prev then max t (cur - dist) else cur - dist
    else if cur < t then if prev < t then min t (cur + dist) else cur + dist
    else t

/-- C68: `qqe` is the trailing line of the smoothed RSI at 4.236 times its twice smoothed absolute changes. -/
theorem qqe_reports (data : List XF) (w s : ℕ) (hw : 1 ≤ w) (hs : 1 ≤ s) (hn : 3 * w + s ≤ data.length + 1) (hd : Fins data)
    (h0 : ∀ i, w ≤ i → i < data.length → wilderOf w (rises (vals data)) (i - 1) + wilderOf w (falls (vals data)) (i - 1) ≠ 0) :
    let x := ewmaFrom w s (rsiOf (vals data) w)
    let k := w + (s - 1)
    let width := fun i => 4.236 * wilderFrom (k + w) w (wilderFrom (k + 1) w fun j => |x j - x (j - 1)|) i
    Reports data.length (k + 2 * w) (fun i => trail x width (k + (2 * w - 1)) (i - (k + (2 * w - 1)))) (qqe data w s) := by
  intro x k width
  obtain ⟨r, er, rr, lr⟩ := (rsi_values data w hw (by omega) hd h0).some
  obtain ⟨m1, -, e1, r1, l1⟩ := ewma_after rr hs (by omega)
  set ma := m1.drop (s - 1) with ema
  have lma : ma.length = data.length - k := by simp [ema, l1, k]; omega
  have rma : ∀ i y, ma[i]? = some y → y ⇓ x (k + i) := by
    intro i y hy
    rw [ema, List.getElem?_drop] at hy
    have : (nans w ++ m1)[w + (s - 1) + i]? = some y := by
      rw [List.getElem?_append_right (by simp; omega), nans_length, ← hy]
      congr 1; omega
    exact r1.at this (by omega)
  set df : List XF := (pairs ma).map fun (p0, p1) => fabs (p1 - p0) with edf
  have ldf : df.length = data.length - (k + 1) := by simp [edf, lma]; omega
  have rdf : Reports data.length (k + 1) (fun j => |x j - x (j - 1)|) (some (nans (k + 1) ++ df)) := by
    refine reportsP_nans (P := fun i y => y ⇓ _) (by simp only [k] at *; omega) fun i y hy => ?_
    rw [edf, List.getElem?_map] at hy
    obtain ⟨⟨p0, p1⟩, e, rfl⟩ := Option.map_eq_some_iff.1 hy
    obtain ⟨a1, a2⟩ := pairs_getElem?_some e
    show fabs (p1 - p0) ⇓ |x (k + 1 + i) - x (k + 1 + i - 1)|
    rw [show k + 1 + i - 1 = k + i by omega, show k + 1 + i = k + (i + 1) by omega]
    exact is_abs (is_sub (rma _ _ a2) (rma _ _ a1))
  obtain ⟨w1, -, e2, r2, l2⟩ := wilder_after rdf hw (by simp only [k]; omega)
  rw [List.drop_left' (by simp)] at e2
  have t2 := (r2.tail (k + w) (by simp only [k]; omega)).pad (k + w)
  have t2' : Reports data.length (k + w) (wilderFrom (k + 1) w fun j => |x j - x (j - 1)|) (some (nans (k + w) ++ w1.drop (w - 1))) := by
    have e : List.drop (k + w) (nans (k + 1) ++ w1) = w1.drop (w - 1) := by
      rw [List.drop_append, List.drop_eq_nil_of_le (by simp; omega), List.nil_append, nans_length]; congr 1; omega
    rw [e] at t2
    refine (t2.cast (by simp only [k]; omega) (by omega)).congr fun i h1 h2 => ?_
    congr 1; omega
  obtain ⟨w2, -, e3, r3, l3⟩ := wilder_after t2' hw (by simp only [k]; omega)
  rw [List.drop_left' (by simp)] at e3
  set dar : List XF := (w2.drop (w - 1)).map fun x => x * 4.236 with edar
  have ldar : dar.length = data.length - (k + (2 * w - 1)) := by simp [edar, l3]; omega
  have rdar : ∀ i y, dar[i]? = some y → y ⇓ width (k + (2 * w - 1) + i) := by
    intro i y hy
    rw [edar, List.getElem?_map, List.getElem?_drop] at hy
    obtain ⟨z, ez, rfl⟩ := Option.map_eq_some_iff.1 hy
    have : (nans (k + w) ++ w2)[k + (2 * w - 1) + i]? = some z := by
      rw [List.getElem?_append_right (by simp; omega), nans_length, ← ez]
      congr 1; omega
    exact (is_mul (r3.at this (by omega)) (is_sci 4236 true 3)).congr (by simp only [width]; ring)
  have gma : ∀ i y, (ma.drop (2 * w - 1))[i]? = some y → y ⇓ x (k + (2 * w - 1) + i) := by
    intro i y hy
    rw [List.getElem?_drop] at hy
    rw [Nat.add_assoc]
    exact rma _ _ hy
  obtain ⟨o, eo, ho⟩ := scanM_idx_some (f := qqeStep (ma.drop (2 * w - 1)) dar) (s := (0 : XF)) (l := (List.range dar.length).drop 1)
    (I := fun j t => t ⇓ trail x width (k + (2 * w - 1)) j) (P := fun j t => t ⇓ trail x width (k + (2 * w - 1)) (j + 1))
    (by
      intro j t c hc ht
      rw [List.getElem?_drop] at hc
      obtain ⟨g1, g2⟩ := List.getElem?_eq_some_iff.1 hc
      rw [List.getElem_range] at g2
      rw [List.length_range] at g1
      subst g2
      have a1 := getElem?_of_lt (show 1 + j < (ma.drop (2 * w - 1)).length by rw [List.length_drop]; omega)
      have a2 := getElem?_of_lt (show 1 + j - 1 < (ma.drop (2 * w - 1)).length by rw [List.length_drop]; omega)
      have a3 := getElem?_of_lt g1
      have b1 := gma _ _ a1
      have b2 := gma _ _ a2
      have b3 := rdar _ _ a3
      rw [show k + (2 * w - 1) + (1 + j) = k + (2 * w - 1) + j + 1 by omega] at b1 b3
      rw [show k + (2 * w - 1) + (1 + j - 1) = k + (2 * w - 1) + j by omega] at b2
      refine ⟨_, _, by simp only [qqeStep, a1, a2, a3, Option.bind_eq_bind, Option.bind_some]; rfl, ?_⟩
      rw [and_self]
      show _ ⇓ trail x width (k + (2 * w - 1)) (j + 1)
      rw [trail]
      simp only [is_lt ht b1, is_lt ht b2, is_lt b1 ht, is_lt b2 ht, decide_eq_true_eq]
      split_ifs
      · exact is_fmax ht (is_sub b1 b3)
      · exact is_sub b1 b3
      · exact is_fmin ht (is_add b1 b3)
      · exact is_add b1 b3
      · exact ht) is_zero
  have lo := scanM_length eo
  simp only [List.length_drop, List.length_range] at lo
  have ek2 : usub (w * 2) 1 = some (2 * w - 1) := by rw [usub_of_le (by omega)]; congr 1; omega
  simp only [qqe, er, e1, usub_of_le hs, usub_of_le hw, ← ema, ← edf, e2, e3, ek2, ← edar, eo, Option.bind_eq_bind, Option.bind_some]
  rw [show w * 3 + (s - 1) = k + 2 * w by simp only [k]; omega]
  refine reportsP_nans (P := fun i y => y ⇓ _) (by simp only [k] at *; omega) fun i y hy => ?_
  have := ho i y hy
  show y ⇓ trail x width (k + (2 * w - 1)) (k + 2 * w + i - (k + (2 * w - 1)))
  rwa [show k + 2 * w + i - (k + (2 * w - 1)) = i + 1 by omega]

/-! ## crsi -/

/-- The streak of a series: the number of successive rises, or minus the number of successive falls, up to bar `i`; 0 when unchanged. -/
noncomputable def streakOf (x : ℕ → ℝ) : ℕ → ℝ
  | 0 => 0
  | i + 1 => if x (i + 1) = x i then 0 else if x i < x (i + 1) then max (streakOf x i) 0 + 1 else min (streakOf x i) 0 - 1

/-- The relative change at bar `i`. -/
noncomputable def returnAt (x : ℕ → ℝ) (i : ℕ) : ℝ := (x i - x (i - 1)) / x (i - 1)

/-- The share, in percent, of the other values of the window that are smaller than the last one. -/
noncomputable def percentRank (v : ℕ → ℝ) (w i : ℕ) : ℝ :=
  100 * ((lastOf v w i).countP fun r => decide (r < v i)) / ((w : ℝ) - 1)

theorem is_signum_zero {x : XF} (hx : x ⇓ 0) : Traquer.signum x ⇓ 1 ∨ Traquer.signum x ⇓ -1 := by
  rcases is_iff.1 hx with rfl | ⟨rfl, -⟩
  · left
    show FP.signum (fin 0 : XF) ⇓ 1
    simp only [FP.signum, sgn, lt_irrefl, decide_false, Bool.false_eq_true, if_false]
    exact is_fin 1
  · right
    show FP.signum (negz : XF) ⇓ -1
    simp only [FP.signum, sgn, if_true]
    exact is_fin (-1)

theorem streakStep_is {st : XF × XF} {w0 w1 : XF} {s r a b : ℝ} (hs : st.1 ⇓ s) (hr : st.2 ⇓ r) (h1 : 0 < r ↔ 0 < s) (h2 : r < 0 ↔ s < 0)
    (ha : w0 ⇓ a) (hb : w1 ⇓ b) (a0 : 0 < a) :
    (streakStep st (w0, w1)).1 ⇓ (if b = a then 0 else if a < b then max s 0 + 1 else min s 0 - 1) ∧
    (streakStep st (w0, w1)).2 ⇓ (b - a) / a := by
  refine ⟨?_, is_div (is_sub hb ha) ha a0.ne'⟩
  simp only [streakStep, is_feq hb ha, decide_eq_true_eq]
  by_cases e : b = a
  · rw [if_pos e, if_pos e]; exact is_zero
  rw [if_neg e, if_neg e]
  have sr : (0 < r ∧ Traquer.signum st.2 ⇓ 1) ∨ (r < 0 ∧ Traquer.signum st.2 ⇓ -1) ∨
      (r = 0 ∧ (Traquer.signum st.2 ⇓ 1 ∨ Traquer.signum st.2 ⇓ -1)) := by
    rcases lt_trichotomy r 0 with h | h | h
    · exact Or.inr (Or.inl ⟨h, is_signum_neg hr h⟩)
    · exact Or.inr (Or.inr ⟨h, is_signum_zero (h ▸ hr)⟩)
    · exact Or.inl ⟨h, is_signum_pos hr h⟩
  have hs0 : r = 0 → s = 0 := fun h => by
    rcases lt_trichotomy s 0 with h' | h' | h'
    · exact absurd (h2.2 h') (by rw [h]; exact lt_irrefl _)
    · exact h'
    · exact absurd (h1.2 h') (by rw [h]; exact lt_irrefl _)
  by_cases up : a < b
  · rw [if_pos up]
    have sg := is_signum_pos (is_sub hb ha) (sub_pos.2 up)
    rcases sr with ⟨p, q⟩ | ⟨p, q⟩ | ⟨p, q | q⟩
    · rw [is_feq sg q, if_pos (by simp)]
      exact (is_add hs sg).congr (by rw [max_eq_left (h1.1 p).le])
    · rw [is_feq sg q, if_neg (by norm_num)]
      exact sg.congr (by rw [max_eq_right (h2.1 p).le]; ring)
    · rw [is_feq sg q, if_pos (by simp)]
      exact (is_add hs sg).congr (by rw [hs0 p, max_self])
    · rw [is_feq sg q, if_neg (by norm_num)]
      exact sg.congr (by rw [hs0 p, max_self]; ring)
  · rw [if_neg up]
    have dn : b - a < 0 := sub_neg.2 (lt_of_le_of_ne (not_lt.1 up) e)
    have sg := is_signum_neg (is_sub hb ha) dn
    rcases sr with ⟨p, q⟩ | ⟨p, q⟩ | ⟨p, q | q⟩
    · rw [is_feq sg q, if_neg (by norm_num)]
      exact sg.congr (by rw [min_eq_right (h1.1 p).le]; ring)
    · rw [is_feq sg q, if_pos (by simp)]
      exact (is_add hs sg).congr (by rw [min_eq_left (h2.1 p).le]; ring)
    · rw [is_feq sg q, if_neg (by norm_num)]
      exact sg.congr (by rw [hs0 p, min_self]; ring)
    · rw [is_feq sg q, if_pos (by simp)]
      exact (is_add hs sg).congr (by rw [hs0 p, min_self]; ring)

theorem streak_reports {data : List XF} (hd : Fins data) (h0 : ∀ x ∈ vals data, 0 < x) (j : ℕ) (y : XF × XF)
    (hy : (scanS streakStep ((0, 0) : XF × XF) (pairs data))[j]? = some y) :
    y.1 ⇓ streakOf (bar (vals data)) (j + 1) ∧ y.2 ⇓ returnAt (bar (vals data)) (j + 1) := by
  refine scan_idx (f := fun s x => (streakStep s x, streakStep s x)) (I := fun j s => s.1 ⇓ streakOf (bar (vals data)) j ∧
    ∃ r, s.2 ⇓ r ∧ (0 < r ↔ 0 < streakOf (bar (vals data)) j) ∧ (r < 0 ↔ streakOf (bar (vals data)) j < 0))
    (P := fun j y => y.1 ⇓ streakOf (bar (vals data)) (j + 1) ∧ y.2 ⇓ returnAt (bar (vals data)) (j + 1)) (l := pairs data) ?_
    ⟨is_zero, 0, is_zero, by simp [streakOf], by simp [streakOf]⟩ j y hy
  rintro i s ⟨w0, w1⟩ hp ⟨i1, r, i2, i3, i4⟩
  obtain ⟨e0, e1⟩ := pairs_getElem?_some hp
  have b0 := is_bar hd e0
  have a0 : 0 < bar (vals data) i := by
    have := h0 _ (List.mem_map_of_mem (f := val) (List.mem_of_getElem? e0))
    rwa [b0.2] at this
  obtain ⟨s1, s2⟩ := streakStep_is i1 i2 i3 i4 b0 (is_bar hd e1) a0
  have s1' : (streakStep s (w0, w1)).1 ⇓ streakOf (bar (vals data)) (i + 1) := s1.congr (by rw [streakOf])
  refine ⟨⟨s1', _, s2, ?_, ?_⟩, s1', s2.congr (by rw [returnAt, Nat.add_sub_cancel])⟩
  · rw [div_pos_iff_of_pos_right a0, sub_pos, streakOf]
    split_ifs with h1 h2
    · rw [h1]; simp
    · simp only [h2, true_iff]; positivity
    · simp only [h2, false_iff, not_lt]; linarith [min_le_right (streakOf (bar (vals data)) i) 0]
  · rw [div_neg_iff, streakOf]
    simp only [a0, not_lt.2 a0.le, and_true, and_false, false_or, sub_neg]
    split_ifs with h1 h2
    · rw [h1]; simp
    · simp only [not_lt.2 h2.le, false_iff, not_lt]; positivity
    · simp only [lt_of_le_of_ne (not_lt.1 h2) h1, true_iff]; linarith [min_le_right (streakOf (bar (vals data)) i) 0]

theorem count_foldl (l : List XF) (c : XF) (n : ℕ) :
    l.foldl (fun acc x => if x <. c then acc + 1 else acc) n = n + l.countP fun x => x <. c := by
  induction l generalizing n with
  | nil => simp
  | cons x l ih =>
    rw [List.foldl_cons, ih, List.countP_cons]
    split <;> omega

/-- The streaks at the bars 1, 2, ... -/
noncomputable def streaks (x : List ℝ) : List ℝ := (List.range (x.length - 1)).map fun j => streakOf (bar x) (j + 1)

/-- C68: for positive prices `crsi` is the mean of the RSI of the price, the RSI of the streaks and the percent rank of the last return. -/
theorem crsi_reports (data : List XF) (w1 w2 w3 : ℕ) (h1 : 1 ≤ w1) (h2 : 1 ≤ w2) (h3 : 2 ≤ w3) (n1 : w1 + 1 ≤ data.length)
    (n2 : w2 + 2 ≤ data.length) (n3 : w3 ≤ data.length) (hd : Fins data) (h0 : ∀ x ∈ vals data, 0 < x)
    (d1 : ∀ i, w1 ≤ i → i < data.length → wilderOf w1 (rises (vals data)) (i - 1) + wilderOf w1 (falls (vals data)) (i - 1) ≠ 0)
    (d2 : ∀ i, w2 ≤ i → i < data.length - 1 →
      wilderOf w2 (rises (streaks (vals data))) (i - 1) + wilderOf w2 (falls (streaks (vals data))) (i - 1) ≠ 0) :
    Reports data.length (max w1 (max (w2 + 1) w3)) (fun i => (rsiOf (vals data) w1 i + rsiOf (streaks (vals data)) w2 (i - 1) +
      percentRank (returnAt (bar (vals data))) w3 i) / 3) (crsi data w1 w2 w3) := by
  obtain ⟨a, ea, ra, la⟩ := (rsi_values data w1 h1 n1 hd d1).some
  set sr := scanS streakStep ((0, 0) : XF × XF) (pairs data) with esr
  have lsr : sr.length = data.length - 1 := by simp [esr]
  have gs := streak_reports hd h0
  rw [← esr] at gs
  have fs : Fins (sr.map (·.1)) := streak_finite hd
  have vs : vals (sr.map (·.1)) = streaks (vals data) := by
    apply List.ext_getElem?
    intro j
    by_cases hj : j < sr.length
    · have e := getElem?_of_lt hj
      rw [vals, List.getElem?_map, List.getElem?_map, e, streaks, List.getElem?_map, List.getElem?_range (by simp; omega)]
      exact congrArg some (gs j _ e).1.2
    · rw [List.getElem?_eq_none (by simp; omega), List.getElem?_eq_none (by simp [streaks]; omega)]
  obtain ⟨b, eb, rb, lb⟩ := (rsi_values (sr.map (·.1)) w2 h2 (by simp; omega) fs (by
    rw [vs]; intro i hi hin; exact d2 i hi (by simpa [lsr] using hin))).some
  rw [vs, List.length_map, lsr] at rb
  rw [List.length_map, lsr] at lb
  have rb' := (rb.pad 1).cast (n' := data.length) (k' := w2 + 1) (by omega) (by omega)
  have rr : Reports data.length 1 (returnAt (bar (vals data))) (some (nans 1 ++ sr.map (·.2))) := by
    refine reportsP_nans (P := fun i y => y ⇓ _) (by simp; omega) fun i y hy => ?_
    rw [List.getElem?_map] at hy
    obtain ⟨p, e, rfl⟩ := Option.map_eq_some_iff.1 hy
    rw [Nat.add_comm]
    exact (gs i p e).2
  have key : ∀ i l, (windowsOf w3 (sr.map (·.2)))[i]? = some l → ∃ y, (do
      let k ← usub w3 1
      let curr ← l[k]?
      let cnt := l.reverse.foldl (fun acc x => if x <. curr then acc + 1 else acc) 0
      some (flt cnt / flt k * 100 : XF)) = some y ∧ y ⇓ percentRank (returnAt (bar (vals data))) w3 (w3 + i) := by
    intro i l hl
    obtain ⟨rfl, hi⟩ := windowsOf_at (by omega) hl
    rw [List.length_map] at hi
    obtain ⟨g1, g2⟩ := rr.recent (w := w3) (i := w3 + i) (by omega) (by omega)
    have e : recent (nans 1 ++ sr.map (·.2)) w3 (w3 + i) = recent (sr.map (·.2)) w3 (i + w3 - 1) := by
      show ((nans 1 ++ _).drop _).take w3 = (List.drop _ _).take w3
      rw [List.drop_append, List.drop_eq_nil_of_le (by simp; omega), List.nil_append, nans_length]
      congr 2
      omega
    rw [e] at g1 g2
    have ll := recent_length (l := sr.map (·.2)) (w := w3) (i := i + w3 - 1) (by omega) (by rw [List.length_map]; omega)
    generalize recent (sr.map (·.2)) w3 (i + w3 - 1) = l at g1 g2 ll
    have ec := getElem?_of_lt (show w3 - 1 < l.length by omega)
    have hc : l[w3 - 1]'(by omega) ⇓ returnAt (bar (vals data)) (w3 + i) := by
      refine (g1.getElem? ec).congr ?_
      rw [g2, lastOf, List.getElem?_map, List.getElem?_range (by omega)]
      simp only [Option.map_some, Option.getD_some]
      congr 1
      omega
    refine ⟨_, by rw [usub_of_le (by omega)]; simp only [Option.bind_eq_bind, Option.bind_some, ec]; rfl, ?_⟩
    rw [count_foldl, Nat.zero_add, List.countP_reverse]
    have cnt : (l.countP fun x => x <. l[w3 - 1]'(by omega)) =
        (lastOf (returnAt (bar (vals data))) w3 (w3 + i)).countP fun r => decide (r < returnAt (bar (vals data)) (w3 + i)) := by
      rw [← g2, show vals l = l.map val from rfl, List.countP_map]
      exact List.countP_congr fun x hx => by rw [is_lt (g1 x hx).is hc]; rfl
    rw [cnt]
    have hw3 : ((w3 - 1 : ℕ) : ℝ) = (w3 : ℝ) - 1 := by rw [Nat.cast_sub (by omega), Nat.cast_one]
    have hne : ((w3 - 1 : ℕ) : ℝ) ≠ 0 := by
      have : (w3 - 1 : ℕ) ≠ 0 := by omega
      exact_mod_cast this
    refine (is_mul (is_div (is_flt _) (is_flt (w3 - 1)) hne) (is_lit 100)).congr ?_
    rw [percentRank, hw3]
    rw [hw3] at hne
    field_simp
  obtain ⟨rk, ek⟩ := mapP_isSome (l := windowsOf w3 (sr.map (·.2))) (f := fun (w : List XF) => do
    let k ← usub w3 1
    let curr ← w[k]?
    let cnt := w.reverse.foldl (fun acc x => if x <. curr then acc + 1 else acc) 0
    some (flt cnt / flt k * 100 : XF)) (by
      intro l hl
      obtain ⟨i, hi⟩ := List.mem_iff_getElem?.1 hl
      obtain ⟨y, ey, -⟩ := key i l hi
      rw [ey]; rfl)
  have lk := mapP_length ek
  rw [windowsOf_length, List.length_map, lsr] at lk
  have rk' : Reports data.length w3 (percentRank (returnAt (bar (vals data))) w3) (some (nans w3 ++ rk)) := by
    refine reportsP_nans (P := fun i y => y ⇓ _) (by omega) fun i y hy => ?_
    rw [mapP_getElem? ek] at hy
    obtain ⟨l, hl, e⟩ := Option.bind_eq_some_iff.1 hy
    obtain ⟨y', ey, h⟩ := key i l hl
    rw [ey] at e
    cases e
    exact h
  simp only [crsi, ea, ← esr, eb, windows_eq _ (show 1 ≤ w3 by omega), Option.bind_eq_bind, Option.bind_some]
  have ek' := ek
  simp only [Option.bind_eq_bind] at ek'
  erw [ek']
  simp only [Option.bind_some]
  have lb' := rb'.length
  have lk' := rk'.length
  refine reports_map (by simp only [zip3_eq, List.length_zip]; simp at lb' lk' ⊢; omega) (fun i p hp hi => ?_) fun i p hp hi => ?_
  · obtain ⟨x, y, z⟩ := p
    obtain ⟨e1, e2, e3⟩ := zip3_getElem?.1 hp
    have hin := (List.getElem?_eq_some_iff.1 e1).1
    rw [la] at hin
    have : x = FP.nan ∨ y = FP.nan ∨ z = FP.nan := by
      rcases lt_max_iff.1 hi with h | h
      · exact Or.inl (Option.some.inj (e1.symm.trans (ra.get_nan h hin)))
      rcases lt_max_iff.1 h with h | h
      · exact Or.inr (Or.inl (Option.some.inj (e2.symm.trans (rb'.get_nan h hin))))
      · exact Or.inr (Or.inr (Option.some.inj (e3.symm.trans (rk'.get_nan h hin))))
    rcases this with rfl | rfl | rfl
    · rfl
    · show isNaN ((x + FP.nan + z) / 3) = true
      rw [FP.add_nan]; rfl
    · show isNaN ((x + y + FP.nan) / 3) = true
      rw [FP.add_nan]; rfl
  · obtain ⟨x, y, z⟩ := p
    obtain ⟨e1, e2, e3⟩ := zip3_getElem?.1 hp
    have q1 := ra.at e1 (by omega)
    have q2 := rb'.at e2 (by omega)
    have q3 := rk'.at e3 (by omega)
    exact is_div (is_add (is_add q1 q2) q3) (is_lit 3) (by norm_num)

/-! ## Concrete runs -/

abbrev up8 : List XF := [1, 2, 4, 3, 5, 6, 8, 7].map fin

example : ∀ i y, 4 ≤ i → i < 8 → (∃ out, rainbow ([1, 2, 4, 3, 5, 6, 8, 7].map (fin : ℝ → XF)) 1 1 = some out ∧ out[i]? = some y) →
    y.1 ⇓ 0 := by
  rintro i y - - ⟨out, e, hy⟩
  obtain ⟨out', e', -, h⟩ := rainbow_reports up8 1 1 (by decide) (by simp) (by decide) (by simp) (by simp) (fins_map_fin _) (by
    simp only [vals_map_fin]
    intro x hx
    refine le_trans ?_ f64Max_ge
    simp only [List.mem_cons, List.not_mem_nil, or_false] at hx
    rcases hx with rfl | rfl | rfl | rfl | rfl | rfl | rfl | rfl <;> norm_num)
  rw [e] at e'
  cases e'
  refine (h i y (by omega) hy).1.congr ?_
  have : rainbowLines (vals up8) 1 i = List.replicate 10 (bar (vals up8) i) := by
    have : ∀ j, smaIter 1 (bar (vals up8)) j i = bar (vals up8) i := by
      intro j
      induction j with
      | zero => rfl
      | succ j ih =>
        show mean [smaIter 1 (bar (vals up8)) j (i + 1 - 1 + 0)] = _
        rw [show i + 1 - 1 + 0 = i by omega, ih]
        simp [mean]
    simp only [rainbowLines, this, List.map_const', List.length_range]
  rw [this, mean_replicate (by decide)]
  simp

example : ValueAt (kst up8 (some (1, 2, 2, 3)) (some (1, 2, 1, 1))) 3 (-25 + 2 * (175) + 3 * 50 + 4 * 200) :=
  (kst_reports up8 (some (1, 2, 2, 3)) (some (1, 2, 1, 1)) 1 2 2 3 1 2 1 1 rfl rfl (by decide) (by decide) (by decide) (by simp)
    (fins_map_fin _) (nonzero_map_fin (by simp))).value 3 (by decide) (by simp) (by
    simp only [vals_map_fin]
    norm_num [pringPart, lastOf, bar, List.range_succ, mean, rocOver])

/-- Before bar 3 the third rate of change is missing from the sum: the line is reported nevertheless. -/
example : ValueAt (kst up8 (some (1, 2, 2, 3)) (some (1, 2, 1, 1))) 1 100 :=
  (kst_reports up8 (some (1, 2, 2, 3)) (some (1, 2, 1, 1)) 1 2 2 3 1 2 1 1 rfl rfl (by decide) (by decide) (by decide) (by simp)
    (fins_map_fin _) (nonzero_map_fin (by simp))).value 1 (by decide) (by simp) (by
    simp only [vals_map_fin]
    norm_num [pringPart, lastOf, bar, List.range_succ, mean, rocOver])

abbrev line20 : List XF := [5, 5, 5, 5, 5, 5, 5, 5, 5, 5, 5, 5, 5, 5, 5, 5, 5, 5, 5, 10].map fin

example : ValueAt (special_k line20) 19 10 :=
  (special_k_reports line20 (by simp) (fins_map_fin _) (nonzero_map_fin (by simp))).value 19 (by decide) (by simp) (by
    simp only [vals_map_fin, List.map_cons, List.map_nil, List.sum_cons, List.sum_nil, pringPart, Nat.reduceAdd, Nat.reduceLeDiff, if_true, if_false,
      add_zero, one_mul]
    simp only [lastOf, List.range_succ, List.range_zero, List.nil_append, List.cons_append, List.map_cons, List.map_nil, mean, List.sum_cons,
      List.sum_nil, rocOver, bar, Nat.reduceAdd, Nat.reduceSub, List.getD_cons_succ, List.getD_cons_zero, List.length_cons, List.length_nil]
    norm_num)

example : ValueAt (qqe up8 1 1) 3 0 :=
  (qqe_reports up8 1 1 (by decide) (by decide) (by simp) (fins_map_fin _) (by
    simp only [vals_map_fin, List.length_map]
    intro i h1 h2
    simp only [List.length_cons, List.length_nil] at h2
    interval_cases i <;> norm_num [wilderOf, rises, falls, pairs, mean])).value 3 (by decide) (by simp) (by
    simp only [vals_map_fin]
    norm_num [trail, ewmaFrom, wilderFrom, rsiOf, wilderOf, rises, falls, pairs, lastOf, bar, List.range_succ, mean])

example : ValueAt (crsi up8 1 1 2) 2 ((100 + 100 + 0) / 3) :=
  (crsi_reports up8 1 1 2 (by decide) (by decide) (by decide) (by simp) (by simp) (by simp) (fins_map_fin _) (by simp) (by
    simp only [vals_map_fin, List.length_map]
    intro i h1 h2
    simp only [List.length_cons, List.length_nil] at h2
    interval_cases i <;> norm_num [wilderOf, rises, falls, pairs, mean]) (by
    simp only [vals_map_fin, List.length_map]
    intro i h1 h2
    simp only [List.length_cons, List.length_nil] at h2
    interval_cases i <;> norm_num [wilderOf, rises, falls, pairs, mean, streaks, streakOf, bar, List.range_succ])).value 2 (by decide) (by simp) (by
    simp only [vals_map_fin]
    norm_num [rsiOf, wilderOf, rises, falls, pairs, mean, streaks, streakOf, bar, List.range_succ, percentRank, returnAt, lastOf])

end Traquer.Momentum
