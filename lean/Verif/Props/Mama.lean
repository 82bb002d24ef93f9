import Verif.Props.FlatWindow
/-!
# C25, C28: mama

`mama_ok`, `mama_inRange`: exact arithmetic. `mama_nan_panics`: any rounding.
-/

namespace Traquer
open FP FloatLit

/-- Relates consecutive items of a scan that yields (a projection of) its state. -/
theorem scanM_chain {α β σ : Type} {f : σ → α → Option (σ × β)} {I : σ → Prop} {g : σ → β} {R : β → α → β → Prop} {l : List α}
    (hstep : ∀ s x s' y, x ∈ l → I s → f s x = some (s', y) → I s' ∧ g s' = y ∧ R (g s) x y) {s : σ} (hs : I s)
    {o : List β} (ho : scanM f s l = some o) (j : ℕ) (p : β) (x : α) (y : β) (h1 : (g s :: o)[j]? = some p)
    (h2 : l[j]? = some x) (h3 : o[j]? = some y) : R p x y := by
  induction l generalizing s o j with
  | nil => simp at h2
  | cons x₀ l ih =>
    simp only [scanM] at ho
    split at ho
    · cases ho
    · rename_i _ s' y₀ hy
      split at ho
      · cases ho
      · rename_i _ ys hys
        cases ho
        have h := hstep s x₀ s' y₀ (by simp) hs hy
        cases j with
        | zero =>
          simp at h1 h2 h3
          subst h1 h2 h3
          exact h.2.2
        | succ j =>
          refine ih (fun s x s' y hx => hstep s x s' y (by simp [hx])) h.1 hys j ?_ (by simpa using h2) (by simpa using h3)
          rw [h.2.1]
          simpa using h1

/-- A scan panics if an item always leaves a state on which the next item panics. -/
theorem scanM_none_of {α β σ : Type} {f : σ → α → Option (σ × β)} {l : List α} {k : ℕ} {x₀ x₁ : α} (h0 : l[k]? = some x₀)
    (h1 : l[k + 1]? = some x₁) (h : ∀ s s' y, f s x₀ = some (s', y) → f s' x₁ = none) (s : σ) : scanM f s l = none := by
  induction l generalizing s k with
  | nil => simp at h0
  | cons x l ih =>
    rw [scanM]
    split
    · rfl
    · rename_i _ s' y hy
      cases k with
      | zero =>
        simp at h0
        subst h0
        cases l with
        | nil => simp at h1
        | cons z l =>
          simp at h1
          subst h1
          rw [scanM, h s s' y hy]
      | succ k => rw [ih (by simpa using h0) (by simpa using h1)]

namespace FP
theorem Finite.add {x y : XF} (hx : x.Finite) (hy : y.Finite) : (x + y).Finite := (is_add hx.is hy.is).1
theorem Finite.sub {x y : XF} (hx : x.Finite) (hy : y.Finite) : (x - y).Finite := (is_sub hx.is hy.is).1
theorem Finite.mul {x y : XF} (hx : x.Finite) (hy : y.Finite) : (x * y).Finite := (is_mul hx.is hy.is).1
theorem finite_sci (m : ℕ) (s : Bool) (e : ℕ) : (OfScientific.ofScientific m s e : XF).Finite := (is_sci m s e).1
theorem finite_lit (n : ℕ) [n.AtLeastTwo] : (OfNat.ofNat n : XF).Finite := (is_lit n).1
theorem finite_zero : (0 : XF).Finite := is_zero.1

/-- Finite sums, differences and products of finite values. -/
syntax "ffin" : tactic
macro_rules
  | `(tactic| ffin) => `(tactic| repeat' first
    | assumption
    | (with_reducible apply FP.Finite.add) | (with_reducible apply FP.Finite.sub) | (with_reducible apply FP.Finite.mul)
    | (with_reducible apply FP.finite_zero) | (with_reducible apply FP.finite_sci) | (with_reducible apply FP.finite_lit))
end FP
end Traquer

namespace Traquer.Smooth
open FP FloatLit

/-- What every state of mama's recursion satisfies on finite data. -/
structure MamaOK (st : MamaState XF) : Prop where
  mama : st.mama.Finite
  fama : st.fama.Finite
  pd : ∃ p, st.pd ⇓ p ∧ 0 ≤ p ∧ p ≤ 50
  phase : st.phase.Finite
  re : st.re.Finite
  im : st.im.Finite
  i2 : st.i2.Finite
  q2 : st.q2.Finite
  dtrend : st.dtrend.length = 7 ∧ Fins st.dtrend
  i1 : st.i1.length = 7 ∧ Fins st.i1
  q1 : st.q1.length = 7 ∧ Fins st.q1

theorem pushFront_ok {q : List XF} {x : XF} (h : q.length = 7 ∧ Fins q) (hx : x.Finite) :
    (pushFront q x).length = 7 ∧ Fins (pushFront q x) := by
  refine ⟨by simp [pushFront, h.1], fun y hy => ?_⟩
  rcases List.mem_cons.1 hy with rfl | hy
  · exact hx
  · exact h.2 y (List.dropLast_subset q hy)

theorem hilbert_finite {a b c d t : XF} (ha : a.Finite) (hb : b.Finite) (hc : c.Finite) (hd : d.Finite) (ht : t.Finite) :
    (hilbert a b c d t).Finite := by
  unfold hilbert; ffin

theorem get_ok {q : List XF} (h : q.length = 7 ∧ Fins q) (i : ℕ) (hi : i < 7) : ∃ x, q[i]? = some x ∧ x.Finite :=
  ⟨_, getElem?_of_lt (by omega), h.2 _ (List.getElem_mem _)⟩

theorem hilbertQ_ok {q : List XF} {t : XF} (h : q.length = 7 ∧ Fins q) (ht : t.Finite) :
    ∃ x, hilbertQ q t = some x ∧ x.Finite := by
  obtain ⟨a, ea, ha⟩ := get_ok h 0 (by omega)
  obtain ⟨b, eb, hb⟩ := get_ok h 2 (by omega)
  obtain ⟨c, ec, hc⟩ := get_ok h 4 (by omega)
  obtain ⟨d, ed, hd⟩ := get_ok h 6 (by omega)
  exact ⟨_, by simp [hilbertQ, ea, eb, ec, ed], hilbert_finite ha hb hc hd ht⟩

theorem atan_ratio_finite {x y : XF} (hx : x.Finite) (hy : y.Finite) (h : y.val ≠ 0) : (Traquer.atan (x / y)).Finite :=
  (is_atan (is_div hx.is hy.is h)).1

/-- One step of mama on finite data: no panic, the invariant is kept, and both lines move by a gain in `[slow, max fast slow]`. -/
theorem mamaStep_ok {fast slow : XF} {f s : ℝ} {sm data : List XF} {st : MamaState XF} {i : ℕ} (hf : fast ⇓ f) (hs : slow ⇓ s)
    (h0 : 0 ≤ f) (hsm : Fins sm) (hd : Fins data) (hl : sm.length = data.length) (hi : i < data.length) (h : MamaOK st) :
    ∃ st', mamaStep fast slow sm data st i = some (st', (st'.mama, st'.fama)) ∧ MamaOK st' ∧
      ∃ a, s ≤ a ∧ a ≤ max f s ∧ st'.mama.val = a * ((vals data)[i]?.getD 0) + (1 - a) * st.mama.val ∧
        st'.fama.val = 0.5 * a * st'.mama.val + (1 - 0.5 * a) * st.fama.val := by
  obtain ⟨p, hp, p0, p1⟩ := h.pd
  have hpf := hp.1
  have htw : (0.075 * st.pd + 0.54 : XF).Finite := by ffin
  have gs : ∀ j, j ≤ i → ∃ x, sm[j]? = some x ∧ x.Finite := fun j hj =>
    ⟨_, getElem?_of_lt (by omega), hsm _ (List.getElem_mem _)⟩
  obtain ⟨s0, e0, f0⟩ := gs i le_rfl
  obtain ⟨s2, e2, f2⟩ := gs (i - 2) (by omega)
  obtain ⟨s4, e4, f4⟩ := gs (i - 4) (by omega)
  obtain ⟨s6, e6, f6⟩ := gs (i - 6) (by omega)
  have ed := getElem?_of_lt hi
  have hx := (hd _ (List.getElem_mem hi)).is
  have ok1 := pushFront_ok h.dtrend (hilbert_finite f0 f2 f4 f6 htw)
  obtain ⟨q, eq, fq⟩ := hilbertQ_ok ok1 htw
  obtain ⟨d3, ed3, fd3⟩ := get_ok ok1 3 (by omega)
  have okq := pushFront_ok h.q1 fq
  have oki := pushFront_ok h.i1 fd3
  obtain ⟨ji, eji, fji⟩ := hilbertQ_ok oki htw
  obtain ⟨jq, ejq, fjq⟩ := hilbertQ_ok okq htw
  obtain ⟨i10, ei10, fi10⟩ := get_ok oki 0 (by omega)
  obtain ⟨q10, eq10, fq10⟩ := get_ok okq 0 (by omega)
  have fi2 := h.i2
  have fq2 := h.q2
  have fre := h.re
  have fim := h.im
  -- the four smoothed quantities
  have fI2 : (0.2 * (i10 - jq) + 0.8 * st.i2 : XF).Finite := by ffin
  have fQ2 : (0.2 * (q10 + ji) + 0.8 * st.q2 : XF).Finite := by ffin
  generalize hI2 : (0.2 * (i10 - jq) + 0.8 * st.i2 : XF) = I2 at fI2
  generalize hQ2 : (0.2 * (q10 + ji) + 0.8 * st.q2 : XF) = Q2 at fQ2
  have fRE : (0.2 * (I2 * st.i2 + Q2 * st.q2) + 0.8 * st.re : XF).Finite := by ffin
  have fIM : (0.2 * (I2 * st.q2 - Q2 * st.i2) + 0.8 * st.im : XF).Finite := by ffin
  generalize hRE : (0.2 * (I2 * st.i2 + Q2 * st.q2) + 0.8 * st.re : XF) = RE at fRE
  generalize hIM : (0.2 * (I2 * st.q2 - Q2 * st.i2) + 0.8 * st.im : XF) = IM at fIM
  -- the period
  have fpd0 : (if (!(IM ==. 0) && !(RE ==. 0)) = true then 360 / Traquer.atan (IM / RE) else 0 : XF).Finite := by
    rw [is_feq fIM.is is_zero, is_feq fRE.is is_zero]
    by_cases c1 : IM.val = 0
    · simp [c1, finite_zero]
    by_cases c2 : RE.val = 0
    · simp [c2, finite_zero]
    simp only [c1, c2, decide_false, Bool.not_false, Bool.and_self, if_true]
    exact (is_div (is_lit 360) (is_atan (is_div fIM.is fRE.is c2)) (by
      rw [Ne, Real.arctan_eq_zero_iff]
      exact div_ne_zero c1 c2)).1
  generalize hpd0 : (if (!(IM ==. 0) && !(RE ==. 0)) = true then 360 / Traquer.atan (IM / RE) else 0 : XF) = pd0 at fpd0
  have hlo := is_mul (is_sci 67 true 2) hp
  have hhi := is_mul (is_sci 15 true 1) hp
  have hlohi : (OfScientific.ofScientific 67 true 2 : ℝ) * p ≤ OfScientific.ofScientific 15 true 1 * p := by
    apply mul_le_mul_of_nonneg_right _ p0; norm_num
  have epd1 : fclamp pd0 (0.67 * st.pd) (1.5 * st.pd) = some (clampLit pd0 (0.67 * st.pd) (1.5 * st.pd)) := by
    rw [fclamp, is_le hlo hhi, if_pos (by simpa using hlohi)]
  have hpd1 := is_clampLit fpd0.is hlo hhi hlohi
  generalize clampLit pd0 (0.67 * st.pd) (1.5 * st.pd) = pd1 at epd1 hpd1
  have hpd2 := is_clampLit hpd1 (is_lit 6) (is_lit 50) (by norm_num)
  have hpd2r : ∃ u, clampLit pd1 6 50 ⇓ u ∧ 6 ≤ u ∧ u ≤ 50 :=
    ⟨_, hpd2, le_max_left _ _, max_le (by norm_num) (min_le_right _ _)⟩
  obtain ⟨u, hu, u0, u1⟩ := hpd2r
  have hpd : 0.2 * clampLit pd1 6 50 + 0.8 * st.pd ⇓ 0.2 * u + 0.8 * p :=
    is_add (is_mul (is_sci 2 true 1) hu) (is_mul (is_sci 8 true 1) hp)
  -- the phase
  have fph : (if (!(i10 ==. 0)) = true then Traquer.atan (q10 / i10) else 0 : XF).Finite := by
    rw [is_feq fi10.is is_zero]
    by_cases c1 : i10.val = 0
    · simp [c1, finite_zero]
    · simp only [c1, decide_false, Bool.not_false, if_true]
      exact atan_ratio_finite fq10 fi10 c1
  generalize hph : (if (!(i10 ==. 0)) = true then Traquer.atan (q10 / i10) else 0 : XF) = ph at fph
  have hdel := is_fmax (is_sub h.phase.is fph.is) is_one
  have hdp : 1 ≤ max (st.phase.val - ph.val) 1 := le_max_right _ _
  have hal := is_fmax (is_div hf hdel (by linarith)) hs
  have ha1 : s ≤ max (f / max (st.phase.val - ph.val) 1) s := le_max_right _ _
  have ha2 : max (f / max (st.phase.val - ph.val) 1) s ≤ max f s := max_le_max (div_le_self h0 hdp) le_rfl
  generalize hA : fmax (fast / fmax (st.phase - ph) 1) slow = al at hal
  generalize max (f / max (st.phase.val - ph.val) 1) s = a at hal ha1 ha2
  have hma := is_add (is_mul hal hx) (is_mul (is_sub is_one hal) h.mama.is)
  have hfa := is_add (is_mul (is_mul (is_sci 5 true 1) hal) hma)
    (is_mul (is_sub is_one (is_mul (is_sci 5 true 1) hal)) h.fama.is)
  refine ⟨⟨al * data[i] + (1 - al) * st.mama, 0.5 * al * (al * data[i] + (1 - al) * st.mama) + (1 - 0.5 * al) * st.fama,
    0.2 * clampLit pd1 6 50 + 0.8 * st.pd, ph, RE, IM, I2, Q2,
    pushFront st.dtrend (hilbert s0 s2 s4 s6 (0.075 * st.pd + 0.54)), pushFront st.i1 d3, pushFront st.q1 q⟩, ?_, ?_, ?_⟩
  rotate_left
  · exact { mama := hma.1, fama := hfa.1, pd := ⟨_, hpd, by positivity, by linarith⟩, phase := fph, re := fRE, im := fIM,
            i2 := fI2, q2 := fQ2, dtrend := ok1, i1 := oki, q1 := okq }
  · refine ⟨a, ha1, ha2, ?_, ?_⟩
    · rw [vals_getElem?, ed]; exact hma.2
    · have := hfa.2
      rw [← hma.2] at this
      exact this
  · simp only [mamaStep, e0, e2, e4, e6, Option.bind_eq_bind, Option.bind_some, eq, ed3, eji, ejq, ei10, eq10, hI2, hQ2, hRE, hIM, ed]
    simp only [hpd0, epd1, Option.bind_some, hph, hA]

theorem mamaInit_ok : MamaOK mamaInit where
  mama := finite_zero
  fama := finite_zero
  pd := ⟨0, is_zero, le_rfl, by norm_num⟩
  phase := finite_zero
  re := finite_zero
  im := finite_zero
  i2 := finite_zero
  q2 := finite_zero
  dtrend := ⟨by simp [mamaInit], fun x hx => by rw [List.eq_of_mem_replicate hx]; exact finite_zero⟩
  i1 := ⟨by simp [mamaInit], fun x hx => by rw [List.eq_of_mem_replicate hx]; exact finite_zero⟩
  q1 := ⟨by simp [mamaInit], fun x hx => by rw [List.eq_of_mem_replicate hx]; exact finite_zero⟩

theorem mamaSmooth_length (data : List XF) (h : 3 ≤ data.length) : (mamaSmooth data).length = data.length := by
  simp [mamaSmooth]; omega

theorem mamaSmooth_fins (data : List XF) (hd : Fins data) : Fins (mamaSmooth data) := by
  intro x hx
  rcases List.mem_append.1 hx with hx | hx
  · rw [List.eq_of_mem_replicate hx]; exact finite_zero
  · obtain ⟨w, hw, rfl⟩ := List.mem_map.1 hx
    have hl := windowsOf_mem_length hw
    have hf := hd.window hw
    obtain ⟨w0, w1, w2, w3, rfl⟩ : ∃ a b c d, w = [a, b, c, d] := by
      match w, hl with
      | [a, b, c, d], _ => exact ⟨a, b, c, d, rfl⟩
    have g0 := hf w0 (by simp)
    have g1 := hf w1 (by simp)
    have g2 := hf w2 (by simp)
    have g3 := hf w3 (by simp)
    have : (4 * w3 + 3 * w2 + 2 * w1 + w0 : XF).Finite := by ffin
    exact (is_div this.is (is_lit 10) (by norm_num)).1

/-- C28: on finite data `mama` does not panic. From bar 6 on both lines are finite; each starts from 0, and at every bar
there is a gain `a` between `slow` and `max fast slow` by which `mama` moves towards the price, and `fama`, with half that
gain, towards `mama`. -/
theorem mama_ok (data : List XF) (fast slow : Option XF) (f s : ℝ) (hn : 6 ≤ data.length) (hd : Fins data)
    (hf : fast.getD 0.5 ⇓ f) (hs : slow.getD 0.05 ⇓ s) (h0 : 0 ≤ f) :
    ∃ (out : List (XF × XF)) (m fm : ℕ → ℝ), mama data fast slow = some out ∧
      Reports data.length 6 m (some (out.map fun x => x.1)) ∧ Reports data.length 6 fm (some (out.map fun x => x.2)) ∧
      m 5 = 0 ∧ fm 5 = 0 ∧ ∀ i, 6 ≤ i → i < data.length → ∃ a, s ≤ a ∧ a ≤ max f s ∧
        m i = a * ((vals data)[i]?.getD 0) + (1 - a) * m (i - 1) ∧
        fm i = 0.5 * a * m i + (1 - 0.5 * a) * fm (i - 1) := by
  have hsm := mamaSmooth_fins data hd
  have hl := mamaSmooth_length data (by omega)
  have hstep : ∀ (st : MamaState XF) (i : ℕ), i ∈ (List.range data.length).drop 6 → MamaOK st →
      ∃ st', mamaStep (fast.getD 0.5) (slow.getD 0.05) (mamaSmooth data) data st i = some (st', (st'.mama, st'.fama)) ∧ MamaOK st' ∧
      ∃ a, s ≤ a ∧ a ≤ max f s ∧ st'.mama.val = a * ((vals data)[i]?.getD 0) + (1 - a) * st.mama.val ∧
        st'.fama.val = 0.5 * a * st'.mama.val + (1 - 0.5 * a) * st.fama.val := fun st i hi hst =>
    mamaStep_ok hf hs h0 hsm hd hl (mem_range_drop.1 hi).2 hst
  obtain ⟨r, hr⟩ := scanM_isSome_of_inv (I := MamaOK) (f := mamaStep (fast.getD 0.5) (slow.getD 0.05) (mamaSmooth data) data)
    (l := (List.range data.length).drop 6) (fun st i hi hst => by
      obtain ⟨st', e, h1, -⟩ := hstep st i hi hst
      exact ⟨st', _, e, h1⟩) mamaInit_ok
  have hrl := scanM_length hr
  rw [List.length_drop, List.length_range] at hrl
  have hfin := scanM_invariant (I := MamaOK) (P := fun y : XF × XF => y.1.Finite ∧ y.2.Finite) (fun st i st' y hi hst e => by
    obtain ⟨st'', e', h1, -⟩ := hstep st i hi hst
    rw [e'] at e
    cases e
    exact ⟨h1, h1.mama, h1.fama⟩) mamaInit_ok hr
  have hchain := scanM_chain (I := MamaOK) (g := fun st : MamaState XF => (st.mama, st.fama))
    (R := fun (p : XF × XF) (i : ℕ) (y : XF × XF) => ∃ a, s ≤ a ∧ a ≤ max f s ∧ y.1.val = a * ((vals data)[i]?.getD 0) + (1 - a) * p.1.val ∧
        y.2.val = 0.5 * a * y.1.val + (1 - 0.5 * a) * p.2.val) (fun st i st' y hi hst e => by
    obtain ⟨st'', e', h1, h2⟩ := hstep st i hi hst
    rw [e'] at e
    cases e
    exact ⟨h1, rfl, h2⟩) mamaInit_ok hr
  have hz : (mamaInit (F := XF)).mama.val = 0 ∧ (mamaInit (F := XF)).fama.val = 0 := ⟨is_zero.2, is_zero.2⟩
  refine ⟨List.replicate 6 (nan, nan) ++ r, fun i => ((((0, 0) : XF × XF) :: r)[i - 5]?.map fun y => y.1.val).getD 0,
    fun i => ((((0, 0) : XF × XF) :: r)[i - 5]?.map fun y => y.2.val).getD 0, ?_, ?_, ?_, ?_, ?_, ?_⟩
  · simp only [mama, Option.bind_eq_bind, hr, Option.bind_some]
  · rw [List.map_append, List.map_replicate]
    refine reports_nans (by simp; omega) fun j hj => ?_
    rw [List.length_map] at hj
    have e := getElem?_of_lt hj
    refine ⟨_, by rw [List.getElem?_map, e]; rfl, (hfin _ (List.getElem_mem hj)).1.is.congr ?_⟩
    rw [show 6 + j - 5 = j + 1 by omega, List.getElem?_cons_succ, e]
    rfl
  · rw [List.map_append, List.map_replicate]
    refine reports_nans (by simp; omega) fun j hj => ?_
    rw [List.length_map] at hj
    have e := getElem?_of_lt hj
    refine ⟨_, by rw [List.getElem?_map, e]; rfl, (hfin _ (List.getElem_mem hj)).2.is.congr ?_⟩
    rw [show 6 + j - 5 = j + 1 by omega, List.getElem?_cons_succ, e]
    rfl
  · exact is_zero.2
  · exact is_zero.2
  · intro i h6 hi
    have e1 := getElem?_of_lt (show i - 6 < (((0, 0) : XF × XF) :: r).length by simp; omega)
    have e2 := getElem?_of_lt (show i - 6 < r.length by omega)
    have := hchain (i - 6) _ i _ e1 (by
      rw [List.getElem?_drop, List.getElem?_range (by omega), show 6 + (i - 6) = i by omega]) e2
    beta_reduce
    rw [show i - 5 = i - 6 + 1 by omega, List.getElem?_cons_succ, show i - 1 - 5 = i - 6 by omega, e1, e2]
    exact this

/-- C25: with `fast` and `slow` in `[0, 1]` both lines of mama lie between any bounds of the data and 0. -/
theorem mama_inRange (data : List XF) (fast slow : Option XF) (f s lo hi : ℝ) (hn : 6 ≤ data.length) (hd : Fins data)
    (hf : fast.getD 0.5 ⇓ f) (hs : slow.getD 0.05 ⇓ s) (h0 : 0 ≤ f) (h1 : f ≤ 1) (h2 : 0 ≤ s) (h3 : s ≤ 1)
    (hlo : lo ≤ 0) (hhi : 0 ≤ hi) (hb : Within lo hi (vals data)) :
    ∃ (out : List (XF × XF)) (m fm : ℕ → ℝ), mama data fast slow = some out ∧
      Reports data.length 6 m (some (out.map fun x => x.1)) ∧ Reports data.length 6 fm (some (out.map fun x => x.2)) ∧
      ∀ i, 6 ≤ i → i < data.length → (lo ≤ m i ∧ m i ≤ hi) ∧ lo ≤ fm i ∧ fm i ≤ hi := by
  obtain ⟨out, m, fm, e, r1, r2, m5, f5, h⟩ := mama_ok data fast slow f s hn hd hf hs h0
  refine ⟨out, m, fm, e, r1, r2, ?_⟩
  suffices ∀ k, 5 + k < data.length → (lo ≤ m (5 + k) ∧ m (5 + k) ≤ hi) ∧ lo ≤ fm (5 + k) ∧ fm (5 + k) ≤ hi by
    intro i hi1 hi2
    have := this (i - 5) (by omega)
    rwa [show 5 + (i - 5) = i by omega] at this
  intro k
  induction k with
  | zero => intro _; rw [Nat.add_zero, m5, f5]; exact ⟨⟨hlo, hhi⟩, hlo, hhi⟩
  | succ k ih =>
    intro hk
    obtain ⟨i1, i2⟩ := ih (by omega)
    obtain ⟨a, a0, a1, e1, e2⟩ := h (5 + (k + 1)) (by omega) hk
    rw [show 5 + (k + 1) - 1 = 5 + k by omega] at e1 e2
    have ha0 : 0 ≤ a := h2.trans a0
    have ha1 : a ≤ 1 := a1.trans (max_le h1 h3)
    have hx : lo ≤ (vals data)[5 + (k + 1)]?.getD 0 ∧ (vals data)[5 + (k + 1)]?.getD 0 ≤ hi := by
      have e := getElem?_of_lt (show 5 + (k + 1) < (vals data).length by simpa using hk)
      rw [e]
      exact hb _ (List.getElem_mem _)
    have c1 := convex_range hx i1 ha0 ha1
    have c2 : lo ≤ m (5 + (k + 1)) ∧ m (5 + (k + 1)) ≤ hi := by
      rw [e1]; constructor <;> linarith [c1.1, c1.2]
    have c3 := convex_range c2 i2 (t := 0.5 * a) (by positivity) (by linarith)
    refine ⟨c2, ?_⟩
    rw [e2]; constructor <;> linarith [c3.1, c3.2]

/-! ## NaN -/

section
variable {ρ : Rounding}

theorem atan_nan {x : FP ρ} (h : isNaN x = true) : isNaN (Traquer.atan x) = true := by
  rw [isNaN_iff] at h; subst h; rfl

theorem feq_nan {x y : FP ρ} (h : isNaN x = true) : (x ==. y) = false := by
  rw [isNaN_iff] at h; subst h; rfl

theorem hilbert_nan {a b c d t : FP ρ} (h : isNaN a = true ∨ isNaN b = true ∨ isNaN c = true ∨ isNaN d = true) :
    isNaN (hilbert a b c d t) = true := by
  unfold hilbert
  rcases h with h | h | h | h <;> nanp

/-- After reading a NaN the period estimate is NaN. -/
theorem mamaStep_nan {fast slow : FP ρ} {sm data : List (FP ρ)} {st st' : MamaState (FP ρ)} {i : ℕ} {y : FP ρ × FP ρ}
    (h : mamaStep fast slow sm data st i = some (st', y))
    (hn : ∃ j ∈ [i, i - 2, i - 4, i - 6], ∃ x, sm[j]? = some x ∧ isNaN x = true) : isNaN st'.pd = true := by
  unfold mamaStep at h
  extract_lets tweak at h
  obtain ⟨s0, e0, h⟩ := Option.bind_eq_some_iff.1 h
  obtain ⟨s2, e2, h⟩ := Option.bind_eq_some_iff.1 h
  obtain ⟨s4, e4, h⟩ := Option.bind_eq_some_iff.1 h
  obtain ⟨s6, e6, h⟩ := Option.bind_eq_some_iff.1 h
  have hnan : isNaN (hilbert s0 s2 s4 s6 (0.075 * st.pd + 0.54)) = true := by
    obtain ⟨j, hj, x, ex, hx⟩ := hn
    apply hilbert_nan
    simp only [List.mem_cons, List.not_mem_nil, or_false] at hj
    rcases hj with rfl | rfl | rfl | rfl
    · rw [e0] at ex; cases ex; exact Or.inl hx
    · rw [e2] at ex; cases ex; exact Or.inr (Or.inl hx)
    · rw [e4] at ex; cases ex; exact Or.inr (Or.inr (Or.inl hx))
    · rw [e6] at ex; cases ex; exact Or.inr (Or.inr (Or.inr hx))
  obtain ⟨q, eq, h⟩ := Option.bind_eq_some_iff.1 h
  have hq : isNaN q = true := by
    simp only [hilbertQ, pushFront, Option.bind_eq_bind, List.getElem?_cons_zero, Option.bind_some] at eq
    obtain ⟨b, -, eq⟩ := Option.bind_eq_some_iff.1 eq
    obtain ⟨c, -, eq⟩ := Option.bind_eq_some_iff.1 eq
    obtain ⟨d, -, eq⟩ := Option.bind_eq_some_iff.1 eq
    cases eq
    exact hilbert_nan (Or.inl hnan)
  obtain ⟨d3, ed3, h⟩ := Option.bind_eq_some_iff.1 h
  obtain ⟨ji, eji, h⟩ := Option.bind_eq_some_iff.1 h
  obtain ⟨jq, ejq, h⟩ := Option.bind_eq_some_iff.1 h
  have hjq : isNaN jq = true := by
    simp only [hilbertQ, pushFront, Option.bind_eq_bind, List.getElem?_cons_zero, Option.bind_some] at ejq
    obtain ⟨b, -, ejq⟩ := Option.bind_eq_some_iff.1 ejq
    obtain ⟨c, -, ejq⟩ := Option.bind_eq_some_iff.1 ejq
    obtain ⟨d, -, ejq⟩ := Option.bind_eq_some_iff.1 ejq
    cases ejq
    exact hilbert_nan (Or.inl hq)
  obtain ⟨i10, ei10, h⟩ := Option.bind_eq_some_iff.1 h
  obtain ⟨q10, eq10, h⟩ := Option.bind_eq_some_iff.1 h
  have hI2 : isNaN (0.2 * (i10 - jq) + 0.8 * st.i2) = true := by nanp
  dsimp only at h
  generalize (0.2 * (i10 - jq) + 0.8 * st.i2) = I2 at h hI2
  generalize (0.2 * (q10 + ji) + 0.8 * st.q2) = Q2 at h
  have hRE : isNaN (0.2 * (I2 * st.i2 + Q2 * st.q2) + 0.8 * st.re) = true := by nanp
  have hIM : isNaN (0.2 * (I2 * st.q2 - Q2 * st.i2) + 0.8 * st.im) = true := by nanp
  generalize (0.2 * (I2 * st.i2 + Q2 * st.q2) + 0.8 * st.re) = RE at h hRE
  generalize (0.2 * (I2 * st.q2 - Q2 * st.i2) + 0.8 * st.im) = IM at h hIM
  obtain ⟨pd1, e1, h⟩ := Option.bind_eq_some_iff.1 h
  obtain ⟨x, ex, h⟩ := Option.bind_eq_some_iff.1 h
  simp only [Option.some.injEq, Prod.mk.injEq] at h
  obtain ⟨rfl, -⟩ := h
  have hpd0 : isNaN (360 / Traquer.atan (IM / RE)) = true := NaNLaws.div_right _ _ (atan_nan (by nanp))
  rw [feq_nan hIM, feq_nan hRE, isNaN_iff.1 hpd0] at e1
  simp only [Bool.not_false, Bool.and_self, if_true, fclamp, clampLit_nan] at e1
  split at e1
  · cases e1
    show isNaN (0.2 * clampLit FP.nan 6 50 + 0.8 * st.pd) = true
    rw [clampLit_nan]
    have := isNaN_nan (ρ := ρ)
    nanp
  · cases e1

/-- With a NaN period the next step panics (`clamp` with NaN bounds). -/
theorem mamaStep_panics {fast slow : FP ρ} {sm data : List (FP ρ)} {st : MamaState (FP ρ)} (i : ℕ) (h : isNaN st.pd = true) :
    mamaStep fast slow sm data st i = none := by
  have hle : ∀ x y : FP ρ, isNaN x = true → (x <=. y) = false := by
    intro x y hx; rw [isNaN_iff] at hx; subst hx; rfl
  have hc : ∀ z : FP ρ, fclamp z (0.67 * st.pd) (1.5 * st.pd) = none := fun z => by
    rw [fclamp, hle _ _ (by nanp)]; simp
  simp only [mamaStep, hc, Option.bind_eq_bind, Option.bind_none, Option.bind_fun_none]

theorem mamaSmooth_nan (data : List (FP ρ)) (j k : ℕ) (hj : j ≤ k) (hk : k ≤ j + 3) (h3 : 3 ≤ k) (hn : k < data.length)
    (h : data[j]? = some FP.nan) : ∃ x, (mamaSmooth data)[k]? = some x ∧ isNaN x = true := by
  have e := windowsOf_getElem? (n := 4) (l := data) (i := k - 3) (by omega)
  have e0 := getElem?_of_lt (show k - 3 < data.length by omega)
  have e1 := getElem?_of_lt (show k - 3 + 1 < data.length by omega)
  have e2 := getElem?_of_lt (show k - 3 + 2 < data.length by omega)
  have e3 := getElem?_of_lt (show k - 3 + 3 < data.length by omega)
  have hw : (data.drop (k - 3)).take 4 = [data[k - 3], data[k - 3 + 1], data[k - 3 + 2], data[k - 3 + 3]] := by
    rw [List.drop_eq_getElem_cons (by omega), List.drop_eq_getElem_cons (by omega), List.drop_eq_getElem_cons (by omega),
      List.drop_eq_getElem_cons (by omega)]
    rfl
  rw [hw] at e
  refine ⟨_, by rw [mamaSmooth, List.getElem?_append_right (by simpa using h3), List.length_replicate, List.getElem?_map, e]; rfl, ?_⟩
  have hnan := isNaN_nan (ρ := ρ)
  rcases (show j = k - 3 ∨ j = k - 3 + 1 ∨ j = k - 3 + 2 ∨ j = k - 3 + 3 by omega) with rfl | rfl | rfl | rfl
  · rw [e0] at h; rw [Option.some.inj h]; nanp
  · rw [e1] at h; rw [Option.some.inj h]; nanp
  · rw [e2] at h; rw [Option.some.inj h]; nanp
  · rw [e3] at h; rw [Option.some.inj h]; nanp

/-- C28: a NaN anywhere in the data makes `mama` panic at the bar after the first one it affects, in every rounding. -/
theorem mama_nan_panics (data : List (FP ρ)) (fast slow : Option (FP ρ)) (j : ℕ) (hj : data[j]? = some FP.nan)
    (hn : max j 7 + 1 < data.length) : mama data fast slow = none := by
  have key : scanM (mamaStep (fast.getD 0.5) (slow.getD 0.05) (mamaSmooth data) data) mamaInit ((List.range data.length).drop 6) = none := by
    refine scanM_none_of (k := max j 7 - 6) (x₀ := max j 7) (x₁ := max j 7 + 1) ?_ ?_ ?_ _
    · rw [List.getElem?_drop, List.getElem?_range (by omega)]; congr 1; omega
    · rw [List.getElem?_drop, List.getElem?_range (by omega)]; congr 1; omega
    · intro s s' y h
      refine mamaStep_panics _ (mamaStep_nan h ?_)
      rcases (show 7 ≤ j ∨ j = 6 ∨ j = 5 ∨ j = 4 ∨ j ≤ 3 by omega) with h7 | rfl | rfl | rfl | h3
      · exact ⟨max j 7, by simp, mamaSmooth_nan data j _ (by omega) (by omega) (by omega) (by omega) hj⟩
      · exact ⟨7, by simp, mamaSmooth_nan data 6 7 (by omega) (by omega) (by omega) (by omega) hj⟩
      · exact ⟨7, by simp, mamaSmooth_nan data 5 7 (by omega) (by omega) (by omega) (by omega) hj⟩
      · exact ⟨7, by simp, mamaSmooth_nan data 4 7 (by omega) (by omega) (by omega) (by omega) hj⟩
      · refine ⟨3, ?_, mamaSmooth_nan data j 3 (by omega) (by omega) (by omega) (by omega) hj⟩
        have : max j 7 = 7 := by omega
        rw [this]; simp
  simp only [mama, Option.bind_eq_bind, key, Option.bind_none]

/-- Nine bars, the first of them NaN. -/
example : mama (FP.nan :: List.replicate 8 (fin 1 : FP ρ)) none none = none :=
  mama_nan_panics _ _ _ 0 rfl (by simp)

end

example : ∃ (out : List (XF × XF)) (m fm : ℕ → ℝ), mama ((List.range 10).map fun i : ℕ => (fin (i : ℝ) : XF)) none none = some out ∧
    Reports 10 6 m (some (out.map fun x => x.1)) ∧ Reports 10 6 fm (some (out.map fun x => x.2)) ∧
      ∀ i, 6 ≤ i → i < 10 → (0 ≤ m i ∧ m i ≤ 9) ∧ 0 ≤ fm i ∧ fm i ≤ 9 := by
  have := mama_inRange ((List.range 10).map fun i : ℕ => (fin (i : ℝ) : XF)) none none 0.5 0.05 0 9 (by simp)
    (by intro x hx; obtain ⟨i, -, rfl⟩ := List.mem_map.1 hx; trivial) (is_sci 5 true 1) (is_sci 5 true 2) (by norm_num) (by norm_num)
    (by norm_num) (by norm_num) le_rfl (by norm_num) (by
      intro x hx
      simp only [vals, List.mem_map] at hx
      obtain ⟨_, ⟨i, hi, rfl⟩, rfl⟩ := hx
      rw [List.mem_range] at hi
      simp only [val]
      have : (i : ℝ) ≤ 9 := by exact_mod_cast (show i ≤ 9 by omega)
      exact ⟨by positivity, this⟩)
  simpa using this

end Traquer.Smooth
