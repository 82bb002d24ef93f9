import Verif.Props.Mama
import Verif.Props.Trailing
import Verif.Spec.Mesa
import Verif.Spec.Flow
import Verif.Lemmas.Witness
import Mathlib.Analysis.Real.Pi.Bounds
/-!
# C76: mama solves Ehlers' equations

Exact arithmetic over finite inputs.
-/

namespace Traquer.Smooth
open FP FloatLit
open Traquer.Trend (is_bar)

theorem bar_get {l : List XF} {i : ℕ} {x : XF} (h : l[i]? = some x) : bar (vals l) i = x.val := by
  simp [bar, vals, h]

theorem bar_pushFront (q : List XF) (x : XF) : bar (vals (pushFront q x)) 0 = x.val := by
  simp [bar, vals, pushFront]

theorem bar_pushFront_succ {q : List XF} (x : XF) {j : ℕ} (hq : q.length = 7) (hj : j < 6) :
    bar (vals (pushFront q x)) (j + 1) = bar (vals q) j := by
  have h1 : j < q.dropLast.length := by simp [hq]; omega
  have h2 : (pushFront q x)[j + 1]? = some (q.dropLast[j]) := by
    rw [pushFront, List.getElem?_cons_succ, getElem?_of_lt h1]
  have h3 : q[j]? = some (q.dropLast[j]) := by
    rw [List.getElem_dropLast, getElem?_of_lt (by omega)]
  rw [bar_get h2, bar_get h3]

/-- The Hilbert transform of a queue. -/
noncomputable def hilbertV (q : List XF) (t : ℝ) : ℝ :=
  (0.0962 * bar (vals q) 0 + 0.5769 * bar (vals q) 2 - 0.5769 * bar (vals q) 4 - 0.0962 * bar (vals q) 6) * t

theorem hilbert_is {a b c d t : XF} {ra rb rc rd rt : ℝ} (ha : a ⇓ ra) (hb : b ⇓ rb) (hc : c ⇓ rc) (hd : d ⇓ rd) (ht : t ⇓ rt) :
    hilbert a b c d t ⇓ (0.0962 * ra + 0.5769 * rb - 0.5769 * rc - 0.0962 * rd) * rt :=
  is_mul (is_sub (is_sub (is_add (is_mul (is_sci 962 true 4) ha) (is_mul (is_sci 5769 true 4) hb)) (is_mul (is_sci 5769 true 4) hc))
    (is_mul (is_sci 962 true 4) hd)) ht

theorem hilbertQ_is {q : List XF} {t : XF} {rt : ℝ} (h : q.length = 7 ∧ Fins q) (ht : t ⇓ rt) :
    ∃ x, hilbertQ q t = some x ∧ x ⇓ hilbertV q rt := by
  obtain ⟨a, ea, ha⟩ := get_ok h 0 (by omega)
  obtain ⟨b, eb, hb⟩ := get_ok h 2 (by omega)
  obtain ⟨c, ec, hc⟩ := get_ok h 4 (by omega)
  obtain ⟨d, ed, hd⟩ := get_ok h 6 (by omega)
  refine ⟨hilbert a b c d t, by simp [hilbertQ, ea, eb, ec, ed], ?_⟩
  rw [hilbertV, bar_get ea, bar_get eb, bar_get ec, bar_get ed]
  exact hilbert_is ha.is hb.is hc.is hd.is ht

/-- What one step of mama does to the values, in terms of the queues before and after it. -/
theorem mamaStep_eqs {fast slow : XF} {f s : ℝ} {sm data : List XF} {st : MamaState XF} {i : ℕ} (hf : fast ⇓ f) (hs : slow ⇓ s)
    (hsm : Fins sm) (hd : Fins data) (hl : sm.length = data.length) (hi : i < data.length) (h : MamaOK st) :
    ∃ st', mamaStep fast slow sm data st i = some (st', (st'.mama, st'.fama)) ∧ MamaOK st' ∧
      (∀ j < 6, bar (vals st'.dtrend) (j + 1) = bar (vals st.dtrend) j) ∧
      (∀ j < 6, bar (vals st'.q1) (j + 1) = bar (vals st.q1) j) ∧
      (∀ j < 6, bar (vals st'.i1) (j + 1) = bar (vals st.i1) j) ∧
      bar (vals st'.dtrend) 0 = (0.0962 * bar (vals sm) i + 0.5769 * bar (vals sm) (i - 2) - 0.5769 * bar (vals sm) (i - 4) -
        0.0962 * bar (vals sm) (i - 6)) * (0.075 * st.pd.val + 0.54) ∧
      bar (vals st'.q1) 0 = hilbertV st'.dtrend (0.075 * st.pd.val + 0.54) ∧
      bar (vals st'.i1) 0 = bar (vals st'.dtrend) 3 ∧
      st'.i2.val = 0.2 * (bar (vals st'.i1) 0 - hilbertV st'.q1 (0.075 * st.pd.val + 0.54)) + 0.8 * st.i2.val ∧
      st'.q2.val = 0.2 * (bar (vals st'.q1) 0 + hilbertV st'.i1 (0.075 * st.pd.val + 0.54)) + 0.8 * st.q2.val ∧
      st'.re.val = 0.2 * (st'.i2.val * st.i2.val + st'.q2.val * st.q2.val) + 0.8 * st.re.val ∧
      st'.im.val = 0.2 * (st'.i2.val * st.q2.val - st'.q2.val * st.i2.val) + 0.8 * st.im.val ∧
      st'.pd.val = 0.2 * limit 6 50 (limit (0.67 * st.pd.val) (1.5 * st.pd.val) (rawPeriod st'.im.val st'.re.val)) + 0.8 * st.pd.val ∧
      st'.phase.val = (if bar (vals st'.i1) 0 ≠ 0 then Real.arctan (bar (vals st'.q1) 0 / bar (vals st'.i1) 0) else 0) ∧
      st'.mama.val = max (f / max (st.phase.val - st'.phase.val) 1) s * bar (vals data) i +
        (1 - max (f / max (st.phase.val - st'.phase.val) 1) s) * st.mama.val ∧
      st'.fama.val = 0.5 * max (f / max (st.phase.val - st'.phase.val) 1) s * st'.mama.val +
        (1 - 0.5 * max (f / max (st.phase.val - st'.phase.val) 1) s) * st.fama.val := by
  obtain ⟨p, hp, p0, p1⟩ := h.pd
  have hpv : st.pd.val = p := hp.2
  have htw : (0.075 * st.pd + 0.54 : XF) ⇓ 0.075 * p + 0.54 := is_add (is_mul (is_sci 75 true 3) hp) (is_sci 54 true 2)
  have gs : ∀ j, j ≤ i → ∃ x, sm[j]? = some x ∧ x ⇓ bar (vals sm) j := fun j hj =>
    ⟨_, getElem?_of_lt (by omega), is_bar hsm (getElem?_of_lt (by omega))⟩
  obtain ⟨s0, e0, f0⟩ := gs i le_rfl
  obtain ⟨s2, e2, f2⟩ := gs (i - 2) (by omega)
  obtain ⟨s4, e4, f4⟩ := gs (i - 4) (by omega)
  obtain ⟨s6, e6, f6⟩ := gs (i - 6) (by omega)
  have ed := getElem?_of_lt hi
  have hx := is_bar hd ed
  have hD := hilbert_is f0 f2 f4 f6 htw
  have ok1 := pushFront_ok h.dtrend hD.1
  obtain ⟨q, eq, fq⟩ := hilbertQ_is ok1 htw
  obtain ⟨d3, ed3, fd3⟩ := get_ok ok1 3 (by omega)
  have okq := pushFront_ok h.q1 fq.1
  have oki := pushFront_ok h.i1 fd3
  obtain ⟨ji, eji, fji⟩ := hilbertQ_is oki htw
  obtain ⟨jq, ejq, fjq⟩ := hilbertQ_is okq htw
  have ei10 : (pushFront st.i1 d3)[0]? = some d3 := rfl
  have eq10 : (pushFront st.q1 q)[0]? = some q := rfl
  have hI2 := is_add (is_mul (is_sci 2 true 1) (is_sub fd3.is fjq)) (is_mul (is_sci 8 true 1) h.i2.is)
  have hQ2 := is_add (is_mul (is_sci 2 true 1) (is_add fq fji)) (is_mul (is_sci 8 true 1) h.q2.is)
  generalize gI2 : (OfScientific.ofScientific 2 true 1 * (d3 - jq) + OfScientific.ofScientific 8 true 1 * st.i2 : XF) = I2 at hI2
  generalize gQ2 : (OfScientific.ofScientific 2 true 1 * (q + ji) + OfScientific.ofScientific 8 true 1 * st.q2 : XF) = Q2 at hQ2
  have hRE := is_add (is_mul (is_sci 2 true 1) (is_add (is_mul hI2.1.is h.i2.is) (is_mul hQ2.1.is h.q2.is))) (is_mul (is_sci 8 true 1) h.re.is)
  have hIM := is_add (is_mul (is_sci 2 true 1) (is_sub (is_mul hI2.1.is h.q2.is) (is_mul hQ2.1.is h.i2.is))) (is_mul (is_sci 8 true 1) h.im.is)
  generalize gRE : (OfScientific.ofScientific 2 true 1 * (I2 * st.i2 + Q2 * st.q2) + OfScientific.ofScientific 8 true 1 * st.re : XF) = RE at hRE
  generalize gIM : (OfScientific.ofScientific 2 true 1 * (I2 * st.q2 - Q2 * st.i2) + OfScientific.ofScientific 8 true 1 * st.im : XF) = IM at hIM
  have hpd0 : (if (!(IM ==. 0) && !(RE ==. 0)) = true then 360 / Traquer.atan (IM / RE) else 0 : XF) ⇓ rawPeriod IM.val RE.val := by
    rw [is_feq hIM.1.is is_zero, is_feq hRE.1.is is_zero, rawPeriod]
    by_cases c1 : IM.val = 0
    · simpa [c1] using is_zero
    by_cases c2 : RE.val = 0
    · simpa [c2] using is_zero
    simp only [c1, c2, decide_false, Bool.not_false, Bool.and_self, if_true, ne_eq, not_false_eq_true, and_self]
    exact is_div (is_lit 360) (is_atan (is_div hIM.1.is hRE.1.is c2)) (by
      rw [Ne, Real.arctan_eq_zero_iff]
      exact div_ne_zero c1 c2)
  generalize gpd0 : (if (!(IM ==. 0) && !(RE ==. 0)) = true then 360 / Traquer.atan (IM / RE) else 0 : XF) = pd0 at hpd0
  have hlo := is_mul (is_sci 67 true 2) hp
  have hhi := is_mul (is_sci 15 true 1) hp
  have hlohi : (OfScientific.ofScientific 67 true 2 : ℝ) * p ≤ OfScientific.ofScientific 15 true 1 * p := by
    apply mul_le_mul_of_nonneg_right _ p0; norm_num
  have epd1 : fclamp pd0 (0.67 * st.pd) (1.5 * st.pd) = some (clampLit pd0 (0.67 * st.pd) (1.5 * st.pd)) := by
    rw [fclamp, is_le hlo hhi, if_pos (by simpa using hlohi)]
  have hpd1 := is_clampLit hpd0 hlo hhi hlohi
  generalize clampLit pd0 (0.67 * st.pd) (1.5 * st.pd) = pd1 at epd1 hpd1
  have hpd2 := is_clampLit hpd1 (is_lit 6) (is_lit 50) (by norm_num)
  have hpd := is_add (is_mul (is_sci 2 true 1) hpd2) (is_mul (is_sci 8 true 1) hp)
  have hph : (if (!(d3 ==. 0)) = true then Traquer.atan (q / d3) else 0 : XF) ⇓
      if d3.val ≠ 0 then Real.arctan (q.val / d3.val) else 0 := by
    rw [is_feq fd3.is is_zero]
    by_cases c1 : d3.val = 0
    · simpa [c1] using is_zero
    · simp only [c1, decide_false, Bool.not_false, if_true, ne_eq, not_false_eq_true]
      exact is_atan (is_div fq.1.is fd3.is c1)
  generalize gph : (if (!(d3 ==. 0)) = true then Traquer.atan (q / d3) else 0 : XF) = ph at hph
  have hdel := is_fmax (is_sub h.phase.is hph.1.is) is_one
  have hdp : 1 ≤ max (st.phase.val - ph.val) 1 := le_max_right _ _
  have hal := is_fmax (is_div hf hdel (by linarith)) hs
  generalize gA : fmax (fast / fmax (st.phase - ph) 1) slow = al at hal
  have hma := is_add (is_mul hal hx) (is_mul (is_sub is_one hal) h.mama.is)
  have hfa := is_add (is_mul (is_mul (is_sci 5 true 1) hal) hma.1.is)
    (is_mul (is_sub is_one (is_mul (is_sci 5 true 1) hal)) h.fama.is)
  refine ⟨⟨al * data[i] + (1 - al) * st.mama, 0.5 * al * (al * data[i] + (1 - al) * st.mama) + (1 - 0.5 * al) * st.fama,
    0.2 * clampLit pd1 6 50 + 0.8 * st.pd, ph, RE, IM, I2, Q2,
    pushFront st.dtrend (hilbert s0 s2 s4 s6 (0.075 * st.pd + 0.54)), pushFront st.i1 d3, pushFront st.q1 q⟩, ?_, ?_, ?_, ?_, ?_, ?_⟩
  · simp only [mamaStep, e0, e2, e4, e6, Option.bind_eq_bind, Option.bind_some, eq, ed3, eji, ejq, ei10, eq10, gI2, gQ2, gRE, gIM, ed]
    simp only [gpd0, epd1, Option.bind_some, gph, gA]
  · refine { mama := hma.1, fama := hfa.1, pd := ⟨_, hpd, ?_, ?_⟩, phase := hph.1, re := hRE.1, im := hIM.1,
             i2 := hI2.1, q2 := hQ2.1, dtrend := ok1, i1 := oki, q1 := okq }
    · have : (6 : ℝ) ≤ max 6 (min (max (OfScientific.ofScientific 67 true 2 * p) (min (rawPeriod IM.val RE.val)
        (OfScientific.ofScientific 15 true 1 * p))) 50) := le_max_left _ _
      positivity
    · have : max 6 (min (max (OfScientific.ofScientific 67 true 2 * p) (min (rawPeriod IM.val RE.val)
        (OfScientific.ofScientific 15 true 1 * p))) 50) ≤ (50 : ℝ) := max_le (by norm_num) (min_le_right _ _)
      linarith
  · exact fun j hj => bar_pushFront_succ _ h.dtrend.1 hj
  · exact fun j hj => bar_pushFront_succ _ h.q1.1 hj
  · exact fun j hj => bar_pushFront_succ _ h.i1.1 hj
  · simp only [bar_pushFront, hpv]
    refine ⟨hD.2, fq.2, (bar_get ed3).symm, ?_, ?_, hRE.2, hIM.2, hpd.2, hph.2, hma.2, hfa.2⟩
    · exact hI2.2
    · have := hQ2.2
      rw [← fq.2] at this
      exact this

/-- The states of mama's scan. -/
noncomputable def mamaRun (fast slow : XF) (data : List XF) : ℕ → MamaState XF
  | 0 => mamaInit
  | k + 1 => ((mamaStep fast slow (mamaSmooth data) data (mamaRun fast slow data k) (6 + k)).map Prod.fst).getD (mamaRun fast slow data k)

theorem mamaSmooth_bar (data : List XF) (hd : Fins data) {i : ℕ} (hi : i < data.length) :
    bar (vals (mamaSmooth data)) i = smooth4 (bar (vals data)) i := by
  unfold smooth4
  split
  · rename_i h
    have : (mamaSmooth data)[i]? = some 0 := by
      rw [mamaSmooth, List.getElem?_append_left (by simpa using h), List.getElem?_replicate, if_pos h]
    rw [bar_get this]; exact is_zero.2
  · rename_i h
    obtain ⟨j, rfl⟩ : ∃ j, i = j + 3 := ⟨i - 3, by omega⟩
    have hw := windowsOf_recent (l := data) (w := 4) (i := j + 3) (by omega) (by omega) hi
    rw [show j + 3 - (4 - 1) = j by omega] at hw
    have hr : recent data 4 (j + 3) = [data[j], data[j + 1], data[j + 2], data[j + 3]] := by
      apply List.ext_getElem?
      intro k
      rw [recent, show j + 3 + 1 - 4 = j by omega, List.getElem?_take]
      split
      · rename_i hk
        rw [List.getElem?_drop]
        match k, hk with
        | 0, _ => simp
        | 1, _ => simp
        | 2, _ => simp
        | 3, _ => simp
      · rename_i hk
        rw [List.getElem?_eq_none (by simp; omega)]
    have : (mamaSmooth data)[j + 3]? = some ((4 * data[j + 3] + 3 * data[j + 2] + 2 * data[j + 1] + data[j]) / 10) := by
      rw [mamaSmooth, List.getElem?_append_right (by simp), List.length_replicate, Nat.add_sub_cancel, List.getElem?_map, hw, hr]
      rfl
    have b : ∀ k (hk : k < data.length), data[k] ⇓ bar (vals data) k := fun k hk => is_bar hd (getElem?_of_lt hk)
    have := bar_get this
    rw [this]
    have := is_div (is_add (is_add (is_add (is_mul (is_lit 4) (b (j + 3) hi)) (is_mul (is_lit 3) (b (j + 2) (by omega))))
      (is_mul (is_lit 2) (b (j + 1) (by omega)))) (b j (by omega))) (is_lit 10) (by norm_num)
    rw [this.2]
    simp

/-- The sequences read off mama's states. -/
noncomputable def mamaMesa (fast slow : XF) (f s : ℝ) (data : List XF) : Mesa where
  period i := (mamaRun fast slow data (i - 5)).pd.val
  detrend i := bar (vals (mamaRun fast slow data (i - 5)).dtrend) 0
  inPhase i := bar (vals (mamaRun fast slow data (i - 5)).i1) 0
  quad i := bar (vals (mamaRun fast slow data (i - 5)).q1) 0
  i2 i := (mamaRun fast slow data (i - 5)).i2.val
  q2 i := (mamaRun fast slow data (i - 5)).q2.val
  re i := (mamaRun fast slow data (i - 5)).re.val
  im i := (mamaRun fast slow data (i - 5)).im.val
  phase i := (mamaRun fast slow data (i - 5)).phase.val
  gain i := max (f / max ((mamaRun fast slow data (i - 6)).phase.val - (mamaRun fast slow data (i - 5)).phase.val) 1) s
  mama i := (mamaRun fast slow data (i - 5)).mama.val
  fama i := (mamaRun fast slow data (i - 5)).fama.val

theorem bar_zeros (k j : ℕ) : bar (vals (List.replicate k (0 : XF))) j = 0 := by
  by_cases h : j < k
  · rw [bar_get (x := 0) (by rw [List.getElem?_replicate, if_pos h])]; exact is_zero.2
  · simp [bar, vals, h]

section run
variable {fast slow : XF} {f s : ℝ} {data : List XF} (hn : 3 ≤ data.length) (hd : Fins data) (hf : fast ⇓ f) (hs : slow ⇓ s)
include hn hd hf hs

theorem mamaRun_ok (k : ℕ) : MamaOK (mamaRun fast slow data k) := by
  induction k with
  | zero => exact mamaInit_ok
  | succ k ih =>
    by_cases h : 6 + k < data.length
    · obtain ⟨st', e, h1, -⟩ := mamaStep_eqs hf hs (mamaSmooth_fins data hd) hd (mamaSmooth_length data hn) h ih
      rw [mamaRun, e]; exact h1
    · have : mamaStep fast slow (mamaSmooth data) data (mamaRun fast slow data k) (6 + k) = none := by
        have e : (mamaSmooth data)[6 + k]? = none := List.getElem?_eq_none (by rw [mamaSmooth_length data hn]; omega)
        unfold mamaStep
        rw [e]
        rfl
      rw [mamaRun, this]; exact ih

/-- Entry `j` of each queue is what was pushed `j` bars ago. -/
theorem mamaRun_queues (k : ℕ) (hk : k = 0 ∨ 5 + k < data.length) (j : ℕ) (hj : j < 7) :
    bar (vals (mamaRun fast slow data k).dtrend) j = (mamaMesa fast slow f s data).detrend (5 + k - j) ∧
    bar (vals (mamaRun fast slow data k).q1) j = (mamaMesa fast slow f s data).quad (5 + k - j) ∧
    bar (vals (mamaRun fast slow data k).i1) j = (mamaMesa fast slow f s data).inPhase (5 + k - j) := by
  induction k generalizing j with
  | zero =>
    have : 5 + 0 - j - 5 = 0 := by omega
    simp only [mamaMesa, this, mamaRun, mamaInit, bar_zeros, and_self]
  | succ k ih =>
    have hk' : 6 + k < data.length := by omega
    obtain ⟨st', e, -, a1, a2, a3, -⟩ :=
      mamaStep_eqs hf hs (mamaSmooth_fins data hd) hd (mamaSmooth_length data hn) hk' (mamaRun_ok hn hd hf hs k)
    cases j with
    | zero => simp only [mamaMesa, show 5 + (k + 1) - 0 - 5 = k + 1 by omega, and_self]
    | succ j =>
      rw [show 5 + (k + 1) - (j + 1) = 5 + k - j by omega]
      have er : mamaRun fast slow data (k + 1) = st' := by rw [mamaRun, e]; rfl
      rw [er, a1 j (by omega), a2 j (by omega), a3 j (by omega)]
      exact ih (by omega) j (by omega)

/-- The sequences read off mama's states solve the equations. -/
theorem mamaMesa_solves : (mamaMesa fast slow f s data).Solves f s (bar (vals data)) data.length := by
  have key : ∀ i, 6 ≤ i → i < data.length → ∃ k, i = 6 + k := fun i h _ => ⟨i - 6, by omega⟩
  have step : ∀ k, 6 + k < data.length → _ := fun k hk =>
    mamaStep_eqs hf hs (mamaSmooth_fins data hd) hd (mamaSmooth_length data hn) hk (mamaRun_ok hn hd hf hs k)
  have run : ∀ k, 6 + k < data.length → ∀ st' y, mamaStep fast slow (mamaSmooth data) data (mamaRun fast slow data k) (6 + k) = some (st', y) →
      mamaRun fast slow data (k + 1) = st' := fun k _ st' y e => by rw [mamaRun, e]; rfl
  have q : ∀ k, 6 + k < data.length → ∀ j < 7,
      bar (vals (mamaRun fast slow data (k + 1)).dtrend) j = (mamaMesa fast slow f s data).detrend (6 + k - j) ∧
      bar (vals (mamaRun fast slow data (k + 1)).q1) j = (mamaMesa fast slow f s data).quad (6 + k - j) ∧
      bar (vals (mamaRun fast slow data (k + 1)).i1) j = (mamaMesa fast slow f s data).inPhase (6 + k - j) := fun k hk j hj => by
    have := mamaRun_queues hn hd hf hs (k + 1) (Or.inr (by omega)) j hj
    rwa [show 5 + (k + 1) = 6 + k by omega] at this
  have i5 : ∀ k, 6 + k - 5 = k + 1 := fun k => by omega
  have i6 : ∀ k, 6 + k - 6 = k := fun k => by omega
  have i15 : ∀ k, 6 + k - 1 - 5 = k := fun k => by omega
  have hV : ∀ k, 6 + k < data.length → ∀ t,
      hilbertV (mamaRun fast slow data (k + 1)).dtrend t = hilbertAt (mamaMesa fast slow f s data).detrend t (6 + k) ∧
      hilbertV (mamaRun fast slow data (k + 1)).q1 t = hilbertAt (mamaMesa fast slow f s data).quad t (6 + k) ∧
      hilbertV (mamaRun fast slow data (k + 1)).i1 t = hilbertAt (mamaMesa fast slow f s data).inPhase t (6 + k) := fun k hk t => by
    have h0 := q k hk 0 (by omega)
    have h2 := q k hk 2 (by omega)
    have h4 := q k hk 4 (by omega)
    have h6 := q k hk 6 (by omega)
    rw [Nat.sub_zero] at h0
    simp only [hilbertV, hilbertAt, h0, h2, h4, h6, and_self]
  constructor
  · intro i hi
    have : i - 5 = 0 := by omega
    simp only [mamaMesa, this, mamaRun, mamaInit, bar_zeros, is_zero.2, and_self]
  all_goals
    intro i h6 hi
    obtain ⟨k, rfl⟩ := key i h6 hi
    obtain ⟨st', e, -, -, -, -, b1, b2, b3, b4, b5, b6, b7, b8, b9, b10, b11⟩ := step k hi
    have er := run k hi st' _ e
    rw [← er] at b1 b2 b3 b4 b5 b6 b7 b8 b9 b10 b11
    have hv := hV k hi
  · rw [mamaSmooth_bar data hd hi, mamaSmooth_bar data hd (by omega), mamaSmooth_bar data hd (by omega), mamaSmooth_bar data hd (by omega)] at b1
    simpa only [mamaMesa, i5, i15, hilbertAt] using b1
  · rw [(hv _).1] at b2
    simpa only [mamaMesa, i5, i15] using b2
  · rw [(q k hi 3 (by omega)).1] at b3
    simpa only [mamaMesa, i5] using b3
  · rw [(hv _).2.1] at b4
    simpa only [mamaMesa, i5, i15] using b4
  · rw [(hv _).2.2] at b5
    simpa only [mamaMesa, i5, i15] using b5
  · simpa only [mamaMesa, i5, i15] using b6
  · simpa only [mamaMesa, i5, i15] using b7
  · simpa only [mamaMesa, i5, i15] using b8
  · simpa only [mamaMesa, i5] using b9
  · simp only [mamaMesa, i5, i6, i15]
  · simpa only [mamaMesa, i5, i6, i15] using b10
  · simpa only [mamaMesa, i5, i6, i15] using b11

end run

/-- C76: on finite data `mama` reports the two averages of a solution of Ehlers' equations, from bar 6 on. -/
theorem mama_reports (data : List XF) (fast slow : Option XF) (f s : ℝ) (hn : 6 ≤ data.length) (hd : Fins data)
    (hf : fast.getD 0.5 ⇓ f) (hs : slow.getD 0.05 ⇓ s) :
    ∃ (out : List (XF × XF)) (m : Mesa), mama data fast slow = some out ∧ m.Solves f s (bar (vals data)) data.length ∧
      Reports data.length 6 m.mama (some (out.map fun x => x.1)) ∧ Reports data.length 6 m.fama (some (out.map fun x => x.2)) := by
  have hn3 : 3 ≤ data.length := by omega
  set F := fast.getD 0.5
  set S := slow.getD 0.05
  obtain ⟨r, hr, hP⟩ := scanM_idx_some (f := mamaStep F S (mamaSmooth data) data) (s := mamaInit) (l := (List.range data.length).drop 6)
    (I := fun k st => st = mamaRun F S data k)
    (P := fun k y => y.1 ⇓ (mamaMesa F S f s data).mama (6 + k) ∧ y.2 ⇓ (mamaMesa F S f s data).fama (6 + k)) (by
      intro k st i hi hst
      have hk : 6 + k < data.length := by
        have := (List.getElem?_eq_some_iff.1 hi).1
        simp at this; omega
      have : i = 6 + k := by
        rw [List.getElem?_drop, List.getElem?_range hk] at hi
        exact (Option.some.inj hi).symm
      subst this
      rw [hst]
      obtain ⟨st', e, h1, -⟩ := mamaStep_eqs hf hs (mamaSmooth_fins data hd) hd (mamaSmooth_length data hn3) hk (mamaRun_ok hn3 hd hf hs k)
      have er : mamaRun F S data (k + 1) = st' := by rw [mamaRun, e]; rfl
      refine ⟨st', _, e, er.symm, ?_, ?_⟩
      · simp only [mamaMesa, show 6 + k - 5 = k + 1 by omega, er]
        exact h1.mama.is
      · simp only [mamaMesa, show 6 + k - 5 = k + 1 by omega, er]
        exact h1.fama.is) rfl
  have hrl := scanM_length hr
  rw [List.length_drop, List.length_range] at hrl
  refine ⟨List.replicate 6 (nan, nan) ++ r, mamaMesa F S f s data, ?_, mamaMesa_solves hn3 hd hf hs, ?_, ?_⟩
  · simp only [mama, Option.bind_eq_bind]
    rw [show scanM (mamaStep (fast.getD 0.5) (slow.getD 0.05) (mamaSmooth data) data) mamaInit ((List.range data.length).drop 6) = some r from hr]
    rfl
  all_goals
    rw [List.map_append, List.map_replicate]
    refine reports_nans (by simp; omega) fun j hj => ?_
    rw [List.length_map] at hj
    have e := getElem?_of_lt hj
  · exact ⟨_, by rw [List.getElem?_map, e]; rfl, (hP j _ e).1⟩
  · exact ⟨_, by rw [List.getElem?_map, e]; rfl, (hP j _ e).2⟩

end Traquer.Smooth

namespace Traquer

/-- C76: Ehlers' equations determine both averages: two solutions for the same prices agree on every bar. -/
theorem mesa_unique {m m' : Mesa} {f s : ℝ} {x : ℕ → ℝ} {n : ℕ} (h : m.Solves f s x n) (h' : m'.Solves f s x n) (i : ℕ)
    (hi : i < n) : m.mama i = m'.mama i ∧ m.fama i = m'.fama i := by
  suffices ∀ i, (i < 6 ∨ i < n) → m.period i = m'.period i ∧ m.detrend i = m'.detrend i ∧ m.inPhase i = m'.inPhase i ∧ m.quad i = m'.quad i ∧
      m.i2 i = m'.i2 i ∧ m.q2 i = m'.q2 i ∧ m.re i = m'.re i ∧ m.im i = m'.im i ∧ m.phase i = m'.phase i ∧ m.mama i = m'.mama i ∧
      m.fama i = m'.fama i by
    have := this i (Or.inr hi)
    exact ⟨this.2.2.2.2.2.2.2.2.2.1, this.2.2.2.2.2.2.2.2.2.2⟩
  intro i
  induction i using Nat.strong_induction_on with
  | _ i ih =>
    intro hi
    by_cases h6 : i < 6
    · obtain ⟨a1, a2, a3, a4, a5, a6, a7, a8, a9, a10, a11⟩ := h.start i h6
      obtain ⟨b1, b2, b3, b4, b5, b6, b7, b8, b9, b10, b11⟩ := h'.start i h6
      simp only [*, and_self]
    have h6 : 6 ≤ i := by omega
    have hn : i < n := by omega
    have prev : ∀ j, 1 ≤ j → j ≤ 6 → _ := fun j h1 hj => ih (i - j) (by omega) (by omega)
    obtain ⟨p1, p2, p3, p4, p5, p6, p7, p8, p9, p10, p11⟩ := prev 1 (by omega) (by omega)
    obtain ⟨-, d2, i2, q2, -⟩ := prev 2 (by omega) (by omega)
    obtain ⟨-, d3, -⟩ := prev 3 (by omega) (by omega)
    obtain ⟨-, d4, i4, q4, -⟩ := prev 4 (by omega) (by omega)
    obtain ⟨-, d6, i6, q6, -⟩ := prev 6 (by omega) (by omega)
    have e1 : m.detrend i = m'.detrend i := by rw [h.detrend_at i h6 hn, h'.detrend_at i h6 hn, p1]
    have e2 : m.quad i = m'.quad i := by
      rw [h.quad_at i h6 hn, h'.quad_at i h6 hn, p1, hilbertAt, hilbertAt, e1, d2, d4, d6]
    have e3 : m.inPhase i = m'.inPhase i := by rw [h.inPhase_at i h6 hn, h'.inPhase_at i h6 hn, d3]
    have e4 : m.i2 i = m'.i2 i := by
      rw [h.i2_at i h6 hn, h'.i2_at i h6 hn, p1, hilbertAt, hilbertAt, e2, e3, q2, q4, q6, p5]
    have e5 : m.q2 i = m'.q2 i := by
      rw [h.q2_at i h6 hn, h'.q2_at i h6 hn, p1, hilbertAt, hilbertAt, e2, e3, i2, i4, i6, p6]
    have e6 : m.re i = m'.re i := by rw [h.re_at i h6 hn, h'.re_at i h6 hn, e4, e5, p5, p6, p7]
    have e7 : m.im i = m'.im i := by rw [h.im_at i h6 hn, h'.im_at i h6 hn, e4, e5, p5, p6, p8]
    have e8 : m.period i = m'.period i := by rw [h.period_at i h6 hn, h'.period_at i h6 hn, e6, e7, p1]
    have e9 : m.phase i = m'.phase i := by rw [h.phase_at i h6 hn, h'.phase_at i h6 hn, e2, e3]
    have e10 : m.gain i = m'.gain i := by rw [h.gain_at i h6 hn, h'.gain_at i h6 hn, e9, p9]
    have e11 : m.mama i = m'.mama i := by rw [h.mama_at i h6 hn, h'.mama_at i h6 hn, e10, p10]
    have e12 : m.fama i = m'.fama i := by rw [h.fama_at i h6 hn, h'.fama_at i h6 hn, e10, e11, p11]
    exact ⟨e8, e1, e3, e2, e4, e5, e6, e7, e9, e11, e12⟩

theorem Mesa.Solves.phase_lt {m : Mesa} {f s : ℝ} {x : ℕ → ℝ} {n : ℕ} (h : m.Solves f s x n) (i : ℕ) (hi : i < 6 ∨ i < n) :
    |m.phase i| < Real.pi / 2 := by
  by_cases h6 : i < 6
  · rw [(h.start i h6).2.2.2.2.2.2.2.2.1, abs_zero]; positivity
  · rw [h.phase_at i (by omega) (by omega)]
    split
    · exact abs_lt.2 ⟨Real.neg_pi_div_two_lt_arctan _, Real.arctan_lt_pi_div_two _⟩
    · rw [abs_zero]; positivity

/-- C76: the phase is in radians and changes by less than pi, so the gain never comes near the slow limit: it is more than `f / pi`, and
the slow limit has no effect unless it is larger than that. -/
theorem mesa_slow_idle {m : Mesa} {f s : ℝ} {x : ℕ → ℝ} {n : ℕ} (h : m.Solves f s x n) (hf : 0 < f) (i : ℕ) (h6 : 6 ≤ i) (hi : i < n) :
    f / Real.pi < m.gain i ∧ (s ≤ f / Real.pi → m.gain i = f / max (m.phase (i - 1) - m.phase i) 1) := by
  have a := abs_lt.1 (h.phase_lt i (Or.inr hi))
  have b := abs_lt.1 (h.phase_lt (i - 1) (by omega))
  have hm : max (m.phase (i - 1) - m.phase i) 1 < Real.pi := max_lt (by linarith) (by linarith [Real.pi_gt_three])
  have h1 : (1 : ℝ) ≤ max (m.phase (i - 1) - m.phase i) 1 := le_max_right _ _
  have hq : f / Real.pi < f / max (m.phase (i - 1) - m.phase i) 1 := div_lt_div_of_pos_left hf (by linarith) hm
  rw [h.gain_at i h6 hi]
  exact ⟨lt_max_of_lt_left hq, fun hs => max_eq_left (hs.trans hq.le)⟩

/-- C76: the period the discriminator suggests is 0 or more than 229 in size, so it is never between the limits 6 and 50 it is clamped to. -/
theorem rawPeriod_far (im re : ℝ) : rawPeriod im re = 0 ∨ 229 < |rawPeriod im re| := by
  unfold rawPeriod
  split
  · rename_i h
    right
    have hne : Real.arctan (im / re) ≠ 0 := by
      rw [Ne, Real.arctan_eq_zero_iff]
      exact div_ne_zero h.1 h.2
    have hlt : |Real.arctan (im / re)| < Real.pi / 2 := abs_lt.2 ⟨Real.neg_pi_div_two_lt_arctan _, Real.arctan_lt_pi_div_two _⟩
    rw [abs_div, abs_of_pos (show (0 : ℝ) < 360 by norm_num), lt_div_iff₀ (abs_pos.2 hne)]
    have := Real.pi_lt_d4
    linarith
  · exact Or.inl rfl

end Traquer

namespace Traquer.Smooth
open FP FloatLit

/-- C76: with the default limits 0.5 and 0.05 the gain of `mama` is always above 0.159 (= 0.5 / pi): the slow limit is dead. -/
theorem mama_default_gain (data : List XF) (hn : 6 ≤ data.length) (hd : Fins data) :
    ∃ (out : List (XF × XF)) (m : Mesa), mama data none none = some out ∧ m.Solves 0.5 0.05 (bar (vals data)) data.length ∧
      Reports data.length 6 m.mama (some (out.map fun x => x.1)) ∧
      ∀ i, 6 ≤ i → i < data.length → 0.159 < m.gain i ∧ m.gain i = 0.5 / max (m.phase (i - 1) - m.phase i) 1 := by
  obtain ⟨out, m, e, hm, r1, -⟩ := mama_reports data none none 0.5 0.05 hn hd (is_sci 5 true 1) (is_sci 5 true 2)
  have hpi : (0.159 : ℝ) < 0.5 / Real.pi := by
    rw [lt_div_iff₀ Real.pi_pos]
    have := Real.pi_lt_d4
    nlinarith
  refine ⟨out, m, e, hm, r1, fun i h6 hi => ?_⟩
  obtain ⟨a, b⟩ := mesa_slow_idle hm (by norm_num) i h6 hi
  exact ⟨hpi.trans a, b (by linarith)⟩

/-! ## Instances -/

noncomputable def mv8 : List XF := [1, 2, 4, 3, 5, 6, 8, 7].map fin

example := mama_reports mv8 none none 0.5 0.05 (by simp [mv8]) (fins_map_fin _) (is_sci 5 true 1) (is_sci 5 true 2)
example := mama_default_gain mv8 (by simp [mv8]) (fins_map_fin _)

/-- Bar 6 of a concrete series: the in-phase component is still 0, so the gain is 0.5 and the average half the price. -/
example : ∃ out, mama mv8 none none = some out ∧ ValueAt (some (out.map fun x => x.1)) 6 4 := by
  obtain ⟨out, m, e, hm, r1, -⟩ := mama_reports mv8 none none 0.5 0.05 (by simp [mv8]) (fins_map_fin _) (is_sci 5 true 1) (is_sci 5 true 2)
  refine ⟨out, e, r1.value 6 (by decide) (by simp [mv8]) ?_⟩
  have l : 6 < mv8.length := by simp [mv8]
  have i0 : m.inPhase 6 = 0 := by rw [hm.inPhase_at 6 (by decide) l]; exact (hm.start 3 (by decide)).2.1
  have p6 : m.phase 6 = 0 := by rw [hm.phase_at 6 (by decide) l, i0]; simp
  have p5 : m.phase 5 = 0 := (hm.start 5 (by decide)).2.2.2.2.2.2.2.2.1
  have m5 : m.mama 5 = 0 := (hm.start 5 (by decide)).2.2.2.2.2.2.2.2.2.1
  have g : m.gain 6 = 0.5 := by
    rw [hm.gain_at 6 (by decide) l, p6, show (6 - 1 : ℕ) = 5 from rfl, p5]; norm_num
  rw [hm.mama_at 6 (by decide) l, g, show (6 - 1 : ℕ) = 5 from rfl, m5, mv8, vals_map_fin]
  norm_num [bar]

end Traquer.Smooth
