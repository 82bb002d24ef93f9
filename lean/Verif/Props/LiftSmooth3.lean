import Verif.Props.LiftSmooth2
import Verif.Props.Recursive
import Verif.Props.Composed
/-!
# C82: the averages with weights of any sign

The result is the raised average up to the sign of a zero: a weight may be zero, and `0 * price` is `-0` for a negative price.
-/

namespace Traquer.Smooth
open FP FloatLit
variable {c : ℝ} {data data' : List XF}

theorem each_weak {l l' : List XF} (h : Each (Lifted c 1) l l') : Each (RaisedZ c) l l' :=
  (each_raised.1 h).imp fun _ _ g => g.weak

theorem each_nansZ (m : ℕ) : Each (RaisedZ c) (nans m : List XF) (nans m) := each_replicate m .nan

/-- C82: Holt-Winters' average. -/
theorem hwma_lift (h : Each (Lifted c 1) data data') (alpha beta gamma : Option XF) (a b g : ℝ)
    (ha : alpha.getD 0.2 ⇓ a) (hb : beta.getD 0.1 ⇓ b) (hg : gamma.getD 0.1 ⇓ g) :
    Alike (Each (RaisedZ c)) (hwma data alpha beta gamma) (hwma data' alpha beta gamma) := by
  have hA := is_clampLit ha is_zero is_one zero_le_one
  have hB := is_clampLit hb is_zero is_one zero_le_one
  have hG := is_clampLit hg is_zero is_one zero_le_one
  have half : (0.5 : XF) ⇓ (1 / 2 : ℝ) := (is_sci 5 true 1).congr (by norm_num)
  have hA' := is_sub is_one hA
  have hB' := is_sub is_one hB
  have hG' := is_sub is_one hG
  simp only [hwma, Option.bind_eq_bind]
  refine Alike.bind (Alike.getElem? (each_weak h) (rfl : 0 = 0)) fun d d' hd => .answer ?_
  refine each_scan (X := Both (RaisedZ c) (Both (RaisedZ 0) (RaisedZ 0))) ⟨hd, .refl _, .refl _⟩ (each_weak h) ?_
  rintro ⟨s1, s2, s3⟩ ⟨t1, t2, t3⟩ ⟨h1, h2, h3⟩ x y hx
  simp only at h1 h2 h3 ⊢
  have q1 := ((((h1.add h2).add (h3.const_mul half)).const_mul hA').add (hx.const_mul hA)).congr (s := c) (by ring)
  have q2 := (((h2.add h3).const_mul hB').add ((q1.sub h1).const_mul hB)).congr (s := 0) (by ring)
  have q3 := ((h3.const_mul hG').add ((q2.sub h2).const_mul hG)).congr (s := 0) (by ring)
  exact ⟨⟨q1, q2, q3⟩, ((q1.add q2).add (q3.const_mul half)).congr (by ring)⟩

/-- C82: the super smoother. -/
theorem ssf_lift (h : Each (Lifted c 1) data data') (window : ℕ) (hw : 1 ≤ window) (triPoles : Option Bool) :
    Alike (Each (RaisedZ c)) (ssf data window triPoles) (ssf data' window triPoles) := by
  have hw0 := (natCast_pos hw).ne'
  have hz := each_weak h
  cases ht : triPoles.getD false
  · simp only [ssf, ht, Option.bind_eq_bind, Bool.false_eq_true, if_false]
    have hx : (FloatOps.pi * sqrt 2 / flt window : XF) ⇓ _ := is_div (is_mul is_pi (is_sqrt (is_lit 2) (by norm_num))) (is_flt window) hw0
    have hy := is_exp (is_neg hx)
    have hC := is_mul (is_neg hy) hy
    have hB := is_mul (is_mul (is_lit 2) hy) (is_cos hx)
    have hA := is_sub (is_sub is_one hB) hC
    refine Alike.bind (Alike.sliceFrom hz (rfl : 2 = 2)) fun r r' hr => ?_
    refine Alike.bind (Alike.getElem? hz (rfl : 0 = 0)) fun d d' hd => ?_
    refine Alike.bind (Alike.getElem? hz (rfl : 1 = 1)) fun e e' he => .answer (each_append (each_nansZ _) ?_)
    refine each_scan (X := Both (RaisedZ c) (RaisedZ c)) ⟨hd, he⟩ hr ?_
    rintro ⟨s1, s2⟩ ⟨t1, t2⟩ ⟨h1, h2⟩ x y hx
    have q := (((hx.const_mul hA).add (h2.const_mul hB)).add (h1.const_mul hC)).congr (s := c) (by ring)
    exact ⟨⟨h2, q⟩, q⟩
  · simp only [ssf, ht, Option.bind_eq_bind, if_true]
    have hx : (FloatOps.pi / flt window : XF) ⇓ _ := is_div is_pi (is_flt window) hw0
    have hy := is_exp (is_neg hx)
    have hy2 := is_mul hy hy
    have hz' := is_mul (is_mul (is_lit 2) hy) (is_cos (is_mul (is_sqrt (is_lit 3) (by norm_num)) hx))
    have hD := is_mul hy2 hy2
    have hC := is_mul (is_neg hy2) (is_add is_one hz')
    have hB := is_add hy2 hz'
    have hA := is_sub (is_sub (is_sub is_one hB) hC) hD
    refine Alike.bind (Alike.sliceFrom hz (rfl : 3 = 3)) fun r r' hr => ?_
    refine Alike.bind (Alike.getElem? hz (rfl : 0 = 0)) fun d d' hd => ?_
    refine Alike.bind (Alike.getElem? hz (rfl : 1 = 1)) fun e e' he => ?_
    refine Alike.bind (Alike.getElem? hz (rfl : 2 = 2)) fun f f' hf => .answer (each_append (each_nansZ _) ?_)
    refine each_scan (X := Both (RaisedZ c) (Both (RaisedZ c) (RaisedZ c))) ⟨hd, he, hf⟩ hr ?_
    rintro ⟨s1, s2, s3⟩ ⟨t1, t2, t3⟩ ⟨h1, h2, h3⟩ x y hx
    have q := ((((hx.const_mul hA).add (h3.const_mul hB)).add (h2.const_mul hC)).add (h1.const_mul hD)).congr (s := c) (by ring)
    exact ⟨⟨h2, h3, q⟩, q⟩

/-- C82: Tillson's T3. -/
theorem t3_lift (h : Each (Lifted c 1) data data') (window : ℕ) (factor : Option XF) (f : ℝ) (hf : factor.getD 0.7 ⇓ f) :
    Alike (Each (RaisedZ c)) (t3 data window factor) (t3 data' window factor) := by
  have hF := is_clampLit hf is_zero is_one zero_le_one
  set g := max 0 (min f 1)
  have h3 := is_powi 3 hF
  have h2 := is_powi 2 hF
  have e1 := is_neg h3
  have e2 := is_add (is_mul (is_lit 3) h2) (is_mul (is_lit 3) h3)
  have e3 := is_sub (is_sub (is_mul (is_neg (is_lit 3)) hF) (is_mul (is_lit 6) h2)) (is_mul (is_lit 3) h3)
  have e4 := is_add (is_add (is_add is_one (is_mul (is_lit 3) hF)) (is_mul (is_lit 3) h2)) h3
  simp only [t3, Option.bind_eq_bind]
  refine Alike.bind (ewma_lift h window) fun m1 m1' r1 => ?_
  refine Alike.bind Alike.same (forall_eq_rel fun k => ?_)
  refine Alike.bind (Alike.sliceFrom r1 (rfl : k = k)) fun s1 s1' g1 => ?_
  refine Alike.bind (ewma_lift g1 window) fun m2 m2' r2 => ?_
  refine Alike.bind (Alike.sliceFrom r2 (rfl : k = k)) fun s2 s2' g2 => ?_
  refine Alike.bind (ewma_lift g2 window) fun m3 m3' r3 => ?_
  refine Alike.bind (Alike.sliceFrom r3 (rfl : k = k)) fun s3 s3' g3 => ?_
  refine Alike.bind (ewma_lift g3 window) fun m4 m4' r4 => ?_
  refine Alike.bind (Alike.sliceFrom r4 (rfl : k = k)) fun s4 s4' g4 => ?_
  refine Alike.bind (ewma_lift g4 window) fun m5 m5' r5 => ?_
  refine Alike.bind (Alike.sliceFrom r5 (rfl : k = k)) fun s5 s5' g5 => ?_
  refine Alike.bind (ewma_lift g5 window) fun m6 m6' r6 => .answer ?_
  refine each_append (each_nansZ _) (each_map (each_zip4 (each_weak r3) (each_append (each_nansZ _) (each_weak r4))
    (each_append (each_nansZ _) (each_weak r5)) (each_append (each_nansZ _) (each_weak r6))) ?_)
  rintro ⟨a3, a4, a5, a6⟩ ⟨b3, b4, b5, b6⟩ ⟨q3, q4, q5, q6⟩
  exact ((((q6.const_mul e1).add (q5.const_mul e2)).add (q4.const_mul e3)).add (q3.const_mul e4)).congr (by ring)

end Traquer.Smooth
