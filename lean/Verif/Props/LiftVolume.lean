import Verif.Props.LiftMomentum
import Verif.Model.Volume
/-!
# C82: all prices raised by the same amount, volume

The volumes stay what they are.
-/

namespace Traquer.Volume
open FP FloatLit
open Traquer.Momentum (each_eq_iff)
variable {c : ℝ} {data data' high high' low low' close close' : List XF}

/-- States of vforce. -/
structure VfLift (c : ℝ) (s s' : VfState XF) : Prop where
  h : Lifted c 1 s.h s'.h
  l : Lifted c 1 s.l s'.l
  c : Lifted c 1 s.c s'.c
  trend : s.trend = s'.trend
  cm : s.cm = s'.cm
  dm : s.dm = s'.dm

theorem tailBars_lift (h0 : Each (Lifted c 1) high high') (h1 : Each (Lifted c 1) low low') (h2 : Each (Lifted c 1) close close') (volume : List XF) :
    Alike (Each (Both (Lifted c 1) (Both (Lifted c 1) (Both (Lifted c 1) (Lifted c 0))))) (tailBars high low close volume) (tailBars high' low' close' volume) := by
  lifts [tailBars]

lifts_rule tailBars_lift

theorem hlc_lift {h h' l l' x x' sh sh' sl sl' sx sx' : XF} (hh : Lifted c 1 h h') (hl : Lifted c 1 l l') (hx : Lifted c 1 x x')
    (gh : Lifted c 1 sh sh') (gl : Lifted c 1 sl sl') (gx : Lifted c 1 sx sx') : h + l + x - (sh + sl + sx) = h' + l' + x' - (sh' + sl' + sx') := by
  have a : Lifted c 3 (h + l + x) (h' + l' + x') := (hh.add hl rfl).add hx (by norm_num)
  have b : Lifted c 3 (sh + sl + sx) (sh' + sl' + sx') := (gh.add gl rfl).add gx (by norm_num)
  exact (a.sub b (by norm_num) (.inr (by norm_num)) : Lifted c 0 _ _).eq

theorem vforceStep_lift : ∀ s s' : VfState XF, VfLift c s s' → ∀ b b' : XF × XF × XF × XF,
    Both (Lifted c 1) (Both (Lifted c 1) (Both (Lifted c 1) (Lifted c 0))) b b' → Both (VfLift c) (Lifted c 0) (vforceStep s b) (vforceStep s' b') := by
  rintro s s' ⟨h1, h2, h3, h4, h5, h6⟩ ⟨h, l, x, v⟩ ⟨h', l', x', v'⟩ ⟨hh, hl, hx, hv⟩
  dsimp only at hh hl hx hv
  have e := hlc_lift hh hl hx h1 h2 h3
  have f := (hh.sub hl (j := 0) (by norm_num) (.inr (by norm_num))).eq
  refine ⟨⟨hh, hl, hx, ?_, ?_, ?_⟩, .of_eq ?_⟩ <;> simp only [vforceStep, e, f, h4, h5, h6, hv.eq]

theorem vforce_lift (h0 : Each (Lifted c 1) high high') (h1 : Each (Lifted c 1) low low') (h2 : Each (Lifted c 1) close close') (volume : List XF) :
    Alike (Each (Lifted c 0)) (vforce high low close volume) (vforce high' low' close' volume) := by
  simp only [vforce, Option.bind_eq_bind]
  exact Alike.bind (tailBars_lift h0 h1 h2 volume) fun _ _ hb => Alike.bind (.getElem? h0 rfl) fun _ _ g0 => Alike.bind (.getElem? h1 rfl) fun _ _ g1 =>
    Alike.bind (.getElem? h2 rfl) fun _ _ g2 => .answer (each_scan (X := VfLift c) ⟨g0, g1, g2, rfl, rfl, rfl⟩ hb vforceStep_lift)

lifts_rule vforce_lift

theorem vforce_alt_lift (h0 : Each (Lifted c 1) high high') (h1 : Each (Lifted c 1) low low') (h2 : Each (Lifted c 1) close close') (volume : List XF) :
    Alike (Each (Lifted c 0)) (vforce_alt high low close volume) (vforce_alt high' low' close' volume) := by
  simp only [vforce_alt, Option.bind_eq_bind]
  refine Alike.bind (tailBars_lift h0 h1 h2 volume) fun _ _ hb => Alike.bind (.getElem? h0 rfl) fun _ _ g0 => Alike.bind (.getElem? h1 rfl) fun _ _ g1 =>
    Alike.bind (.getElem? h2 rfl) fun _ _ g2 => .answer (each_scan (X := Both (Lifted c 1) (Both (Lifted c 1) (Lifted c 1))) ⟨g0, g1, g2⟩ hb ?_)
  rintro ⟨sh, sl, sx⟩ ⟨sh', sl', sx'⟩ ⟨g0, g1, g2⟩ ⟨h, l, x, v⟩ ⟨h', l', x', v'⟩ ⟨hh, hl, hx, hv⟩
  refine ⟨⟨hh, hl, hx⟩, .of_eq ?_⟩
  show v * signum _ = v' * signum _
  rw [hlc_lift hh hl hx g0 g1 g2, show v = v' from hv.eq]

lifts_rule vforce_alt_lift

theorem kvo_lift (h0 : Each (Lifted c 1) high high') (h1 : Each (Lifted c 1) low low') (h2 : Each (Lifted c 1) close close') (volume : List XF) (short long : ℕ) (alt : Option Bool) :
    Alike (Each (Lifted c 0)) (kvo high low close volume short long alt) (kvo high' low' close' volume short long alt) := by
  have e : vforce high low close volume = vforce high' low' close' volume := Alike.eq_of (fun _ _ h => lifted_each_zero.1 h) (vforce_lift h0 h1 h2 volume)
  have f : vforce_alt high low close volume = vforce_alt high' low' close' volume := Alike.eq_of (fun _ _ h => lifted_each_zero.1 h) (vforce_alt_lift h0 h1 h2 volume)
  rw [kvo, kvo, e, f]
  exact Alike.refl fun _ => lifted_each_lit

theorem twiggsStep_lift : ∀ s s' : XF, Lifted c 1 s s' → ∀ b b' : XF × XF × XF × XF, Both (Lifted c 1) (Both (Lifted c 1) (Both (Lifted c 1) (Lifted c 0))) b b' →
    Both (Lifted c 1) (Lifted c 0) (twiggsStep s b) (twiggsStep s' b') := by
  rintro s s' hs ⟨h, l, x, v⟩ ⟨h', l', x', v'⟩ ⟨hh, hl, hx, hv⟩
  dsimp only at hh hl hx hv
  refine ⟨hx, .of_eq ?_⟩
  have a : 2 * x - fmin l s - fmax h s = 2 * x' - fmin l' s' - fmax h' s' :=
    (((hx.two_mul (j := 2) (by norm_num)).sub (hl.fmin hs) (j := 1) (by norm_num) (.inr (by norm_num))).sub (hh.fmax hs) (j := 0) (by norm_num) (.inr (by norm_num))).eq
  have b : fmax h s - fmin l s = fmax h' s' - fmin l' s' := ((hh.fmax hs).sub (hl.fmin hs) (j := 0) (by norm_num) (.inr (by norm_num))).eq
  simp only [twiggsStep, a, b, hv.eq]

theorem twiggs_lift (h0 : Each (Lifted c 1) high high') (h1 : Each (Lifted c 1) low low') (h2 : Each (Lifted c 1) close close') (volume : List XF) (window : ℕ) :
    Alike (Each (Lifted c 0)) (twiggs high low close volume window) (twiggs high' low' close' volume window) := by
  simp only [twiggs, Option.bind_eq_bind]
  refine Alike.bind (tailBars_lift h0 h1 h2 volume) fun _ _ hb => Alike.bind (.getElem? h2 rfl) fun _ _ g2 => ?_
  rw [lifted_each_zero.1 (each_scan (X := Lifted c 1) g2 hb twiggsStep_lift)]
  exact Alike.refl fun _ => lifted_each_lit

theorem ad_lift (h0 : Each (Lifted c 1) high high') (h1 : Each (Lifted c 1) low low') (h2 : Each (Lifted c 1) close close') (volume : List XF) (alt : Option Bool) :
    Alike (Each (Lifted c 0)) (ad high low close volume alt) (ad high' low' close' volume alt) := by
  simp only [ad]
  cases alt.getD false <;> simp only [Bool.not_true, Bool.not_false, Bool.false_eq_true, if_true, if_false, Option.bind_eq_bind] <;> repeat' lifts_step

theorem elder_force_lift (h0 : Each (Lifted c 1) close close') (volume : List XF) (window : ℕ) :
    Alike (Each (Lifted c 0)) (elder_force close volume window) (elder_force close' volume window) := by
  lifts [elder_force]

theorem cmf_lift (h0 : Each (Lifted c 1) high high') (h1 : Each (Lifted c 1) low low') (h2 : Each (Lifted c 1) close close') (volume : List XF) (window : ℕ) :
    Alike (Each (Lifted c 0)) (cmf high low close volume window) (cmf high' low' close' volume window) := by
  lifts [cmf]

theorem tvi_lift (h0 : Each (Lifted c 1) close close') (volume : List XF) (minTick : XF) :
    Alike (Each (Lifted c 0)) (tvi close volume minTick) (tvi close' volume minTick) := by
  simp only [tvi, Option.bind_eq_bind]
  refine Alike.bind (.usub h0.length rfl) (forall_eq_rel fun _ => Alike.bind (.sliceTo h0 rfl) fun _ _ g0 => Alike.bind (.sliceFrom h0 rfl) fun _ _ g1 =>
    Alike.bind .same (forall_eq_rel fun _ => .answer (each_cons .nan ?_)))
  refine each_scan (X := Eq) rfl (each_zip3 g0 g1 (lifted_each_lit (c := c))) ?_
  rintro s _ rfl ⟨p, q, v⟩ ⟨p', q', v'⟩ ⟨hp, hq, hv⟩
  dsimp only at hp hq hv
  have a := (hq.sub hp (j := 0) (by norm_num) (.inr (by norm_num))).eq
  have b := (hp.sub hq (j := 0) (by norm_num) (.inr (by norm_num))).eq
  simp only [a, b, hv.eq]
  exact ⟨rfl, .lit⟩

theorem ease_lift (h0 : Each (Lifted c 1) high high') (h1 : Each (Lifted c 1) low low') (volume : List XF) (window : ℕ) :
    Alike (Each (Lifted c 0)) (ease high low volume window) (ease high' low' volume window) := by
  lifts [ease]

theorem obv_lift (h0 : Each (Lifted c 1) close close') (volume : List XF) :
    Alike (Each (Lifted c 0)) (obv close volume) (obv close' volume) := by
  lifts [obv]

theorem bw_mfi_lift (h0 : Each (Lifted c 1) high high') (h1 : Each (Lifted c 1) low low') (volume : List XF) :
    Each (Lifted c 0) (bw_mfi high low volume) (bw_mfi high' low' volume) := by
  lifts [bw_mfi]

/-- A positive number. -/
def PosVol (v : XF) : Prop := ∃ r, v = fin r ∧ 0 < r

theorem vwma_sums {d d' v : List XF} (h : Each (Raised c) d d') (hl : v.length = d.length) (hv : ∀ w ∈ v, PosVol w) {t u : ℝ} {a b : XF} (g : Raised t a b) :
    ∃ V : ℝ, 0 ≤ V ∧ (v ≠ [] → 0 < V) ∧ v.foldl (· + ·) (fin u : XF) = fin (u + V) ∧
      Raised (t + V * c) ((d.zip v).foldl (fun acc p => acc + p.1 * p.2) a) ((d'.zip v).foldl (fun acc p => acc + p.1 * p.2) b) := by
  induction h generalizing v t u a b with
  | nil =>
    rw [List.length_nil, List.length_eq_zero_iff] at hl
    subst hl
    exact ⟨0, le_rfl, fun h => (h rfl).elim, by simp, g.congr (by ring)⟩
  | cons hx _ ih =>
    cases v with
    | nil => simp at hl
    | cons w v =>
      obtain ⟨r, rfl, hr⟩ := hv w (by simp)
      obtain ⟨V, h0, -, h2, h3⟩ := ih (by simpa using hl) (fun w hw => hv w (by simp [hw])) (u := u + r) (g.add (hx.mul_pos hr))
      refine ⟨r + V, by positivity, fun _ => by positivity, ?_, ?_⟩
      · rw [List.foldl_cons, eval_add, h2, add_assoc]
      · rw [List.zip_cons_cons, List.zip_cons_cons, List.foldl_cons, List.foldl_cons]
        exact h3.congr (by ring)

/-- With positive volumes. -/
theorem vwma_lift (h : Each (Lifted c 1) data data') (volume : List XF) (hv : ∀ v ∈ volume, PosVol v) (window : ℕ) :
    Alike (Each (Lifted c 1)) (vwma data volume window) (vwma data' volume window) := by
  rcases Nat.eq_zero_or_pos window with rfl | hw
  · exact .panic
  simp only [vwma, Option.bind_eq_bind]
  have hvv : Each (fun a b => PosVol a ∧ a = b) volume volume := by
    rw [each_iff]
    exact ⟨rfl, fun i x y hx hy => ⟨hv x (List.mem_of_getElem? hx), Option.some.inj (hx.symm.trans hy)⟩⟩
  refine Alike.bind .same (forall_eq_rel fun n => Alike.bind (alike_windows_sized window h) fun _ _ hd => Alike.bind (alike_windows_sized window hvv) fun _ _ hx =>
    .answer (each_append (lifted_each_nans _) (each_map (each_zip hd hx) ?_)))
  rintro ⟨d, v⟩ ⟨d', v'⟩ ⟨⟨l1, e1⟩, l2, e2⟩
  dsimp only at l1 e1 l2 e2 ⊢
  obtain rfl : v = v' := each_eq_iff.1 (e2.imp fun _ _ h => h.2)
  have pos : ∀ w ∈ v, PosVol w := by
    intro w hw
    obtain ⟨i, hi⟩ := List.mem_iff_getElem?.1 hw
    exact ((each_iff.1 e2).2 i w w hi hi).1
  obtain ⟨V, -, h1, h2, h3⟩ := vwma_sums (u := 0) (t := 0) (a := 0) (b := 0) (each_raised.1 e1) (l2.trans l1.symm) pos (by rw [eval_zero]; exact .of_fin (by simp))
  have hV : 0 < V := h1 (by rintro rfl; simp at l2; omega)
  rw [fsum, eval_zero] at *
  rw [h2, zero_add]
  exact .of_raised ((h3.div_pos hV).congr (by field_simp; ring))

/-- States of vwap: the volume is positive once a bar has been added. -/
def VwapLift (c : ℝ) (s s' : VwapState XF) : Prop :=
  s.resets = s'.resets ∧ ∃ V : ℝ, 0 ≤ V ∧ s.vol = fin V ∧ s'.vol = fin V ∧ Raised (V * c) s.tpv s'.tpv

/-- With positive volumes. -/
theorem vwap_lift (h0 : Each (Lifted c 1) high high') (h1 : Each (Lifted c 1) low low') (h2 : Each (Lifted c 1) close close') (volume : List XF)
    (hv : ∀ v ∈ volume, PosVol v) (resetIdx : Option (List ℕ)) :
    Alike (Each (Lifted c 1)) (vwap high low close volume resetIdx) (vwap high' low' close' volume resetIdx) := by
  have hvv : Each (fun a b => PosVol a ∧ a = b) volume volume := by
    rw [each_iff]
    exact ⟨rfl, fun i x y hx hy => ⟨hv x (List.mem_of_getElem? hx), Option.some.inj (hx.symm.trans hy)⟩⟩
  have hb := each_zip4 h0 h1 h2 hvv
  simp only [vwap, h2.length, hb.length]
  refine Alike.scanM (X := VwapLift c) ⟨rfl, 0, le_rfl, eval_zero, eval_zero, by rw [eval_zero]; exact .of_fin (by simp)⟩ (each_zip each_eq hb) ?_
  rintro ⟨tp, vo, re⟩ ⟨tp', vo', re'⟩ ⟨e0, V, hV, e1, e2, e3⟩ ⟨i, h, l, x, v⟩ ⟨i', h', l', x', v'⟩ ⟨rfl, hh, hl, hx, ⟨r, rfl, hr⟩, rfl⟩
  dsimp only at e0 e1 e2 e3 hh hl hx ⊢
  subst e0 e1 e2
  have m : Raised c ((h + l + x) / 3) ((h' + l' + x') / 3) := (Lifted.third (m := 3) (n := 1) ((hh.add hl rfl).add hx (by norm_num)) (by norm_num)).raised
  cases re with
  | nil => exact .panic
  | cons k ks =>
    simp only [vwapStep]
    split
    · refine .answer ⟨⟨rfl, 0 + r, by linarith, ?_, ?_, ?_⟩, ?_⟩
      · rw [eval_zero]; exact eval_add _ _
      · rw [eval_zero]; exact eval_add _ _
      · refine (Raised.add (t := 0) (by rw [eval_zero]; exact .of_fin (by simp)) (m.mul_pos hr)).congr (by ring)
      · dsimp only
        rw [eval_zero, eval_add]
        have := (Raised.of_fin (a := 0) (b := 0) (t := 0) (by simp)).add (m.mul_pos hr)
        exact .of_raised ((this.div_pos (w := 0 + r) (by linarith)).congr (by field_simp; ring))
    · refine .answer ⟨⟨rfl, V + r, by linarith, eval_add _ _, eval_add _ _, (e3.add (m.mul_pos hr)).congr (by ring)⟩, ?_⟩
      dsimp only
      rw [eval_add]
      exact .of_raised (((e3.add (m.mul_pos hr)).div_pos (w := V + r) (by linarith)).congr (by field_simp))

end Traquer.Volume
