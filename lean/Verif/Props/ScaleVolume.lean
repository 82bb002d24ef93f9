import Verif.Props.ScaleSmooth
import Verif.Model.Volume
/-!
# C78: a change of units, volume

Two theorems for each function: `_units` if the prices are quoted in another currency, `_lots` if the volumes are counted in another unit.
-/

namespace Traquer.Volume
open FP FloatLit
variable {ρ : Rounding} {k : ℝ} [ρ.Scales k] {data data' openp openp' high high' low low' close close' volume volume' : List (FP ρ)}

/-- States of vforce when prices have degree `p`. -/
structure VfUnits (k : ℝ) (p : ℤ) (s s' : VfState (FP ρ)) : Prop where
  h : Scaled k p s.h s'.h
  l : Scaled k p s.l s'.l
  c : Scaled k p s.c s'.c
  trend : Scaled k 0 s.trend s'.trend
  cm : Scaled k p s.cm s'.cm
  dm : Scaled k p s.dm s'.dm

theorem vforceStep_units (p q : ℤ) : ∀ s s' : VfState (FP ρ), VfUnits k p s s' → ∀ b b' : FP ρ × FP ρ × FP ρ × FP ρ,
    Both (Scaled k p) (Both (Scaled k p) (Both (Scaled k p) (Scaled k q))) b b' →
    Both (VfUnits k p) (Scaled k q) (vforceStep s b) (vforceStep s' b') := by
  rintro s s' ⟨h1, h2, h3, h4, h5, h6⟩ ⟨h, l, c, v⟩ ⟨h', l', c', v'⟩ ⟨hh, hl, hc, hv⟩
  dsimp only at hh hl hc hv
  have ht : Scaled k 0 (vforceStep s (h, l, c, v)).1.trend (vforceStep s' (h', l', c', v')).1.trend := by units [vforceStep]
  have hm : Scaled k p (vforceStep s (h, l, c, v)).1.cm (vforceStep s' (h', l', c', v')).1.cm := by units [vforceStep]
  have hd : Scaled k p (vforceStep s (h, l, c, v)).1.dm (vforceStep s' (h', l', c', v')).1.dm := by units [vforceStep]
  refine ⟨⟨hh, hl, hc, ht, hm, hd⟩, ?_⟩
  units [vforceStep]

units_rule vforceStep_units

theorem tailBars_units (h0 : Each (Scaled k 1) high high') (h1 : Each (Scaled k 1) low low') (h2 : Each (Scaled k 1) close close') (volume : List (FP ρ)) :
    Alike (Each (Both (Scaled k 1) (Both (Scaled k 1) (Both (Scaled k 1) (Scaled k 0))))) (tailBars high low close volume) (tailBars high' low' close' volume) := by
  units [tailBars]

units_rule tailBars_units

theorem tailBars_lots (h0 : Each (Scaled k 1) volume volume') (high low close : List (FP ρ)) :
    Alike (Each (Both (Scaled k 0) (Both (Scaled k 0) (Both (Scaled k 0) (Scaled k 1))))) (tailBars high low close volume) (tailBars high low close volume') := by
  units [tailBars]

units_rule tailBars_lots

theorem vforce_units (h0 : Each (Scaled k 1) high high') (h1 : Each (Scaled k 1) low low') (h2 : Each (Scaled k 1) close close') (volume : List (FP ρ)) :
    Alike (Each (Scaled k 0)) (vforce high low close volume) (vforce high' low' close' volume) := by
  simp only [vforce, Option.bind_eq_bind]
  refine Alike.bind (tailBars_units h0 h1 h2 volume) fun _ _ hb => Alike.bind (.getElem? h0 rfl) fun _ _ g0 => Alike.bind (.getElem? h1 rfl) fun _ _ g1 =>
    Alike.bind (.getElem? h2 rfl) fun _ _ g2 => .answer (each_scan (X := VfUnits k 1) ⟨g0, g1, g2, .zero, .zero, .zero⟩ hb (vforceStep_units 1 0))

units_rule vforce_units

theorem vforce_lots (h0 : Each (Scaled k 1) volume volume') (high low close : List (FP ρ)) :
    Alike (Each (Scaled k 1)) (vforce high low close volume) (vforce high low close volume') := by
  simp only [vforce, Option.bind_eq_bind]
  refine Alike.bind (tailBars_lots h0 high low close) fun _ _ hb => Alike.bind .same (forall_eq_rel fun _ => Alike.bind .same (forall_eq_rel fun _ =>
    Alike.bind .same (forall_eq_rel fun _ => .answer (each_scan (X := VfUnits k 0) ⟨.lit, .lit, .lit, .zero, .zero, .zero⟩ hb (vforceStep_units 0 1)))))

units_rule vforce_lots

theorem vforce_alt_units (h0 : Each (Scaled k 1) high high') (h1 : Each (Scaled k 1) low low') (h2 : Each (Scaled k 1) close close') (volume : List (FP ρ)) :
    Alike (Each (Scaled k 0)) (vforce_alt high low close volume) (vforce_alt high' low' close' volume) := by
  units [vforce_alt]

units_rule vforce_alt_units

theorem vforce_alt_lots (h0 : Each (Scaled k 1) volume volume') (high low close : List (FP ρ)) :
    Alike (Each (Scaled k 1)) (vforce_alt high low close volume) (vforce_alt high low close volume') := by
  units [vforce_alt]

units_rule vforce_alt_lots

theorem kvo_units (h0 : Each (Scaled k 1) high high') (h1 : Each (Scaled k 1) low low') (h2 : Each (Scaled k 1) close close') (volume : List (FP ρ)) (short long : ℕ) (alt : Option Bool) :
    Alike (Each (Scaled k 0)) (kvo high low close volume short long alt) (kvo high' low' close' volume short long alt) := by
  units [kvo]

units_rule kvo_units

theorem kvo_lots (h0 : Each (Scaled k 1) volume volume') (high low close : List (FP ρ)) (short long : ℕ) (alt : Option Bool) :
    Alike (Each (Scaled k 1)) (kvo high low close volume short long alt) (kvo high low close volume' short long alt) := by
  units [kvo]

units_rule kvo_lots

theorem wilder_sum_units {n : ℤ} (h0 : Each (Scaled k n) data data') (window : ℕ) :
    Alike (Each (Scaled k n)) (wilder_sum data window) (wilder_sum data' window) := by
  units [wilder_sum]

units_rule wilder_sum_units

theorem twiggsStep_units (p q : ℤ) : ∀ s s' : FP ρ, Scaled k p s s' → ∀ b b' : FP ρ × FP ρ × FP ρ × FP ρ,
    Both (Scaled k p) (Both (Scaled k p) (Both (Scaled k p) (Scaled k q))) b b' →
    Both (Scaled k p) (Scaled k q) (twiggsStep s b) (twiggsStep s' b') := by
  units [twiggsStep]

units_rule twiggsStep_units

theorem twiggs_units (h0 : Each (Scaled k 1) high high') (h1 : Each (Scaled k 1) low low') (h2 : Each (Scaled k 1) close close') (volume : List (FP ρ)) (window : ℕ) :
    Alike (Each (Scaled k 0)) (twiggs high low close volume window) (twiggs high' low' close' volume window) := by
  units [twiggs]

units_rule twiggs_units

theorem twiggs_lots (h0 : Each (Scaled k 1) volume volume') (high low close : List (FP ρ)) (window : ℕ) :
    Alike (Each (Scaled k 0)) (twiggs high low close volume window) (twiggs high low close volume' window) := by
  units [twiggs]

units_rule twiggs_lots

/-- The volume-weighted sum of the default form; the alternative form, below, is a sum of amounts of money. -/
theorem ad_units (h0 : Each (Scaled k 1) high high') (h1 : Each (Scaled k 1) low low') (h2 : Each (Scaled k 1) close close') (volume : List (FP ρ))
    (alt : Option Bool) :
    Alike (Each (Scaled k (if alt.getD false then 1 else 0))) (ad high low close volume alt) (ad high' low' close' volume alt) := by
  simp only [ad]
  cases alt.getD false <;> simp only [Bool.not_true, Bool.not_false, Bool.false_eq_true, if_true, if_false, Option.bind_eq_bind] <;> repeat' units_step

theorem ad_lots (h0 : Each (Scaled k 1) volume volume') (high low close : List (FP ρ)) (alt : Option Bool) :
    Alike (Each (Scaled k 1)) (ad high low close volume alt) (ad high low close volume' alt) := by
  units [ad]

theorem elder_force_units (h0 : Each (Scaled k 1) close close') (volume : List (FP ρ)) (window : ℕ) :
    Alike (Each (Scaled k 1)) (elder_force close volume window) (elder_force close' volume window) := by
  units [elder_force]

units_rule elder_force_units

theorem elder_force_lots (h0 : Each (Scaled k 1) volume volume') (close : List (FP ρ)) (window : ℕ) :
    Alike (Each (Scaled k 1)) (elder_force close volume window) (elder_force close volume' window) := by
  units [elder_force]

units_rule elder_force_lots

theorem mfiStep_units (p q j : ℤ) (e : p + q = j) : ∀ s s' : FP ρ, Scaled k p s s' → ∀ b b' : FP ρ × FP ρ × FP ρ × FP ρ,
    Both (Scaled k p) (Both (Scaled k p) (Both (Scaled k p) (Scaled k q))) b b' →
    Both (Scaled k p) (Both (Scaled k j) (Scaled k j)) (mfiStep s b) (mfiStep s' b') := by
  units [mfiStep]

units_rule mfiStep_units

theorem mfi_units (h0 : Each (Scaled k 1) high high') (h1 : Each (Scaled k 1) low low') (h2 : Each (Scaled k 1) close close') (volume : List (FP ρ)) (window : ℕ) :
    Alike (Each (Scaled k 0)) (mfi high low close volume window) (mfi high' low' close' volume window) := by
  simp only [mfi, Option.bind_eq_bind]
  refine Alike.bind (tailBars_units h0 h1 h2 volume) fun _ _ hb => Alike.bind (.getElem? h0 rfl) fun _ _ g0 => Alike.bind (.getElem? h1 rfl) fun _ _ g1 =>
    Alike.bind (.getElem? h2 rfl) fun _ _ g2 => ?_
  have := each_scan (X := Scaled k 1) (((g0.add g1).add g2).div (.lit (x := 3)) rfl) hb (mfiStep_units 1 0 1 rfl)
  have hp := each_map (Q := Scaled k 1) this fun _ _ h => h.1
  have hn := each_map (Q := Scaled k 1) this fun _ _ h => h.2
  repeat' units_step

units_rule mfi_units

theorem mfi_lots (h0 : Each (Scaled k 1) volume volume') (high low close : List (FP ρ)) (window : ℕ) :
    Alike (Each (Scaled k 0)) (mfi high low close volume window) (mfi high low close volume' window) := by
  simp only [mfi, Option.bind_eq_bind]
  refine Alike.bind (tailBars_lots h0 high low close) fun _ _ hb => Alike.bind .same (forall_eq_rel fun a => Alike.bind .same (forall_eq_rel fun b =>
    Alike.bind .same (forall_eq_rel fun c => ?_)))
  have := each_scan (X := Scaled k 0) (.lit (x := (a + b + c) / 3)) hb (mfiStep_units 0 1 1 rfl)
  have hp := each_map (Q := Scaled k 1) this fun _ _ h => h.1
  have hn := each_map (Q := Scaled k 1) this fun _ _ h => h.2
  repeat' units_step

units_rule mfi_lots

theorem cmf_units (h0 : Each (Scaled k 1) high high') (h1 : Each (Scaled k 1) low low') (h2 : Each (Scaled k 1) close close') (volume : List (FP ρ)) (window : ℕ) :
    Alike (Each (Scaled k 0)) (cmf high low close volume window) (cmf high' low' close' volume window) := by
  units [cmf]

units_rule cmf_units

theorem cmf_lots (h0 : Each (Scaled k 1) volume volume') (high low close : List (FP ρ)) (window : ℕ) :
    Alike (Each (Scaled k 0)) (cmf high low close volume window) (cmf high low close volume' window) := by
  units [cmf]

units_rule cmf_lots

theorem tvi_units (h0 : Each (Scaled k 1) close close') (volume : List (FP ρ)) {minTick minTick' : FP ρ} (h1 : Scaled k 1 minTick minTick') :
    Alike (Each (Scaled k 0)) (tvi close volume minTick) (tvi close' volume minTick') := by
  simp only [tvi, Option.bind_eq_bind, h0.length]
  refine Alike.bind .same (forall_eq_rel fun n => Alike.bind (.sliceTo h0 rfl) fun _ _ a0 => Alike.bind (.sliceFrom h0 rfl) fun _ _ a1 =>
    Alike.bind .same (forall_eq_rel fun v => .answer (each_cons .nan (each_scan (X := Both Eq (Scaled k 0)) ⟨rfl, .zero⟩ (each_zip3 a0 a1 (each_lit (k := k) (l := v))) ?_))))
  rintro ⟨u, x⟩ ⟨u', x'⟩ ⟨rfl, hx⟩ ⟨p, c, v⟩ ⟨p', c', v'⟩ ⟨hp, hc, hv⟩
  dsimp only at hx hp hc hv
  have e1 := h1.lt (hc.sub hp)
  have e2 := h1.lt (hp.sub hc)
  simp only [e1, e2]
  exact ⟨⟨rfl, hx.add (Scaled.lit.mul hv rfl)⟩, hx.add (Scaled.lit.mul hv rfl)⟩

theorem tvi_lots (h0 : Each (Scaled k 1) volume volume') (close : List (FP ρ)) (minTick : FP ρ) :
    Alike (Each (Scaled k 1)) (tvi close volume minTick) (tvi close volume' minTick) := by
  simp only [tvi, Option.bind_eq_bind]
  refine Alike.bind .same (forall_eq_rel fun n => Alike.bind .same (forall_eq_rel fun a => Alike.bind .same (forall_eq_rel fun b =>
    Alike.bind (.sliceFrom h0 rfl) fun _ _ hv => .answer (each_cons .nan (each_scan (X := Both Eq (Scaled k 1)) ⟨rfl, .zero⟩
      (each_zip3 (each_eq (l := a)) (each_eq (l := b)) hv) ?_)))))
  rintro ⟨u, x⟩ ⟨u', x'⟩ ⟨rfl, hx⟩ ⟨p, c, v⟩ ⟨p', c', v'⟩ ⟨hp, hc, hv⟩
  dsimp only at hx hp hc hv
  subst hp hc
  exact ⟨⟨rfl, hx.add (Scaled.lit.mul hv rfl)⟩, hx.add (Scaled.lit.mul hv rfl)⟩

theorem ease_units (h0 : Each (Scaled k 1) high high') (h1 : Each (Scaled k 1) low low') (volume : List (FP ρ)) (window : ℕ) :
    Alike (Each (Scaled k 2)) (ease high low volume window) (ease high' low' volume window) := by
  units [ease]

units_rule ease_units

theorem ease_lots (h0 : Each (Scaled k 1) volume volume') (high low : List (FP ρ)) (window : ℕ) :
    Alike (Each (Scaled k (-1))) (ease high low volume window) (ease high low volume' window) := by
  units [ease]

units_rule ease_lots

theorem obv_units (h0 : Each (Scaled k 1) close close') (volume : List (FP ρ)) :
    Alike (Each (Scaled k 0)) (obv close volume) (obv close' volume) := by
  units [obv]

units_rule obv_units

theorem obv_lots (h0 : Each (Scaled k 1) volume volume') (close : List (FP ρ)) :
    Alike (Each (Scaled k 1)) (obv close volume) (obv close volume') := by
  units [obv]

units_rule obv_lots

theorem bw_mfi_units (h0 : Each (Scaled k 1) high high') (h1 : Each (Scaled k 1) low low') (volume : List (FP ρ)) :
    Each (Scaled k 1) (bw_mfi high low volume) (bw_mfi high' low' volume) := by
  units [bw_mfi]

units_rule bw_mfi_units

theorem bw_mfi_lots (h0 : Each (Scaled k 1) volume volume') (high low : List (FP ρ)) :
    Each (Scaled k (-1)) (bw_mfi high low volume) (bw_mfi high low volume') := by
  units [bw_mfi]

units_rule bw_mfi_lots

theorem pvi_units (h0 : Each (Scaled k 1) data data') (volume : List (FP ρ)) :
    Each (Scaled k 0) (pvi data volume) (pvi data' volume) := by
  units [pvi]

units_rule pvi_units

theorem pvi_lots (h0 : Each (Scaled k 1) volume volume') (data : List (FP ρ)) :
    Each (Scaled k 0) (pvi data volume) (pvi data volume') := by
  units [pvi]

units_rule pvi_lots

theorem nvi_units (h0 : Each (Scaled k 1) data data') (volume : List (FP ρ)) :
    Each (Scaled k 0) (nvi data volume) (nvi data' volume) := by
  units [nvi]

units_rule nvi_units

theorem nvi_lots (h0 : Each (Scaled k 1) volume volume') (data : List (FP ρ)) :
    Each (Scaled k 0) (nvi data volume) (nvi data volume') := by
  units [nvi]

units_rule nvi_lots

/-- States of vwap. -/
structure VwapUnits (k : ℝ) (p q : ℤ) (s s' : VwapState (FP ρ)) : Prop where
  tpv : Scaled k p s.tpv s'.tpv
  vol : Scaled k q s.vol s'.vol
  resets : s.resets = s'.resets

theorem vwapStep_units (p q j : ℤ) (e : p + q = j) : ∀ s s' : VwapState (FP ρ), VwapUnits k j q s s' → ∀ b b' : ℕ × FP ρ × FP ρ × FP ρ × FP ρ,
    Both Eq (Both (Scaled k p) (Both (Scaled k p) (Both (Scaled k p) (Scaled k q)))) b b' →
    Alike (Both (VwapUnits k j q) (Scaled k p)) (vwapStep s b) (vwapStep s' b') := by
  rintro ⟨t, v, r⟩ ⟨t', v', r'⟩ ⟨ht, hv, hr⟩ ⟨i, h, l, c, w⟩ ⟨i', h', l', c', w'⟩ ⟨hi, hh, hl, hc, hw⟩
  dsimp only at ht hv hr hi hh hl hc hw
  subst hr hi
  have hm : Scaled k p ((h + l + c) / 3) ((h' + l' + c') / 3) := by repeat' units_step
  cases r with
  | nil => exact .panic
  | cons r rs =>
    simp only [vwapStep]
    refine .answer ?_
    by_cases hir : i = r
    · simp only [if_pos hir]
      have h1 := Scaled.zero (k := k) (n := j).add (hm.mul hw e)
      have h2 := Scaled.zero (k := k) (n := q).add hw
      exact ⟨⟨h1, h2, rfl⟩, h1.div h2 (by omega)⟩
    · simp only [if_neg hir]
      have h1 := ht.add (hm.mul hw e)
      have h2 := hv.add hw
      exact ⟨⟨h1, h2, rfl⟩, h1.div h2 (by omega)⟩


theorem vwap_units (h0 : Each (Scaled k 1) high high') (h1 : Each (Scaled k 1) low low') (h2 : Each (Scaled k 1) close close') (volume : List (FP ρ)) (resetIdx : Option (List ℕ)) :
    Alike (Each (Scaled k 1)) (vwap high low close volume resetIdx) (vwap high' low' close' volume resetIdx) := by
  simp only [vwap, h2.length]
  exact Alike.scanM (X := VwapUnits k 1 0) ⟨.zero, .zero, rfl⟩ (each_zip (each_range (each_zip4 h0 h1 h2 (each_lit (k := k))).length) (each_zip4 h0 h1 h2 (each_lit (k := k)))) (vwapStep_units 1 0 1 rfl)

units_rule vwap_units

theorem vwap_lots (h0 : Each (Scaled k 1) volume volume') (high low close : List (FP ρ)) (resetIdx : Option (List ℕ)) :
    Alike (Each (Scaled k 0)) (vwap high low close volume resetIdx) (vwap high low close volume' resetIdx) := by
  simp only [vwap]
  exact Alike.scanM (X := VwapUnits k 1 1) ⟨.zero, .zero, rfl⟩ (each_zip (each_range (each_zip4 (each_lit (k := k)) (each_lit (k := k)) (each_lit (k := k)) h0).length) (each_zip4 (each_lit (k := k)) (each_lit (k := k)) (each_lit (k := k)) h0)) (vwapStep_units 0 1 1 rfl)

units_rule vwap_lots

theorem vwma_units (h0 : Each (Scaled k 1) data data') (volume : List (FP ρ)) (window : ℕ) :
    Alike (Each (Scaled k 1)) (vwma data volume window) (vwma data' volume window) := by
  units [vwma]

units_rule vwma_units

theorem vwma_lots (h0 : Each (Scaled k 1) volume volume') (data : List (FP ρ)) (window : ℕ) :
    Alike (Each (Scaled k 0)) (vwma data volume window) (vwma data volume' window) := by
  units [vwma]

units_rule vwma_lots

theorem vpt_units (h0 : Each (Scaled k 1) data data') (volume : List (FP ρ)) :
    Alike (Each (Scaled k 0)) (vpt data volume) (vpt data' volume) := by
  units [vpt]

units_rule vpt_units

theorem vpt_lots (h0 : Each (Scaled k 1) volume volume') (data : List (FP ρ)) :
    Alike (Each (Scaled k 1)) (vpt data volume) (vpt data volume') := by
  units [vpt]

units_rule vpt_lots

end Traquer.Volume
