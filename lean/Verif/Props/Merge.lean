import Verif.Spec.Merge
import Verif.Props.Portfolio
import Verif.Props.Accumulate
import Verif.Props.VolumeFormulas
import Verif.Props.Vwap
import Verif.Props.Saturate
import Verif.Props.VolatilityFormulas
import Verif.Lemmas.Superpose
/-!
# C133: merging the volumes of two exchanges

Totals of volume (`obv`, `vpt`, `ad` in both forms, `tvi`, `elder_force`, `kvo` in both forms) add up; readings per unit of volume (`vwma`,
`vwap`, `cmf`, `twiggs`) of the merged volume lie between those of the exchanges.
-/

namespace Traquer
open FP FloatLit
open scoped BigOperators

theorem holding_length {x y : List XF} (h : y.length = x.length) : (holding x y).length = x.length := by simp [holding, h]

theorem holding_bar {x y : List XF} (hx : Fins x) (hy : Fins y) (h : y.length = x.length) :
    bar (vals (holding x y)) = fun j => bar (vals x) j + bar (vals y) j := by
  funext j
  rw [(holding_vals hx hy).2]
  simp only [bar, vals, List.getD_eq_getElem?_getD, List.getElem?_map, List.getElem?_zip_eq_some, List.zip_eq_zipWith, List.getElem?_zipWith]
  by_cases g : j < x.length
  · rw [List.getElem?_eq_getElem g, List.getElem?_eq_getElem (show j < y.length by omega)]
    rfl
  · rw [List.getElem?_eq_none (by omega), List.getElem?_eq_none (show y.length ≤ j by omega)]
    simp

/-- The quotient of sums lies between the quotients. -/
theorem mediant {p p' q q' : ℝ} (hq : 0 < q) (hq' : 0 < q') : min (p / q) (p' / q') ≤ (p + p') / (q + q') ∧ (p + p') / (q + q') ≤ max (p / q) (p' / q') := by
  have a : p = p / q * q := by field_simp
  have b : p' = p' / q' * q' := by field_simp
  have s := add_pos hq hq'
  constructor
  · rw [le_div_iff₀ s]
    have h1 := mul_le_mul_of_nonneg_right (min_le_left (p / q) (p' / q')) hq.le
    have h2 := mul_le_mul_of_nonneg_right (min_le_right (p / q) (p' / q')) hq'.le
    linarith
  · rw [div_le_iff₀ s]
    have h1 := mul_le_mul_of_nonneg_right (le_max_left (p / q) (p' / q')) hq.le
    have h2 := mul_le_mul_of_nonneg_right (le_max_right (p / q) (p' / q')) hq'.le
    linarith

theorem Lin.add_eq {V : (ℕ → ℝ) → ℕ → ℝ} (hV : Lin V) (u v : ℕ → ℝ) (i : ℕ) : V (fun j => u j + v j) i = V u i + V v i := by
  have := hV 1 1 u v i
  simpa using this

/-- A linear reading of a term that is the volume times a factor. -/
theorem Lin.weigh {V : (ℕ → ℝ) → ℕ → ℝ} (hV : Lin V) (g : ℕ → ℝ) : Lin fun u => V fun j => g j * u j := fun s t x y i => by
  have := hV s t (fun j => g j * x j) (fun j => g j * y j) i
  simp only at this ⊢
  rw [← this]
  congr 1
  funext j
  ring

theorem Lin.total (k : ℕ) : Lin fun u i => ∑ j ∈ Finset.Ico k (i + 1), u j := fun s t x y i => by
  simp only [Finset.sum_add_distrib, Finset.mul_sum]

theorem volumeAdds_of {n k : ℕ} {f : List XF → Option (List XF)} {V : (ℕ → ℝ) → ℕ → ℝ} (hV : Lin V)
    (hf : ∀ v : List XF, v.length = n → Fins v → Reports n k (V (bar (vals v))) (f v)) {v v' : List XF} (l : v.length = n) (l' : v'.length = n)
    (fv : Fins v) (fv' : Fins v') : VolumeAdds n k (f v) (f v') (f (holding v v')) := by
  have h := hf (holding v v') (by rw [holding_length (by omega), l]) (holding_vals fv fv').1
  rw [holding_bar fv fv' (by omega)] at h
  exact ⟨_, _, hf v l fv, hf v' l' fv', h.congr fun i _ _ => hV.add_eq _ _ i⟩

theorem volumeMixes_of {n k : ℕ} {f : List XF → Option (List XF)} {P Q : (ℕ → ℝ) → ℕ → ℝ} (hP : Lin P) (hQ : Lin Q)
    (hQ0 : ∀ u : ℕ → ℝ, (∀ j < n, 0 < u j) → ∀ i, k ≤ i → i < n → 0 < Q u i)
    (hf : ∀ v : List XF, v.length = n → Fins v → ReportsP n k (fun i => QuotIs (P (bar (vals v)) i) (Q (bar (vals v)) i)) (f v))
    {v v' : List XF} (l : v.length = n) (l' : v'.length = n) (fv : Fins v) (fv' : Fins v') (p : ∀ x ∈ v, 0 < x.val) (p' : ∀ x ∈ v', 0 < x.val) :
    VolumeMixes n k (f v) (f v') (f (holding v v')) := by
  have pos : ∀ v : List XF, v.length = n → (∀ x ∈ v, 0 < x.val) → ∀ j < n, 0 < bar (vals v) j := fun v l p j hj => by
    rw [bar_vals (List.getElem?_eq_getElem (by omega))]
    exact p _ (List.getElem_mem _)
  have h := hf (holding v v') (by rw [holding_length (by omega), l]) (holding_vals fv fv').1
  rw [holding_bar fv fv' (by omega)] at h
  have q1 := hQ0 _ (pos v l p)
  have q2 := hQ0 _ (pos v' l' p')
  have e : ∀ i, Q (fun j => bar (vals v) j + bar (vals v') j) i = _ := fun i => hQ.add_eq _ _ i
  refine ⟨fun i => P (bar (vals v)) i / Q (bar (vals v)) i, fun i => P (bar (vals v')) i / Q (bar (vals v')) i,
    fun i => P (fun j => bar (vals v) j + bar (vals v') j) i / Q (fun j => bar (vals v) j + bar (vals v') j) i,
    (hf v l fv).mono fun i y h1 h2 hy => hy.1 (q1 i h1 h2).ne', (hf v' l' fv').mono fun i y h1 h2 hy => hy.1 (q2 i h1 h2).ne',
    h.mono fun i y h1 h2 hy => hy.1 ?_, fun i h1 h2 => ?_⟩
  · rw [e]
    exact (add_pos (q1 i h1 h2) (q2 i h1 h2)).ne'
  · beta_reduce
    rw [e, hP.add_eq]
    exact mediant (q1 i h1 h2) (q2 i h1 h2)

end Traquer

namespace Traquer.Volume
open FP FloatLit
open scoped BigOperators

section totals
variable (high low close v v' : List XF) (hl : low.length = high.length) (hc : close.length = high.length) (hv : v.length = high.length)
  (hv' : v'.length = high.length) (fh : Fins high) (fl : Fins low) (fc : Fins close) (fv : Fins v) (fv' : Fins v')

section
variable (hcv : v.length = close.length) (hcv' : v'.length = close.length) (hn : 1 ≤ close.length)
include hcv hcv' fc fv fv'

section
include hn

/-- C133: `obv`. -/
theorem obv_merges (hz : ∀ x ∈ close, x ≠ negz) : VolumeAdds close.length 1 (obv close v) (obv close v') (obv close (holding v v')) :=
  volumeAdds_of (f := fun v => obv close v) ((Lin.total 1).weigh fun j => if bar (vals close) j < bar (vals close) (j - 1) then -1 else 1)
    (fun u hu fu => (obv_accumulates close u hu hn fc fu hz).congr fun i _ _ => Finset.sum_congr rfl fun j _ => by
      simp only [obvTerm]
      split_ifs <;> ring) hcv hcv' fv fv'

/-- C133: `vpt`. -/
theorem vpt_merges (h0 : ∀ x ∈ close, x.val ≠ 0) : VolumeAdds close.length 1 (vpt close v) (vpt close v') (vpt close (holding v v')) :=
  volumeAdds_of (f := fun v => vpt close v) ((Lin.total 1).weigh fun j => (bar (vals close) j - bar (vals close) (j - 1)) / bar (vals close) (j - 1))
    (fun u hu fu => (vpt_accumulates close u hu hn fc fu h0).congr fun i _ _ => Finset.sum_congr rfl fun j _ => by
      rw [vptTerm]
      ring) hcv hcv' fv fv'

/-- C133: `tvi`. -/
theorem tvi_merges (tick : XF) (ht : tick.Finite) : VolumeAdds close.length 1 (tvi close v tick) (tvi close v' tick) (tvi close (holding v v') tick) :=
  volumeAdds_of (f := fun v => tvi close v tick) ((Lin.total 1).weigh fun j => if tickUp (vals close) tick.val j then 1 else -1)
    (fun u hu fu => (tvi_accumulates close u tick hu hn fc fu ht).congr fun i _ _ => Finset.sum_congr rfl fun j _ => by
      simp only [tviTerm]
      split_ifs <;> ring) hcv hcv' fv fv'

end

/-- C133: `elder_force`. -/
theorem elder_force_merges (w : ℕ) (hw : 1 ≤ w) (hn : w < close.length) :
    VolumeAdds close.length w (elder_force close v w) (elder_force close v' w) (elder_force close (holding v v') w) :=
  volumeAdds_of (f := fun v => elder_force close v w) ((Lin.ewma 1 w).weigh fun j => bar (vals close) j - bar (vals close) (j - 1))
    (fun u hu fu => elder_force_reports close u w hu hw hn fc fu) hcv hcv' fv fv'

/-- C133: `vwma`, for positive volumes. -/
theorem vwma_merges (w : ℕ) (hw : 1 ≤ w) (hn : w ≤ close.length + 1) (p : ∀ x ∈ v, 0 < x.val) (p' : ∀ x ∈ v', 0 < x.val) :
    VolumeMixes close.length (w - 1) (vwma close v w) (vwma close v' w) (vwma close (holding v v') w) :=
  volumeMixes_of (f := fun v => vwma close v w) ((Lin.sum w).weigh (bar (vals close))) (Lin.sum w)
    (fun u hu i h1 h2 => Momentum.lastOf_sum_pos hw (by omega) (fun j hj => (hu j (by omega)).le) (hu i h2))
    (fun u hu fu => (vwma_reports close u w hu hw hn fc fu).mono fun i y h1 h2 hy => by
      rw [← lastOf_bar (l := vals close) (by omega) (by simpa using h2), ← lastOf_bar (l := vals u) (by omega) (by simp; omega)] at hy
      convert hy using 2
      simp [lastOf, List.zip_map', Function.comp_def]) hcv hcv' fv fv' p p'

end

include hl hc hv hv' fh fl fc fv fv'

/-- C133: `ad`, for bars whose high and low differ. -/
theorem ad_merges (hn : 1 ≤ high.length) (hr : ∀ (j : ℕ) (h l : XF), high[j]? = some h → low[j]? = some l → h.val ≠ l.val) :
    VolumeAdds high.length 0 (ad high low close v none) (ad high low close v' none) (ad high low close (holding v v') none) :=
  volumeAdds_of (f := fun v => ad high low close v none) ((Lin.total 0).weigh fun j =>
      ((bar (vals close) j - bar (vals low) j) - (bar (vals high) j - bar (vals close) j)) / (bar (vals high) j - bar (vals low) j))
    (fun u hu fu => ad_accumulates high low close u hl hc hu hn fh fl fc fu hr) hv hv' fv fv'

/-- C133: Williams' `ad`. -/
theorem ad_williams_merges (hn : 1 ≤ high.length) :
    VolumeAdds high.length 1 (ad high low close v (some true)) (ad high low close v' (some true)) (ad high low close (holding v v') (some true)) :=
  volumeAdds_of (f := fun v => ad high low close v (some true)) ((Lin.total 1).weigh fun j =>
      if bar (vals close) (j - 1) < bar (vals close) j then bar (vals close) j - min (bar (vals low) j) (bar (vals close) (j - 1))
      else bar (vals close) j - max (bar (vals high) j) (bar (vals close) (j - 1)))
    (fun u hu fu => ad_williams_accumulates high low close u hl hc hu hn fh fl fc fu) hv hv' fv fv'

/-- C133: `kvo` by its default formula. -/
theorem kvo_alt_merges (short long : ℕ) (alt : Option Bool) (ha : alt ≠ some false) (hs : 1 ≤ short) (hlo : 1 ≤ long)
    (hn : max short long < high.length) (hz : ∀ x ∈ high, x ≠ negz) :
    VolumeAdds high.length (max short long) (kvo high low close v short long alt) (kvo high low close v' short long alt)
      (kvo high low close (holding v v') short long alt) :=
  volumeAdds_of (f := fun v => kvo high low close v short long alt)
    (((Lin.ewma 1 short).sub (Lin.ewma 1 long)).weigh fun j => trendAt (vals high) (vals low) (vals close) j)
    (fun u hu fu => (kvo_alt_reports high low close u short long alt ha hl hc hu hs hlo hn fh fl fc fu hz).congr fun i _ _ => by
      simp only [mul_comm]) hv hv' fv fv'

/-- C133: `kvo` with `alt` switched off. -/
theorem kvo_merges (short long : ℕ) (hs : 1 ≤ short) (hlo : 1 ≤ long) (hn : max short long < high.length) (hz : ∀ x ∈ high, x ≠ negz)
    (hr : ∀ j, 1 ≤ j → j < high.length → bar (vals low) j < bar (vals high) j) :
    VolumeAdds high.length (max short long) (kvo high low close v short long (some false)) (kvo high low close v' short long (some false))
      (kvo high low close (holding v v') short long (some false)) :=
  volumeAdds_of (f := fun v => kvo high low close v short long (some false))
    (((Lin.ewma 1 short).sub (Lin.ewma 1 long)).weigh fun j =>
      ((bar (vals high) j - bar (vals low) j) / cumMove (vals high) (vals low) (vals close) j - 1) * trendAt (vals high) (vals low) (vals close) j * 200)
    (fun u hu fu => (kvo_reports high low close u short long hl hc hu hs hlo hn fh fl fc fu hz hr).congr fun i _ _ => by
      have : forceAt (vals high) (vals low) (vals close) (vals u) = fun j =>
          ((bar (vals high) j - bar (vals low) j) / cumMove (vals high) (vals low) (vals close) j - 1) * trendAt (vals high) (vals low) (vals close) j * 200 *
            bar (vals u) j := by
        funext j
        rw [forceAt]
        ring
      rw [this]) hv hv' fv fv'

variable (p : ∀ x ∈ v, 0 < x.val) (p' : ∀ x ∈ v', 0 < x.val)
include p p'

/-- C133: `cmf`, for positive volumes and bars whose high and low differ. -/
theorem cmf_merges (w : ℕ) (hw : 1 ≤ w) (hn : w ≤ high.length + 1) (hr : ∀ j, j < high.length → bar (vals high) j ≠ bar (vals low) j) :
    VolumeMixes high.length (w - 1) (cmf high low close v w) (cmf high low close v' w) (cmf high low close (holding v v') w) :=
  volumeMixes_of (f := fun v => cmf high low close v w) ((Lin.sum w).weigh fun j =>
      ((bar (vals close) j - bar (vals low) j) - (bar (vals high) j - bar (vals close) j)) / (bar (vals high) j - bar (vals low) j)) (Lin.sum w)
    (fun u hu i h1 h2 => Momentum.lastOf_sum_pos hw (by omega) (fun j hj => (hu j (by omega)).le) (hu i h2))
    (fun u hu fu => cmf_reports high low close u w hl hc hu hw hn fh fl fc fu hr) hv hv' fv fv' p p'

end totals

theorem lin_wilderSum (w : ℕ) : Lin (wilderSum w) := fun s t x y i => by
  have h0 := Lin.sum (w - 1) s t x y (w - 1)
  simp only at h0
  induction i with
  | zero => exact h0
  | succ i ih =>
    simp only [wilderSum]
    split_ifs
    · exact h0
    · rw [ih]; ring

theorem wilderSum_pos {w n : ℕ} (hw : 1 ≤ w) {u : ℕ → ℝ} (hu : ∀ j < n, 0 < u j) {i : ℕ} (h1 : w ≤ i) (h2 : i < n) : 0 < wilderSum w u i := by
  have h0 : 0 ≤ (lastOf u (w - 1) (w - 1)).sum := List.sum_nonneg fun x hx => by
    obtain ⟨j, hj, rfl⟩ := List.mem_map.1 hx
    have := List.mem_range.1 hj
    exact (hu _ (by omega)).le
  have w0 : (0 : ℝ) ≤ w - 1 := by have : (1 : ℝ) ≤ w := by exact_mod_cast hw
                                  linarith
  have nn : ∀ i < n, 0 ≤ wilderSum w u i := fun i => by
    induction i with
    | zero => exact fun _ => h0
    | succ i ih =>
      intro hi
      rw [wilderSum]
      split_ifs
      · exact h0
      · exact add_nonneg (div_nonneg (mul_nonneg (ih (by omega)) w0) (Nat.cast_nonneg w)) (hu _ hi).le
  obtain ⟨i, rfl⟩ : ∃ m, i = m + 1 := ⟨i - 1, by omega⟩
  rw [wilderSum, if_neg (by omega)]
  exact add_pos_of_nonneg_of_pos (div_nonneg (mul_nonneg (nn i (by omega)) w0) (Nat.cast_nonneg w)) (hu _ h2)

section
variable (high low close v v' : List XF) (hl : low.length = high.length) (hc : close.length = high.length) (hv : v.length = high.length)
  (hv' : v'.length = high.length) (fh : Fins high) (fl : Fins low) (fc : Fins close) (fv : Fins v) (fv' : Fins v')
  (p : ∀ x ∈ v, 0 < x.val) (p' : ∀ x ∈ v', 0 < x.val)
include hl hc hv hv' fh fl fc fv fv' p p'

/-- C133: `twiggs`, for positive volumes and bars whose true range is not zero. -/
theorem twiggs_merges (w : ℕ) (hw : 1 ≤ w) (hn : w ≤ high.length) (hr : ∀ j, 1 ≤ j → j < high.length →
      max (bar (vals high) j) (bar (vals close) (j - 1)) ≠ min (bar (vals low) j) (bar (vals close) (j - 1))) :
    VolumeMixes high.length w (twiggs high low close v w) (twiggs high low close v' w) (twiggs high low close (holding v v') w) :=
  volumeMixes_of (f := fun v => twiggs high low close v w) ((lin_wilderSum w).weigh fun j =>
      (bar (vals close) j - min (bar (vals low) j) (bar (vals close) (j - 1)) - (max (bar (vals high) j) (bar (vals close) (j - 1)) - bar (vals close) j)) /
        (max (bar (vals high) j) (bar (vals close) (j - 1)) - min (bar (vals low) j) (bar (vals close) (j - 1)))) (lin_wilderSum w)
    (fun u hu i h1 h2 => wilderSum_pos hw hu h1 h2)
    (fun u hu fu => (twiggs_reports high low close u w hl hc hu hw hn fh fl fc fu hr).mono fun i y h1 h2 hy => by
      convert hy using 3
      rw [twiggsTerm]
      exact mul_comm _ _) hv hv' fv fv' p p'

omit hl hc hv hv' fh fl fc fv fv' p p' in
theorem lastReset_le (resets : List ℕ) (i : ℕ) : lastReset resets i ≤ i := by
  rw [lastReset]
  have : ∀ (l : List ℕ) (a : ℕ), a ≤ i → (∀ r ∈ l, r ≤ i) → l.foldl max a ≤ i := fun l => by
    induction l with
    | nil => exact fun a h _ => h
    | cons b l ih => exact fun a h hl => ih _ (max_le h (hl b (by simp))) fun r hr => hl r (by simp [hr])
  exact this _ 0 (Nat.zero_le _) fun r hr => by simpa using (List.mem_filter.1 hr).2

omit hl hc hv hv' fh fl fc fv fv' p p' in
theorem session_bars {H L C U : List ℝ} (h1 : L.length = H.length) (h2 : C.length = H.length) (h3 : U.length = H.length) (resets : List ℕ) {i : ℕ}
    (hi : i < H.length) (f : ℝ × ℝ × ℝ × ℝ → ℝ) : (session (zip4 H L C U) resets i).map f =
      lastOf (fun j => f (bar H j, bar L j, bar C j, bar U j)) (i + 1 - lastReset resets i) i := by
  have hr := lastReset_le resets i
  have get : ∀ (l : List ℝ) (j : ℕ), j < l.length → l[j]? = some (bar l j) := fun l j hj => by
    rw [bar, List.getD_eq_getElem?_getD, List.getElem?_eq_getElem hj]; rfl
  rw [session, recent]
  generalize hm : i + 1 - lastReset resets i = m
  refine List.ext_getElem? fun j => ?_
  by_cases g : j < m
  · have e : (zip4 H L C U)[i + 1 - m + j]? = some (bar H (i + 1 - m + j), bar L (i + 1 - m + j), bar C (i + 1 - m + j), bar U (i + 1 - m + j)) :=
      zip4_getElem?.2 ⟨get _ _ (by omega), get _ _ (by omega), get _ _ (by omega), get _ _ (by omega)⟩
    rw [List.getElem?_map, List.getElem?_take_of_lt g, List.getElem?_drop, e, lastOf, List.getElem?_map, List.getElem?_range g]
    rfl
  · rw [List.getElem?_eq_none (by simp; omega), List.getElem?_eq_none (by simp [lastOf]; omega)]

/-- C133: `vwap`, for positive volumes and every increasing list of resets. -/
theorem vwap_merges (resetIdx : Option (List ℕ)) (hr : resetIdx ≠ some []) (hp : (resetIdx.getD [close.length]).Pairwise (· < ·)) :
    VolumeMixes high.length 0 (vwap high low close v resetIdx) (vwap high low close v' resetIdx) (vwap high low close (holding v v') resetIdx) :=
  volumeMixes_of (f := fun v => vwap high low close v resetIdx)
    (P := fun u i => (lastOf (fun j => (bar (vals high) j + bar (vals low) j + bar (vals close) j) / 3 * u j)
      (i + 1 - lastReset (resetIdx.getD [close.length]) i) i).sum)
    (Q := fun u i => (lastOf u (i + 1 - lastReset (resetIdx.getD [close.length]) i) i).sum)
    (fun s t x y i => (Lin.sum (i + 1 - lastReset (resetIdx.getD [close.length]) i)).weigh
      (fun j => (bar (vals high) j + bar (vals low) j + bar (vals close) j) / 3) s t x y i)
    (fun s t x y i => Lin.sum (i + 1 - lastReset (resetIdx.getD [close.length]) i) s t x y i)
    (fun u hu i _ h2 => Momentum.lastOf_sum_pos (by have := lastReset_le (resetIdx.getD [close.length]) i; omega) (by omega)
      (fun j hj => (hu j (by omega)).le) (hu i h2))
    (fun u hu fu => (vwap_reports high low close u resetIdx hl hc hu fh fl fc fu hr hp).mono fun i y h1 h2 hy => by
      rw [session_bars (by simpa using hl) (by simpa using hc) (by simpa using hu) _ (by simpa using h2),
        session_bars (by simpa using hl) (by simpa using hc) (by simpa using hu) _ (by simpa using h2)] at hy
      exact hy) hv hv' fv fv' p p'

end

section examples

private noncomputable def h5 : List XF := [3, 6, 5, 9, 8].map fin
private noncomputable def l5 : List XF := [1, 4, 2, 6, 5].map fin
private noncomputable def c5 : List XF := [2, 5, 3, 8, 6].map fin
private noncomputable def v5 : List XF := [10, 20, 5, 7, 9].map fin
private noncomputable def u5 : List XF := [1, 4, 8, 2, 3].map fin

example := obv_merges c5 v5 u5 (fins_map_fin _) (fins_map_fin _) (fins_map_fin _) rfl rfl (by simp [c5]) (by simp [c5])
example := vpt_merges c5 v5 u5 (fins_map_fin _) (fins_map_fin _) (fins_map_fin _) rfl rfl (by simp [c5]) (by simp [c5, FP.val])
example := tvi_merges c5 v5 u5 (fins_map_fin _) (fins_map_fin _) (fins_map_fin _) rfl rfl (by simp [c5]) (fin 1) trivial
example := elder_force_merges c5 v5 u5 (fins_map_fin _) (fins_map_fin _) (fins_map_fin _) rfl rfl 2 (by decide) (by simp [c5])
example := vwma_merges c5 v5 u5 (fins_map_fin _) (fins_map_fin _) (fins_map_fin _) rfl rfl 2 (by decide) (by simp [c5])
  (by simp [v5, FP.val]) (by simp [u5, FP.val])
example := ad_williams_merges h5 l5 c5 v5 u5 rfl rfl rfl rfl (fins_map_fin _) (fins_map_fin _) (fins_map_fin _) (fins_map_fin _) (fins_map_fin _)
  (by simp [h5])
example := kvo_alt_merges h5 l5 c5 v5 u5 rfl rfl rfl rfl (fins_map_fin _) (fins_map_fin _) (fins_map_fin _) (fins_map_fin _) (fins_map_fin _)
  2 3 none (by simp) (by decide) (by decide) (by simp [h5]) (by simp [h5])
example := vwap_merges h5 l5 c5 v5 u5 rfl rfl rfl rfl (fins_map_fin _) (fins_map_fin _) (fins_map_fin _) (fins_map_fin _) (fins_map_fin _)
  (by simp [v5, FP.val]) (by simp [u5, FP.val]) (some [2, 4]) (by simp) (by simp)

private theorem gap5 : ∀ j, j < h5.length → bar (vals l5) j < bar (vals h5) j := by
  intro j hj
  have : j < 5 := by simpa [h5] using hj
  interval_cases j <;> norm_num [h5, l5, bar, vals, FP.val]

example := cmf_merges h5 l5 c5 v5 u5 rfl rfl rfl rfl (fins_map_fin _) (fins_map_fin _) (fins_map_fin _) (fins_map_fin _) (fins_map_fin _)
  (by simp [v5, FP.val]) (by simp [u5, FP.val]) 2 (by decide) (by simp [h5]) fun j hj => (gap5 j hj).ne'
example := kvo_merges h5 l5 c5 v5 u5 rfl rfl rfl rfl (fins_map_fin _) (fins_map_fin _) (fins_map_fin _) (fins_map_fin _) (fins_map_fin _)
  2 3 (by decide) (by decide) (by simp [h5]) (by simp [h5]) fun j _ hj => gap5 j hj
example := twiggs_merges h5 l5 c5 v5 u5 rfl rfl rfl rfl (fins_map_fin _) (fins_map_fin _) (fins_map_fin _) (fins_map_fin _) (fins_map_fin _)
  (by simp [v5, FP.val]) (by simp [u5, FP.val]) 2 (by decide) (by simp [h5]) fun j _ hj =>
    (lt_of_le_of_lt (min_le_left _ _) (lt_of_lt_of_le (gap5 j hj) (le_max_left _ _))).ne'
example := ad_merges h5 l5 c5 v5 u5 rfl rfl rfl rfl (fins_map_fin _) (fins_map_fin _) (fins_map_fin _) (fins_map_fin _) (fins_map_fin _)
  (by simp [h5]) fun j h l e1 e2 => by
    have hj := (List.getElem?_eq_some_iff.1 e1).1
    have := gap5 j hj
    rw [bar_vals e1, bar_vals e2] at this
    exact this.ne'

end examples

end Traquer.Volume
