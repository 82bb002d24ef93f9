import Verif.Spec.Order
import Verif.Props.Dispersion
import Verif.Props.Quantile
import Verif.Props.Kendall
import Verif.Props.Dcor
import Verif.Props.Hoeffding
import Verif.Props.PlainFormulas
import Verif.Props.Vwap
import Verif.Props.Bands
import Verif.Props.SmoothMean
/-!
# C87: the order of the bars inside the window does not matter

Averages with equal weights, dispersions, quantiles and correlations treat the window as a bag of values (or of points).
-/

namespace Traquer
open FP

variable {ρ : Rounding}

theorem Shuffled.symm {w i : ℕ} {s s' : List (FP ρ)} (h : Shuffled w i s s') : Shuffled w i s' s := ⟨h.fins', h.fins, h.bar', h.bar, h.perm.symm⟩

theorem sameAt_reports {n n' k i : ℕ} {v v' : ℕ → ℝ} {r r' : Option (List (FP ρ))} (h : Reports n k v r) (h' : Reports n' k v' r')
    (hk : k ≤ i) (hi : i < n) (hi' : i < n') (e : v i = v' i) : SameAt i r r' := by
  obtain ⟨o, eo, -, -, f⟩ := h
  obtain ⟨o', eo', -, -, f'⟩ := h'
  obtain ⟨y, hy, iy⟩ := f i hk hi
  obtain ⟨y', hy', iy'⟩ := f' i hk hi'
  exact ⟨o, o', y, y', eo, eo', hy, hy', .inr ⟨v i, iy, e ▸ iy'⟩⟩

theorem sameAt_reportsP {n n' k i : ℕ} {P P' : ℕ → FP ρ → Prop} {r r' : Option (List (FP ρ))} (h : ReportsP n k P r) (h' : ReportsP n' k P' r')
    (hk : k ≤ i) (hi : i < n) (hi' : i < n') (e : ∀ y y', P i y → P' i y' → SameValue y y') : SameAt i r r' := by
  obtain ⟨o, eo, -, -, f⟩ := h
  obtain ⟨o', eo', -, -, f'⟩ := h'
  obtain ⟨y, hy, iy⟩ := f i hk hi
  obtain ⟨y', hy', iy'⟩ := f' i hk hi'
  exact ⟨o, o', y, y', eo, eo', hy, hy', e y y' iy iy'⟩

/-! ## Statistics of a bag of values -/

theorem _root_.List.Perm.mean {l l' : List ℝ} (h : l.Perm l') : Traquer.mean l = Traquer.mean l' := by
  rw [Traquer.mean, Traquer.mean, h.sum_eq, h.length_eq]

theorem _root_.List.Perm.moment {l l' : List ℝ} (h : l.Perm l') (k : ℕ) : Traquer.moment k l = Traquer.moment k l' := by
  rw [Traquer.moment, Traquer.moment, h.mean]; exact (h.map _).mean

theorem _root_.List.Perm.stdDev {l l' : List ℝ} (h : l.Perm l') : Traquer.stdDev l = Traquer.stdDev l' := by
  rw [Traquer.stdDev, Traquer.stdDev, h.moment]

theorem _root_.List.Perm.meanAbsDev {l l' : List ℝ} (h : l.Perm l') : Traquer.meanAbsDev l = Traquer.meanAbsDev l' := by
  rw [Traquer.meanAbsDev, Traquer.meanAbsDev, h.mean]; exact (h.map _).mean

theorem _root_.List.Perm.flat {l l' : List ℝ} (h : l.Perm l') : Flat l ↔ Flat l' := by
  simp only [Flat, h.mem_iff]

theorem _root_.List.Perm.orderStat {l l' : List ℝ} (h : l.Perm l') (k : ℕ) : Traquer.orderStat l k = Traquer.orderStat l' k := by
  have : l.insertionSort (· ≤ ·) = l'.insertionSort (· ≤ ·) :=
    List.Perm.eq_of_pairwise' (r := (· ≤ ·)) (List.pairwise_insertionSort (r := (· ≤ ·)) l) (List.pairwise_insertionSort (r := (· ≤ ·)) l')
      (((List.perm_insertionSort _ l).trans h).trans (List.perm_insertionSort _ l').symm)
  rw [Traquer.orderStat, Traquer.orderStat, this]

theorem _root_.List.Perm.quantileOf {l l' : List ℝ} (h : l.Perm l') (p : ℝ) : Traquer.quantileOf l p = Traquer.quantileOf l' p := by
  rw [Traquer.quantileOf, Traquer.quantileOf, h.orderStat, h.orderStat]

theorem _root_.List.Perm.maxOf {l l' : List ℝ} (h : l.Perm l') (hl : l ≠ []) : Traquer.maxOf l = Traquer.maxOf l' := by
  have hl' : l' ≠ [] := fun e => hl (List.Perm.eq_nil (e ▸ h))
  exact maxOf_eq (h.mem_iff.2 (maxOf_mem hl')) fun x hx => le_maxOf (h.mem_iff.1 hx)

theorem _root_.List.Perm.minOf {l l' : List ℝ} (h : l.Perm l') (hl : l ≠ []) : Traquer.minOf l = Traquer.minOf l' := by
  have hl' : l' ≠ [] := fun e => hl (List.Perm.eq_nil (e ▸ h))
  exact minOf_eq (h.mem_iff.2 (minOf_mem hl')) fun x hx => minOf_le (h.mem_iff.1 hx)

/-! ## Statistics of a bag of points -/

section
variable {xs ys xs' ys' : List ℝ} (l : ys.length = xs.length) (l' : ys'.length = xs'.length) (h : (xs.zip ys).Perm (xs'.zip ys'))
include l l' h

theorem perm_fst : xs.Perm xs' := by
  have := h.map Prod.fst
  rwa [List.map_fst_zip (by omega), List.map_fst_zip (by omega)] at this

theorem perm_snd : ys.Perm ys' := by
  have := h.map Prod.snd
  rwa [List.map_snd_zip (by omega), List.map_snd_zip (by omega)] at this

theorem perm_covar : covar xs ys = covar xs' ys' := by
  rw [covar, covar, (perm_fst l l' h).mean, (perm_snd l l' h).mean]; exact (h.map _).mean

theorem perm_pearson : pearson xs ys = pearson xs' ys' := by
  rw [pearson, pearson, perm_covar l l' h, (perm_fst l l' h).stdDev, (perm_snd l l' h).stdDev]

theorem perm_ranks : ((ranksOf xs).zip (ranksOf ys)).Perm ((ranksOf xs').zip (ranksOf ys')) := by
  have e : ∀ a b : List ℝ, (ranksOf a).zip (ranksOf b) = (a.zip b).map fun p =>
      (((a.countP fun y => decide (y < p.1)) : ℝ) + 1, ((b.countP fun y => decide (y < p.2)) : ℝ) + 1) := fun a b => by
    rw [ranksOf, ranksOf, List.zip_map]; rfl
  rw [e, e]
  have := h.map fun p => (((xs.countP fun y => decide (y < p.1)) : ℝ) + 1, ((ys.countP fun y => decide (y < p.2)) : ℝ) + 1)
  refine this.trans (.of_eq (List.map_congr_left fun p _ => ?_))
  rw [(perm_fst l l' h).countP_eq, (perm_snd l l' h).countP_eq]

end

theorem countP_pairsOf_perm {α : Type} (p : α × α → Bool) (hp : ∀ x y, p (x, y) = p (y, x)) {l l' : List α} (h : l.Perm l') :
    (pairsOf l).countP p = (pairsOf l').countP p := by
  induction h with
  | nil => rfl
  | cons x h ih => simp only [pairsOf, List.countP_append, ih, (h.map _).countP_eq]
  | swap x y l =>
    simp only [pairsOf, List.countP_append, List.map_cons, List.countP_cons, hp x y]; omega
  | trans _ _ h1 h2 => exact h1.trans h2

theorem numPairs_perm {P : ℝ → ℝ → ℝ → ℝ → Prop} (hP : ∀ x x' y y', P x x' y y' ↔ P x' x y' y) {xs ys xs' ys' : List ℝ}
    (h : (xs.zip ys).Perm (xs'.zip ys')) : numPairs P xs ys = numPairs P xs' ys' := by
  classical
  refine countP_pairsOf_perm _ (fun x y => ?_) h
  simp only [hP x.1 y.1 x.2 y.2]

theorem perm_kendallIs {xs ys xs' ys' : List ℝ} (l : ys.length = xs.length) (l' : ys'.length = xs'.length)
    (h : (xs.zip ys).Perm (xs'.zip ys')) {y : FP ρ} : KendallIs xs ys y ↔ KendallIs xs' ys' y := by
  have e1 : concordant xs ys = concordant xs' ys' := numPairs_perm (fun x x' y y' => by
    rw [show (x' - x) * (y' - y) = (x - x') * (y - y') by ring]) h
  have e2 : discordant xs ys = discordant xs' ys' := numPairs_perm (fun x x' y y' => by
    rw [show (x' - x) * (y' - y) = (x - x') * (y - y') by ring]) h
  have e3 : tiesX xs ys = tiesX xs' ys' := numPairs_perm (fun x x' y y' => eq_comm) h
  have e4 : tiesY xs ys = tiesY xs' ys' := numPairs_perm (fun x x' y y' => eq_comm) h
  rw [KendallIs, KendallIs, e1, e2, kendallDen, kendallDen, e3, e4, (perm_fst l l' h).length_eq]

/-! ## Distance correlation of a bag of points -/

theorem sum_range_getD (f : ℝ → ℝ) (xs : List ℝ) : ∑ i ∈ Finset.range xs.length, f (xs.getD i 0) = (xs.map f).sum := by
  induction xs with
  | nil => simp
  | cons x l ih => rw [List.length_cons, Finset.sum_range_succ']; simp [← ih, add_comm]

theorem sum_range_getD2 (f : ℝ → ℝ → ℝ) {xs ys : List ℝ} (h : ys.length = xs.length) :
    ∑ i ∈ Finset.range xs.length, f (xs.getD i 0) (ys.getD i 0) = ((xs.zip ys).map fun p => f p.1 p.2).sum := by
  induction xs generalizing ys with
  | nil => simp
  | cons x l ih =>
    cases ys with
    | nil => simp at h
    | cons y ys => rw [List.length_cons, Finset.sum_range_succ']; simp [← ih (ys := ys) (by simpa using h), add_comm]

/-- The centred distance of two values of a bag. -/
private noncomputable def centred (xs : List ℝ) (a b : ℝ) : ℝ :=
  |a - b| - (xs.map fun c => |a - c|).sum / xs.length - (xs.map fun c => |c - b|).sum / xs.length
    + (xs.map fun c => (xs.map fun d => |c - d|).sum).sum / (xs.length : ℝ) ^ 2

theorem centredDist_centred (xs : List ℝ) (i j : ℕ) : centredDist xs i j = centred xs (xs.getD i 0) (xs.getD j 0) := by
  rw [centredDist, centred]
  have e1 : ∑ b ∈ Finset.range xs.length, distOf xs i b = (xs.map fun c => |xs.getD i 0 - c|).sum :=
    sum_range_getD (fun c => |xs.getD i 0 - c|) xs
  have e2 : ∑ a ∈ Finset.range xs.length, distOf xs a j = (xs.map fun c => |c - xs.getD j 0|).sum :=
    sum_range_getD (fun c => |c - xs.getD j 0|) xs
  have e3 : ∑ a ∈ Finset.range xs.length, ∑ b ∈ Finset.range xs.length, distOf xs a b = (xs.map fun c => (xs.map fun d => |c - d|).sum).sum := by
    rw [← sum_range_getD (fun c => (xs.map fun d => |c - d|).sum) xs]
    refine Finset.sum_congr rfl fun i _ => ?_
    exact sum_range_getD (fun c => |xs.getD i 0 - c|) xs
  rw [e1, e2, e3]; rfl

theorem centred_perm {xs xs' : List ℝ} (h : xs.Perm xs') (a b : ℝ) : centred xs a b = centred xs' a b := by
  have e : ∀ f : ℝ → ℝ, (xs.map f).sum = (xs'.map f).sum := fun f => (h.map f).sum_eq
  simp only [centred, e, h.length_eq]

theorem distCov2_zip {xs ys : List ℝ} (h : ys.length = xs.length) : distCov2 xs ys =
    ((xs.zip ys).map fun p => ((xs.zip ys).map fun q => centred xs p.1 q.1 * centred ys p.2 q.2).sum).sum / (xs.length : ℝ) ^ 2 := by
  rw [distCov2]
  congr 1
  rw [← sum_range_getD2 (fun a b => ((xs.zip ys).map fun q => centred xs a q.1 * centred ys b q.2).sum) h]
  refine Finset.sum_congr rfl fun i _ => ?_
  rw [← sum_range_getD2 (fun a b => centred xs (xs.getD i 0) a * centred ys (ys.getD i 0) b) h]
  refine Finset.sum_congr rfl fun j _ => ?_
  rw [centredDist_centred, centredDist_centred]

theorem perm_distCov2 {xs ys xs' ys' : List ℝ} (l : ys.length = xs.length) (l' : ys'.length = xs'.length)
    (h : (xs.zip ys).Perm (xs'.zip ys')) : distCov2 xs ys = distCov2 xs' ys' := by
  rw [distCov2_zip l, distCov2_zip l', (perm_fst l l' h).length_eq]
  congr 1
  have e : ∀ f : ℝ × ℝ → ℝ, ((xs.zip ys).map f).sum = ((xs'.zip ys').map f).sum := fun f => (h.map f).sum_eq
  simp only [e, centred_perm (perm_fst l l' h), centred_perm (perm_snd l l' h)]

theorem perm_zip_self {xs xs' : List ℝ} (h : xs.Perm xs') : (xs.zip xs).Perm (xs'.zip xs') := by
  have e : ∀ l : List ℝ, l.zip l = l.map fun x => (x, x) := fun l => by induction l <;> simp [*]
  rw [e, e]; exact h.map _

theorem perm_distCor {xs ys xs' ys' : List ℝ} (l : ys.length = xs.length) (l' : ys'.length = xs'.length)
    (h : (xs.zip ys).Perm (xs'.zip ys')) : distCor xs ys = distCor xs' ys' := by
  rw [distCor, distCor, perm_distCov2 l l' h, perm_distCov2 rfl rfl (perm_zip_self (perm_fst l l' h)),
    perm_distCov2 rfl rfl (perm_zip_self (perm_snd l l' h))]

theorem perm_hoeffding {ps ps' : List (ℝ × ℝ)} (h : ps.Perm ps') : hoeffdingD ps = hoeffdingD ps' := by
  have e : ∀ f : ℝ × ℝ → ℝ, (ps.map f).sum = (ps'.map f).sum := fun f => (h.map f).sum_eq
  have e1 : ∀ f : ℝ → ℝ, ((ps.map Prod.fst).map f).sum = ((ps'.map Prod.fst).map f).sum := fun f => ((h.map _).map f).sum_eq
  have e2 : ∀ f : ℝ → ℝ, ((ps.map Prod.snd).map f).sum = ((ps'.map Prod.snd).map f).sum := fun f => ((h.map _).map f).sum_eq
  simp only [hoeffdingD, hoeffdingOf, jointRank, midRank, e, e1, e2, h.length_eq]

theorem QuotIs.same {a b : ℝ} {y y' : FP ρ} (h : QuotIs a b y) (h' : QuotIs a b y') (hb : b ≠ 0 ∨ a = 0) : SameValue y y' := by
  by_cases e : b = 0
  · have ha := hb.resolve_left (not_not_intro e)
    exact .inl ((h.2.1 e ha).trans (h'.2.1 e ha).symm)
  · exact .inr ⟨_, h.1 e, h'.1 e⟩

end Traquer

namespace Traquer
variable {w i : ℕ} {data data' : List XF}

theorem Shuffled.len (h : Shuffled w i data data') (hi : w ≤ i + 1) : w ≤ data.length + 1 := by have := h.bar; omega
theorem Shuffled.len' (h : Shuffled w i data data') (hi : w ≤ i + 1) : w ≤ data'.length + 1 := by have := h.bar'; omega
end Traquer

namespace Traquer.Smooth
variable {w i : ℕ} {data data' : List XF}

/-- C87: `sma`. -/
theorem sma_order (h : Shuffled w i data data') (hw : 1 ≤ w) (hi : w ≤ i + 1) : SameAt i (sma data w) (sma data' w) :=
  sameAt_reports (sma_reports _ _ hw (h.len hi) h.fins) (sma_reports _ _ hw (h.len' hi) h.fins') (by omega) h.bar h.bar' h.perm.mean

end Traquer.Smooth

namespace Traquer.Distribution
open FP FloatLit
variable {w i : ℕ} {data data' : List XF}

/-- C87: `variance`. -/
theorem variance_order (h : Shuffled w i data data') (hw : 1 ≤ w) (hi : w ≤ i + 1) : SameAt i (variance data w) (variance data' w) :=
  sameAt_reports (variance_reports _ _ hw (h.len hi) h.fins) (variance_reports _ _ hw (h.len' hi) h.fins') (by omega) h.bar h.bar' (h.perm.moment 2)

/-- C87: `std_dev`. -/
theorem std_dev_order (h : Shuffled w i data data') (hw : 1 ≤ w) (hi : w ≤ i + 1) : SameAt i (std_dev data w) (std_dev data' w) :=
  sameAt_reports (std_dev_reports _ _ hw (h.len hi) h.fins) (std_dev_reports _ _ hw (h.len' hi) h.fins') (by omega) h.bar h.bar' h.perm.stdDev

/-- C87: `mad`. -/
theorem mad_order (h : Shuffled w i data data') (hw : 1 ≤ w) (hi : w ≤ i + 1) : SameAt i (mad data w) (mad data' w) :=
  sameAt_reports (mad_reports _ _ hw (h.len hi) h.fins) (mad_reports _ _ hw (h.len' hi) h.fins') (by omega) h.bar h.bar' h.perm.meanAbsDev

/-- C87: `cv`, where the mean of the window is not zero. -/
theorem cv_order (h : Shuffled w i data data') (hw : 1 ≤ w) (hi : w ≤ i + 1) (hm : mean (recent (vals data) w i) ≠ 0) :
    SameAt i (cv data w) (cv data' w) :=
  sameAt_reportsP (cv_reports _ _ hw (h.len hi) h.fins) (cv_reports _ _ hw (h.len' hi) h.fins') (by omega) h.bar h.bar' fun y y' hy hy' =>
    .inr ⟨_, hy hm, by rw [h.perm.stdDev, h.perm.mean]; exact hy' (by rwa [← h.perm.mean])⟩

/-- C87: `skew`, where the window is not constant. -/
theorem skew_order (h : Shuffled w i data data') (hw : 3 ≤ w) (hi : w ≤ i + 1) (hm : ¬ Flat (recent (vals data) w i)) :
    SameAt i (skew data w) (skew data' w) :=
  sameAt_reportsP (skew_reports _ _ hw (h.len hi) h.fins) (skew_reports _ _ hw (h.len' hi) h.fins') (by omega) h.bar h.bar' fun y y' hy hy' =>
    .inr ⟨_, hy hm, by rw [h.perm.moment, h.perm.moment]; exact hy' (by rwa [← h.perm.flat])⟩

/-- C87: `kurtosis`, where the window is not constant. -/
theorem kurtosis_order (h : Shuffled w i data data') (hw : 4 ≤ w) (hi : w ≤ i + 1) (hm : ¬ Flat (recent (vals data) w i)) :
    SameAt i (kurtosis data w) (kurtosis data' w) :=
  sameAt_reportsP (kurtosis_reports _ _ hw (h.len hi) h.fins) (kurtosis_reports _ _ hw (h.len' hi) h.fins') (by omega) h.bar h.bar' fun y y' hy hy' =>
    .inr ⟨_, hy hm, by rw [h.perm.moment, h.perm.moment]; exact hy' (by rwa [← h.perm.flat])⟩

/-- C87: `quantile`, at every level. -/
theorem quantile_order (h : Shuffled w i data data') {q : XF} (hq : q.Finite) (hw : 1 ≤ w) (hw' : w ≤ 2 ^ 53) (hi : w ≤ i + 1) :
    SameAt i (quantile data w q) (quantile data' w q) :=
  sameAt_reports (quantile_reports _ _ q _ hq.is hw hw' (h.len hi) h.fins) (quantile_reports _ _ q _ hq.is hw hw' (h.len' hi) h.fins') (by omega)
    h.bar h.bar' (h.perm.quantileOf _)

/-- C87: `median`. -/
theorem median_order (h : Shuffled w i data data') (hw : 1 ≤ w) (hw' : w ≤ 2 ^ 53) (hi : w ≤ i + 1) :
    SameAt i (median data w) (median data' w) := quantile_order h (is_lit 50).1 hw hw' hi

end Traquer.Distribution

namespace Traquer.Correlation
open FP Distribution
variable {w i : ℕ} {s t s' t' : List XF} (h : Shuffled2 w i s t s' t') (hi : w ≤ i + 1)
include h hi

private theorem lens : (recent (vals t) w i).length = (recent (vals s) w i).length ∧ (recent (vals t') w i).length = (recent (vals s') w i).length := by
  have := h.len; have := h.len'; have := h.bar; have := h.bar'
  rw [recent_length hi (by simp; omega), recent_length hi (by simp; omega), recent_length hi (by simp; omega), recent_length hi (by simp; omega)]
  exact ⟨rfl, rfl⟩

private theorem perms : (recent (vals s) w i).Perm (recent (vals s') w i) ∧ (recent (vals t) w i).Perm (recent (vals t') w i) :=
  ⟨perm_fst (lens h hi).1 (lens h hi).2 h.perm, perm_snd (lens h hi).1 (lens h hi).2 h.perm⟩

/-- C87: `pcc`, when the points of the window come in another order. -/
theorem pcc_order (hw : 1 ≤ w) : SameAt i (pcc s t w) (pcc s' t' w) := by
  have := h.bar; have := h.bar'
  obtain ⟨p1, p2⟩ := perms h hi
  refine sameAt_reportsP (pcc_reports s t w h.len hw (by omega) h.fins.1 h.fins.2) (pcc_reports s' t' w h.len' hw (by omega) h.fins'.1 h.fins'.2)
    (by omega) h.bar h.bar' fun y y' hy hy' => ?_
  by_cases hf : Flat (recent (vals s) w i) ∨ Flat (recent (vals t) w i)
  · exact .inl ((hy.2 hf).trans (hy'.2 (by rwa [← p1.flat, ← p2.flat])).symm)
  · rw [not_or] at hf
    exact .inr ⟨_, hy.1 hf.1 hf.2, by
      rw [perm_pearson (lens h hi).1 (lens h hi).2 h.perm]; exact hy'.1 (by rw [← p1.flat]; exact hf.1) (by rw [← p2.flat]; exact hf.2)⟩

/-- C87: `rsq`. -/
theorem rsq_order (hw : 1 ≤ w) : SameAt i (rsq s t w) (rsq s' t' w) := by
  have := h.bar; have := h.bar'
  obtain ⟨p1, p2⟩ := perms h hi
  refine sameAt_reportsP (rsq_reports s t w h.len hw (by omega) h.fins.1 h.fins.2) (rsq_reports s' t' w h.len' hw (by omega) h.fins'.1 h.fins'.2)
    (by omega) h.bar h.bar' fun y y' hy hy' => ?_
  by_cases hf : Flat (recent (vals s) w i) ∨ Flat (recent (vals t) w i)
  · exact .inl ((hy.2 hf).trans (hy'.2 (by rwa [← p1.flat, ← p2.flat])).symm)
  · rw [not_or] at hf
    exact .inr ⟨_, hy.1 hf.1 hf.2, by
      rw [perm_pearson (lens h hi).1 (lens h hi).2 h.perm]; exact hy'.1 (by rw [← p1.flat]; exact hf.1) (by rw [← p2.flat]; exact hf.2)⟩

/-- C87: `srcc`, whatever the two unstable sorts do with ties. -/
theorem srcc_order (srt srt' : Sorter XF) (hs : srt.Valid) (hs' : srt'.Valid) (hw : 1 ≤ w) : SameAt i (srcc srt s t w) (srcc srt' s' t' w) := by
  have := h.bar; have := h.bar'
  have hl := lens h hi
  have hr := perm_ranks hl.1 hl.2 h.perm
  have r1 : ∀ l : List ℝ, (ranksOf l).length = l.length := fun l => by simp [ranksOf]
  have hl1 : (ranksOf (recent (vals t) w i)).length = (ranksOf (recent (vals s) w i)).length := by rw [r1, r1, hl.1]
  have hl2 : (ranksOf (recent (vals t') w i)).length = (ranksOf (recent (vals s') w i)).length := by rw [r1, r1, hl.2]
  have p1 := perm_fst hl1 hl2 hr
  have p2 := perm_snd hl1 hl2 hr
  refine sameAt_reportsP (srcc_reports srt hs s t w h.len hw (by omega) h.fins.1 h.fins.2)
    (srcc_reports srt' hs' s' t' w h.len' hw (by omega) h.fins'.1 h.fins'.2) (by omega) h.bar h.bar' fun y y' hy hy' => ?_
  by_cases hf : Flat (ranksOf (recent (vals s) w i)) ∨ Flat (ranksOf (recent (vals t) w i))
  · exact .inl ((hy.2 hf).trans (hy'.2 (by rwa [← p1.flat, ← p2.flat])).symm)
  · rw [not_or] at hf
    exact .inr ⟨_, hy.1 hf.1 hf.2, by
      rw [perm_pearson hl1 hl2 hr]; exact hy'.1 (by rw [← p1.flat]; exact hf.1) (by rw [← p2.flat]; exact hf.2)⟩

/-- C87: `dcor`. -/
theorem dcor_order (hw : 1 ≤ w) : SameAt i (dcor s t w) (dcor s' t' w) := by
  have := h.bar; have := h.bar'
  obtain ⟨p1, p2⟩ := perms h hi
  refine sameAt_reportsP (dcor_reports s t w h.len hw (by omega) h.fins.1 h.fins.2) (dcor_reports s' t' w h.len' hw (by omega) h.fins'.1 h.fins'.2)
    (by omega) h.bar h.bar' fun y y' hy hy' => ?_
  by_cases hf : Flat (recent (vals s) w i) ∨ Flat (recent (vals t) w i)
  · exact .inl ((hy.2 hf).trans (hy'.2 (by rwa [← p1.flat, ← p2.flat])).symm)
  · rw [not_or] at hf
    exact .inr ⟨_, hy.1 hf.1 hf.2, by
      rw [perm_distCor (lens h hi).1 (lens h hi).2 h.perm]; exact hy'.1 (by rw [← p1.flat]; exact hf.1) (by rw [← p2.flat]; exact hf.2)⟩

/-- C87: `hoeffd`, whatever the two unstable sorts do with ties. -/
theorem hoeffd_order (srt srt' : Sorter XF) (hs : srt.Valid) (hs' : srt'.Valid) (hw : 5 ≤ w ∧ w ≤ 7133) :
    SameAt i (hoeffd srt s t w) (hoeffd srt' s' t' w) := by
  have := h.bar; have := h.bar'
  exact sameAt_reports (hoeffd_reports srt hs s t w h.len hw (by omega) h.fins.1 h.fins.2)
    (hoeffd_reports srt' hs' s' t' w h.len' hw (by omega) h.fins'.1 h.fins'.2) (by omega) h.bar h.bar' (perm_hoeffding h.perm)

/-- C87: `krcc`, if no window of the second series has ties. -/
theorem krcc_order (hw : 1 ≤ w) (hd : ∀ j, w ≤ j + 1 → j < s.length → (recent (vals t) w j).Nodup)
    (hd' : ∀ j, w ≤ j + 1 → j < s'.length → (recent (vals t') w j).Nodup) : SameAt i (krcc s t w) (krcc s' t' w) := by
  have := h.bar; have := h.bar'
  obtain ⟨l1, l2⟩ := lens h hi
  refine sameAt_reportsP (krcc_reports s t w h.len hw (by omega) h.fins.1 h.fins.2 hd)
    (krcc_reports s' t' w h.len' hw (by omega) h.fins'.1 h.fins'.2 hd') (by omega) h.bar h.bar' fun y y' hy hy' => ?_
  rw [← perm_kendallIs l1 l2 h.perm] at hy'
  refine QuotIs.same hy hy' ?_
  by_contra hne
  rw [not_or, not_not] at hne
  rcases KendallIs.range hy l1 (hd i hi h.bar) with e | ⟨r, e, -, -⟩
  · obtain ⟨b, e'⟩ := hy.2.2 hne.1 hne.2
    rw [e] at e'; cases e'
  · obtain ⟨b, e'⟩ := hy.2.2 hne.1 hne.2
    rw [e'] at e; exact absurd e.1 (by simp [FP.Finite])

omit h hi in
/-- C87, where the code and its documentation part: with ties in the second series `krcc` depends on the order of the points. The same three
points give 0 in one order and `-2/√6` in the reverse order. -/
theorem krcc_order_matters : ∃ y y' : XF, krcc [fin 3, fin 2, fin 1] [fin 1, fin 1, fin 2] 3 = some [FP.nan, FP.nan, y] ∧ y ⇓ 0 ∧
    krcc [fin 1, fin 2, fin 3] [fin 2, fin 1, fin 1] 3 = some [FP.nan, FP.nan, y'] ∧ y' ⇓ -2 / Real.sqrt 6 := by
  obtain ⟨-, -, ⟨y, e, iy⟩, -⟩ := krcc_ties_wrong
  obtain ⟨y', e', h⟩ := krcc_one (xs := [1, 2, 3]) (ys := [2, 1, 1]) rfl (by simp)
  refine ⟨y, y', e, iy, e', (h.1 ?_).congr ?_⟩
  · simp [kendallDen, tiesX, tiesY, numPairs, pairsOf]; norm_num
  · simp [codeConcordant, kendallDen, tiesX, tiesY, tiesXY, numPairs, pairsOf]; norm_num

end Traquer.Correlation

namespace Traquer.Volume
open FP
variable {w i : ℕ} {s t s' t' : List XF}

/-- C87: `vwma`, when price and volume of the bars of the window are shuffled together, where the volume does not vanish. -/
theorem vwma_order (h : Shuffled2 w i s t s' t') (hw : 1 ≤ w) (hi : w ≤ i + 1) (hv : (recent (vals t) w i).sum ≠ 0) :
    SameAt i (vwma s t w) (vwma s' t' w) := by
  have hb := h.bar; have hb' := h.bar'; have hl := h.len; have hl' := h.len'
  have p2 : (recent (vals t) w i).Perm (recent (vals t') w i) := perm_snd
    (by rw [recent_length hi (by simp; omega), recent_length hi (by simp; omega)])
    (by rw [recent_length hi (by simp; omega), recent_length hi (by simp; omega)]) h.perm
  refine sameAt_reportsP (vwma_reports s t w h.len hw (by omega) h.fins.1 h.fins.2) (vwma_reports s' t' w h.len' hw (by omega) h.fins'.1 h.fins'.2)
    (by omega) h.bar h.bar' fun y y' hy hy' => ?_
  rw [← p2.sum_eq, ← (h.perm.map _).sum_eq] at hy'
  exact QuotIs.same hy hy' (.inl hv)

end Traquer.Volume

namespace Traquer.Volatility
open FP
variable {ρ : Rounding} {w i : ℕ} {s t s' t' : List (FP ρ)}

/-- C87: the bounds of `donchian`, in every rounding, even when highs and lows are shuffled separately. -/
theorem donchian_order (h : Shuffled w i s s') (g : Shuffled w i t t') (l : t.length = s.length) (l' : t'.length = s'.length)
    (hw : 1 ≤ w) (hi : w ≤ i + 1) : ∃ out out' p p', donchian s t w = some out ∧ donchian s' t' w = some out' ∧ out[i]? = some p ∧
      out'[i]? = some p' ∧ SameValue p.1 p'.1 ∧ SameValue p.2.2 p'.2.2 := by
  have hb := h.bar; have hb' := h.bar'
  obtain ⟨o, e, lo, f⟩ := donchian_attained s t w l hw (by omega) h.fins g.fins
  obtain ⟨o', e', lo', f'⟩ := donchian_attained s' t' w l' hw (by omega) h.fins' g.fins'
  have g1 := List.getElem?_eq_getElem (l := o) (i := i) (by omega)
  have g2 := List.getElem?_eq_getElem (l := o') (i := i) (by omega)
  obtain ⟨a1, a2⟩ := f i _ (by omega) g1
  obtain ⟨b1, b2⟩ := f' i _ (by omega) g2
  refine ⟨o, o', _, _, e, e', g1, g2, .inr ⟨_, a1, ?_⟩, .inr ⟨_, a2, ?_⟩⟩
  · rw [h.perm.maxOf (recent_ne_nil hw hi (by simpa using hb))]; exact b1
  · rw [g.perm.minOf (recent_ne_nil hw hi (by simp; omega))]; exact b2

end Traquer.Volatility

namespace Traquer
open FP

private theorem exS : Shuffled 3 3 ([9, 1, 2, 4].map (fin (ρ := Rounding.exact))) ([4, 2, 4, 1, 7].map fin) :=
  ⟨fins_map_fin _, fins_map_fin _, by simp, by simp, by
    rw [vals_map_fin, vals_map_fin]
    show ([1, 2, 4] : List ℝ).Perm [2, 4, 1]
    exact (List.perm_append_comm (l₁ := [1]) (l₂ := [2, 4]))⟩

example : SameAt 3 (Smooth.sma ([9, 1, 2, 4].map (fin (ρ := Rounding.exact))) 3) (Smooth.sma ([4, 2, 4, 1, 7].map fin) 3) :=
  Smooth.sma_order exS (by norm_num) (by norm_num)
example : SameAt 3 (Distribution.median ([9, 1, 2, 4].map (fin (ρ := Rounding.exact))) 3) (Distribution.median ([4, 2, 4, 1, 7].map fin) 3) :=
  Distribution.median_order exS (by norm_num) (by norm_num) (by norm_num)
example : SameAt 3 (Distribution.skew ([9, 1, 2, 4].map (fin (ρ := Rounding.exact))) 3) (Distribution.skew ([4, 2, 4, 1, 7].map fin) 3) :=
  Distribution.skew_order exS (by norm_num) (by norm_num) fun hf => by
    rw [vals_map_fin] at hf
    have := hf 1 (by simp [recent]) 2 (by simp [recent])
    norm_num at this

private theorem exS2 : Shuffled2 3 3 ([9, 1, 2, 4].map (fin (ρ := Rounding.exact))) ([8, 3, 5, 6].map fin) ([4, 2, 4, 1, 7].map fin) ([4, 5, 6, 3, 7].map fin) :=
  ⟨⟨fins_map_fin _, fins_map_fin _⟩, ⟨fins_map_fin _, fins_map_fin _⟩, by simp, by simp, by simp, by simp, by
    rw [vals_map_fin, vals_map_fin, vals_map_fin, vals_map_fin]
    show ([(1, 3), (2, 5), (4, 6)] : List (ℝ × ℝ)).Perm [(2, 5), (4, 6), (1, 3)]
    exact (List.perm_append_comm (l₁ := [(1, 3)]) (l₂ := [(2, 5), (4, 6)]))⟩

example : SameAt 3 (Correlation.pcc ([9, 1, 2, 4].map (fin (ρ := Rounding.exact))) ([8, 3, 5, 6].map fin) 3)
    (Correlation.pcc ([4, 2, 4, 1, 7].map fin) ([4, 5, 6, 3, 7].map fin) 3) := Correlation.pcc_order exS2 (by norm_num) (by norm_num)
example : SameAt 3 (Correlation.dcor ([9, 1, 2, 4].map (fin (ρ := Rounding.exact))) ([8, 3, 5, 6].map fin) 3)
    (Correlation.dcor ([4, 2, 4, 1, 7].map fin) ([4, 5, 6, 3, 7].map fin) 3) := Correlation.dcor_order exS2 (by norm_num) (by norm_num)

end Traquer
