import Verif.Props.MirrorVolume
import Verif.Model.Distribution
import Verif.Model.Regression
import Verif.Model.Correlation
/-!
# C80: the mirror image, statistics
-/

namespace Traquer.Distribution
open FP FloatLit
variable {ρ : Rounding} {p : Parity} {data data' : List (FP ρ)}

theorem winMean_mirror (h : Each (Par p) data data') (window : ℕ) : Par p (winMean data window) (winMean data' window) :=
  (Par.fsum h).div .lit

theorem powDev_mirror {m m' : FP ρ} {n : ℕ} (h : Each (Par p) data data') (hm : Par p m m') (e : n % 2 = 0) (e' : n ≠ 0) :
    powDev data m n = powDev data' m' n :=
  foldl_rel (X := Par .eq) .zero h fun _ _ h1 _ _ h2 => h1.add ((h2.sub hm).powi_even e e')

theorem powDev_three_mirror {m m' : FP ρ} (h : Each (Par p) data data') (hm : Par p m m') :
    Par p (powDev data m 3) (powDev data' m' 3) :=
  foldl_rel (X := Par p) .zero h fun _ _ h1 _ _ h2 => h1.add (h2.sub hm).powi_three

/-- The variance stays. -/
theorem variance_mirror (window : ℕ) : variance (mirror data) window = variance data window := by
  refine Alike.eq_of_each ?_
  simp only [variance, Option.bind_eq_bind]
  refine Alike.bind Alike.same (forall_eq_rel fun k => Alike.bind (Alike.windows (each_mirror_odd data)) fun ws ws' hw =>
    .answer (each_append (each_par_nans (p := .eq) k) (each_map hw fun w w' e => ?_)))
  exact congrArg (· / flt window) (powDev_mirror e (winMean_mirror e window) rfl (by decide))

/-- The z-score changes sign. -/
theorem zscore_mirror (window : ℕ) : Alike (Each Opposite) (zscore data window) (zscore (mirror data) window) := by
  simp only [zscore, Option.bind_eq_bind]
  refine Alike.bind Alike.same (forall_eq_rel fun k => Alike.bind (Alike.windows (each_mirror_odd data)) fun ws ws' hw =>
    Alike.bind (P := Each (Par .odd)) (Alike.mapP hw fun w w' e => ?_) fun r r' hr => .answer (each_append (P := Par .odd) (each_par_nans k) hr))
  have hm := winMean_mirror e window
  rw [powDev_mirror e hm rfl (by decide)]
  exact Alike.bind (Alike.getElem? e rfl) fun x x' hx => .answer ((hx.sub hm).div .lit)

/-- The mean absolute deviation stays. -/
theorem mad_mirror (window : ℕ) : mad (mirror data) window = mad data window := by
  refine Alike.eq_of_each ?_
  simp only [mad, Option.bind_eq_bind]
  refine Alike.bind Alike.same (forall_eq_rel fun k => Alike.bind (Alike.windows (each_mirror_odd data)) fun ws ws' hw =>
    .answer (each_append (each_par_nans (p := .eq) k) (each_map hw fun w w' e => ?_)))
  exact Par.div (foldl_rel (X := Par .eq) .zero e fun _ _ h1 _ _ h2 => h1.add (h2.sub (winMean_mirror e window)).fabs) .lit

/-- The kurtosis stays. -/
theorem kurtosis_mirror (window : ℕ) : kurtosis (mirror data) window = kurtosis data window := by
  refine Alike.eq_of_each ?_
  simp only [kurtosis, Option.bind_eq_bind]
  refine Alike.bind Alike.same (forall_eq_rel fun w1 => Alike.bind Alike.same (forall_eq_rel fun w2 => Alike.bind Alike.same (forall_eq_rel fun w3 =>
    Alike.bind (Alike.windows (each_mirror_odd data)) fun ws ws' hw => .answer (each_append (each_par_nans (p := .eq) w1) (each_map hw fun w w' e => ?_)))))
  rw [powDev_mirror e (winMean_mirror e window) rfl (by decide), powDev_mirror e (winMean_mirror e window) rfl (by decide)]
  exact .lit

/-- The skewness changes sign. -/
theorem skew_mirror (window : ℕ) : Alike (Each Opposite) (skew data window) (skew (mirror data) window) := by
  simp only [skew, Option.bind_eq_bind]
  refine Alike.bind Alike.same (forall_eq_rel fun k => Alike.bind (Alike.windows (each_mirror_odd data)) fun ws ws' hw =>
    Alike.bind (P := Each (Par .odd)) (Alike.mapP hw fun w w' e => ?_) fun r r' hr => .answer (each_append (P := Par .odd) (each_par_nans k) hr))
  have hm := winMean_mirror e window
  rw [powDev_mirror (n := 2) e hm rfl (by decide)]
  exact Alike.bind Alike.same (forall_eq_rel fun w2 => .answer (Par.div (Par.mul .lit ((powDev_three_mirror e hm).div .lit) rfl) .lit))

theorem templMatch_mirror (h : Each (Par p) data data') (m : ℕ) (tol : FP ρ) (i j : ℕ) :
    templMatch data m tol i j = templMatch data' m tol i j := by
  simp only [templMatch]
  refine congrArg (· <=. tol) (foldl_rel (X := Par .eq) .nan (P := Par .eq) (each_map (each_zip (each_take m (each_drop i h)) (each_take m (each_drop j h))) ?_)
    fun _ _ h1 _ _ h2 => h1.fmax_eq h2)
  rintro ⟨x, y⟩ ⟨x', y'⟩ ⟨e1, e2⟩
  exact (e1.sub e2).fabs

theorem phi_mirror (h : Each (Par p) data data') (m : ℕ) (tol : FP ρ) : phi data m tol = phi data' m tol := by
  simp only [phi, h.length, funext fun j => funext fun i => templMatch_mirror h m tol j i]

theorem matchCount_mirror (h : Each (Par p) data data') (m : ℕ) (tol : FP ρ) : matchCount data m tol = matchCount data' m tol := by
  simp only [matchCount, h.length, templMatch_mirror h m tol]

theorem tolOr_mirror (t : Option (FP ρ)) : tolOr (mirror data) t = tolOr data t := by
  cases t with
  | some t => rfl
  | none =>
    have hl : (mirror data).length = data.length := by simp [mirror]
    simp only [tolOr, hl]
    rw [show stdDevRaw (mirror data) data.length = stdDevRaw data data.length from
      Alike.eq_of_each (Smooth.stdDevRaw_mirror (each_mirror_odd data) data.length)]

/-- The approximate entropy stays, with a given tolerance and with the default one. -/
theorem approx_entropy_mirror (window : ℕ) (m : Option ℕ) (tol : Option (FP ρ)) :
    approx_entropy (mirror data) window m tol = approx_entropy data window m tol := by
  refine Alike.eq_of_each ?_
  simp only [approx_entropy, Option.bind_eq_bind, tolOr_mirror]
  refine Alike.bind Alike.same (forall_eq_rel fun t => Alike.bind Alike.same (forall_eq_rel fun k => Alike.bind (Alike.windows (each_mirror_odd data))
    fun ws ws' hw => Alike.bind (P := Each (Par .eq)) (Alike.mapP hw fun w w' e => ?_) fun r r' hr => .answer (each_append (P := Par .eq) (each_par_nans k) hr)))
  rw [phi_mirror e, phi_mirror e]
  exact Alike.same

/-- The sample entropy stays, with a given tolerance and with the default one. -/
theorem sample_entropy_mirror (window : ℕ) (m : Option ℕ) (tol : Option (FP ρ)) :
    sample_entropy (mirror data) window m tol = sample_entropy data window m tol := by
  refine Alike.eq_of_each ?_
  simp only [sample_entropy, Option.bind_eq_bind, tolOr_mirror]
  refine Alike.bind Alike.same (forall_eq_rel fun t => Alike.bind Alike.same (forall_eq_rel fun k => Alike.bind (Alike.windows (each_mirror_odd data))
    fun ws ws' hw => Alike.bind (P := Each (Par .eq)) (Alike.mapP hw fun w w' e => ?_) fun r r' hr => .answer (each_append (P := Par .eq) (each_par_nans k) hr)))
  rw [matchCount_mirror e, matchCount_mirror e]
  exact Alike.same

end Traquer.Distribution

namespace Traquer.Volatility
open FP FloatLit
variable {ρ : Rounding} {data : List (FP ρ)}

/-- The historical volatility stays: it comes from relative changes. -/
theorem hv_mirror (window : ℕ) (deviations : Option (FP ρ)) : hv (mirror data) window deviations = hv data window deviations := by
  have e : ((pairs (mirror data)).map fun (p0, p1) => ln (p1 / p0)) = (pairs data).map fun (p0, p1) => ln (p1 / p0) := by
    refine (each_par_eq (each_map (each_pairs (each_mirror data)) ?_)).symm
    rintro ⟨x, y⟩ ⟨x', y'⟩ ⟨e1, e2⟩
    exact (Par.div_flip e2.odd e1).ln_same
  simp only [hv, e]

theorem cc_hv_mirror (window : ℕ) : cc_hv (mirror data) window = cc_hv data window := by
  have e : ((pairs (mirror data)).map fun (p0, p1) => powi (ln (p1 / p0)) 2) = (pairs data).map fun (p0, p1) => powi (ln (p1 / p0)) 2 := by
    refine (each_par_eq (each_map (each_pairs (each_mirror data)) ?_)).symm
    rintro ⟨x, y⟩ ⟨x', y'⟩ ⟨e1, e2⟩
    exact ((Par.div_flip e2.odd e1).ln_same).powi_eq
  simp only [cc_hv, e]

end Traquer.Volatility

namespace Traquer.Regression
open FP FloatLit
variable {ρ : Rounding} {data estimate : List (FP ρ)}

theorem runningError_mirror {err fin : FP ρ → FP ρ → FP ρ} (h : ∀ x y, err (-x) (-y) = err x y) (data estimate : List (FP ρ)) :
    runningError err fin (mirror data) (mirror estimate) = runningError err fin data estimate := by
  have hl : (mirror data).length = data.length := by simp [mirror]
  simp only [runningError, hl]
  refine (each_par_eq (each_scan (X := Par .eq) (P := Both Eq (Both Flip Flip)) .zero (each_zip each_eq (each_zip (each_mirror data) (each_mirror estimate))) ?_)).symm
  rintro s s' hs ⟨i, x, y⟩ ⟨i', x', y'⟩ ⟨e0, e1, e2⟩
  dsimp only at e0 e1 e2 ⊢
  have hs : s = s' := hs
  subst hs e0
  rw [show x' = -x from e1, show y' = -y from e2, h]
  exact ⟨rfl, rfl⟩

theorem neg_sub_neg_odd (x y : FP ρ) : Par .odd (x - y) (-x - -y) := Par.sub (p := .odd) (SameNumber.refl _) (SameNumber.refl _)

/-- The errors of a forecast stay when the values and the forecasts are mirrored. -/
theorem mse_mirror : mse (mirror data) (mirror estimate) = mse data estimate :=
  runningError_mirror (fun x y => ((neg_sub_neg_odd x y).powi_even rfl (by decide)).symm) data estimate

theorem rmse_mirror : rmse (mirror data) (mirror estimate) = rmse data estimate :=
  runningError_mirror (fun x y => ((neg_sub_neg_odd x y).powi_even rfl (by decide)).symm) data estimate

theorem mae_mirror : mae (mirror data) (mirror estimate) = mae data estimate :=
  runningError_mirror (fun x y => ((neg_sub_neg_odd x y).fabs).symm) data estimate

theorem mape_mirror : mape (mirror data) (mirror estimate) = mape data estimate :=
  runningError_mirror (fun x y => ((neg_sub_neg_odd x y).fabs_div (p := .odd) (q := .odd) (SameNumber.refl (-x))).symm) data estimate

theorem smape_mirror : smape (mirror data) (mirror estimate) = smape data estimate :=
  runningError_mirror (fun x y => by rw [show fabs (-x - -y) = fabs (x - y) from (neg_sub_neg_odd x y).fabs.symm, fabs_neg, fabs_neg]) data estimate

theorem maeNaive_mirror : maeNaive (mirror data) = maeNaive data := by
  have hp := each_pairs (each_mirror data)
  simp only [maeNaive, ← hp.length]
  refine (each_par_eq (each_scan (X := Par .eq) (P := Both Eq (Both Flip Flip)) .zero (each_zip each_eq hp) ?_)).symm
  rintro s s' hs ⟨i, x, y⟩ ⟨i', x', y'⟩ ⟨e0, e1, e2⟩
  dsimp only at e0 e1 e2 ⊢
  have hs : s = s' := hs
  subst hs e0
  rw [show x' = -x from e1, show y' = -y from e2, show fabs (-y - -x) = fabs (y - x) from (neg_sub_neg_odd y x).fabs.symm]
  exact ⟨rfl, rfl⟩

theorem mase_mirror : mase (mirror data) (mirror estimate) = mase data estimate := by
  simp only [mase, mae_mirror, maeNaive_mirror]

end Traquer.Regression

namespace Traquer.Correlation
open FP FloatLit
variable {ρ : Rounding} {p q : Parity} {x x' y y' : List (FP ρ)}

/-- The five sums of Pearson's coefficient. -/
theorem pccSums_mirror (hx : Each (Par p) x x') (hy : Each (Par q) y y') :
    Par (p.mul q) (pccSums x y).xy (pccSums x' y').xy ∧ Par p (pccSums x y).x (pccSums x' y').x ∧ Par q (pccSums x y).y (pccSums x' y').y ∧
      (pccSums x y).x2 = (pccSums x' y').x2 ∧ (pccSums x y).y2 = (pccSums x' y').y2 := by
  refine foldl_rel (X := fun s s' : PccSums (FP ρ) => Par (p.mul q) s.xy s'.xy ∧ Par p s.x s'.x ∧ Par q s.y s'.y ∧ s.x2 = s'.x2 ∧ s.y2 = s'.y2)
    ⟨.zero, .zero, .zero, rfl, rfl⟩ (each_zip hx hy) ?_
  rintro s s' ⟨h1, h2, h3, h4, h5⟩ ⟨a, b⟩ ⟨a', b'⟩ ⟨e1, e2⟩
  exact ⟨h1.add (e1.mul e2 rfl), h2.add e1, h3.add e2, Par.add (p := .eq) h4 e1.square, Par.add (p := .eq) h5 e2.square⟩

/-- Pearson's coefficient changes sign when one of the series is mirrored, and stays when both are. -/
theorem pcc_mirror (hx : Each (Par p) x x') (hy : Each (Par q) y y') (window : ℕ) :
    Alike (Each (Par (p.mul q))) (pcc x y window) (pcc x' y' window) := by
  simp only [pcc, Option.bind_eq_bind]
  refine Alike.bind Alike.same (forall_eq_rel fun k => Alike.bind (Alike.windows hx) fun xs xs' h1 => Alike.bind (Alike.windows hy) fun ys ys' h2 =>
    .answer (each_append (each_par_nans k) (each_map (each_zip h1 h2) ?_)))
  rintro ⟨a, b⟩ ⟨a', b'⟩ ⟨e1, e2⟩
  obtain ⟨s1, s2, s3, s4, s5⟩ := pccSums_mirror e1 e2
  simp only [pccWin, s4, s5, show (pccSums a b).x * (pccSums a b).x = _ from s2.square, show (pccSums a b).y * (pccSums a b).y = _ from s3.square]
  exact ((Par.mul (p := .eq) .lit s1 (by cases p <;> cases q <;> rfl)).sub (s2.mul s3 rfl)).div .lit

/-- The coefficient of determination stays when either series is mirrored. -/
theorem rsq_mirror (hx : Each (Par p) x x') (hy : Each (Par q) y y') (window : ℕ) : rsq x' y' window = rsq x y window := by
  refine Alike.eq_of_each ?_
  simp only [rsq, Option.bind_eq_bind]
  exact Alike.bind (pcc_mirror hx hy window) fun r r' hr => .answer (each_map hr fun _ _ h => h.square)

theorem distCell_mirror (h : Each (Par p) x x') (i j : ℕ) : distCell x i j = distCell x' i j := by
  have key : ∀ i, Par p (x.getD i Traquer.nan) (x'.getD i Traquer.nan) := fun i => by
    rw [List.getD_eq_getElem?_getD, List.getD_eq_getElem?_getD]
    have := Alike.getElem? h (n := i) rfl
    revert this
    generalize x[i]? = a
    generalize x'[i]? = a'
    rintro (_ | h)
    · exact .nan
    · exact h
  exact ((key _).sub (key _)).fabs

theorem centredMatrix_mirror (h : Each (Par p) x x') : centredMatrix x = centredMatrix x' := by
  simp only [centredMatrix, centredCell, rowMean, matrixMean, h.length, distCell_mirror h]

/-- The distance correlation stays when either series is mirrored. -/
theorem dcor_mirror (hx : Each (Par p) x x') (hy : Each (Par q) y y') (window : ℕ) : dcor x' y' window = dcor x y window := by
  refine Alike.eq_of_each ?_
  simp only [dcor, Option.bind_eq_bind]
  refine Alike.bind Alike.same (forall_eq_rel fun k => Alike.bind (Alike.windows hx) fun xs xs' h1 => Alike.bind (Alike.windows hy) fun ys ys' h2 =>
    .answer (each_append (P := Par .eq) (each_par_nans k) (each_map (each_zip h1 h2) ?_)))
  rintro ⟨a, b⟩ ⟨a', b'⟩ ⟨e1, e2⟩
  simp only [dcorWin, centredMatrix_mirror e1, centredMatrix_mirror e2]
  exact .lit

theorem returns_mirror (x : List (FP ρ)) : Each SameNumber (returns x) (returns (mirror x)) := by
  refine each_map (each_pairs (each_mirror x)) ?_
  rintro ⟨a, b⟩ ⟨a', b'⟩ ⟨e1, e2⟩
  exact (Par.div_flip e2.odd e1).sub Par.lit.same

/-- The ratio of two series stays when both are mirrored. -/
theorem rsc_mirror : Each SameNumber (rsc x y) (rsc (mirror x) (mirror y)) := by
  refine each_map (each_zip (each_mirror x) (each_mirror y)) ?_
  rintro ⟨a, b⟩ ⟨a', b'⟩ ⟨e1, e2⟩
  exact Par.div_flip e1.odd e2

/-- Beta stays when the market, the asset or both are mirrored: it compares relative returns. -/
theorem beta_of_returns (hx : Each SameNumber (returns x) (returns x')) (hy : Each SameNumber (returns y) (returns y')) (window : ℕ) :
    Alike (Each SameNumber) (beta x y window) (beta x' y' window) := by
  simp only [beta, Option.bind_eq_bind]
  refine Alike.bind Alike.same (forall_eq_rel fun k => Alike.bind (Alike.windows (P := Par .same) hx) fun xs xs' h1 =>
    Alike.bind (Alike.windows (P := Par .same) hy) fun ys ys' h2 => Alike.bind (P := Each (Both (Par .same) (Par .eq))) (Alike.mapP (each_zip h1 h2) ?_)
      fun cv cv' hc => Alike.bind (Alike.windows hc) fun ws ws' hw => .answer (each_append (P := Par .same) (each_par_nans _) (each_map hw fun w w' e => ?_)))
  · rintro ⟨a, b⟩ ⟨a', b'⟩ ⟨e1, e2⟩
    refine Alike.bind (Alike.getElem? e1 rfl) fun u u' hu => Alike.bind (Alike.getElem? e2 rfl) fun v v' hv => .answer ?_
    have d1 := hu.sub ((Par.fsum e1).div (Par.lit (x := flt window)))
    have d2 := hv.sub ((Par.fsum e2).div (Par.lit (x := flt window)))
    exact ⟨d1.mul d2 rfl, d2.powi_even rfl (by decide)⟩
  · have key := foldl_rel (X := Both (Par .same) (Par .eq)) (s := ((0 : FP ρ), (0 : FP ρ))) (t := ((0 : FP ρ), (0 : FP ρ))) ⟨.zero, .zero⟩ e
      (f := fun (st : FP ρ × FP ρ) (p : FP ρ × FP ρ) => (st.1 + p.1, st.2 + p.2))
      (g := fun (st : FP ρ × FP ρ) (p : FP ρ × FP ρ) => (st.1 + p.1, st.2 + p.2))
      fun s s' hs z z' hz => ⟨hs.1.add hz.1, hs.2.add hz.2⟩
    exact (key.1.div .lit).div (key.2.div .lit)

theorem beta_mirror (window : ℕ) : Alike (Each SameNumber) (beta x y window) (beta (mirror x) (mirror y) window) :=
  beta_of_returns (returns_mirror x) (returns_mirror y) window

theorem beta_mirror_first (window : ℕ) : Alike (Each SameNumber) (beta x y window) (beta (mirror x) y window) :=
  beta_of_returns (returns_mirror x) (each_iff.2 ⟨rfl, fun _ _ _ h g => .of_eq (Option.some_inj.1 (h.symm.trans g))⟩) window

theorem beta_mirror_second (window : ℕ) : Alike (Each SameNumber) (beta x y window) (beta x (mirror y) window) :=
  beta_of_returns (each_iff.2 ⟨rfl, fun _ _ _ h g => .of_eq (Option.some_inj.1 (h.symm.trans g))⟩) (returns_mirror y) window

end Traquer.Correlation
