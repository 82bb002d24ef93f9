import Verif.Spec.Superpose
import Verif.Spec.Recursive
import Verif.Lemmas.Averages
import Verif.Props.VolatilityFormulas
/-!
# Linear functions of a series
-/

namespace Traquer
open FP

/-- A quantity that depends linearly on the series. -/
def Lin (V : (ℕ → ℝ) → ℕ → ℝ) : Prop :=
  ∀ (s t : ℝ) (x y : ℕ → ℝ) (i : ℕ), V (fun j => s * x j + t * y j) i = s * V x i + t * V y i

namespace Lin
variable {V W : (ℕ → ℝ) → ℕ → ℝ}

theorem price : Lin fun x => x := fun _ _ _ _ _ => rfl
theorem ago (d : ℕ → ℕ) : Lin fun x i => x (d i) := fun _ _ _ _ _ => rfl
theorem comp (hW : Lin W) (hV : Lin V) : Lin fun x => W (V x) := fun s t x y i => by
  have : V (fun j => s * x j + t * y j) = fun j => s * V x j + t * V y j := funext fun j => hV s t x y j
  simp only [this, hW s t (V x) (V y) i]
theorem at' (hV : Lin V) (d : ℕ → ℕ) : Lin fun x i => V x (d i) := fun s t x y i => hV s t x y (d i)
theorem mul (c : ℝ) (hV : Lin V) : Lin fun x i => c * V x i := fun s t x y i => by simp only [hV s t x y i]; ring
theorem div (c : ℝ) (hV : Lin V) : Lin fun x i => V x i / c := fun s t x y i => by simp only [hV s t x y i]; ring
theorem add (hV : Lin V) (hW : Lin W) : Lin fun x i => V x i + W x i := fun s t x y i => by
  simp only [hV s t x y i, hW s t x y i]; ring
theorem sub (hV : Lin V) (hW : Lin W) : Lin fun x i => V x i - W x i := fun s t x y i => by
  simp only [hV s t x y i, hW s t x y i]; ring
theorem ite (p : ℕ → Prop) [DecidablePred p] (hV : Lin V) (hW : Lin W) : Lin fun x i => if p i then V x i else W x i := fun s t x y i => by
  by_cases h : p i
  · simp only [if_pos h, hV s t x y i]
  · simp only [if_neg h, hW s t x y i]

theorem sum_map (s t : ℝ) (x y : ℕ → ℝ) (l : List ℕ) :
    (l.map fun j => s * x j + t * y j).sum = s * (l.map x).sum + t * (l.map y).sum := by
  induction l with
  | nil => simp
  | cons a l ih => simp only [List.map_cons, List.sum_cons, ih]; ring

theorem dot_map (s t : ℝ) (x y : ℕ → ℝ) (ws : List ℝ) (l : List ℕ) :
    ((ws.zip (l.map fun j => s * x j + t * y j)).map fun p => p.1 * p.2).sum =
      s * ((ws.zip (l.map x)).map fun p => p.1 * p.2).sum + t * ((ws.zip (l.map y)).map fun p => p.1 * p.2).sum := by
  induction ws generalizing l with
  | nil => simp
  | cons w ws ih =>
    cases l with
    | nil => simp
    | cons a l => simp only [List.map_cons, List.zip_cons_cons, List.sum_cons, ih]; ring

theorem sum (w : ℕ) : Lin fun x i => (lastOf x w i).sum := fun s t x y i =>
  sum_map s t (fun j => x (i + 1 - w + j)) (fun j => y (i + 1 - w + j)) (List.range w)

theorem mean (w : ℕ) : Lin fun x i => Traquer.mean (lastOf x w i) := fun s t x y i => by
  have := sum w s t x y i
  simp only [Traquer.mean, lastOf, List.length_map] at this ⊢
  rw [this]
  ring

theorem weighted (ws : ℕ → List ℝ) (w : ℕ → ℕ) : Lin fun x i => weightedMean (ws i) (lastOf x (w i) i) := fun s t x y i => by
  have := dot_map s t (fun j => x (i + 1 - w i + j)) (fun j => y (i + 1 - w i + j)) (ws i) (List.range (w i))
  simp only [weightedMean, lastOf] at this ⊢
  rw [this]
  ring

theorem weighted_reverse (ws : ℕ → List ℝ) (w : ℕ → ℕ) : Lin fun x i => weightedMean (ws i) (lastOf x (w i) i).reverse := fun s t x y i => by
  have := dot_map s t (fun j => x (i + 1 - w i + j)) (fun j => y (i + 1 - w i + j)) (ws i) (List.range (w i)).reverse
  simp only [weightedMean, lastOf, ← List.map_reverse] at this ⊢
  rw [this]
  ring

theorem ewma (k w : ℕ) : Lin (ewmaFrom k w) := fun s t x y i => by
  induction i with
  | zero => simp only [ewmaFrom]; exact mean w s t x y _
  | succ i ih =>
    simp only [ewmaFrom]
    split
    · exact mean w s t x y _
    · rw [ih]; ring

theorem wilder (k w : ℕ) : Lin (wilderFrom k w) := fun s t x y i => by
  induction i with
  | zero => simp only [wilderFrom]; exact mean w s t x y _
  | succ i ih =>
    simp only [wilderFrom]
    split
    · exact mean w s t x y _
    · rw [ih]; ring

theorem holt (a b g : ℝ) : Lin fun x i => (holtWinters a b g x i).1 + (holtWinters a b g x i).2.1 + (holtWinters a b g x i).2.2 / 2 := by
  intro s t x y i
  have : holtWinters a b g (fun j => s * x j + t * y j) i =
      (s * (holtWinters a b g x i).1 + t * (holtWinters a b g y i).1, s * (holtWinters a b g x i).2.1 + t * (holtWinters a b g y i).2.1,
        s * (holtWinters a b g x i).2.2 + t * (holtWinters a b g y i).2.2) := by
    induction i with
    | zero => simp only [holtWinters, holtWinters.holtStep, Prod.mk.injEq]; refine ⟨?_, ?_, ?_⟩ <;> ring
    | succ i ih => simp only [holtWinters, ih, holtWinters.holtStep, Prod.mk.injEq]; refine ⟨?_, ?_, ?_⟩ <;> ring
  simp only [this]
  ring

theorem smooth2 (w : ℕ) : Lin (smoother2 w) := fun s t x y i => by
  induction i using Nat.strong_induction_on with
  | _ i ih =>
    match i with
    | 0 => rfl
    | 1 => rfl
    | i + 2 => simp only [smoother2, ih (i + 1) (by omega), ih i (by omega)]; ring

theorem smooth3 (w : ℕ) : Lin (smoother3 w) := fun s t x y i => by
  induction i using Nat.strong_induction_on with
  | _ i ih =>
    match i with
    | 0 => rfl
    | 1 => rfl
    | 2 => rfl
    | i + 3 => simp only [smoother3, ih (i + 2) (by omega), ih (i + 1) (by omega), ih i (by omega)]; ring

end Lin

theorem blend_length {s t : ℝ} {x y : List XF} (h : x.length = y.length) : (blend s t x y).length = x.length := by
  simp [blend, h]

theorem blend_is {s t a b : ℝ} {x y : XF} (hx : x ⇓ a) (hy : y ⇓ b) : fin s * x + fin t * y ⇓ s * a + t * b :=
  is_add (is_mul (is_fin s) hx) (is_mul (is_fin t) hy)

theorem blend_fins {s t : ℝ} {x y : List XF} (hx : Fins x) (hy : Fins y) : Fins (blend s t x y) := by
  rw [blend]
  induction x generalizing y with
  | nil => intro z hz; simp at hz
  | cons a x ih =>
    cases y with
    | nil => intro z hz; simp at hz
    | cons b y =>
      intro z hz
      rw [List.zipWith_cons_cons] at hz
      rcases List.mem_cons.1 hz with rfl | hz
      · exact (blend_is (hx a (by simp)).is (hy b (by simp)).is).1
      · exact ih (fun c hc => hx c (by simp [hc])) (fun c hc => hy c (by simp [hc])) z hz

theorem blend_bar {s t : ℝ} {x y : List XF} (hx : Fins x) (hy : Fins y) (hl : x.length = y.length) :
    bar (vals (blend s t x y)) = fun j => s * bar (vals x) j + t * bar (vals y) j := by
  funext j
  simp only [bar, vals, List.getD_eq_getElem?_getD, List.getElem?_map, blend, List.getElem?_zipWith]
  by_cases h : j < x.length
  · have e1 := List.getElem?_eq_getElem h
    have e2 := List.getElem?_eq_getElem (show j < y.length by omega)
    simp only [e1, e2, Option.map_some, Option.getD_some]
    exact (blend_is (s := s) (t := t) (hx _ (List.getElem_mem h)).is (hy _ (List.getElem_mem _)).is).2
  · rw [List.getElem?_eq_none (by omega), List.getElem?_eq_none (show y.length ≤ j by omega)]
    simp

theorem sameNumber_is {x y : XF} {a : ℝ} (hx : x ⇓ a) (hy : y ⇓ a) : SameNumber x y := by
  right
  rcases is_iff.1 hx with rfl | ⟨rfl, rfl⟩ <;> rcases is_iff.1 hy with rfl | ⟨rfl, h⟩ <;> simp_all [FloatOps.feq, FP.feq, FP.isNaN, FP.toE]

/-- Three reports combine. -/
theorem reports_blend {n k : ℕ} {s t : ℝ} {u v w : ℕ → ℝ} {p q r : Option (List XF)} (hp : Reports n k u p) (hq : Reports n k v q)
    (hr : Reports n k w r) (h : ∀ i, w i = s * u i + t * v i) :
    ∃ a b c, p = some a ∧ q = some b ∧ r = some c ∧ List.Forall₂ SameNumber c (blend s t a b) := by
  obtain ⟨a, ea, la, na, va⟩ := hp
  obtain ⟨b, eb, lb, nb, vb⟩ := hq
  obtain ⟨c, ec, lc, nc, vc⟩ := hr
  refine ⟨a, b, c, ea, eb, ec, List.forall₂_iff_get.2 ⟨by rw [blend_length (by omega)]; omega, fun i h1 h2 => ?_⟩⟩
  simp only [List.get_eq_getElem]
  have h1' : i < n := by omega
  have e : (blend s t a b)[i]'h2 = fin s * a[i] + fin t * b[i] := by simp [blend]
  rw [e]
  have ga := List.getElem?_eq_getElem (show i < a.length by omega)
  have gb := List.getElem?_eq_getElem (show i < b.length by omega)
  have gc := List.getElem?_eq_getElem h1
  by_cases hk : i < k
  · rw [na i hk h1'] at ga
    rw [nc i hk h1'] at gc
    rw [← Option.some.inj ga, ← Option.some.inj gc]
    exact .inl ⟨rfl, rfl⟩
  · obtain ⟨y1, g1, i1⟩ := va i (by omega) h1'
    obtain ⟨y2, g2, i2⟩ := vb i (by omega) h1'
    obtain ⟨y3, g3, i3⟩ := vc i (by omega) h1'
    rw [ga] at g1
    rw [gb] at g2
    rw [gc] at g3
    cases g1
    cases g2
    cases g3
    exact sameNumber_is (i3.congr (h i)) (blend_is i1 i2)

theorem superposes_of {ok : ℕ → Prop} {f : List XF → Option (List XF)} {k : ℕ → ℕ} {V : (ℕ → ℝ) → ℕ → ℝ} (hV : Lin V)
    (h : ∀ data, Fins data → ok data.length → Reports data.length (k data.length) (V (bar (vals data))) (f data)) : Superposes ok f := by
  intro s t x y hx hy hl ho
  have r1 := h x hx ho
  have r2 := h y hy (hl ▸ ho)
  have r3 := h (blend s t x y) (blend_fins hx hy) (by rw [blend_length hl]; exact ho)
  rw [blend_length hl] at r3
  rw [← hl] at r2
  exact reports_blend r1 r2 r3 fun i => by rw [blend_bar hx hy hl]; exact hV s t _ _ i

/-- A quantity that depends linearly on two series. -/
def Lin₂ (V : (ℕ → ℝ) → (ℕ → ℝ) → ℕ → ℝ) : Prop :=
  ∀ (s t : ℝ) (x x' y y' : ℕ → ℝ) (i : ℕ),
    V (fun j => s * x j + t * y j) (fun j => s * x' j + t * y' j) i = s * V x x' i + t * V y y' i

theorem superposes₂_of {ok : ℕ → Prop} {f : List XF → List XF → Option (List XF)} {k : ℕ → ℕ} {V : (ℕ → ℝ) → (ℕ → ℝ) → ℕ → ℝ} (hV : Lin₂ V)
    (h : ∀ x x', Fins x → Fins x' → x'.length = x.length → ok x.length →
      Reports x.length (k x.length) (V (bar (vals x)) (bar (vals x'))) (f x x')) : Superposes₂ ok f := by
  intro s t x x' y y' hx hx' hy hy' l1 l2 l3 ho
  have r1 := h x x' hx hx' l1 ho
  have r2 := h y y' hy hy' (by omega) (l2 ▸ ho)
  have r3 := h (blend s t x y) (blend s t x' y') (blend_fins hx hy) (blend_fins hx' hy') (by rw [blend_length l2.symm, blend_length (by omega), l1])
    (by rw [blend_length l2.symm]; exact ho)
  rw [blend_length l2.symm] at r3
  rw [l2] at r2
  exact reports_blend r1 r2 r3 fun i => by rw [blend_bar hx hy l2.symm, blend_bar hx' hy' (by omega)]; exact hV s t _ _ _ _ i

end Traquer
