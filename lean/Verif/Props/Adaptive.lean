import Verif.Props.SmoothConst
import Verif.Lemmas.Poison
/-!
# C25, C26, C27: adaptive and Gaussian averages
-/

namespace Traquer
open FP FloatLit
variable {ρ : Rounding}

theorem inRange_nan (lo hi : ℝ) : InRange lo hi (nan : FP ρ) := Or.inl rfl
theorem inRange_of {lo hi r : ℝ} {y : FP ρ} (h : y ⇓ r) (h1 : lo ≤ r) (h2 : r ≤ hi) : InRange lo hi y :=
  Or.inr ⟨r, h, h1, h2⟩
theorem inRange_of_isNaN {lo hi : ℝ} {y : FP ρ} (h : isNaN y = true) : InRange lo hi y := Or.inl (isNaN_iff.1 h)

theorem inRange_nans {lo hi : ℝ} {k : ℕ} {l : List (FP ρ)} (h : ∀ y ∈ l, InRange lo hi y) :
    ∀ y ∈ nans k ++ l, InRange lo hi y := by
  intro y hy
  rcases List.mem_append.1 hy with hy | hy
  · rw [List.eq_of_mem_replicate hy]; exact inRange_nan _ _
  · exact h y hy

/-- One adaptive step: the gain is NaN or in `[0, 1]`. -/
theorem inRange_step {lo hi : ℝ} {alpha x s : XF} (ha : InRange 0 1 alpha) (hx : InRange lo hi x) (hs : InRange lo hi s) :
    InRange lo hi (alpha * (x - s) + s) := by
  rcases ha with rfl | ⟨a, ha, a0, a1⟩
  · exact inRange_of_isNaN (by have : isNaN (nan : XF) = true := rfl; nanp)
  rcases hx with rfl | ⟨r, hr, r0, r1⟩
  · exact inRange_of_isNaN (by have : isNaN (nan : XF) = true := rfl; nanp)
  rcases hs with rfl | ⟨u, hu, u0, u1⟩
  · exact inRange_of_isNaN (by have : isNaN (nan : XF) = true := rfl; nanp)
  have := convex_range ⟨r0, r1⟩ ⟨u0, u1⟩ a0 a1
  exact inRange_of (is_add (is_mul ha (is_sub hr hu)) hu) (by linarith [this.1]) (by linarith [this.2])

theorem inRange_mix {lo hi : ℝ} {alpha x s : XF} (ha : InRange 0 1 alpha) (hx : InRange lo hi x) (hs : InRange lo hi s) :
    InRange lo hi (alpha * x + (1 - alpha) * s) := by
  rcases ha with rfl | ⟨a, ha, a0, a1⟩
  · exact inRange_of_isNaN (by have : isNaN (nan : XF) = true := rfl; nanp)
  rcases hx with rfl | ⟨r, hr, r0, r1⟩
  · exact inRange_of_isNaN (by have : isNaN (nan : XF) = true := rfl; nanp)
  rcases hs with rfl | ⟨u, hu, u0, u1⟩
  · exact inRange_of_isNaN (by have : isNaN (nan : XF) = true := rfl; nanp)
  have := convex_range ⟨r0, r1⟩ ⟨u0, u1⟩ a0 a1
  exact inRange_of (is_add (is_mul ha hr) (is_mul (is_sub is_one ha) hu)) (by linarith [this.1]) (by linarith [this.2])

theorem inRange_zero {lo hi : ℝ} (h0 : lo ≤ 0) (h1 : 0 ≤ hi) : InRange lo hi (0 : XF) := inRange_of is_zero h0 h1

/-- A quotient of a non-negative number by a larger one is NaN (`0 / 0`) or in `[0, 1]`. -/
theorem inRange_ratio {x y : XF} {a b : ℝ} (hx : x ⇓ a) (hy : y ⇓ b) (h0 : 0 ≤ a) (hab : a ≤ b) :
    InRange 0 1 (x / y) := by
  by_cases hb : b = 0
  · subst hb
    obtain rfl : a = 0 := le_antisymm hab h0
    left
    rcases is_iff.1 hx with rfl | ⟨rfl, -⟩ <;> rcases is_iff.1 hy with rfl | ⟨rfl, -⟩ <;> simp [div_def, FP.div, val] <;> rfl
  · have hb' : 0 < b := lt_of_le_of_ne (h0.trans hab) (Ne.symm hb)
    exact inRange_of (is_div hx hy hb) (by positivity) ((div_le_one hb').2 hab)

end Traquer

namespace Traquer.Smooth
open FP FloatLit
variable {ρ : Rounding}

/-! ## C25: kama -/

theorem pairs_sum_ge (l : List ℝ) (a : ℝ) (h : l ≠ []) :
    |l.getLast h - a| ≤ |l.head h - a| + ((pairs l).map fun p => |p.1 - p.2|).sum := by
  induction l generalizing a with
  | nil => exact absurd rfl h
  | cons x l ih =>
    cases l with
    | nil => simp [pairs]
    | cons y r =>
      have := ih x (by simp)
      simp only [pairs, List.map_cons, List.sum_cons, List.head_cons, List.getLast_cons_cons] at *
      have h1 : |(y :: r).getLast (by simp) - a| ≤ |(y :: r).getLast (by simp) - x| + |x - a| := by
        have := abs_add_le ((y :: r).getLast (by simp) - x) (x - a)
        simpa using this
      rw [abs_sub_comm y x] at this
      linarith

theorem pairs_vals (l : List (FP ρ)) : pairs (vals l) = (pairs l).map fun p => (p.1.val, p.2.val) := by
  rw [vals, pairs_map]

theorem mem_pairs {α : Type} {l : List α} {p : α × α} (h : p ∈ pairs l) : p.1 ∈ l ∧ p.2 ∈ l := by
  rw [pairs_eq_zip] at h
  have := List.of_mem_zip h
  exact ⟨this.1, List.mem_of_mem_tail this.2⟩

/-- The efficiency ratio is NaN (flat window) or in `[0, 1]`. -/
theorem effRatio_inRange {l : List XF} (h : Fins l) (hl : l ≠ []) : ∃ er, effRatio l = some er ∧ InRange 0 1 er := by
  have hp := List.length_pos_iff.2 hl
  have e0 := getElem?_of_lt hp
  have e1 := getElem?_of_lt (show l.length - 1 < l.length by omega)
  refine ⟨_, by simp only [effRatio, e0, e1, Option.bind_eq_bind, Option.bind_some]; rfl, ?_⟩
  have h0 := (h _ (List.getElem_mem hp)).is
  have h1 := (h _ (List.getElem_mem (show l.length - 1 < l.length by omega))).is
  have hs := foldl_add_is (t := fun p : XF × XF => fabs (p.1 - p.2)) (v := fun p => |p.1.val - p.2.val|) (l := pairs l)
    is_zero (fun p hp => by
      have := mem_pairs hp
      exact is_abs (is_sub (h _ this.1).is (h _ this.2).is))
  refine inRange_ratio (is_abs (is_sub h1 h0)) hs (abs_nonneg _) ?_
  have hv : vals l ≠ [] := by simpa [vals] using hl
  have := pairs_sum_ge (vals l) ((vals l).head hv) hv
  rw [sub_self, abs_zero, pairs_vals, List.map_map] at this
  have g1 : (vals l).getLast hv = l[l.length - 1].val := by simp [vals, List.getLast_eq_getElem]
  have g0 : (vals l).head hv = l[0].val := by simp [vals, List.head_eq_getElem]
  rw [g1, g0] at this
  exact this

theorem powi_two {F : Type} [FloatOps F] (x : F) : powi x 2 = 1 * (x * x) := by
  simp [powi, powiLoop]

theorem kama_gain {er : XF} {short long : ℕ} (hs : 1 ≤ short) (hl : 1 ≤ long) (h : InRange 0 1 er) :
    InRange 0 1 (powi (er * (2 / flt (short + 1) - 2 / flt (long + 1)) + 2 / flt (long + 1)) 2) := by
  rcases h with rfl | ⟨e, he, e0, e1⟩
  · refine inRange_of_isNaN ?_
    have : isNaN (nan : XF) = true := rfl
    have h2 : isNaN ((nan : XF) * (2 / flt (short + 1) - 2 / flt (long + 1)) + 2 / flt (long + 1)) = true := by nanp
    rw [isNaN_iff] at h2
    rw [h2]
    rw [powi_two]
    nanp
  · have q : ∀ k : ℕ, (2 / flt (k + 1) : XF) ⇓ 2 / ((k : ℝ) + 1) := fun k =>
      (is_div (is_lit 2) (is_flt (k + 1)) (by positivity)).congr (by push_cast; rfl)
    have hh := is_powi 2 (is_add (is_mul he (is_sub (q short) (q long))) (q long))
    have r1 := two_div_succ_range hs
    have r2 := two_div_succ_range hl
    have := convex_range r1 r2 e0 e1
    refine inRange_of hh (by positivity) ?_
    have e : e * (2 / ((short : ℝ) + 1) - 2 / (long + 1)) + 2 / (long + 1) =
      2 / ((short : ℝ) + 1) * e + 2 / (long + 1) * (1 - e) := by ring
    rw [e]
    exact pow_le_one₀ this.1 this.2

/-- C25: every value of `kama` is NaN or between any bounds of the inputs and 0 (the initial state). -/
theorem kama_inRange (data : List XF) (w : ℕ) (short long : Option ℕ) (lo hi : ℝ) (hw : 1 ≤ w)
    (hn : w ≤ data.length + 1) (hs : 1 ≤ short.getD 2) (hl : 1 ≤ long.getD 30) (hd : Fins data) (h0 : lo ≤ 0) (h1 : 0 ≤ hi)
    (hb : Within lo hi (vals data)) :
    ∃ out, kama data w short long = some out ∧ out.length = data.length ∧ ∀ y ∈ out, InRange lo hi y := by
  obtain ⟨out, e, l, -⟩ := kama_aligned data w short long hw hn
  refine ⟨out, e, l, ?_⟩
  run_at e [kama]
  obtain ⟨r, hr, e⟩ := Option.bind_eq_some_iff.1 e
  cases e
  refine inRange_nans (scanM_invariant (I := InRange lo hi) ?_ (inRange_zero h0 h1) hr)
  intro s x s' y hx hI hf
  have hfx := hd.window hx
  have hlx := windowsOf_mem_length hx
  obtain ⟨er, he, hR⟩ := effRatio_inRange hfx (by rw [← List.length_pos_iff, hlx]; omega)
  have e1 := getElem?_of_lt (show x.length - 1 < x.length by omega)
  simp only [he, e1, Option.bind_some, Option.some.injEq, Prod.mk.injEq] at hf
  obtain ⟨rfl, rfl⟩ := hf
  have hm := List.getElem_mem (show x.length - 1 < x.length by omega)
  have hr := hb x[x.length - 1].val (List.mem_map_of_mem (mem_of_mem_windowsOf hx hm))
  have := inRange_step (kama_gain hs hl hR) (inRange_of (hfx _ hm).is hr.1 hr.2) hI
  exact ⟨this, this⟩

end Traquer.Smooth
