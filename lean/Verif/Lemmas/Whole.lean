import Verif.Props.Ratio64
import Verif.Props.Accumulate
/-!
# Whole numbers in any rounding

Whole numbers up to `2^53` are stored exactly, so sums, differences and products of them that stay within that bound are exact.
-/

namespace Traquer
open FP FloatLit

variable {ρ : Rounding} {x y : FP ρ} {a b : ℝ} {c d : ℕ}

/-- `x` is the whole number `a`, at most `c` in magnitude. -/
def Whole (x : FP ρ) (a : ℝ) (c : ℕ) : Prop := x ⇓ a ∧ (∃ z : ℤ, a = z) ∧ |a| ≤ c

theorem rnd_int {z : ℤ} (h : |(z : ℝ)| ≤ (2 ^ 53 : ℕ)) : ρ.rnd z = z ∧ ρ.fits z := by
  have hz : z.natAbs ≤ 2 ^ 53 := by
    have : ((z.natAbs : ℕ) : ℝ) ≤ (2 ^ 53 : ℕ) := by rwa [Nat.cast_natAbs, Int.cast_abs]
    exact_mod_cast this
  have h1 := ρ.nat _ hz
  have h2 := ρ.fits_nat _ hz
  rcases Int.natAbs_eq z with e | e
  · have e' : (z : ℝ) = (z.natAbs : ℝ) := by
      conv_lhs => rw [e]
      simp
    rw [e']; exact ⟨h1, h2⟩
  · have e' : (z : ℝ) = -(z.natAbs : ℝ) := by
      conv_lhs => rw [e]
      simp
    rw [e', ρ.odd, h1]
    exact ⟨rfl, ρ.fits_mono _ _ (by rw [abs_neg]) h2⟩

theorem Whole.of_rounds (h : Rounds x a) (hz : ∃ z : ℤ, a = z) (hc : |a| ≤ c) (hb : c ≤ 2 ^ 53) : Whole x a c := by
  obtain ⟨z, rfl⟩ := hz
  obtain ⟨h1, h2⟩ := rnd_int (ρ := ρ) (z := z) (hc.trans (by exact_mod_cast hb))
  refine ⟨?_, ⟨z, rfl⟩, hc⟩
  rcases h.cases with ⟨-, h⟩ | ⟨h, -⟩
  · rwa [h1] at h
  · rw [h1] at h; exact absurd h2 h

namespace Whole

theorem mono (h : Whole x a c) (hc : c ≤ d) : Whole x a d := ⟨h.1, h.2.1, h.2.2.trans (by exact_mod_cast hc)⟩
theorem congr (h : Whole x a c) (e : a = b) : Whole x b c := e ▸ h

theorem nat {n : ℕ} (h : n ≤ 2 ^ 53) : Whole (flt n : FP ρ) n n := ⟨isFlt h, ⟨n, by simp⟩, by simp⟩
theorem zero : Whole (0 : FP ρ) 0 0 := ⟨isZero, ⟨0, by simp⟩, by simp⟩
theorem one : Whole (1 : FP ρ) 1 1 := ⟨isOne, ⟨1, by simp⟩, by simp⟩

theorem neg (h : Whole x a c) : Whole (-x) (-a) c := by
  obtain ⟨h1, ⟨z, h2⟩, h3⟩ := h
  exact ⟨is_neg h1, ⟨-z, by rw [h2]; push_cast; ring⟩, by rwa [abs_neg]⟩

theorem add (hx : Whole x a c) (hy : Whole y b d) (h : c + d ≤ 2 ^ 53) : Whole (x + y) (a + b) (c + d) := by
  obtain ⟨h1, ⟨z, h2⟩, h3⟩ := hx
  obtain ⟨g1, ⟨t, g2⟩, g3⟩ := hy
  exact of_rounds (rounds_add h1 g1) ⟨z + t, by rw [h2, g2]; push_cast; ring⟩ ((abs_add_le _ _).trans (by push_cast; linarith)) h

theorem sub (hx : Whole x a c) (hy : Whole y b d) (h : c + d ≤ 2 ^ 53) : Whole (x - y) (a - b) (c + d) := by
  obtain ⟨h1, ⟨z, h2⟩, h3⟩ := hx
  obtain ⟨g1, ⟨t, g2⟩, g3⟩ := hy
  exact of_rounds (rounds_sub h1 g1) ⟨z - t, by rw [h2, g2]; push_cast; ring⟩ ((abs_sub _ _).trans (by push_cast; linarith)) h

theorem mul (hx : Whole x a c) (hy : Whole y b d) (h : c * d ≤ 2 ^ 53) : Whole (x * y) (a * b) (c * d) := by
  obtain ⟨h1, ⟨z, h2⟩, h3⟩ := hx
  obtain ⟨g1, ⟨t, g2⟩, g3⟩ := hy
  refine of_rounds (rounds_mul h1 g1) ⟨z * t, by rw [h2, g2]; push_cast; ring⟩ ?_ h
  rw [abs_mul]; push_cast
  exact mul_le_mul h3 g3 (abs_nonneg _) (by positivity)

theorem abs (h : Whole x a c) : Whole (fabs x) |a| c := by
  obtain ⟨h1, ⟨z, h2⟩, h3⟩ := h
  exact ⟨is_abs h1, ⟨|z|, by rw [h2]; push_cast; ring⟩, by rwa [abs_abs]⟩

theorem fmax (hx : Whole x a c) (hy : Whole y b d) : Whole (Traquer.fmax x y) (Max.max a b) (Max.max c d) := by
  refine ⟨is_fmax hx.1 hy.1, ?_, ?_⟩
  · rcases max_choice a b with h | h <;> rw [h]
    exacts [hx.2.1, hy.2.1]
  · rcases max_choice a b with h | h <;> rw [h]
    exacts [hx.2.2.trans (by exact_mod_cast le_max_left c d), hy.2.2.trans (by exact_mod_cast le_max_right c d)]

theorem fmin (hx : Whole x a c) (hy : Whole y b d) : Whole (Traquer.fmin x y) (Min.min a b) (Max.max c d) := by
  refine ⟨is_fmin hx.1 hy.1, ?_, ?_⟩
  · rcases min_choice a b with h | h <;> rw [h]
    exacts [hx.2.1, hy.2.1]
  · rcases min_choice a b with h | h <;> rw [h]
    exacts [hx.2.2.trans (by exact_mod_cast le_max_left c d), hy.2.2.trans (by exact_mod_cast le_max_right c d)]

theorem foldl {v : List (FP ρ)} {r : List ℝ} (hv : List.Forall₂ (fun x a => Whole x a c) v r) : ∀ (acc : FP ρ) (s : ℝ) (d : ℕ), Whole acc s d →
    d + v.length * c ≤ 2 ^ 53 → Whole (v.foldl (· + ·) acc) (s + r.sum) (d + v.length * c) := by
  induction hv with
  | nil => intro acc s d h0 _; simpa using h0
  | @cons x a v r hxa hv ih =>
    intro acc s d h0 h1
    have e : d + (x :: v).length * c = d + c + v.length * c := by rw [List.length_cons, Nat.succ_mul]; omega
    rw [e] at h1 ⊢
    have := ih (acc + x) (s + a) (d + c) (h0.add hxa (by omega)) h1
    rwa [add_assoc, ← List.sum_cons] at this

theorem fsum {v : List (FP ρ)} {r : List ℝ} (hv : List.Forall₂ (fun x a => Whole x a c) v r) (h : v.length * c ≤ 2 ^ 53) :
    Whole (fsum v) r.sum (v.length * c) := by
  have := foldl hv 0 0 0 zero (by simpa using h)
  rw [zero_add, Nat.zero_add] at this
  exact this

/-- A quotient of whole numbers is rounded once. -/
theorem div (hx : Whole x a c) (hy : Whole y b d) (hb : b ≠ 0) : Rounds (x / y) (a / b) := rounds_div hx.1 hy.1 hb

end Whole

/-- Prices that are whole numbers (of ticks, say), at most `c` in magnitude. -/
def Wholes (c : ℕ) (data : List (FP ρ)) : Prop := ∀ x ∈ data, x.Finite ∧ (∃ z : ℤ, x.val = z) ∧ |x.val| ≤ c

namespace Wholes
variable {l : List (FP ρ)} (h : Wholes c l)
include h

theorem fins : Fins l := fun x hx => (h x hx).1
theorem of_mem {x : FP ρ} (hx : x ∈ l) : Whole x x.val c := ⟨(h x hx).1.is, (h x hx).2⟩
theorem recent (w i : ℕ) : Wholes c (Traquer.recent l w i) := fun x hx => h x (List.mem_of_mem_drop (List.mem_of_mem_take hx))
theorem bar {i : ℕ} {x : FP ρ} (hx : l[i]? = some x) : Whole x (Traquer.bar (vals l) i) c := by
  rw [bar_vals hx]; exact h.of_mem (List.mem_of_getElem? hx)
theorem forall₂ : List.Forall₂ (fun x a => Whole x a c) l (vals l) := by
  rw [vals, List.forall₂_map_right_iff, List.forall₂_same]
  exact fun x hx => h.of_mem hx
theorem foldMax (hl : l ≠ []) : Whole (Volatility.foldMax l) (maxOf (vals l)) c := by
  cases l with
  | nil => exact absurd rfl hl
  | cons x l =>
    have key : ∀ (m : List (FP ρ)) (acc : FP ρ) (s : ℝ), Wholes c m → Whole acc s c → Whole (m.foldl Traquer.fmax acc) ((vals m).foldl max s) c := by
      intro m
      induction m with
      | nil => intro acc s _ h0; exact h0
      | cons y m ih =>
        intro acc s hm h0
        have := (h0.fmax (hm.of_mem (List.mem_cons_self ..)))
        rw [max_self] at this
        exact ih _ _ (fun z hz => hm z (List.mem_cons_of_mem _ hz)) this
    exact key l x _ (fun z hz => h z (List.mem_cons_of_mem _ hz)) (h.of_mem (List.mem_cons_self ..))
theorem foldMin (hl : l ≠ []) : Whole (Volatility.foldMin l) (minOf (vals l)) c := by
  cases l with
  | nil => exact absurd rfl hl
  | cons x l =>
    have key : ∀ (m : List (FP ρ)) (acc : FP ρ) (s : ℝ), Wholes c m → Whole acc s c → Whole (m.foldl Traquer.fmin acc) ((vals m).foldl min s) c := by
      intro m
      induction m with
      | nil => intro acc s _ h0; exact h0
      | cons y m ih =>
        intro acc s hm h0
        have := (h0.fmin (hm.of_mem (List.mem_cons_self ..)))
        rw [max_self] at this
        exact ih _ _ (fun z hz => hm z (List.mem_cons_of_mem _ hz)) this
    exact key l x _ (fun z hz => h z (List.mem_cons_of_mem _ hz)) (h.of_mem (List.mem_cons_self ..))

end Wholes

/-- The sum of a window of whole numbers. -/
theorem whole_window {n k w i : ℕ} {v : ℕ → ℝ} {m : List (FP ρ)} (h : ReportsP n k (fun i y => Whole y (v i) c) (some m))
    (h1 : k + w ≤ i + 1) (h2 : i < n) (hk : w * c ≤ 2 ^ 53) : Whole (fsum (recent m w i)) (lastOf v w i).sum (w * c) := by
  obtain ⟨f, l⟩ := forall_recent (R := fun y a => Whole y a c) h h1 h2
  have := Whole.fsum f (by rwa [l])
  rwa [l] at this

/-! ## The sign of a difference survives every rounding -/

theorem sgn_mk {s : Bool} {r : ℝ} (h : r ≠ 0 ∨ s = false) : FP.sgn (mk s r : FP ρ) = decide (r < 0) := by
  have hz := rnd_zero (ρ := ρ)
  unfold mk
  by_cases hr : r < 0
  · have := rnd_nonpos (ρ := ρ) hr.le
    split_ifs with h1 h2 h3
    · simp [FP.sgn, hr]
    · exact absurd (Or.inl hr) h2
    · simp [FP.sgn, hr, lt_of_le_of_ne this h1]
    · simp [FP.sgn]
  · have := rnd_nonneg (ρ := ρ) (not_lt.1 hr)
    split_ifs with h1 h2 h3
    · rcases h2 with h2 | ⟨h2, h4⟩
      · exact absurd h2 hr
      · rcases h with h | h
        · exact absurd h2 h
        · rw [h] at h4; cases h4
    · simp [FP.sgn, hr]
    · simp [FP.sgn, hr, this]
    · simp [FP.sgn]

theorem signum_mk {s : Bool} {r : ℝ} (h : r ≠ 0 ∨ s = false) : (signum (mk s r : FP ρ)) ⇓ if r < 0 then -1 else 1 := by
  have e := sgn_mk (ρ := ρ) h
  have n : (mk s r : FP ρ) ≠ FP.nan := by unfold mk; split_ifs <;> simp
  show FP.signum (mk s r : FP ρ) ⇓ _
  have : FP.signum (mk s r : FP ρ) = if FP.sgn (mk s r : FP ρ) then fin (-1) else fin 1 := by
    revert n
    cases (mk s r : FP ρ) <;> intro n <;> first | exact absurd rfl n | rfl
  rw [this, e]
  by_cases hr : r < 0
  · simp only [hr, decide_true, if_true]; exact is_iff.2 (.inl rfl)
  · simp only [hr, decide_false, if_false]; exact is_iff.2 (.inl rfl)

/-- The sign of a difference, whatever the rounding, underflow and overflow included. -/
theorem signum_diff (hx : x ⇓ a) (hy : y ⇓ b) (hz : a ≠ b ∨ x ≠ negz) : signum (x - y) ⇓ if a < b then -1 else 1 := by
  have e : ∀ r : ℝ, (mk false r : FP ρ) = x - y → a - b = r → signum (x - y) ⇓ if a < b then -1 else 1 := by
    intro r h1 h2
    rw [← h1]
    refine (signum_mk (.inr rfl)).congr ?_
    rw [← h2]; simp only [sub_neg]
  by_cases hab : a = b
  · subst hab
    rcases is_iff.1 hx with rfl | ⟨rfl, rfl⟩
    · rcases is_iff.1 hy with rfl | ⟨rfl, rfl⟩
      · refine e 0 ?_ (by ring)
        show _ = FP.add (fin a) (FP.neg (fin a))
        by_cases h0 : a = 0
        · simp [FP.neg, h0, FP.add]
        · simp [FP.neg, h0, FP.add]
      · refine e 0 ?_ (by ring)
        simp [FP.sub_def, FP.neg, FP.add]
    · simp at hz
  · obtain ⟨s, h⟩ := rounds_sub hx hy
    rw [h]
    refine (signum_mk (.inl (sub_ne_zero.2 hab))).congr ?_
    simp only [sub_neg]

end Traquer
