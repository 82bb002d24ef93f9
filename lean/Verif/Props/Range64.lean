import Verif.Props.Flat64
import Verif.Lemmas.Dominated
import Verif.Props.Percent
import Verif.Lemmas.Sign
/-!
# C77: percentages in binary64 arithmetic
-/

namespace Traquer
open FP FloatLit

/-! ## Stored numbers -/

section
variable {ρ : Rounding} {x y : FP ρ}

/-- `x` is one of the numbers of the format. -/
def Stored (x : FP ρ) : Prop := ∀ r, x ⇓ r → ρ.rnd r = r ∧ ρ.fits r

theorem FP.Rounds.stored {a : ℝ} (h : Rounds x a) : Stored x := fun r hr => by
  rcases h.cases with ⟨h, i⟩ | ⟨-, i⟩
  · rw [hr.2.symm.trans i.2]
    exact ⟨ρ.idem _, h⟩
  · rw [i] at hr; exact hr.1.elim

theorem stored_nan : Stored (FP.nan : FP ρ) := fun _ h => h.1.elim
theorem stored_inf (b : Bool) : Stored (FP.inf b : FP ρ) := fun _ h => h.1.elim
theorem stored_negz : Stored (FP.negz : FP ρ) := fun r h => by rw [← h.2]; exact ⟨rnd_zero, fits_zero⟩
theorem stored_zero : Stored (0 : FP ρ) := fun r h => by
  rw [← h.2, isZero.2]; exact ⟨rnd_zero, fits_zero⟩

theorem stored_add : Stored (x + y) := by
  cases x with
  | nan => exact stored_nan
  | inf a =>
    cases y with
    | nan => exact stored_nan
    | inf b => rw [add_def, FP.add]; split; exacts [stored_inf _, stored_nan]
    | negz => exact stored_inf _
    | fin b => exact stored_inf _
  | negz =>
    cases y with
    | nan => exact stored_nan
    | inf b => exact stored_inf _
    | negz => exact stored_negz
    | fin b => exact (rounds_add is_negz (is_fin b)).stored
  | fin a =>
    cases y with
    | nan => exact stored_nan
    | inf b => exact stored_inf _
    | negz => exact (rounds_add (is_fin a) is_negz).stored
    | fin b => exact (rounds_add (is_fin a) (is_fin b)).stored

theorem stored_sub : Stored (x - y) := stored_add (x := x) (y := -y)


theorem stored_share (b : Bool) : Stored (if b then FP.negz else FP.fin 0 : FP ρ) := by
  split
  · exact stored_negz
  · exact fun r h => by rw [← h.2]; exact ⟨rnd_zero, fits_zero⟩

theorem stored_div : Stored (x / y) := by
  have key : ∀ {x y : FP ρ}, x.Finite → y.Finite → Stored (x / y) := fun {x y} hx hy => by
    by_cases h : y.val = 0
    · have e : x / y = if x.val = 0 then FP.nan else FP.inf (sgn x != sgn y) := by
        cases x <;> cases y <;> first | exact hx.elim | exact hy.elim | exact if_pos h
      rw [e]
      split
      · exact stored_nan
      · exact stored_inf _
    · exact (rounds_div hx.is hy.is h).stored
  cases x with
  | nan => exact stored_nan
  | inf a => cases y <;> first | exact stored_nan | exact stored_inf _
  | negz =>
    cases y with
    | nan => exact stored_nan
    | inf b => exact stored_share _
    | negz => exact key trivial trivial
    | fin b => exact key trivial trivial
  | fin a =>
    cases y with
    | nan => exact stored_nan
    | inf b => exact stored_share _
    | negz => exact key trivial trivial
    | fin b => exact key trivial trivial

theorem stored_fmax (hx : Stored x) (hy : Stored y) : Stored (fmax x y) := by
  unfold fmax
  split
  · exact hy
  split
  · exact hx
  split
  exacts [hy, hx]

theorem stored_fsum {l : List (FP ρ)} : Stored (fsum l) := by
  induction l using List.reverseRecOn with
  | nil => exact stored_zero
  | append_singleton l x _ =>
    rw [show fsum (l ++ [x]) = fsum l + x by simp [fsum]]
    exact stored_add

theorem stored_wilder {l p : List (FP ρ)} {w : ℕ} (h : ∀ x ∈ l, Stored x) (hp : Smooth.wilder l w = some p) : ∀ y ∈ p, Stored y := by
  unfold Smooth.wilder at hp
  split at hp
  · cases hp; exact h
  · obtain ⟨k, ek, hp⟩ := Option.bind_eq_some_iff.1 hp
    obtain ⟨t, et, hp⟩ := Option.bind_eq_some_iff.1 hp
    obtain ⟨u, eu, hp⟩ := Option.bind_eq_some_iff.1 hp
    cases hp
    intro y hy
    rcases List.mem_append.1 hy with hy | hy
    · rw [List.eq_of_mem_replicate hy]; exact stored_nan
    · exact scanS_invariant (I := Stored) (fun s x _ _ => stored_div) stored_div y hy

theorem fmax_zero_nonNegInf (x : FP ρ) : NonNegInf (fmax 0 x) ∧ NonNegInf (fmax x 0) := by
  cases x with
  | nan =>
    have h : (isNaN (0 : FP ρ)) = false := isZero.not_nan
    constructor
    · rw [show fmax (0 : FP ρ) FP.nan = 0 by unfold fmax; rw [h]; rfl]
      exact Or.inr ⟨0, isZero, le_rfl⟩
    · exact Or.inr ⟨0, isZero, le_rfl⟩
  | inf b =>
    have h : (isNaN (0 : FP ρ)) = false := isZero.not_nan
    have h' : isNaN (FP.inf b : FP ρ) = false := rfl
    unfold fmax
    rw [h, h', zero_lit]
    cases b
    · have e1 : ((FP.fin 0 : FP ρ) <. FP.inf false) = true := by show FP.lt _ _ = true; simp [FP.lt, FP.isNaN, toE]
      have e2 : ((FP.inf false : FP ρ) <. FP.fin 0) = false := by show FP.lt _ _ = false; simp [FP.lt, FP.isNaN, toE]
      simp [e1, e2, NonNegInf]
    · have e1 : ((FP.fin 0 : FP ρ) <. FP.inf true) = false := by show FP.lt _ _ = false; simp [FP.lt, FP.isNaN, toE]
      have e2 : ((FP.inf true : FP ρ) <. FP.fin 0) = true := by show FP.lt _ _ = true; simp [FP.lt, FP.isNaN, toE]
      simp only [e1, e2]
      exact ⟨Or.inr ⟨0, is_fin 0, le_rfl⟩, Or.inr ⟨0, is_fin 0, le_rfl⟩⟩
  | negz => exact ⟨Or.inr ⟨_, is_fmax isZero is_negz, le_max_left _ _⟩, Or.inr ⟨_, is_fmax is_negz isZero, le_max_right _ _⟩⟩
  | fin r => exact ⟨Or.inr ⟨_, is_fmax isZero (is_fin r), le_max_left _ _⟩, Or.inr ⟨_, is_fmax (is_fin r) isZero, le_max_right _ _⟩⟩

theorem fabs_nonNegInf {x : FP ρ} (h : isNaN x = false) : NonNegInf (fabs x) := by
  cases x with
  | nan => cases h
  | inf b => exact Or.inl rfl
  | negz => exact Or.inr ⟨_, is_abs is_negz, abs_nonneg _⟩
  | fin r => exact Or.inr ⟨_, is_abs (is_fin r), abs_nonneg _⟩

theorem fmin_zero_not_nan (x : FP ρ) : isNaN (fmin 0 x) = false ∧ isNaN (fmin x 0) = false := by
  have h : (isNaN (0 : FP ρ)) = false := isZero.not_nan
  unfold fmin
  rw [h]
  cases e : isNaN x
  · simp only [Bool.false_eq_true, if_false]
    constructor <;> split <;> assumption
  · simp [h]

end

/-! ## `100 * g / (g + l)` -/

/-- Below the normal numbers, multiples of the smallest number are exact: the error is relative throughout. -/
theorem rnd64_rel {k e : ℤ} (he : -1074 ≤ e) : |rnd64 (k * 2 ^ e) - k * 2 ^ e| ≤ 2⁻¹ ^ 53 * |(k : ℝ) * 2 ^ e| := by
  set x : ℝ := k * 2 ^ e with hx
  have hp := two_zpow_pos (lastBit x)
  rcases eq_or_ne x 0 with h0 | h0
  · rw [h0, rnd64_zero]
    simp
  rcases le_total (-1074) (Int.log 2 |x| - 52) with hl | hl
  · have h : |rnd64 x - x| ≤ 2 ^ lastBit x / 2 := by
      have e : rnd64 x - x = (roundEven (x / 2 ^ lastBit x) - x / 2 ^ lastBit x) * 2 ^ lastBit x := by
        rw [sub_mul, div_mul_cancel₀ _ hp.ne']
        rfl
      rw [e, abs_mul, abs_of_pos hp]
      have := mul_le_mul_of_nonneg_right (roundEven_near (x / 2 ^ lastBit x)) hp.le
      linarith
    have hlog : (2 : ℝ) ^ Int.log 2 |x| ≤ |x| := by
      have := Int.zpow_log_le_self (b := 2) (by norm_num) (abs_pos.2 h0)
      exact_mod_cast this
    refine h.trans ?_
    have e : lastBit x = Int.log 2 |x| - 52 := by unfold lastBit; omega
    rw [e, zpow_sub₀ (by norm_num)]
    have e2 : (2 : ℝ) ^ Int.log 2 |x| / 2 ^ (52 : ℤ) / 2 = 2⁻¹ ^ 53 * 2 ^ Int.log 2 |x| := by
      rw [show (52 : ℤ) = ((52 : ℕ) : ℤ) by norm_num, zpow_natCast]
      field_simp
    rw [e2]
    exact mul_le_mul_of_nonneg_left hlog (by positivity)
  · have el : lastBit x = -1074 := by unfold lastBit; omega
    have hi : x / 2 ^ lastBit x = ((k * 2 ^ (e + 1074).toNat : ℤ) : ℝ) := by
      rw [el, div_eq_iff (two_zpow_pos _).ne', hx]
      push_cast
      rw [← zpow_natCast, Int.toNat_of_nonneg (by omega), mul_assoc, ← zpow_add₀ (by norm_num)]
      congr 2
      omega
    have : rnd64 x = x := by
      rw [rnd64, hi, roundEven_int, ← hi, div_mul_cancel₀ _ hp.ne']
    rw [this]
    simp only [sub_self, abs_zero]
    positivity

theorem rnd64_percent : rnd64 (100 * (1 + 2⁻¹ ^ 53)) = 100 + 2 ^ (-46 : ℤ) := by
  rw [rnd64_eq (e := -46) (n := 7036874417766401) (by norm_num) (by norm_num) (by norm_num) (roundEven_eq (by norm_num) (by norm_num))]
  norm_num

theorem percent_le_max64 : (100 + 2 ^ (-46 : ℤ) : ℝ) ≤ max64 := le_trans (by norm_num) large_le_max64

/-- The share of a number in a number that is not smaller, in percent. -/
theorem Share64 {g d : F64} {a b : ℝ} (hg : g ⇓ a) (hd : d ⇓ b) (hs : rnd64 a = a) (a0 : 0 ≤ a) (ab : a ≤ b) :
    (100 * g / d = FP.inf false ∧ max64 < 101 * a) ∨ InRange 0 (100 + 2 ^ (-46 : ℤ)) (100 * g / d) := by
  have h100 := rounds_mul (isLit (ρ := Rounding.binary64) 100 (by norm_num)) hg
  rcases a0.eq_or_lt with rfl | ap
  · have z : 100 * g ⇓ 0 := zero64 (by simpa using h100)
    right
    by_cases hb : b = 0
    · subst hb
      exact Or.inl (nan_of_zero_div z hd)
    · exact Or.inr ⟨0, zero64 (by simpa using rounds_div z hd hb), le_rfl, by positivity⟩
  have bp := ap.trans_le ab
  have hle : rnd64 (100 * a) ≤ 100 * a * (1 + 2⁻¹ ^ 53) := by
    obtain ⟨m, e, -, he, hm⟩ := rnd64_repr a
    rw [hs] at hm
    have := rnd64_rel (k := 100 * m) he
    rw [show (((100 * m : ℤ) : ℝ) * 2 ^ e) = 100 * a by rw [hm]; push_cast; ring] at this
    rw [abs_of_pos (by positivity : 0 < 100 * a)] at this
    have := (abs_le.1 this).2
    linarith
  rcases h100.cases with ⟨-, i⟩ | ⟨nf, i⟩
  · right; right
    have hr := rounds_div i hd bp.ne'
    change Rounds _ (rnd64 (100 * a) / b) at hr
    have hq : rnd64 (100 * a) / b ≤ 100 * (1 + 2⁻¹ ^ 53) := by
      rw [div_le_iff₀ bp]
      refine hle.trans ?_
      have : (0 : ℝ) ≤ 100 * (1 + 2⁻¹ ^ 53) := by positivity
      nlinarith
    have h0 : 0 ≤ rnd64 (100 * a) / b := div_nonneg (rnd64_nonneg (by positivity)) bp.le
    have h1 := rnd64_mono _ _ hq
    rw [rnd64_percent] at h1
    have h2 := rnd64_nonneg h0
    exact ⟨_, is64 hr rfl (by rw [abs_of_nonneg h2]; exact h1.trans percent_le_max64), h2, h1⟩
  · left
    rw [decide_eq_false (by push Not; positivity)] at i
    rw [i]
    refine ⟨inf_div hd bp, ?_⟩
    have : max64 < |rnd64 (100 * a)| := not_le.1 nf
    rw [abs_of_nonneg (rnd64_nonneg (by positivity))] at this
    have h53 : (2⁻¹ : ℝ) ^ 53 ≤ 1 / 100 := by norm_num
    nlinarith

/-- Overflow aside, `100 * g / (g + l)` is at most the float next above 100. -/
theorem Percent64 {g l : F64} (hg : NonNegInf g) (hs : Stored g) (hl : NonNegInf l) :
    (100 * g / (g + l) = FP.inf false ∧ ∃ a, g ⇓ a ∧ max64 < 101 * a) ∨ InRange 0 (100 + 2 ^ (-46 : ℤ)) (100 * g / (g + l)) := by
  have c100 : (100 : F64) ⇓ 100 := isLit 100 (by norm_num)
  rcases hg with rfl | ⟨a, ha, a0⟩
  · right; left
    rw [hl.add_inf.2]
    rcases is_iff.1 c100 with h | ⟨-, h⟩
    · rw [h, mul_def, FP.mul, if_neg (by simp)]
      · rfl
      · simp
      · simp
    · norm_num at h
  rcases hl with rfl | ⟨b, hb, b0⟩
  · rw [(NonNegInf.add_inf (Or.inr ⟨a, ha, a0⟩)).1]
    right
    rcases (rounds_mul c100 ha).nonNegInf (by positivity) with h | ⟨c, hc, c0⟩
    · rw [h]; exact Or.inl rfl
    · right
      rcases is_iff.1 hc with h | ⟨h, rfl⟩ <;> rw [h]
      · rw [show (fin c / inf false : F64) = if sgn (fin c : F64) != false then negz else fin 0 from rfl]
        split
        · exact ⟨0, is_negz, le_rfl, by positivity⟩
        · exact ⟨0, is_fin 0, le_rfl, by positivity⟩
      · exact ⟨0, is_negz, le_rfl, by positivity⟩
  have hs' : rnd64 a = a := (hs a ha).1
  rcases (rounds_add ha hb).cases with ⟨-, i⟩ | ⟨-, i⟩
  · refine (Share64 ha i hs' a0 ?_).imp_left fun h => ⟨h.1, a, ha, h.2⟩
    have := rnd64_mono a (a + b) (by linarith)
    rw [hs'] at this
    exact this
  · rw [decide_eq_false (by push Not; positivity)] at i
    rw [i]
    right
    rcases (rounds_mul c100 ha).nonNegInf (by positivity) with h | ⟨c, hc, c0⟩
    · rw [h]; exact Or.inl rfl
    · right
      rcases is_iff.1 hc with h | ⟨h, rfl⟩ <;> rw [h]
      · rw [show (fin c / inf false : F64) = if sgn (fin c : F64) != false then negz else fin 0 from rfl]
        split
        · exact ⟨0, is_negz, le_rfl, by positivity⟩
        · exact ⟨0, is_fin 0, le_rfl, by positivity⟩
      · exact ⟨0, is_negz, le_rfl, by positivity⟩

namespace Momentum

theorem gains_nonNegInf {ρ : Rounding} {data : List (FP ρ)} : ∀ x ∈ gains data, NonNegInf x ∧ Stored x := fun x hx => by
  obtain ⟨⟨p, q⟩, -, rfl⟩ := List.mem_map.1 hx
  exact ⟨(fmax_zero_nonNegInf _).1, stored_fmax stored_zero stored_sub⟩

theorem losses_nonNegInf {ρ : Rounding} {data : List (FP ρ)} : ∀ x ∈ losses data, NonNegInf x := fun x hx => by
  obtain ⟨⟨p, q⟩, -, rfl⟩ := List.mem_map.1 hx
  exact fabs_nonNegInf (fmin_zero_not_nan _).1

/-- C77: on every input, NaN and infinities included, the binary64 `rsi` is NaN, `+∞` or between 0 and `100 + 2^-46`, the float next
above 100. -/
theorem rsi_range64 (data : List F64) (w : ℕ) (hw : 1 ≤ w) (h53 : w ≤ 2 ^ 53) (hn : w ≤ data.length) :
    ReportsP data.length w (fun _ y => y = inf false ∨ InRange 0 (100 + 2 ^ (-46 : ℤ)) y) (rsi data w) := by
  refine (rsi_aligned data w hw hn).reportsP fun out eo i y hi hy => ?_
  obtain ⟨g, eg, e⟩ := Option.bind_eq_some_iff.1 eo
  obtain ⟨l, el, e⟩ := Option.bind_eq_some_iff.1 e
  cases e
  obtain ⟨j, rfl⟩ : ∃ j, i = j + 1 := ⟨i - 1, by omega⟩
  rw [List.getElem?_cons_succ, List.getElem?_map] at hy
  obtain ⟨⟨x, z⟩, hp, rfl⟩ := Option.map_eq_some_iff.1 hy
  obtain ⟨hx, hz⟩ := List.getElem?_zip_eq_some.1 hp
  refine Or.imp_left And.left <| Percent64 (NonNegInf.wilder hw h53 (fun x hx => (gains_nonNegInf x hx).1) eg (by omega) hx)
    (stored_wilder (fun x hx => (gains_nonNegInf x hx).2) eg x (List.mem_of_getElem? hx))
    (NonNegInf.wilder hw h53 losses_nonNegInf el (by omega) hz)

/-- C77: the same for `tii`. -/
theorem tii_range64 (data : List F64) (w : ℕ) (hw : 1 ≤ w) (hn : w ≤ data.length + 1) :
    ReportsP data.length ((w + 1) / 2 - 1) (fun _ y => y = inf false ∨ InRange 0 (100 + 2 ^ (-46 : ℤ)) y) (tii data w) := by
  refine (tii_aligned data w hw hn).reportsP fun out eo i y hi hy => ?_
  obtain ⟨k, ek, e⟩ := Option.bind_eq_some_iff.1 eo
  obtain ⟨m, em, e⟩ := Option.bind_eq_some_iff.1 e
  obtain ⟨ws, ew, e⟩ := Option.bind_eq_some_iff.1 e
  have hdc : 1 ≤ divCeil w 2 := by rw [divCeil_two]; omega
  rw [windows_eq _ hdc] at ew
  cases ew; cases e
  rcases List.mem_append.1 (List.mem_of_getElem? hy) with hy | hy
  · exact Or.inr (Or.inl (List.eq_of_mem_replicate hy))
  obtain ⟨win, hwin, rfl⟩ := List.mem_map.1 hy
  have key : ∀ p ∈ win, NonNegInf p.1 ∧ NonNegInf p.2 := fun p hp => by
    obtain ⟨⟨a, x⟩, hq, rfl⟩ := List.mem_map.1 (mem_of_mem_windowsOf hwin hp)
    exact ⟨(fmax_zero_nonNegInf _).2, fabs_nonNegInf (fmin_zero_not_nan _).2⟩
  dsimp only
  rw [sumPair_fst]
  refine Or.imp_left And.left <| Percent64 (NonNegInf.fsum fun x hx => ?_) stored_fsum (NonNegInf.fsum fun x hx => ?_)
  · obtain ⟨p, hp, rfl⟩ := List.mem_map.1 hx; exact (key p hp).1
  · obtain ⟨p, hp, rfl⟩ := List.mem_map.1 hx; exact (key p hp).2

theorem bounded_diff {M : ℝ} (hM : tiny64 ≤ M) (hB : 3 * M ≤ max64) {x y : F64} {a b : ℝ} (hx : x ⇓ a) (hy : y ⇓ b) (ha : |a| ≤ M)
    (hb : |b| ≤ M) : ∃ r, y - x ⇓ r ∧ |r| ≤ 3 * M := by
  have hM0 := tiny64_pos.le.trans hM
  have hu := underflow64 hM
  have u1 : unit64 ≤ 1 / 4 := by norm_num [unit64]
  generalize hη : (2⁻¹ ^ 1075 : ℝ) = η at hu
  have u0 := accurate64.u0
  have hd : |b - a| ≤ 2 * M := by
    have := abs_sub b a
    linarith
  obtain ⟨r, hr, h⟩ := accurate64.round (rounds_sub hy hx) hd (by rw [hη]; nlinarith)
  rw [hη] at h
  refine ⟨r, hr, ?_⟩
  have := abs_near h
  nlinarith

theorem gains_bounded {M : ℝ} (hM : tiny64 ≤ M) (hB : 3 * M ≤ max64) {data : List F64} (hd : Bounded M data) :
    Bounded (3 * M) (gains data) := fun x hx => by
  have hM0 := tiny64_pos.le.trans hM
  obtain ⟨⟨p, q⟩, hp, rfl⟩ := List.mem_map.1 hx
  obtain ⟨j, hj⟩ := List.mem_iff_getElem?.1 hp
  obtain ⟨ep, eq⟩ := pairs_getElem?_some hj
  obtain ⟨a, ha, a1⟩ := hd p (List.mem_of_getElem? ep)
  obtain ⟨b, hb, b1⟩ := hd q (List.mem_of_getElem? eq)
  obtain ⟨r, hr, r1⟩ := bounded_diff hM hB ha hb a1 b1
  refine ⟨_, is_fmax isZero hr, ?_⟩
  rw [abs_of_nonneg (le_max_left _ _)]
  exact max_le (by positivity) ((le_abs_self r).trans r1)

/-- C77: without overflow the binary64 `rsi` is NaN or between 0 and `100 + 2^-46`. -/
theorem rsi_bounded64 (data : List F64) (w : ℕ) (hw : 1 ≤ w) (h49 : w < 2 ^ 49) (hn : w < data.length) {M : ℝ} (hM : tiny64 ≤ M)
    (hB : 1000 * w * M ≤ max64) (hd : Bounded M data) :
    ReportsP data.length w (fun _ y => InRange 0 (100 + 2 ^ (-46 : ℤ)) y) (rsi data w) := by
  have hM0 := tiny64_pos.le.trans hM
  have w1 : (1 : ℝ) ≤ w := by exact_mod_cast hw
  have wM : M ≤ w * M := by nlinarith
  refine (rsi_aligned data w hw hn.le).reportsP fun out eo i y hi hy => ?_
  obtain ⟨g, eg, e⟩ := Option.bind_eq_some_iff.1 eo
  obtain ⟨l, el, e⟩ := Option.bind_eq_some_iff.1 e
  cases e
  obtain ⟨j, rfl⟩ : ∃ j, i = j + 1 := ⟨i - 1, by omega⟩
  rw [List.getElem?_cons_succ, List.getElem?_map] at hy
  obtain ⟨⟨x, z⟩, hp, rfl⟩ := Option.map_eq_some_iff.1 hy
  obtain ⟨hx, hz⟩ := List.getElem?_zip_eq_some.1 hp
  refine (Percent64 (NonNegInf.wilder hw (by omega) (fun x hx => (gains_nonNegInf x hx).1) eg (by omega) hx)
    (stored_wilder (fun x hx => (gains_nonNegInf x hx).2) eg x (List.mem_of_getElem? hx))
    (NonNegInf.wilder hw (by omega) losses_nonNegInf el (by omega) hz)).resolve_left ?_
  rintro ⟨-, a, ha, h⟩
  have hgl : (gains data).length = data.length - 1 := by simp [gains]
  have hgb := gains_bounded hM (by linarith) hd
  obtain ⟨g', eg', lg, -, hg⟩ := wilder_error (gains data) w hw (by omega) h49 (M := 3 * M) (by linarith) (by linarith) hgb
  rw [eg] at eg'
  cases eg'
  have hj : j < (gains data).length := lg ▸ (List.getElem?_eq_some_iff.1 hx).1
  obtain ⟨x', hx', r, hr, h'⟩ := hg j (by omega) hj
  rw [hx] at hx'
  cases hx'
  have hwin := wilderOf_within (l := vals (gains data)) hw (i := j) (by omega) (by simpa using hj) (within_of_bounded hgb.vals _)
  have hub := unit64_mul (c := 7) (w := w) (by norm_num) h49.le
  have ra : r = a := hr.unique ha
  have := abs_near h'
  have h2 := abs_le.2 hwin
  rw [ra] at this
  have h3 := le_abs_self a
  have : 7 * w * unit64 * (3 * M) ≤ 3 * M := by nlinarith
  nlinarith

/-! ## `crsi` -/

theorem roundEven_down {n : ℤ} (h : Even n) : roundEven (n + 1 / 2 : ℝ) = n := by
  have hf : ⌊(n + 1 / 2 : ℝ)⌋ = n := by
    rw [Int.floor_eq_iff]
    constructor <;> linarith
  have hr : Int.fract (n + 1 / 2 : ℝ) = 1 / 2 := by rw [← Int.self_sub_floor, hf]; ring
  rw [roundEven, hr, hf, if_neg (lt_irrefl _), if_neg (lt_irrefl _), if_pos h]

/-- Twice the float above 100, and 100: halfway between 300 and the next float, and 300 is the even one. -/
theorem rnd64_crsi : rnd64 (2 * (100 + 2 ^ (-46 : ℤ)) + 100) = 300 := by
  rw [rnd64_eq (e := -44) (n := 5277655813324800) (by norm_num) (by norm_num) (by norm_num) (by
    rw [← roundEven_down (n := 5277655813324800) (by decide)]
    congr 1
    norm_num)]
  norm_num

/-- `+∞`, NaN or a number from 0 to `hi`. -/
def UpTo (hi : ℝ) (x : F64) : Prop := x = inf false ∨ InRange 0 hi x

theorem UpTo.nonNeg {hi : ℝ} {x : F64} (h : UpTo hi x) : x = FP.nan ∨ NonNegInf x := by
  rcases h with rfl | rfl | ⟨a, ha, a0, -⟩
  · exact Or.inr (Or.inl rfl)
  · exact Or.inl rfl
  · exact Or.inr (Or.inr ⟨a, ha, a0⟩)

theorem UpTo.add {m n k : ℝ} {x y : F64} (hx : UpTo m x) (hy : UpTo n y) (h : rnd64 (m + n) = k) (hk : k ≤ max64) : UpTo k (x + y) := by
  rcases hx with rfl | rfl | ⟨a, ha, a0, a1⟩
  · rcases hy.nonNeg with rfl | hy
    · exact Or.inr (Or.inl add_nan)
    · exact Or.inl hy.add_inf.2
  · exact Or.inr (Or.inl rfl)
  rcases hy with rfl | rfl | ⟨b, hb, b0, b1⟩
  · exact Or.inl (NonNegInf.add_inf (Or.inr ⟨a, ha, a0⟩)).1
  · exact Or.inr (Or.inl add_nan)
  · have h1 := rnd64_mono (a + b) (m + n) (by linarith)
    rw [h] at h1
    have h0 := rnd64_nonneg (x := a + b) (by linarith)
    exact Or.inr (Or.inr ⟨_, is64 (rounds_add ha hb) rfl (by rw [abs_of_nonneg h0]; exact h1.trans hk), h0, h1⟩)

theorem UpTo.div {m c k : ℝ} {x y : F64} (hx : UpTo m x) (hy : y ⇓ c) (hc : 0 < c) (h : rnd64 (m / c) = k) (hk : k ≤ max64) :
    UpTo k (x / y) := by
  rcases hx with rfl | rfl | ⟨a, ha, a0, a1⟩
  · exact Or.inl (inf_div hy hc)
  · exact Or.inr (Or.inl rfl)
  · have h1 := rnd64_mono (a / c) (m / c) (by gcongr)
    rw [h] at h1
    have h0 := rnd64_nonneg (x := a / c) (by positivity)
    exact Or.inr (Or.inr ⟨_, is64 (rounds_div ha hy hc.ne') rfl (by rw [abs_of_nonneg h0]; exact h1.trans hk), h0, h1⟩)

theorem rsi_mem64 {data out : List F64} {w : ℕ} (hw : 1 ≤ w) (h53 : w ≤ 2 ^ 53) (hn : w ≤ data.length) (e : rsi data w = some out)
    {i : ℕ} {y : F64} (hi : w ≤ i) (hy : out[i]? = some y) : UpTo (100 + 2 ^ (-46 : ℤ)) y := by
  obtain ⟨out', e', l, -, h⟩ := rsi_range64 data w hw h53 hn
  rw [e] at e'
  cases e'
  obtain ⟨y', hy', h⟩ := h i hi (l ▸ (List.getElem?_eq_some_iff.1 hy).1)
  rw [hy] at hy'
  cases hy'
  exact h

theorem lt_irrefl64 (c : F64) : (c <. c) = false := by
  show FP.lt c c = false
  cases c <;> simp [FP.lt]

theorem count_le64 (l : List F64) (c : F64) : ∀ n : ℕ, l.foldl (fun acc x => if x <. c then acc + 1 else acc) n ≤ n + l.countP (fun x => x <. c) := by
  induction l with
  | nil => simp
  | cons x l ih =>
    intro n
    rw [List.foldl_cons]
    refine (ih _).trans ?_
    rw [List.countP_cons]
    by_cases h : (x <. c) = true
    · simp only [h, if_true]; omega
    · simp [h]

/-- C77: but `crsi`, the mean of two such values and a rank, is at most 100 exactly: the excess is rounded away. -/
theorem crsi_range64 (data : List F64) (w1 w2 w3 : ℕ) (h1 : 1 ≤ w1) (h2 : 1 ≤ w2) (h3 : 1 ≤ w3) (n1 : w1 ≤ data.length)
    (n2 : w2 < data.length) (n3 : w3 ≤ data.length) (b1 : w1 ≤ 2 ^ 53) (b2 : w2 ≤ 2 ^ 53) (b3 : w3 ≤ 2 ^ 53) :
    ReportsP data.length (max w1 (max (w2 + 1) w3)) (fun _ y => y = inf false ∨ InRange 0 100 y) (crsi data w1 w2 w3) := by
  refine (crsi_aligned data w1 w2 w3 h1 h2 h3 n1 n2 n3).reportsP fun out eo i y hi hy => ?_
  obtain ⟨r, er, e⟩ := Option.bind_eq_some_iff.1 eo
  obtain ⟨sr, es, e⟩ := Option.bind_eq_some_iff.1 e
  obtain ⟨ws, ew, e⟩ := Option.bind_eq_some_iff.1 e
  rw [windows_eq _ h3] at ew
  cases ew
  obtain ⟨rk, ek, e⟩ := Option.bind_eq_some_iff.1 e
  cases e
  rw [List.getElem?_map] at hy
  obtain ⟨⟨x, y, z⟩, hp, rfl⟩ := Option.map_eq_some_iff.1 hy
  obtain ⟨e1, e2, e3⟩ := zip3_getElem?.1 hp
  have rx := rsi_mem64 h1 b1 n1 er (by omega) e1
  obtain ⟨j, rfl⟩ : ∃ j, i = j + 1 := ⟨i - 1, by omega⟩
  have ry := rsi_mem64 h2 b2 (by simp; omega) es (i := j) (by omega) (by simpa using e2)
  have rz : InRange 0 100 z := by
    rcases List.mem_append.1 (List.mem_of_getElem? e3) with h | h
    · exact Or.inl (List.eq_of_mem_replicate h)
    · obtain ⟨win, hwin, ez⟩ := mapP_mem ek h
      have hlen := windowsOf_mem_length hwin
      rw [usub_of_le h3] at ez
      simp only [Option.bind_eq_bind, Option.bind_some] at ez
      obtain ⟨c, hc, ez⟩ := Option.bind_eq_some_iff.1 ez
      cases ez
      have hcnt : win.reverse.foldl (fun acc x => if x <. c then acc + 1 else acc) 0 ≤ w3 - 1 := by
        refine (count_le64 _ _ 0).trans ?_
        rw [Nat.zero_add, List.countP_reverse]
        have := List.countP_lt_length_iff (p := fun x => x <. c) (l := win) |>.2 ⟨c, List.mem_of_getElem? hc, by simp [lt_irrefl64]⟩
        omega
      generalize win.reverse.foldl (fun acc x => if x <. c then acc + 1 else acc) 0 = cnt at hcnt
      have hq : InRange 0 1 (flt cnt / flt (w3 - 1) : F64) :=
        Dominated.share (Or.inr (Or.inr ⟨cnt, (w3 - 1 : ℕ), isFlt (by omega), isFlt (by omega), by positivity, by exact_mod_cast hcnt⟩))
      rcases hq with h | ⟨q, hq, q0, q1⟩
      · left; rw [h]; rfl
      · obtain ⟨t, ht⟩ := (rounds_mul hq (isLit (ρ := Rounding.binary64) 100 (by norm_num))).between (n := 100) (by norm_num)
          (by positivity) (by
            rw [show ((100 : ℕ) : ℝ) = 100 by norm_num]
            have : (OfNat.ofNat 100 : ℝ) = 100 := rfl
            rw [this]
            linarith)
        exact Or.inr ⟨t, by simpa using ht⟩
  have s1 := rx.add ry (k := 2 * (100 + 2 ^ (-46 : ℤ))) (by
      rw [show (100 + 2 ^ (-46 : ℤ) + (100 + 2 ^ (-46 : ℤ)) : ℝ) = ((7036874417766401 : ℤ) : ℝ) * 2 ^ (-45 : ℤ) by norm_num,
        rnd64_exact (by norm_num) (by norm_num)]
      norm_num) (le_trans (by norm_num) large_le_max64)
  have s2 := s1.add (Or.inr rz) (k := 300) rnd64_crsi (le_trans (by norm_num) large_le_max64)
  exact s2.div (isLit (ρ := Rounding.binary64) 3 (by norm_num)) (by norm_num) (k := 100) (by
      have := rnd64_exact (m := 100) (e := 0) (by norm_num) (by norm_num)
      norm_num at this ⊢
      exact this) (le_trans (by norm_num) large_le_max64)

/-! ## The bounds are met -/

/-- The doubles nearest to 0.1 and 0.3, and their difference. -/
theorem lit01 : (0.1 : F64) ⇓ 7205759403792794 * 2 ^ (-56 : ℤ) := by
  refine is64 (a := (0.1 : ℝ)) ⟨false, rfl⟩ ?_ (le_trans (by norm_num) large_le_max64)
  rw [rnd64_eq (e := -56) (n := 7205759403792794) (by norm_num) (by norm_num) (by norm_num) (roundEven_eq (by norm_num) (by norm_num))]
  norm_num

theorem lit03 : (0.3 : F64) ⇓ 5404319552844595 * 2 ^ (-54 : ℤ) := by
  refine is64 (a := (0.3 : ℝ)) ⟨false, rfl⟩ ?_ (le_trans (by norm_num) large_le_max64)
  rw [rnd64_eq (e := -54) (n := 5404319552844595) (by norm_num) (by norm_num) (by norm_num) (roundEven_eq (by norm_num) (by norm_num))]
  norm_num

theorem diff03 : (0.3 : F64) - 0.1 ⇓ 7205759403792793 * 2 ^ (-55 : ℤ) := by
  have := rounds_sub lit03 lit01
  rw [show (5404319552844595 * 2 ^ (-54 : ℤ) - 7205759403792794 * 2 ^ (-56 : ℤ) : ℝ) = 7205759403792793 * 2 ^ (-55 : ℤ) by norm_num] at this
  exact exact64 this (m := 7205759403792793) (e := -55) (by norm_num) (by norm_num) (by norm_num) (le_trans (by norm_num) large_le_max64)

/-- `100 * d / d` is more than 100. -/
theorem over03 {d e : F64} (hd : d ⇓ 7205759403792793 * 2 ^ (-55 : ℤ)) (he : e ⇓ 7205759403792793 * 2 ^ (-55 : ℤ)) :
    100 * d / e ⇓ 100 + 2 ^ (-46 : ℤ) := by
  have h20 : 100 * d ⇓ 20 := by
    refine is64 (rounds_mul (isLit (ρ := Rounding.binary64) 100 (by norm_num)) hd) ?_ (le_trans (by norm_num) large_le_max64)
    rw [rnd64_eq (e := -48) (n := 5629499534213120) (by norm_num) (by norm_num) (by norm_num) (roundEven_eq (by norm_num) (by norm_num))]
    norm_num
  refine is64 (rounds_div h20 he (by norm_num)) ?_ (le_trans (by norm_num) large_le_max64)
  rw [rnd64_eq (e := -46) (n := 7036874417766401) (by norm_num) (by norm_num) (by norm_num) (roundEven_eq (by norm_num) (by norm_num))]
  norm_num

/-- C77: `rsi` exceeds 100. On the two bars 0.1 and 0.3 with window 1 it is `100 + 2^-46`. -/
theorem rsi_exceeds : ∃ y, rsi ([0.1, 0.3] : List F64) 1 = some [nan, y] ∧ y ⇓ 100 + 2 ^ (-46 : ℤ) := by
  refine ⟨_, rfl, ?_⟩
  have h1 := is_fmax (isZero (ρ := Rounding.binary64)) diff03
  rw [max_eq_right (by norm_num)] at h1
  have h2 := is_abs (is_fmin (isZero (ρ := Rounding.binary64)) diff03)
  rw [min_eq_left (by norm_num), abs_zero] at h2
  refine over03 h1 ?_
  exact exact64 (by simpa using rounds_add h1 h2) (m := 7205759403792793) (e := -55) (by norm_num) (by norm_num) (by norm_num)
    (le_trans (by norm_num) large_le_max64)

end Momentum

end Traquer
