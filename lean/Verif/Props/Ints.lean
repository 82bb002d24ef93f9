import Verif.Model.Ints
import Verif.Props.Order64
import Verif.Props.RankModes
import Verif.Lemmas.Whole
import Verif.Props.Flat64
import Verif.Lemmas.FoldMax
import Verif.Props.Pearson
/-!
# C107: data of an integer type

Integers up to `2^53` are converted without loss. Beyond that the conversion rounds, and different integers can become the same double.
`quantile` and `median` of integers are nevertheless always those of the converted data. `rank`, `srcc` and `hoeffd` look at the
integers themselves, before the conversion, and tell apart what the conversion merges.
-/

namespace Traquer
open FP FloatLit
variable {ρ : Rounding}

/-! ## The conversion -/

/-- C107: an integer of at most `2^53` in size is converted to exactly that number. -/
theorem intToF64_exact {z : ℤ} (h : |z| ≤ 2 ^ 53) : (intToF64 z : FP ρ) ⇓ z := by
  obtain ⟨h1, h2⟩ := rnd_int (ρ := ρ) (z := z) (by rw [← Int.cast_abs]; exact_mod_cast h)
  exact (mk_is (by rw [h1]; exact h2)).congr h1

theorem rnd_int_zero {z : ℤ} (h : ρ.rnd z = 0) : z = 0 := by
  by_contra hz
  have e1 : ρ.rnd 1 = 1 := by simpa using ρ.nat 1 (by norm_num)
  rcases lt_or_gt_of_ne hz with hz | hz
  · have := ρ.mono z (-1) (by exact_mod_cast (show z ≤ -1 by omega))
    rw [ρ.odd, e1, h] at this
    linarith
  · have := ρ.mono 1 z (by exact_mod_cast (show 1 ≤ z by omega))
    rw [e1, h] at this
    linarith

/-- A number other than `-0.0`. -/
def PlainNum (x : FP ρ) : Prop := ∃ r, x = fin r

theorem PlainNum.eq_of_is {x y : FP ρ} {a : ℝ} (hx : PlainNum x) (hy : PlainNum y) (h1 : x ⇓ a) (h2 : y ⇓ a) : x = y := by
  obtain ⟨r, rfl⟩ := hx
  obtain ⟨s, rfl⟩ := hy
  rcases is_iff.1 h1 with h1 | ⟨h1, -⟩ <;> rcases is_iff.1 h2 with h2 | ⟨h2, -⟩ <;> simp_all

theorem intToF64_cases (z : ℤ) : (ρ.fits (ρ.rnd z) ∧ (intToF64 z : FP ρ) = fin (ρ.rnd z)) ∨
    (¬ ρ.fits (ρ.rnd z) ∧ (intToF64 z : FP ρ) = inf (decide (z < 0))) := by
  unfold intToF64
  by_cases h0 : ρ.rnd z = 0
  · obtain rfl := rnd_int_zero h0
    left
    have f0 : ρ.fits 0 := by simpa using ρ.fits_nat 0 (by norm_num)
    rw [h0]
    refine ⟨f0, ?_⟩
    rw [mk, if_pos h0, if_neg (by simp)]
  · by_cases hf : ρ.fits (ρ.rnd z)
    · left; exact ⟨hf, by rw [mk, if_neg h0, if_pos hf]⟩
    · right; refine ⟨hf, ?_⟩
      rw [mk_inf hf]; simp

theorem intToF64_plain {z : ℤ} (h : (intToF64 z : FP ρ).Finite) : PlainNum (intToF64 z : FP ρ) := by
  rcases intToF64_cases (ρ := ρ) z with ⟨-, e⟩ | ⟨-, e⟩
  · exact ⟨_, e⟩
  · rw [e] at h; exact absurd h (by simp [FP.Finite])

theorem intToF64_val {z : ℤ} (h : (intToF64 z : FP ρ).Finite) : (intToF64 z : FP ρ).val = ρ.rnd z := by
  rcases intToF64_cases (ρ := ρ) z with ⟨-, e⟩ | ⟨-, e⟩
  · rw [e]; rfl
  · rw [e] at h; exact absurd h (by simp [FP.Finite])

theorem intToF64_not_nan (z : ℤ) : Traquer.isNaN (intToF64 z : FP ρ) = false := by
  rcases intToF64_cases (ρ := ρ) z with ⟨-, e⟩ | ⟨-, e⟩ <;> rw [e] <;> rfl

/-- C107: the conversion keeps the order: a smaller integer never becomes a larger double. -/
theorem intToF64_mono {a b : ℤ} (h : a ≤ b) (ha : (intToF64 a : FP ρ).Finite) (hb : (intToF64 b : FP ρ).Finite) :
    ((intToF64 a : FP ρ) <=. intToF64 b) = true := by
  rw [is_le ha.is hb.is, intToF64_val ha, intToF64_val hb]
  exact decide_eq_true (ρ.mono _ _ (by exact_mod_cast h))

theorem intToF64_finite {z : ℤ} (h : |z| < 2 ^ 128) : (intToF64 z : F64).Finite := by
  have hz : |rnd64 z| ≤ max64 := by
    have h1 : |(z : ℝ)| ≤ 2 ^ 128 := by rw [← Int.cast_abs]; exact_mod_cast h.le
    have e := rnd64_exact (m := 1) (e := 128) (by norm_num) (by norm_num)
    have e : rnd64 (2 ^ 128) = 2 ^ 128 := by simpa using e
    have h2 := abs_le.1 h1
    have m1 := rnd64_mono _ _ h2.2
    have m2 := rnd64_mono _ _ h2.1
    rw [rnd64_neg, e] at m2
    rw [e] at m1
    refine (abs_le.2 ⟨m2, m1⟩).trans ?_
    unfold max64
    have : (2 : ℝ) ^ 128 ≤ 2 ^ 971 := pow_le_pow_right₀ (by norm_num) (by norm_num)
    generalize (2 : ℝ) ^ 971 = p at *
    generalize (2 : ℝ) ^ 128 = q at *
    norm_num
    have : 0 ≤ q := by linarith [abs_nonneg (z : ℝ)]
    linarith
  rcases intToF64_cases (ρ := Rounding.binary64) z with ⟨-, e⟩ | ⟨n, e⟩
  · rw [e]; trivial
  · exact absurd hz n

/-- C107: in binary64 an integer of any machine type (up to 128 bits) becomes a number within half a unit in the last of 53 bits. -/
theorem intToF64_near {z : ℤ} (h : |z| < 2 ^ 128) : ∃ r : ℝ, (intToF64 z : F64) ⇓ r ∧ |r - z| ≤ 2⁻¹ ^ 53 * |(z : ℝ)| := by
  have e := intToF64_val (intToF64_finite h)
  refine ⟨_, (intToF64_finite h).is, ?_⟩
  rw [e]
  refine rnd64_relative ?_
  by_cases hz : z = 0
  · left; exact ⟨0, by simp [hz]⟩
  · right
    have h1 : (1 : ℝ) ≤ |(z : ℝ)| := by rw [← Int.cast_abs]; exact_mod_cast Int.one_le_abs hz
    refine le_trans ?_ h1
    exact zpow_le_one_of_nonpos₀ (by norm_num) (by norm_num)

/-- C107: `2^53` and `2^53 + 1` become the same double. -/
theorem intToF64_collide : (intToF64 (2 ^ 53) : F64) = intToF64 (2 ^ 53 + 1) := by
  refine (intToF64_plain (intToF64_finite (by norm_num))).eq_of_is (intToF64_plain (intToF64_finite (by norm_num)))
    (intToF64_finite (by norm_num)).is ((intToF64_finite (by norm_num)).is.congr ?_)
  rw [intToF64_val (intToF64_finite (by norm_num)), intToF64_val (intToF64_finite (by norm_num))]
  show rnd64 _ = rnd64 _
  have e1 : rnd64 ((2 ^ 53 : ℤ) : ℝ) = 2 ^ 53 := by
    have := rnd64_exact (m := 2 ^ 53) (e := 0) (by norm_num) (by norm_num)
    norm_num at this ⊢
    exact this
  rw [e1, rnd64_eq (e := 1) (n := 2 ^ 52) (by norm_num) (by norm_num) (by norm_num) ?_]
  · norm_num
  · have hf : ⌊(((2 ^ 53 + 1 : ℤ) : ℝ) / 2 ^ (1 : ℤ))⌋ = 2 ^ 52 := by
      rw [Int.floor_eq_iff]; norm_num
    unfold roundEven Int.fract
    rw [hf, if_neg (by norm_num), if_neg (by norm_num), if_pos (by decide)]

end Traquer

namespace Traquer.Distribution
open FP FloatLit
variable {ρ : Rounding}

/-! ## quantile and median -/

theorem totalOn_int (l : List ℤ) : TotalOn (fun x y => decide (x < y)) l := by
  constructor
  · intro x _ y _ h
    simp only [decide_eq_true_eq, decide_eq_false_iff_not, not_lt] at *
    omega
  · intro x _ y _ z _ h1 h2
    simp only [decide_eq_false_iff_not, not_lt] at *
    omega

theorem quickselect_int {l : List ℤ} (h : Fins (l.map intToF64 : List (FP ρ))) {k : ℕ} (hk : k < l.length) :
    ∃ d y, quickselect (fun x y => decide (x < y)) l k = some (d, y) ∧ d.length = l.length ∧ y ∈ l ∧ (∀ z ∈ d, z ∈ l) ∧
      (intToF64 y : FP ρ) ⇓ orderStat (vals (l.map intToF64 : List (FP ρ))) k ∧
      (k + 1 < l.length → minOf (vals ((d.drop (k + 1)).map intToF64 : List (FP ρ))) = orderStat (vals (l.map intToF64 : List (FP ρ))) (k + 1)) := by
  obtain ⟨P, y, Q, e, hP, hp, hs⟩ := quickselect_spec (fun x y => decide (x < y)) l k hk
  have hs := hs (totalOn_int l)
  have fl : ∀ z ∈ l, (intToF64 z : FP ρ).Finite := fun z hz => h _ (List.mem_map_of_mem hz)
  have fd : ∀ z ∈ P ++ y :: Q, (intToF64 z : FP ρ).Finite := fun x hx => fl x (hp.mem_iff.1 hx)
  have fy := fd y (by simp)
  have mono : ∀ a b : ℤ, (intToF64 a : FP ρ).Finite → (intToF64 b : FP ρ).Finite → a ≤ b → (intToF64 a : FP ρ).val ≤ (intToF64 b : FP ρ).val := fun a b ha hb hab => by
    rw [intToF64_val ha, intToF64_val hb]
    exact ρ.mono _ _ (by exact_mod_cast hab)
  have h1 : ∀ z ∈ vals (P.map intToF64 : List (FP ρ)), z ≤ (intToF64 y : FP ρ).val := fun z hz => by
    obtain ⟨z, hz', rfl⟩ := List.mem_map.1 hz
    obtain ⟨u, hu, rfl⟩ := List.mem_map.1 hz'
    have := hs.1 u hu
    simp only [decide_eq_false_iff_not, not_lt] at this
    exact mono _ _ (fd u (by simp [hu])) fy this
  have h2 : ∀ z ∈ vals (Q.map intToF64 : List (FP ρ)), (intToF64 y : FP ρ).val ≤ z := fun z hz => by
    obtain ⟨z, hz', rfl⟩ := List.mem_map.1 hz
    obtain ⟨u, hu, rfl⟩ := List.mem_map.1 hz'
    have := hs.2 u hu
    simp only [decide_eq_false_iff_not, not_lt] at this
    exact mono _ _ fy (fd u (by simp [hu])) this
  have hpv : (vals (P.map intToF64 : List (FP ρ)) ++ (intToF64 y : FP ρ).val :: vals (Q.map intToF64 : List (FP ρ))).Perm
      (vals (l.map intToF64 : List (FP ρ))) := by
    have := (hp.map (intToF64 : ℤ → FP ρ)).map FP.val
    simpa [vals] using this
  have hd : (P ++ y :: Q).drop (k + 1) = Q := by
    rw [← hP, show P ++ y :: Q = (P ++ [y]) ++ Q by simp, List.drop_left' (by simp)]
  refine ⟨_, y, e, hp.length_eq, hp.mem_iff.1 (by simp), fun z hz => hp.mem_iff.1 hz, fy.is.congr ?_, fun hk2 => ?_⟩
  · have := orderStat_of_splits h1 h2 hpv
    rw [vals_length, List.length_map, hP] at this
    exact this.symm
  · have hQ : vals (Q.map intToF64 : List (FP ρ)) ≠ [] := by
      intro hq
      have := hp.length_eq
      have hq : Q.length = 0 := by
        have := congrArg List.length hq
        simpa [vals_length] using this
      simp at this
      omega
    have := orderStat_succ_of_splits h1 h2 hpv hQ
    rw [vals_length, List.length_map, hP] at this
    rw [hd]; exact this.symm

theorem foldMin_plain {l : List (FP ρ)} (h : ∀ x ∈ l, PlainNum x) (hl : l ≠ []) : PlainNum (Volatility.foldMin l) := by
  have key : ∀ (l : List (FP ρ)) (s : FP ρ), (∀ x ∈ l, PlainNum x) → PlainNum s → PlainNum (l.foldl (fun s x => fmin s x) s) := by
    intro l
    induction l with
    | nil => intro s _ hs; exact hs
    | cons x l ih =>
      intro s h hs
      refine ih _ (fun y hy => h y (by simp [hy])) ?_
      obtain ⟨a, rfl⟩ := hs
      obtain ⟨b, rfl⟩ := h x (by simp)
      show PlainNum (fmin (fin a) (fin b))
      rw [fmin_def (x := fin a) (y := fin b) rfl rfl]
      split
      · exact ⟨_, rfl⟩
      · exact ⟨_, rfl⟩
  cases l with
  | nil => exact absurd rfl hl
  | cons x l =>
    exact key l x (fun y hy => h y (by simp [hy])) (h x (by simp))

/-- The closure of `quantile` on a window, as the model has it. -/
noncomputable def quantileWinOf {T : Type} (lt : T → T → Bool) (toF : T → FP ρ) (w : ℕ) (q : FP ρ) (x : List T) : Option (FP ρ) :=
  if fract (posOf w q) ==. 0 then do
    let (_, x) ← quickselect lt x (toUsize (posOf w q))
    some (toF x)
  else do
    let (w', x) ← quickselect lt x (toUsize (floor (posOf w q)))
    let lower := toF x
    let rest ← sliceFrom w' (toUsize (ceil (posOf w q)))
    let upper := rest.foldl (fun s x => fmin s (toF x)) nan
    some (lower * (ceil (posOf w q) - posOf w q) + upper * (posOf w q - floor (posOf w q)))

theorem quantileWin_int {w : ℕ} (hw : 1 ≤ w) (hw' : w ≤ 2 ^ 53) (q : FP ρ) {x : List ℤ} (h : Fins (x.map intToF64 : List (FP ρ)))
    (l : x.length = w) :
    quantileWinOf (fun x y => decide (x < y)) intToF64 w q x = quantileWinOf (fun x y => x <. y) id w q (x.map intToF64) := by
  have l' : (x.map (intToF64 : ℤ → FP ρ)).length = w := by rw [List.length_map, l]
  have pl : ∀ z ∈ x, PlainNum (intToF64 z : FP ρ) := fun z hz => intToF64_plain (h _ (List.mem_map_of_mem hz))
  have pl' : ∀ z ∈ x.map (intToF64 : ℤ → FP ρ), PlainNum z := fun z hz => by
    obtain ⟨u, hu, rfl⟩ := List.mem_map.1 hz
    exact pl u hu
  have big : ((2 : ℝ) ^ 53 : ℝ) < 2 ^ 64 := by norm_num
  have hwR : ((w - 1 : ℕ) : ℝ) < 2 ^ 64 := lt_of_le_of_lt (by exact_mod_cast (show w - 1 ≤ 2 ^ 53 by omega)) big
  unfold quantileWinOf
  rcases posOf_range hw hw' q with hn | ⟨r, hr, h0, h1⟩
  · obtain ⟨d, y, e, ld, -⟩ := quickselect_int h (k := 0) (by omega)
    obtain ⟨d', y', e', ld', -⟩ := quickselect_orderStat h (k := 0) (by omega)
    rw [if_neg (by rw [hn]; simp [Traquer.fract, FloatOps.fract, FP.fract, FloatOps.feq, FP.feq, FP.isNaN]), if_neg (by rw [hn]; simp [Traquer.fract, FloatOps.fract, FP.fract, FloatOps.feq, FP.feq, FP.isNaN])]
    have hz : toUsize (floor (FP.nan : FP ρ)) = 0 := rfl
    have hz2 : toUsize (ceil (FP.nan : FP ρ)) = 0 := rfl
    rw [hn]
    simp only [hz, hz2, e, e', Option.bind_eq_bind, Option.bind_some, sliceFrom, Nat.zero_le, if_true]
    have c1 : ∀ a b : FP ρ, a * (FP.nan - b) = FP.nan := fun a b => by
      show FP.mul a FP.nan = _
      cases a <;> rfl
    show some ((_ * (FP.nan - _)) + _) = some ((_ * (FP.nan - _)) + _)
    simp only [c1]
  · have pf : ⌊r⌋₊ ≤ w - 1 := Nat.floor_le_of_le h1
    have fz : (⌊r⌋ : ℝ) = (⌊r⌋₊ : ℝ) := natCast_floor_eq_intCast_floor h0 |>.symm
    obtain ⟨d, y, e, ld, my, sd, iy, md⟩ := quickselect_int h (k := ⌊r⌋₊) (by omega)
    obtain ⟨P', y', Q', e2, -, hp', -⟩ := quickselect_spec (fun x y : FP ρ => x <. y) (x.map intToF64) ⌊r⌋₊ (by omega)
    obtain ⟨d', y'', e', ld', iy', fd', md'⟩ := quickselect_orderStat h (k := ⌊r⌋₊) (by omega)
    obtain ⟨rfl, rfl⟩ : P' ++ y' :: Q' = d' ∧ y' = y'' := by rw [e2] at e'; simpa using e'
    have py : PlainNum y' := pl' _ (hp'.mem_iff.1 (by simp))
    have ey : (intToF64 y : FP ρ) = y' := (pl y my).eq_of_is py iy iy'
    split
    · rw [isUsize hr (lt_of_le_of_lt h1 hwR)]
      simp only [e, e', Option.bind_eq_bind, Option.bind_some, ey, id]
    · rename_i hf
      have hne : (⌊r⌋ : ℝ) ≠ r := fun he => hf (by
        have hz : Traquer.fract (posOf w q) ⇓ 0 := by
          rcases is_iff.1 hr with hpos | ⟨hpos, rfl⟩
          · rw [hpos]
            show mk false (r - if 0 ≤ r then ⌊r⌋ else ⌈r⌉) ⇓ 0
            rw [if_pos h0, he, sub_self]
            exact mk_zero _
          · rw [hpos]; exact is_iff.2 (.inl rfl)
        rw [is_feq hz isZero]; simp)
      have hlt : r < (w - 1 : ℕ) := by
        rcases h1.lt_or_eq with h | h
        · exact h
        · exact absurd (by rw [h]; simp) hne
      have hlt2 : ⌊r⌋₊ < w - 1 := (Nat.floor_lt h0).2 hlt
      have hc : ⌈r⌉ = ⌊r⌋ + 1 := by
        rw [Int.ceil_eq_iff]
        have h1 := lt_of_le_of_ne (Int.floor_le r) hne
        have h2 := Int.lt_floor_add_one r
        push_cast
        constructor <;> linarith
      have t1 : toUsize (floor (posOf w q)) = ⌊r⌋₊ := by
        rw [isUsize (isFloor (by omega) hr h0 h1) (lt_of_le_of_lt ((Int.floor_le r).trans h1) hwR), fz, Nat.floor_natCast]
      have t2 : toUsize (ceil (posOf w q)) = ⌊r⌋₊ + 1 := by
        have e : (⌈r⌉ : ℝ) = ((⌊r⌋₊ + 1 : ℕ) : ℝ) := by rw [hc]; push_cast; rw [fz]
        rw [isUsize (isCeil (by omega) hr h0 h1) (by rw [e]; exact lt_of_le_of_lt (by exact_mod_cast (show ⌊r⌋₊ + 1 ≤ w - 1 by omega)) hwR), e,
          Nat.floor_natCast]
      simp only [t1, t2, e, e', Option.bind_eq_bind, Option.bind_some]
      rw [sliceFrom, sliceFrom, if_pos (by omega), if_pos (by omega)]
      simp only [Option.bind_some]
      have n1 : (d.drop (⌊r⌋₊ + 1)).map (intToF64 : ℤ → FP ρ) ≠ [] := by intro h; have := congrArg List.length h; simp at this; omega
      have n2 : (P' ++ y' :: Q').drop (⌊r⌋₊ + 1) ≠ [] := by intro h; have := congrArg List.length h; simp only [List.length_drop, List.length_nil] at this; omega
      have f1 : ∀ z ∈ (d.drop (⌊r⌋₊ + 1)).map (intToF64 : ℤ → FP ρ), z ∈ x.map (intToF64 : ℤ → FP ρ) := fun z hz => by
        obtain ⟨u, hu, rfl⟩ := List.mem_map.1 hz
        exact List.mem_map_of_mem (sd u (List.mem_of_mem_drop hu))
      have hu := foldMin_is (fun z hz => h z (f1 z hz)) n1
      have hu' := foldMin_is fd' n2
      rw [md (by omega)] at hu
      rw [md' (by omega)] at hu'
      have eu := (foldMin_plain (fun z hz => pl' z (f1 z hz)) n1).eq_of_is (foldMin_plain (fun z hz => pl' z (hp'.mem_iff.1 (List.mem_of_mem_drop hz))) n2) hu hu'
      have eu' : (d.drop (⌊r⌋₊ + 1)).foldl (fun s x => fmin s (intToF64 x : FP ρ)) nan = ((P' ++ y' :: Q').drop (⌊r⌋₊ + 1)).foldl (fun s x => fmin s (id x)) nan := by
        rw [← List.foldl_map (f := (intToF64 : ℤ → FP ρ)) (g := fun s x => fmin s x)]
        exact eu
      rw [eu', ey]; rfl

theorem mem_of_window {α : Type} {n : ℕ} {l x : List α} (h : x ∈ windowsOf n l) : ∀ u ∈ x, u ∈ l := by
  obtain ⟨i, -, rfl⟩ := windowsOf_mem_iff.1 h
  exact fun u hu => List.mem_of_mem_drop (List.mem_of_mem_take hu)

/-- C107: `quantile` of integers is, to the bit, `quantile` of the converted integers, also where the conversion merges different
integers. -/
theorem quantileInt_eq (data : List ℤ) (w : ℕ) (q : FP ρ) (hw' : w ≤ 2 ^ 53) (h : Fins (data.map intToF64 : List (FP ρ))) :
    quantileInt data w q = quantile (data.map intToF64) w q := by
  rcases Nat.eq_zero_or_pos w with rfl | hw
  · rfl
  unfold quantileInt quantile quantileT
  simp only [usub_of_le hw, windows, if_neg (show w ≠ 0 by omega), Option.bind_eq_bind, Option.bind_some]
  rw [windowsOf_map, Correlation.mapP_map]
  congr 1
  refine Correlation.mapP_congr fun x hx => ?_
  exact quantileWin_int hw hw' q (fun z hz => by
    obtain ⟨u, hu, rfl⟩ := List.mem_map.1 hz
    exact h _ (List.mem_map_of_mem (mem_of_window hx u hu))) (windowsOf_mem_length hx)

/-- C107: so is `median`. -/
theorem medianInt_eq (data : List ℤ) (w : ℕ) (hw' : w ≤ 2 ^ 53) (h : Fins (data.map intToF64 : List (FP ρ))) :
    medianInt data w = (median (data.map intToF64) w : Option (List (FP ρ))) := quantileInt_eq data w 50 hw' h

/-! ## The ranks see the integers themselves -/

/-- What `sort_unstable_by` guarantees for integers: some ordering of the indices along which the values do not decrease. -/
def SortsInts (srt : List ℤ → List ℕ) : Prop := ∀ data, IsArgsort (fun x y => decide (x < y)) data (srt data)

theorem keyed_int (data : List ℤ) : Keyed id (fun x y : ℤ => decide (x < y)) (fun x y => decide (x ≠ y)) data where
  lt_iff x _ y _ := by simp
  ne_iff x _ y _ := by simp

section
variable {F : Type} [FloatOps F] {srt : List ℤ → List ℕ} (hs : SortsInts srt) {data : List ℤ} (hne : data ≠ [])
include hs

include hne in
/-- C107: by default (and with `Min`) every integer is ranked one above the number of smaller integers, however large they are. -/
theorem rankInt_min (mode : Option RankMode) (hm : mode = none ∨ mode = some .min) :
    ∃ out : List F, rankInt srt data mode = some out ∧ out.length = data.length ∧
      ∀ (i : ℕ) x, data[i]? = some x → out[i]? = some (flt (below data x + 1)) := by
  have := rankWith_min (F := F) (keyed_int data) (hs data) hne hm
  rw [List.map_id] at this
  exact this

include hne in
/-- C107: `Max` ranks by the number of integers not larger. -/
theorem rankInt_max : ∃ out : List F, rankInt srt data (some .max) = some out ∧ out.length = data.length ∧
    ∀ (i : ℕ) x, data[i]? = some x → out[i]? = some (flt (upto data x)) := by
  have := rankWith_max (F := F) (keyed_int data) (hs data) hne
  rw [List.map_id] at this
  exact this

include hne in
/-- C107: `Dense` ranks by the number of different smaller integers. -/
theorem rankInt_dense : ∃ out : List F, rankInt srt data (some .dense) = some out ∧ out.length = data.length ∧
    ∀ (i : ℕ) x, data[i]? = some x → out[i]? = some (flt (distinctBelow data x + 1)) := by
  have := rankWith_dense (F := F) (keyed_int data) (hs data) hne
  rw [List.map_id] at this
  exact this

include hne in
/-- C107: `Average` gives the mean of the smallest and the largest rank of the tied integers. -/
theorem rankInt_average : ∃ out : List F, rankInt srt data (some .average) = some out ∧ out.length = data.length ∧
    ∀ (i : ℕ) x, data[i]? = some x → out[i]? = some (flt (1 + upto data x + below data x) / 2) := by
  have := rankWith_average (F := F) (keyed_int data) (hs data) hne
  rw [List.map_id] at this
  exact this

end

section
variable {F : Type} [FloatOps F] {α : Type} [LinearOrder α]

theorem rankWith_unique {T : Type} {key : T → α} {lt ne : T → T → Bool} {data : List T} {idx idx' : List ℕ} (hk : Keyed key lt ne data)
    (h : IsArgsort lt data idx) (h' : IsArgsort lt data idx') (mode : Option RankMode) (hm : mode ≠ some .ordinal) :
    (rankWith ne data mode idx : Option (List F)) = rankWith ne data mode idx' := by
  by_cases hne : data = []
  · subst hne
    have e := h.perm; have e' := h'.perm
    simp at e e'
    rw [e, e']
  have key' : ∀ (g : T → F), (∃ out, rankWith ne data mode idx = some out ∧ out.length = data.length ∧
      ∀ (i : ℕ) x, data[i]? = some x → out[i]? = some (g x)) → (∃ out, rankWith ne data mode idx' = some out ∧ out.length = data.length ∧
      ∀ (i : ℕ) x, data[i]? = some x → out[i]? = some (g x)) → (rankWith ne data mode idx : Option (List F)) = rankWith ne data mode idx' := by
    rintro g ⟨o₁, e₁, l₁, v₁⟩ ⟨o₂, e₂, l₂, v₂⟩
    rw [e₁, e₂]
    congr 1
    apply List.ext_getElem?
    intro i
    by_cases hi : i < data.length
    · rw [v₁ i _ (List.getElem?_eq_getElem hi), v₂ i _ (List.getElem?_eq_getElem hi)]
    · rw [List.getElem?_eq_none (by omega), List.getElem?_eq_none (by omega)]
  match mode, hm with
  | none, _ => exact key' _ (rankWith_min hk h hne (.inl rfl)) (rankWith_min hk h' hne (.inl rfl))
  | some .min, _ => exact key' _ (rankWith_min hk h hne (.inr rfl)) (rankWith_min hk h' hne (.inr rfl))
  | some .max, _ => exact key' _ (rankWith_max hk h hne) (rankWith_max hk h' hne)
  | some .dense, _ => exact key' _ (rankWith_dense hk h hne) (rankWith_dense hk h' hne)
  | some .average, _ => exact key' _ (rankWith_average hk h hne) (rankWith_average hk h' hne)

theorem mapP_cons_inv {α β : Type} {f : α → Option β} {a : α} {l : List α} {o : List β} (h : mapP f (a :: l) = some o) :
    ∃ b t, f a = some b ∧ mapP f l = some t ∧ o = b :: t := by
  simp only [mapP] at h
  split at h
  · cases h
  · rename_i b hb
    split at h
    · cases h
    · rename_i t ht
      cases h
      exact ⟨b, t, hb, ht, rfl⟩

theorem uniq_alike {T T' : Type} {ne : T → T → Bool} {ne' : T' → T' → Bool} {data : List T} {data' : List T'}
    (hn : ∀ (i j : ℕ) x y x' y', data[i]? = some x → data[j]? = some y → data'[i]? = some x' → data'[j]? = some y' → ne x y = ne' x' y') :
    ∀ (idx : List ℕ) (k : ℕ) x x' s s', data[k]? = some x → data'[k]? = some x' → mapP (fun i => data[i]?) idx = some s →
      mapP (fun i => data'[i]?) idx = some s' → scan (fun st x => (x, ne st x)) x s = scan (fun st x => (x, ne' st x)) x' s' := by
  intro idx
  induction idx with
  | nil => intro k x x' s s' _ _ h h'; simp [mapP] at h h'; subst h h'; rfl
  | cons i idx ih =>
    intro k x x' s s' hx hx' h h'
    obtain ⟨y, t, hy, ht, rfl⟩ := mapP_cons_inv h
    obtain ⟨y', t', hy', ht', rfl⟩ := mapP_cons_inv h'
    simp only [scan]
    rw [hn k i x y x' y' hx hy hx' hy', ih i y y' t t' hy hy' ht ht']

/-- Two series ordered alike, by whatever comparison, get the same ranks. -/
theorem rankWith_alike {β : Type} [LinearOrder β] {T T' : Type} {key : T → α} {key' : T' → β} {lt ne : T → T → Bool} {lt' ne' : T' → T' → Bool}
    {data : List T} {data' : List T'} {idx idx' : List ℕ} (hk : Keyed key lt ne data) (hk' : Keyed key' lt' ne' data')
    (h : IsArgsort lt data idx) (h' : IsArgsort lt' data' idx') (hl : data.length = data'.length)
    (ho : ∀ (i j : ℕ) x y x' y', data[i]? = some x → data[j]? = some y → data'[i]? = some x' → data'[j]? = some y' →
      (key x < key y ↔ key' x' < key' y'))
    (mode : Option RankMode) (hm : mode ≠ some .ordinal) :
    (rankWith ne data mode idx : Option (List F)) = rankWith ne' data' mode idx' := by
  have hm' : ∀ {i : ℕ} {x}, data[i]? = some x → x ∈ data := fun h => List.mem_of_getElem? h
  have hm'' : ∀ {i : ℕ} {x}, data'[i]? = some x → x ∈ data' := fun h => List.mem_of_getElem? h
  have i2 : IsArgsort lt' data' idx := by
    refine ⟨hl ▸ h.perm, h.sorted.imp_of_mem fun {a b} ha hb hab x' y' hx' hy' => ?_⟩
    have la : a < data.length := hl ▸ (List.getElem?_eq_some_iff.1 hx').1
    have lb : b < data.length := hl ▸ (List.getElem?_eq_some_iff.1 hy').1
    have ea := List.getElem?_eq_getElem la
    have eb := List.getElem?_eq_getElem lb
    have := hab _ _ ea eb
    rw [Bool.eq_false_iff] at this ⊢
    intro hc
    refine this ((hk.lt_iff _ (hm' eb) _ (hm' ea)).2 ((ho b a _ _ _ _ eb ea hy' hx').2 ((hk'.lt_iff _ (hm'' hy') _ (hm'' hx')).1 hc)))
  rw [← rankWith_unique hk' i2 h' mode hm]
  have hn : ∀ (i j : ℕ) x y x' y', data[i]? = some x → data[j]? = some y → data'[i]? = some x' → data'[j]? = some y' → ne x y = ne' x' y' := by
    intro i j x y x' y' hx hy hx' hy'
    rw [Bool.eq_iff_iff, hk.ne_iff _ (hm' hx) _ (hm' hy), hk'.ne_iff _ (hm'' hx') _ (hm'' hy')]
    have a := ho i j _ _ _ _ hx hy hx' hy'
    have b := ho j i _ _ _ _ hy hx hy' hx'
    rw [ne_iff_lt_or_gt, ne_iff_lt_or_gt, a, b]
  have hmem : ∀ i ∈ idx, i < data.length := fun i hi => by simpa using h.perm.mem_iff.1 hi
  obtain ⟨s, es⟩ := mapP_isSome (f := fun i => data[i]?) (l := idx) fun i hi => by simp [hmem i hi]
  obtain ⟨s', es'⟩ := mapP_isSome (f := fun i => data'[i]?) (l := idx) fun i hi => by have := hmem i hi; simp; omega
  have hf : uniqFlags ne s = uniqFlags ne' s' := by
    cases idx with
    | nil => simp [mapP] at es es'; subst es es'; rfl
    | cons i idx =>
      obtain ⟨y, t, hy, ht, rfl⟩ := mapP_cons_inv es
      obtain ⟨y', t', hy', ht', rfl⟩ := mapP_cons_inv es'
      simp only [uniqFlags]
      rw [uniq_alike hn idx i y y' t t' hy hy' ht ht']
  unfold rankWith
  split
  · exact absurd rfl hm
  · simp only [es, es', hf, hl, Option.bind_eq_bind, Option.bind_some]

end

section
variable {F : Type} [FloatOps F]

/-- C107: integer series that are ordered alike get the same ranks, however large the integers and however close to each other. -/
theorem rankInt_order {s₁ s₂ : List ℤ → List ℕ} (h₁ : SortsInts s₁) (h₂ : SortsInts s₂) {data data' : List ℤ} (hl : data.length = data'.length)
    (ho : ∀ (i j : ℕ) x y x' y', data[i]? = some x → data[j]? = some y → data'[i]? = some x' → data'[j]? = some y' → (x < y ↔ x' < y'))
    (mode : Option RankMode) (hm : mode ≠ some .ordinal) :
    (rankInt s₁ data mode : Option (List F)) = rankInt s₂ data' mode :=
  rankWith_alike (keyed_int data) (keyed_int data') (h₁ data) (h₂ data') hl ho mode hm

end

/-- C107: up to `2^53` the ranks of the integers are the ranks of the converted data. -/
theorem rankInt_eq {srt : List ℤ → List ℕ} (hs : SortsInts srt) (srt' : Sorter (FP ρ)) (hs' : srt'.Valid) {data : List ℤ}
    (hd : ∀ z ∈ data, |z| ≤ 2 ^ 53) (mode : Option RankMode) (hm : mode ≠ some .ordinal) :
    rankInt srt data mode = rank srt' (data.map intToF64) mode := by
  have nn : NoNaN (data.map intToF64 : List (FP ρ)) := fun x hx => by
    obtain ⟨u, hu, rfl⟩ := List.mem_map.1 hx
    exact intToF64_not_nan u
  rw [rank_eq srt' _ nn]
  refine rankWith_alike (keyed_int data) (keyed_of_noNaN nn) (hs data) (hs' _ (sortPanics_of_noNaN nn)) (by simp) ?_ mode hm
  intro i j x y x' y' hx hy hx' hy'
  rw [List.getElem?_map, hx] at hx'
  rw [List.getElem?_map, hy] at hy'
  cases hx'; cases hy'
  rw [(intToF64_exact (hd x (List.mem_of_getElem? hx))).toE, (intToF64_exact (hd y (List.mem_of_getElem? hy))).toE]
  simp

end Traquer.Distribution

namespace Traquer.Correlation
open FP FloatLit Distribution
variable {ρ : Rounding}

section
variable {srt : List ℤ → List ℕ} (hs : SortsInts srt) (srt' : Sorter (FP ρ)) (hs' : srt'.Valid) {s1 s2 : List ℤ}
  (h1 : ∀ z ∈ s1, |z| ≤ 2 ^ 53) (h2 : ∀ z ∈ s2, |z| ≤ 2 ^ 53) (w : ℕ)
include hs hs' h1 h2

/-- C107: up to `2^53` Spearman's correlation of integers is that of the converted data. -/
theorem srccInt_eq : srccInt srt s1 s2 w = srcc srt' (s1.map intToF64) (s2.map intToF64) w := by
  rcases Nat.eq_zero_or_pos w with rfl | hw
  · rfl
  unfold srccInt srcc
  simp only [usub_of_le hw, windows, if_neg (show w ≠ 0 by omega), Option.bind_eq_bind, Option.bind_some]
  rw [windowsOf_map, windowsOf_map, List.zip_map, mapP_map]
  congr 1
  refine mapP_congr fun ⟨x, y⟩ hx => ?_
  have m := List.of_mem_zip hx
  show _ = (rank srt' (x.map intToF64) none).bind _
  rw [← rankInt_eq hs srt' hs' (fun z hz => h1 z (mem_of_window m.1 z hz)) none (by simp)]
  simp only [Prod.map]
  rw [← rankInt_eq hs srt' hs' (fun z hz => h2 z (mem_of_window m.2 z hz)) none (by simp)]

/-- C107: up to `2^53` Hoeffding's D of integers is that of the converted data. -/
theorem hoeffdInt_eq : hoeffdInt srt s1 s2 w = hoeffd srt' (s1.map intToF64) (s2.map intToF64) w := by
  rcases Nat.eq_zero_or_pos w with rfl | hw
  · rfl
  unfold hoeffdInt hoeffd
  simp only [usub_of_le hw, windows, if_neg (show w ≠ 0 by omega), Option.bind_eq_bind, Option.bind_some]
  rw [windowsOf_map, windowsOf_map, List.zip_map, mapP_map]
  congr 1
  refine mapP_congr fun ⟨x, y⟩ hx => ?_
  have m := List.of_mem_zip hx
  simp only [Prod.map]
  unfold hoeffdWinInt hoeffdWin
  rw [← rankInt_eq hs srt' hs' (fun z hz => h1 z (mem_of_window m.1 z hz)) _ (by simp),
    ← rankInt_eq hs srt' hs' (fun z hz => h2 z (mem_of_window m.2 z hz)) _ (by simp)]

end

section
variable {F : Type} [FloatOps F] {srt srt' : List ℤ → List ℕ} (hs : SortsInts srt) (hs' : SortsInts srt') {s1 s1' s2 s2' : List ℤ}

/-- Two integer series of the same length, ordered alike. -/
def OrderedAlike (a b : List ℤ) : Prop :=
  a.length = b.length ∧ ∀ (i j : ℕ) x y x' y', a[i]? = some x → a[j]? = some y → b[i]? = some x' → b[j]? = some y' → (x < y ↔ x' < y')

theorem OrderedAlike.window {a b : List ℤ} (h : OrderedAlike a b) (k w : ℕ) : OrderedAlike ((a.drop k).take w) ((b.drop k).take w) := by
  refine ⟨by simp [h.1], fun i j x y x' y' hx hy hx' hy' => ?_⟩
  rw [List.getElem?_take] at hx hy hx' hy'
  split at hx
  · rename_i hi
    split at hy
    · rename_i hj
      rw [if_pos hi] at hx'
      rw [if_pos hj] at hy'
      rw [List.getElem?_drop] at hx hy hx' hy'
      exact h.2 _ _ _ _ _ _ hx hy hx' hy'
    · cases hy
  · cases hx

variable (h1 : OrderedAlike s1 s1') (h2 : OrderedAlike s2 s2') (w : ℕ)
include hs hs' h1 h2

/-- C107: Spearman's correlation sees only the order of the integers, however large they are. -/
theorem srccInt_order : (srccInt srt s1 s2 w : Option (List F)) = srccInt srt' s1' s2' w := by
  unfold srccInt
  rcases Nat.eq_zero_or_pos w with rfl | hw
  · rfl
  simp only [usub_of_le hw, windows, if_neg (show w ≠ 0 by omega), Option.bind_eq_bind, Option.bind_some]
  unfold windowsOf
  rw [← h1.1, ← h2.1, List.zip_map, List.zip_map, mapP_map, mapP_map]
  congr 1
  refine mapP_congr fun ⟨i, j⟩ _ => ?_
  simp only [Prod.map]
  rw [rankInt_order hs hs' (h1.window i w).1 (h1.window i w).2 none (by simp),
    rankInt_order hs hs' (h2.window j w).1 (h2.window j w).2 none (by simp)]

/-- C107: so does Hoeffding's D. -/
theorem hoeffdInt_order : (hoeffdInt srt s1 s2 w : Option (List F)) = hoeffdInt srt' s1' s2' w := by
  unfold hoeffdInt
  rcases Nat.eq_zero_or_pos w with rfl | hw
  · rfl
  simp only [usub_of_le hw, windows, if_neg (show w ≠ 0 by omega), Option.bind_eq_bind, Option.bind_some]
  unfold windowsOf
  rw [← h1.1, ← h2.1, List.zip_map, List.zip_map, mapP_map, mapP_map]
  congr 1
  refine mapP_congr fun ⟨i, j⟩ _ => ?_
  simp only [Prod.map]
  unfold hoeffdWinInt
  rw [rankInt_order hs hs' (h1.window i w).1 (h1.window i w).2 _ (by simp),
    rankInt_order hs hs' (h2.window j w).1 (h2.window j w).2 _ (by simp)]

end

end Traquer.Correlation

/-! ## Beyond `2^53` the ranks tell apart what the conversion merges -/

namespace Traquer.Distribution
open FP FloatLit

/-- A sort of integers: by insertion, stable. -/
def insertionInts (data : List ℤ) : List ℕ :=
  (List.range data.length).insertionSort fun a b => data.getD a 0 ≤ data.getD b 0

theorem insertionInts_sorts : SortsInts insertionInts := by
  intro data
  refine ⟨List.perm_insertionSort _ _, ?_⟩
  have : Std.Total (fun a b : ℕ => data.getD a 0 ≤ data.getD b 0) := ⟨fun a b => le_total _ _⟩
  have : IsTrans ℕ (fun a b : ℕ => data.getD a 0 ≤ data.getD b 0) := ⟨fun a b c h1 h2 => le_trans h1 h2⟩
  refine (List.pairwise_insertionSort (r := fun a b : ℕ => data.getD a 0 ≤ data.getD b 0) _).imp fun {a b} h x y hx hy => ?_
  simp only [List.getD_eq_getElem?_getD, hx, hy, Option.getD_some] at h
  simpa using h

/-- C107: `2^53` and `2^53 + 1` are ranked 1 and 2 as integers but tie as doubles: ranking the converted data gives 1 and 1. -/
theorem rankInt_sees_more (srt : Sorter F64) (hs : srt.Valid) :
    rankInt insertionInts [2 ^ 53, 2 ^ 53 + 1] none = some ([flt 1, flt 2] : List F64) ∧
      rank srt [intToF64 (2 ^ 53), intToF64 (2 ^ 53 + 1)] none = some [flt 1, flt 1] := by
  constructor
  · obtain ⟨out, e, hl, h⟩ := rankInt_min (F := F64) insertionInts_sorts (data := [2 ^ 53, 2 ^ 53 + 1]) (by simp) none (.inl rfl)
    rw [e]
    have a := h 0 _ rfl
    have b := h 1 _ rfl
    match out, hl with
    | [x, y], _ =>
      simp only [List.getElem?_cons_zero, List.getElem?_cons_succ, Option.some.injEq] at a b
      rw [a, b]; rfl
  · rw [← intToF64_collide]
    have nn : NoNaN [(intToF64 (2 ^ 53) : F64), intToF64 (2 ^ 53)] := fun x hx => by
      simp at hx; subst hx; exact intToF64_not_nan _
    obtain ⟨out, e, hl, h⟩ := rank_min srt hs _ nn (by simp) none (.inl rfl)
    rw [e]
    have a := h 0 _ rfl
    have b := h 1 _ rfl
    have n0 : numBelow [(intToF64 (2 ^ 53) : F64), intToF64 (2 ^ 53)] (intToF64 (2 ^ 53)) = 0 := by
      generalize hv : (intToF64 (2 ^ 53) : F64) = v
      have := hv ▸ intToF64_finite (z := 2 ^ 53) (by norm_num)
      simp [numBelow, is_lt this.is this.is]
    match out, hl with
    | [x, y], _ =>
      simp only [List.getElem?_cons_zero, List.getElem?_cons_succ, Option.some.injEq] at a b
      rw [a, b, n0]

/-- The hypotheses are met: volumes beyond `2^53`. -/
example : quantileInt [2 ^ 53 + 1, 2 ^ 60, -7, 2 ^ 53] 3 (50 : F64) =
    quantile ([2 ^ 53 + 1, 2 ^ 60, -7, 2 ^ 53].map intToF64) 3 50 := by
  refine quantileInt_eq _ 3 50 (by norm_num) fun x hx => ?_
  simp only [List.map_cons, List.map_nil, List.mem_cons, List.not_mem_nil, or_false] at hx
  rcases hx with rfl | rfl | rfl | rfl <;> exact intToF64_finite (by norm_num)

example (srt : Sorter F64) (hs : srt.Valid) : (rankInt insertionInts [2 ^ 53, -4, 17, 17] (some .average) : Option (List F64)) =
    rank srt ([2 ^ 53, -4, 17, 17].map intToF64) (some .average) :=
  rankInt_eq insertionInts_sorts srt hs (fun z hz => by
    simp only [List.mem_cons, List.not_mem_nil, or_false] at hz
    rcases hz with rfl | rfl | rfl | rfl <;> norm_num) _ (by simp)

/-- The hypotheses are met: one unit apart at `2^62`, ordered like 1, 3, 2. -/
example : (Correlation.srccInt insertionInts [2 ^ 62, 2 ^ 62 + 2, 2 ^ 62 + 1] [5, 9, 8] 3 : Option (List F64)) =
    Correlation.srccInt insertionInts [1, 3, 2] [5, 9, 8] 3 := by
  refine Correlation.srccInt_order insertionInts_sorts insertionInts_sorts ⟨rfl, fun i j x y x' y' hx hy hx' hy' => ?_⟩
    ⟨rfl, fun i j x y x' y' hx hy hx' hy' => ?_⟩ 3
  · match i, j with
    | 0, 0 | 0, 1 | 0, 2 | 1, 0 | 1, 1 | 1, 2 | 2, 0 | 2, 1 | 2, 2 => simp at hx hy hx' hy'; subst hx hy hx' hy'; norm_num
    | i + 3, _ => simp at hx
    | _, j + 3 => simp at hy
  · rw [hx] at hx'; rw [hy] at hy'; cases hx'; cases hy'; rfl

end Traquer.Distribution
