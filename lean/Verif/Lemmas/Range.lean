import Verif.Props.Gains
import Verif.Model.Volatility
/-!
# Extrema, ratios and averages of values that are NaN or in a range
-/

namespace Traquer
open FP FloatLit

/-! ## Extrema -/

theorem foldl_max_spec (l : List ℝ) (x : ℝ) : l.foldl max x ∈ x :: l ∧ ∀ y ∈ x :: l, y ≤ l.foldl max x := by
  induction l generalizing x with
  | nil => simp
  | cons z l ih =>
    obtain ⟨h1, h2⟩ := ih (max x z)
    refine ⟨?_, ?_⟩
    · rcases List.mem_cons.1 h1 with h | h
      · rw [List.foldl_cons, h]
        rcases max_choice x z with e | e <;> rw [e] <;> simp
      · exact List.mem_cons_of_mem _ (List.mem_cons_of_mem _ h)
    · intro y hy
      have hm := h2 _ (List.mem_cons_self ..)
      rcases List.mem_cons.1 hy with rfl | hy
      · exact (le_max_left _ _).trans hm
      · rcases List.mem_cons.1 hy with rfl | hy
        · exact (le_max_right _ _).trans hm
        · exact h2 y (List.mem_cons_of_mem _ hy)

theorem maxOf_mem {l : List ℝ} (h : l ≠ []) : maxOf l ∈ l := by
  cases l with
  | nil => exact absurd rfl h
  | cons x l => exact (foldl_max_spec l x).1

theorem le_maxOf {l : List ℝ} {x : ℝ} (h : x ∈ l) : x ≤ maxOf l := by
  cases l with
  | nil => simp at h
  | cons z l => exact (foldl_max_spec l z).2 x h

theorem foldl_min_neg (l : List ℝ) (x : ℝ) : l.foldl min x = -((l.map fun y => -y).foldl max (-x)) := by
  induction l generalizing x with
  | nil => simp
  | cons z l ih =>
    simp only [List.foldl_cons, List.map_cons]
    rw [ih, max_neg_neg]

theorem minOf_neg (l : List ℝ) : minOf l = -maxOf (l.map fun y => -y) := by
  cases l with
  | nil => simp [minOf, maxOf]
  | cons x l => exact foldl_min_neg l x

theorem minOf_mem {l : List ℝ} (h : l ≠ []) : minOf l ∈ l := by
  rw [minOf_neg]
  have := maxOf_mem (l := l.map fun y => -y) (by simpa using h)
  obtain ⟨y, hy, e⟩ := List.mem_map.1 this
  rw [← e, neg_neg]; exact hy

theorem minOf_le {l : List ℝ} {x : ℝ} (h : x ∈ l) : minOf l ≤ x := by
  rw [minOf_neg, neg_le]
  exact le_maxOf (List.mem_map_of_mem h)

theorem maxOf_eq {l : List ℝ} {m : ℝ} (h1 : m ∈ l) (h2 : ∀ x ∈ l, x ≤ m) : maxOf l = m :=
  le_antisymm (h2 _ (maxOf_mem (List.ne_nil_of_mem h1))) (le_maxOf h1)

theorem minOf_eq {l : List ℝ} {m : ℝ} (h1 : m ∈ l) (h2 : ∀ x ∈ l, m ≤ x) : minOf l = m :=
  le_antisymm (minOf_le h1) (h2 _ (minOf_mem (List.ne_nil_of_mem h1)))

section
variable {ρ : Rounding}

theorem foldl_fmax_is {l : List (FP ρ)} (h : Fins l) {s : FP ρ} {u : ℝ} (hs : s ⇓ u) :
    l.foldl fmax s ⇓ (vals l).foldl max u := by
  induction l generalizing s u with
  | nil => exact hs
  | cons x l ih =>
    exact ih (fun y hy => h y (List.mem_cons_of_mem _ hy)) (is_fmax hs (h x (List.mem_cons_self ..)).is)

theorem foldl_fmin_is {l : List (FP ρ)} (h : Fins l) {s : FP ρ} {u : ℝ} (hs : s ⇓ u) :
    l.foldl fmin s ⇓ (vals l).foldl min u := by
  induction l generalizing s u with
  | nil => exact hs
  | cons x l ih =>
    exact ih (fun y hy => h y (List.mem_cons_of_mem _ hy)) (is_fmin hs (h x (List.mem_cons_self ..)).is)

/-- The maximum of a window of finite values (any rounding). -/
theorem foldMax_is {l : List (FP ρ)} (h : Fins l) (hl : l ≠ []) : Volatility.foldMax l ⇓ maxOf (vals l) := by
  cases l with
  | nil => exact absurd rfl hl
  | cons x l => exact foldl_fmax_is (fun y hy => h y (List.mem_cons_of_mem _ hy)) (h x (List.mem_cons_self ..)).is

theorem foldMin_is {l : List (FP ρ)} (h : Fins l) (hl : l ≠ []) : Volatility.foldMin l ⇓ minOf (vals l) := by
  cases l with
  | nil => exact absurd rfl hl
  | cons x l => exact foldl_fmin_is (fun y hy => h y (List.mem_cons_of_mem _ hy)) (h x (List.mem_cons_self ..)).is

end

/-! ## Quotients -/

theorem quotIs {x y : XF} {a b : ℝ} (hx : x ⇓ a) (hy : y ⇓ b) : QuotIs a b (x / y) := by
  refine ⟨fun hb => is_div hx hy hb, fun hb ha => ?_, fun hb ha => ?_⟩
  · subst hb ha
    rcases is_iff.1 hx with rfl | ⟨rfl, -⟩ <;> rcases is_iff.1 hy with rfl | ⟨rfl, -⟩ <;> simp [div_def, div, val] <;> rfl
  · subst hb
    rcases is_iff.1 hx with rfl | ⟨rfl, -⟩
    · rcases is_iff.1 hy with rfl | ⟨rfl, -⟩ <;> simp [div_def, div, val, ha]
    · exact absurd (is_negz (ρ := Rounding.exact)).2 (by rw [hx.2]; exact ha)

theorem QuotIs.inRange {a b lo hi : ℝ} {y : XF} (h : QuotIs a b y) (h0 : b = 0 → a = 0) (h1 : b ≠ 0 → lo ≤ a / b ∧ a / b ≤ hi) :
    InRange lo hi y := by
  by_cases hb : b = 0
  · exact Or.inl (h.2.1 hb (h0 hb))
  · exact Or.inr ⟨_, h.1 hb, h1 hb⟩

/-- A share: `0 ≤ a ≤ b`. -/
theorem QuotIs.share {a b c : ℝ} {y : XF} (h : QuotIs (c * a) b y) (h0 : 0 ≤ a) (h1 : a ≤ b) (hc : 0 ≤ c) : InRange 0 c y := by
  have hb : 0 ≤ b := h0.trans h1
  refine h.inRange (fun e => ?_) fun e => ?_
  · have : a = 0 := le_antisymm (e ▸ h1) h0
    rw [this, mul_zero]
  · have hb' : 0 < b := lt_of_le_of_ne hb (Ne.symm e)
    refine ⟨by positivity, ?_⟩
    rw [div_le_iff₀ hb']
    exact mul_le_mul_of_nonneg_left h1 hc

/-! ## Combining reported series -/

section
variable {ρ : Rounding}

/-- Values computed item by item. -/
theorem reportsP_map {β : Type} {n k : ℕ} {P : ℕ → FP ρ → Prop} {l : List β} {f : β → FP ρ} (hl : l.length = n)
    (hnan : ∀ i b, l[i]? = .some b → i < k → Traquer.isNaN (f b) = true)
    (hv : ∀ i b, l[i]? = .some b → k ≤ i → P i (f b)) : ReportsP n k P (.some (l.map f)) := by
  refine ⟨_, rfl, by simpa using hl, fun i h1 h2 => ?_, fun i h1 h2 => ?_⟩
  · have e := getElem?_of_lt (show i < l.length by omega)
    rw [List.getElem?_map, e]
    exact congrArg some (isNaN_iff.1 (hnan i _ e h1))
  · have e := getElem?_of_lt (show i < l.length by omega)
    exact ⟨_, by rw [List.getElem?_map, e]; rfl, hv i _ e h1⟩

theorem ReportsP.pad {n k : ℕ} {P : ℕ → FP ρ → Prop} {m : List (FP ρ)} (h : ReportsP n k P (.some m)) (j : ℕ) :
    ReportsP (j + n) (j + k) (fun i => P (i - j)) (.some (nans j ++ m)) := by
  obtain ⟨o, e, h2, h3, h4⟩ := h
  cases e
  refine ⟨_, rfl, by simp [h2], fun i hi hin => ?_, fun i hi hin => ?_⟩
  · by_cases hj : i < j
    · rw [List.getElem?_append_left (by simpa using hj), nans, List.getElem?_replicate, if_pos hj]
    · rw [List.getElem?_append_right (by simpa using hj), nans_length]
      exact h3 _ (by omega) (by omega)
  · rw [List.getElem?_append_right (by simp; omega), nans_length]
    exact h4 (i - j) (by omega) (by omega)

theorem ReportsP.cast {n n' k k' : ℕ} {P : ℕ → FP ρ → Prop} {r : Option (List (FP ρ))} (h : ReportsP n k P r) (hn : n = n')
    (hk : k = k') : ReportsP n' k' P r := by subst hn hk; exact h

/-- Two series combined bar by bar. -/
theorem Reports.zipP {n k : ℕ} {v₁ v₂ : ℕ → ℝ} {P : ℕ → FP ρ → Prop} {m₁ m₂ : List (FP ρ)} {f : FP ρ × FP ρ → FP ρ}
    (h₁ : Reports n k v₁ (.some m₁)) (h₂ : Reports n k v₂ (.some m₂))
    (hl : ∀ x y, Traquer.isNaN x = true → Traquer.isNaN (f (x, y)) = true)
    (hf : ∀ i x y, k ≤ i → i < n → x ⇓ v₁ i → y ⇓ v₂ i → P i (f (x, y))) : ReportsP n k P (.some ((m₁.zip m₂).map f)) := by
  have l1 := h₁.length
  have l2 := h₂.length
  refine reportsP_map (by simp [l1, l2]) ?_ ?_
  · intro i b hb hi
    obtain ⟨x, y⟩ := b
    obtain ⟨e1, e2⟩ := List.getElem?_zip_eq_some.1 hb
    exact hl _ _ (h₁.at_nan e1 hi)
  · intro i b hb hi
    obtain ⟨x, y⟩ := b
    obtain ⟨e1, e2⟩ := List.getElem?_zip_eq_some.1 hb
    have := (List.getElem?_eq_some_iff.1 e1).1
    exact hf i x y hi (by omega) (h₁.at e1 hi) (h₂.at e2 hi)

end

/-! ## The recursive averages as functions -/

theorem ewma_is (data : List XF) (w : ℕ) (hw : 1 ≤ w) (hn : w ≤ data.length) (hd : Fins data) :
    Reports data.length (w - 1) (ewmaOf w (vals data)) (Smooth.ewma data w) := by
  obtain ⟨v, h1, h2, h3⟩ := Smooth.ewma_reports data w hw hn hd
  refine h1.congr fun i hi hin => ?_
  induction i, hi using Nat.le_induction with
  | base =>
    rw [h2]
    cases hw' : w - 1 with
    | zero => rfl
    | succ k => rw [ewmaOf, if_pos (by omega)]
  | succ i hi ih =>
    have e := getElem?_of_lt (show i + 1 < (vals data).length by simpa [vals] using hin)
    rw [h3 i _ hi e, ih (by omega), ewmaOf, if_neg (by omega), e]
    rfl

theorem wilder_is (data : List XF) (w : ℕ) (hw : 1 ≤ w) (hn : w ≤ data.length) (hd : Fins data) :
    Reports data.length (w - 1) (wilderOf w (vals data)) (Smooth.wilder data w) := by
  obtain ⟨v, h1, h2, h3⟩ := Smooth.wilder_reports data w hw hn hd
  refine h1.congr fun i hi hin => ?_
  induction i, hi using Nat.le_induction with
  | base =>
    rw [h2]
    cases hw' : w - 1 with
    | zero => rfl
    | succ k => rw [wilderOf, if_pos (by omega)]
  | succ i hi ih =>
    have e := getElem?_of_lt (show i + 1 < (vals data).length by simpa [vals] using hin)
    rw [h3 i _ hi e, ih (by omega), wilderOf, if_neg (by omega), e]
    rfl

theorem ewmaOf_within {w : ℕ} {l : List ℝ} (hw : 1 ≤ w) {i : ℕ} (h1 : w ≤ i + 1) (h2 : i < l.length) {lo hi : ℝ}
    (h : Within lo hi (l.take (i + 1))) : lo ≤ ewmaOf w l i ∧ ewmaOf w l i ≤ hi := by
  induction i, (show w - 1 ≤ i by omega) using Nat.le_induction with
  | base =>
    have e : ewmaOf w l (w - 1) = mean (l.take w) := by
      cases hw' : w - 1 with
      | zero => rfl
      | succ k => rw [ewmaOf, if_pos (by omega)]
    rw [e]
    rw [show w - 1 + 1 = w by omega] at h
    exact within_mean h (by rw [← List.length_pos_iff]; simp; omega)
  | succ i hi ih =>
    have e := getElem?_of_lt h2
    rw [ewmaOf, if_neg (by omega), e]
    exact convex_range (h _ (Smooth.mem_take_of_getElem? e (by omega))) (ih (by omega) (by omega) (Smooth.within_take_succ h))
      (Smooth.two_div_succ_range hw).1 (Smooth.two_div_succ_range hw).2

theorem wilderOf_within {w : ℕ} {l : List ℝ} (hw : 1 ≤ w) {i : ℕ} (h1 : w ≤ i + 1) (h2 : i < l.length) {lo hi : ℝ}
    (h : Within lo hi (l.take (i + 1))) : lo ≤ wilderOf w l i ∧ wilderOf w l i ≤ hi := by
  induction i, (show w - 1 ≤ i by omega) using Nat.le_induction with
  | base =>
    have e : wilderOf w l (w - 1) = mean (l.take w) := by
      cases hw' : w - 1 with
      | zero => rfl
      | succ k => rw [wilderOf, if_pos (by omega)]
    rw [e]
    rw [show w - 1 + 1 = w by omega] at h
    exact within_mean h (by rw [← List.length_pos_iff]; simp; omega)
  | succ i hi ih =>
    have e := getElem?_of_lt h2
    have hx := h _ (Smooth.mem_take_of_getElem? e (by omega))
    have hv := ih (by omega) (by omega) (Smooth.within_take_succ h)
    have hw' : (1 : ℝ) ≤ w := by exact_mod_cast hw
    rw [wilderOf, if_neg (by omega), e]
    simp only [Option.getD_some]
    constructor
    · rw [le_div_iff₀ (by linarith)]
      nlinarith [mul_le_mul_of_nonneg_right hv.1 (sub_nonneg.2 hw')]
    · rw [div_le_iff₀ (by linarith)]
      nlinarith [mul_le_mul_of_nonneg_right hv.2 (sub_nonneg.2 hw')]

theorem abs_sum_le {l l' : List ℝ} (h : List.Forall₂ (fun a b => |a| ≤ b) l l') : |l.sum| ≤ l'.sum := by
  induction h with
  | nil => simp
  | cons h _ ih =>
    simp only [List.sum_cons]
    exact (abs_add_le _ _).trans (add_le_add h ih)

theorem abs_mean_le {l l' : List ℝ} (h : List.Forall₂ (fun a b => |a| ≤ b) l l') : |mean l| ≤ mean l' := by
  rw [mean, mean, abs_div, h.length_eq, abs_of_nonneg (show (0 : ℝ) ≤ l'.length by positivity)]
  exact div_le_div_of_nonneg_right (abs_sum_le h) (by positivity)

/-- An exponential average is dominated by the average of dominating values. -/
theorem abs_ewmaOf_le {l l' : List ℝ} {w : ℕ} (hw : 1 ≤ w) (h : List.Forall₂ (fun a b => |a| ≤ b) l l') (i : ℕ) :
    |ewmaOf w l i| ≤ ewmaOf w l' i := by
  have hm : |mean (l.take w)| ≤ mean (l'.take w) := abs_mean_le (List.forall₂_take w h)
  induction i with
  | zero => exact hm
  | succ i ih =>
    rw [ewmaOf, ewmaOf]
    split
    · exact hm
    · have hx : |l[i + 1]?.getD 0| ≤ l'[i + 1]?.getD 0 := by
        by_cases hi : i + 1 < l.length
        · have hi' : i + 1 < l'.length := h.length_eq ▸ hi
          rw [getElem?_of_lt hi, getElem?_of_lt hi']
          exact List.Forall₂.get h hi hi'
        · rw [List.getElem?_eq_none (by omega), List.getElem?_eq_none (by rw [← h.length_eq]; omega)]
          simp
      obtain ⟨a0, a1⟩ := Smooth.two_div_succ_range hw
      refine (abs_add_le _ _).trans (add_le_add ?_ ?_)
      · rw [abs_mul, abs_of_nonneg a0]; exact mul_le_mul_of_nonneg_right hx a0
      · rw [abs_mul, abs_of_nonneg (sub_nonneg.2 a1)]; exact mul_le_mul_of_nonneg_right ih (sub_nonneg.2 a1)

/-- The reported part of `ewma`, as a list. -/
theorem ewma_drop (data : List XF) (w : ℕ) (hw : 1 ≤ w) (hn : w ≤ data.length) (hd : Fins data) :
    ∃ out, Smooth.ewma data w = some out ∧ Fins (out.drop (w - 1)) ∧ vals (out.drop (w - 1)) = ewmaSeries w (vals data) := by
  obtain ⟨out, e, r, -⟩ := (ewma_is data w hw hn hd).some
  obtain ⟨h1, h2, h3⟩ := r.drop
  refine ⟨out, e, h1, ?_⟩
  apply List.ext_getElem?
  intro i
  by_cases hi : i < data.length - (w - 1)
  · rw [h3 i hi, ewmaSeries, List.getElem?_map, List.getElem?_range (by simpa [vals] using hi)]
    rfl
  · rw [List.getElem?_eq_none (by simp [vals] at h2 ⊢; omega), List.getElem?_eq_none (by simp [ewmaSeries, vals]; omega)]

/-! ## Averages of values that are NaN or in a range -/

theorem isNaN_fsum {l : List XF} (h : ∃ x ∈ l, Traquer.isNaN x = true) : Traquer.isNaN (fsum l) = true := by
  have key : ∀ (l : List XF) (s : XF), Traquer.isNaN s = true → Traquer.isNaN (l.foldl (· + ·) s) = true := by
    intro l
    induction l with
    | nil => intro s h; exact h
    | cons x l ih => intro s h; exact ih _ (NaNLaws.add_left _ _ h)
  obtain ⟨x, hx, hn⟩ := h
  obtain ⟨a, b, rfl⟩ := List.append_of_mem hx
  rw [fsum, List.foldl_append, List.foldl_cons]
  exact key _ _ (NaNLaws.add_right _ _ hn)

/-- A list of values that are NaN or in range is finite and within, or contains a NaN. -/
theorem inRange_cases {lo hi : ℝ} {l : List XF} (h : ∀ x ∈ l, InRange lo hi x) :
    (∃ x ∈ l, Traquer.isNaN x = true) ∨ (Fins l ∧ Within lo hi (vals l)) := by
  by_cases hn : ∃ x ∈ l, Traquer.isNaN x = true
  · exact Or.inl hn
  · right
    have hx : ∀ x ∈ l, ∃ r, x ⇓ r ∧ lo ≤ r ∧ r ≤ hi := fun x hx => by
      rcases h x hx with rfl | h
      · exact absurd ⟨_, hx, rfl⟩ hn
      · exact h
    constructor
    · intro x hx'
      obtain ⟨r, hr, -⟩ := hx x hx'
      exact hr.1
    · intro y hy
      obtain ⟨x, hx', rfl⟩ := List.mem_map.1 hy
      obtain ⟨r, hr, h1⟩ := hx x hx'
      rw [hr.2]; exact h1

theorem lastOf_congr {v v' : ℕ → ℝ} {w i i' : ℕ} (h : ∀ j, j < w → v (i + 1 - w + j) = v' (i' + 1 - w + j)) :
    lastOf v w i = lastOf v' w i' :=
  List.map_congr_left fun j hj => h j (List.mem_range.1 hj)

/-- The moving average of a series that starts with `k` NaN. -/
theorem Reports.sma {n k w : ℕ} {v : ℕ → ℝ} {m : List XF} (hm : Reports n k v (.some m)) (hw : 1 ≤ w) (hn : w ≤ n + 1) :
    Reports n (k + (w - 1)) (fun i => mean (lastOf v w i)) (Smooth.sma m w) := by
  run_model [Smooth.sma]
  refine hm.windows hw hn (fun l _ hx => NaNLaws.div_left _ _ (isNaN_fsum hx)) fun i h1 h2 => ?_
  obtain ⟨h3, h4⟩ := hm.recent (w := w) h1 h2
  refine (is_div h3.fsum (is_flt w) (Smooth.natCast_pos hw).ne').congr ?_
  rw [h4, mean, lastOf, List.length_map, List.length_range]

theorem Reports.cast {n n' k k' : ℕ} {v : ℕ → ℝ} {r : Option (List XF)} (h : Reports n k v r) (hn : n = n') (hk : k = k') :
    Reports n' k' v r := by subst hn hk; exact h

theorem inRange_mean {lo hi : ℝ} {l : List XF} {w : ℕ} (hw : 1 ≤ w) (hl : l.length = w) (h : ∀ x ∈ l, InRange lo hi x) :
    InRange lo hi (fsum l / flt w) := by
  rcases inRange_cases h with hn | ⟨hf, hb⟩
  · exact inRange_of_isNaN (NaNLaws.div_left _ _ (isNaN_fsum hn))
  · have e := is_div hf.fsum (is_flt w) (Smooth.natCast_pos hw).ne'
    have hm := within_mean hb (by rw [← List.length_pos_iff]; simp [vals]; omega)
    rw [mean, vals, List.length_map, hl] at hm
    exact inRange_of e hm.1 hm.2

theorem sma_inRange {lo hi : ℝ} {data out : List XF} {w : ℕ} (hw : 1 ≤ w) (h : ∀ x ∈ data, InRange lo hi x)
    (ho : Smooth.sma data w = some out) : ∀ y ∈ out, InRange lo hi y := by
  run_at ho [Smooth.sma]
  cases ho
  refine inRange_nans fun y hy => ?_
  obtain ⟨u, hu, rfl⟩ := List.mem_map.1 hy
  exact inRange_mean hw (windowsOf_mem_length hu) fun x hx => h x (mem_of_mem_windowsOf hu hx)

theorem sliceTo_some {α : Type} {l m : List α} {n : ℕ} (h : sliceTo l n = some m) : n ≤ l.length ∧ m = l.take n := by
  unfold sliceTo at h
  split at h
  · exact ⟨by assumption, (Option.some.inj h).symm⟩
  · cases h

theorem sliceFrom_some {α : Type} {l m : List α} {n : ℕ} (h : sliceFrom l n = some m) : n ≤ l.length ∧ m = l.drop n := by
  unfold sliceFrom at h
  split at h
  · exact ⟨by assumption, (Option.some.inj h).symm⟩
  · cases h

theorem usub_some {a b c : ℕ} (h : usub a b = some c) : b ≤ a ∧ c = a - b := by
  unfold usub at h
  split at h
  · exact ⟨by assumption, (Option.some.inj h).symm⟩
  · cases h

theorem ewma_inRange {lo hi : ℝ} {data out : List XF} {w : ℕ} (hw : 1 ≤ w) (h : ∀ x ∈ data, InRange lo hi x)
    (ho : Smooth.ewma data w = some out) : ∀ y ∈ out, InRange lo hi y := by
  simp only [Smooth.ewma, Option.bind_eq_bind] at ho
  obtain ⟨hd, e1, ho⟩ := Option.bind_eq_some_iff.1 ho
  obtain ⟨k, -, ho⟩ := Option.bind_eq_some_iff.1 ho
  obtain ⟨rest, e2, ho⟩ := Option.bind_eq_some_iff.1 ho
  obtain ⟨hl, rfl⟩ := sliceTo_some e1
  obtain ⟨-, rfl⟩ := sliceFrom_some e2
  cases ho
  have h0 : InRange lo hi (fsum (data.take w) / flt w) :=
    inRange_mean hw (by simpa using hl) fun x hx => h x (List.mem_of_mem_take hx)
  refine inRange_nans fun y hy => ?_
  rcases List.mem_cons.1 hy with rfl | hy
  · exact h0
  refine scanS_invariant (I := fun s : XF => InRange lo hi s) (fun s x hx hs => ?_) h0 y hy
  have ha := Smooth.alpha_inRange w hw
  rcases h x (List.mem_of_mem_drop hx) with rfl | ⟨r, hr, r0⟩
  · exact inRange_of_isNaN (by have : isNaN (nan : XF) = true := rfl; nanp)
  rcases hs with rfl | ⟨u, hu, u0⟩
  · exact inRange_of_isNaN (by have : isNaN (nan : XF) = true := rfl; nanp)
  rcases ha with ha | ⟨a, ha, a0, a1⟩
  · exact inRange_of_isNaN (by have : isNaN (2 / flt (w + 1) : XF) = true := by rw [ha]; rfl
                               nanp)
  · have := convex_range r0 u0 a0 a1
    exact inRange_of (is_add (is_mul hr ha) (is_mul hu (is_sub is_one ha))) this.1 this.2

theorem wilder_inRange {lo hi : ℝ} {data out : List XF} {w : ℕ} (hw : 1 ≤ w) (h : ∀ x ∈ data, InRange lo hi x)
    (ho : Smooth.wilder data w = some out) : ∀ y ∈ out, InRange lo hi y := by
  unfold Smooth.wilder at ho
  split at ho
  · cases ho; exact h
  rename_i h1
  simp only [Option.bind_eq_bind] at ho
  obtain ⟨k, e0, ho⟩ := Option.bind_eq_some_iff.1 ho
  obtain ⟨hd, e1, ho⟩ := Option.bind_eq_some_iff.1 ho
  obtain ⟨rest, e2, ho⟩ := Option.bind_eq_some_iff.1 ho
  obtain ⟨-, rfl⟩ := usub_some e0
  obtain ⟨hl, rfl⟩ := sliceTo_some e1
  obtain ⟨-, rfl⟩ := sliceFrom_some e2
  cases ho
  have h0 : InRange lo hi (fsum (data.take (w - 1)) / flt (w - 1)) :=
    inRange_mean (by omega) (by simpa using hl) fun x hx => h x (List.mem_of_mem_take hx)
  refine inRange_nans fun y hy => ?_
  refine scanS_invariant (I := fun s : XF => InRange lo hi s) (fun s x hx hs => ?_) h0 y hy
  rcases h x (List.mem_of_mem_drop hx) with rfl | ⟨r, hr, r0⟩
  · exact inRange_of_isNaN (by have : isNaN (nan : XF) = true := rfl; nanp)
  rcases hs with rfl | ⟨u, hu, u0⟩
  · exact inRange_of_isNaN (by have : isNaN (nan : XF) = true := rfl; nanp)
  have hw' := Smooth.natCast_pos hw
  have hk : (0 : ℝ) ≤ ((w - 1 : ℕ) : ℝ) := by positivity
  have hkw : ((w - 1 : ℕ) : ℝ) + 1 = w := by
    rw [← Nat.cast_add_one]; congr 1; omega
  refine inRange_of (is_div (is_add (is_mul hu (is_flt _)) hr) (is_flt w) hw'.ne') ?_ ?_
  · rw [le_div_iff₀ hw', ← hkw]; nlinarith [mul_le_mul_of_nonneg_right u0.1 hk]
  · rw [div_le_iff₀ hw', ← hkw]; nlinarith [mul_le_mul_of_nonneg_right u0.2 hk]

/-- A concrete price history used to show that the hypotheses of the theorems about bars can be met. -/
theorem saneBars_example : SaneBars [3, 5, 6, 6, 9] [1, 2, 4, 3, 5] [2, 4, 5, 3, 9] := by
  refine ⟨rfl, rfl, fun i l c h1 h2 => ?_, fun i c h h1 h2 => ?_⟩
  all_goals
    match i with
    | 0 | 1 | 2 | 3 | 4 => simp at h1 h2; subst h1 h2; norm_num
    | i + 5 => simp at h1

end Traquer
