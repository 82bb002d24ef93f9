import Verif.Lemmas.Bars
/-!
# C34: money flow
-/

namespace Traquer.Volume
open FP FloatLit
variable {ρ : Rounding}

/-! ## mfi -/

theorem mfi_eq {high low close volume : List (FP ρ)} {w : ℕ} {out : List (FP ρ)} (hw : 1 ≤ w)
    (e : mfi high low close volume w = some out) :
    out = nans w ++ ((windowsOf w ((pairs (zip4 high low close volume)).map fun p => (mfiStep ((p.1.1 + p.1.2.1 + p.1.2.2.1) / 3) p.2).2.1)).zip
      (windowsOf w ((pairs (zip4 high low close volume)).map fun p => (mfiStep ((p.1.1 + p.1.2.1 + p.1.2.2.1) / 3) p.2).2.2))).map
        fun p => 100 - 100 / (1 + fsum p.1 / fsum p.2) := by
  obtain ⟨v, ev, e⟩ := Option.bind_eq_some_iff.1 e
  obtain ⟨h0, e1, e⟩ := Option.bind_eq_some_iff.1 e
  obtain ⟨l0, e2, e⟩ := Option.bind_eq_some_iff.1 e
  obtain ⟨c0, e3, e⟩ := Option.bind_eq_some_iff.1 e
  obtain ⟨a, ea, e⟩ := Option.bind_eq_some_iff.1 e
  obtain ⟨b, eb, e⟩ := Option.bind_eq_some_iff.1 e
  rw [windows_eq _ hw] at ea eb
  cases e; cases ea; cases eb
  have tv := tailBars_some ev
  have : scan mfiStep ((h0 + l0 + c0) / 3) v = (pairs (zip4 high low close volume)).map
      fun p => (mfiStep ((p.1.1 + p.1.2.1 + p.1.2.2.1) / 3) p.2).2 := by
    cases hz : zip4 high low close volume with
    | nil => rw [hz] at tv; rw [tv]; rfl
    | cons b bs =>
      rw [hz] at tv
      obtain ⟨b1, b2, b3, b4⟩ := b
      have := zip4_getElem?.1 (show (zip4 high low close volume)[0]? = some (b1, b2, b3, b4) by rw [hz]; rfl)
      cases this.1.symm.trans e1
      cases this.2.1.symm.trans e2
      cases this.2.2.1.symm.trans e3
      rw [tv]
      exact scan_pairs (f := mfiStep (F := FP ρ)) (k := fun b => (b.1 + b.2.1 + b.2.2.1) / 3) (fun _ _ => rfl) (_, _, _, _) bs
  rw [this, List.map_map, List.map_map]
  rfl

theorem typical_is {h l c v : XF} (fh : h.Finite) (fl : l.Finite) (fc : c.Finite) : (h + l + c) / 3 ⇓ typical (barVal (h, l, c, v)) :=
  is_div (is_add (is_add fh.is fl.is) fc.is) (is_lit 3) (by norm_num)

theorem mfiTerm_is {p : Bar XF × Bar XF} (h1 : p.1.1.Finite ∧ p.1.2.1.Finite ∧ p.1.2.2.1.Finite ∧ p.1.2.2.2.Finite)
    (h2 : p.2.1.Finite ∧ p.2.2.1.Finite ∧ p.2.2.2.1.Finite ∧ p.2.2.2.2.Finite) :
    ((mfiStep ((p.1.1 + p.1.2.1 + p.1.2.2.1) / 3) p.2).2.1 ⇓
      if typical (barVal p.1) < typical (barVal p.2) then typical (barVal p.2) * (barVal p.2).2.2.2 else 0) ∧
    ((mfiStep ((p.1.1 + p.1.2.1 + p.1.2.2.1) / 3) p.2).2.2 ⇓
      if typical (barVal p.2) < typical (barVal p.1) then typical (barVal p.2) * (barVal p.2).2.2.2 else 0) := by
  obtain ⟨⟨a1, a2, a3, a4⟩, b1, b2, b3, b4⟩ := p
  have ia := typical_is (v := a4) h1.1 h1.2.1 h1.2.2.1
  have ib := typical_is (v := b4) h2.1 h2.2.1 h2.2.2.1
  have iv := is_mul ib h2.2.2.2.is
  have l1 := is_lt ia ib
  have l2 := is_lt ib ia
  unfold mfiStep
  dsimp only at *
  constructor
  · by_cases hc : typical (barVal (a1, a2, a3, a4)) < typical (barVal (b1, b2, b3, b4))
    · rw [if_pos hc, if_pos (show (_ <. _) = true by rw [l1]; exact decide_eq_true hc)]; exact iv
    · rw [if_neg hc, if_neg (show ¬ (_ <. _) = true by rw [l1]; simpa using hc)]; exact is_zero
  · by_cases hc : typical (barVal (b1, b2, b3, b4)) < typical (barVal (a1, a2, a3, a4))
    · rw [if_pos hc, if_pos (by rw [l2]; exact decide_eq_true hc)]; exact iv
    · rw [if_neg hc, if_neg (by rw [l2]; simpa using hc)]; exact is_zero

theorem flow_nonneg {high low close volume : List ℝ} (hp : ∀ b ∈ zip4 high low close volume, 0 ≤ typical b) (hv : ∀ v ∈ volume, 0 ≤ v) :
    (∀ x ∈ flowIn high low close volume, 0 ≤ x) ∧ ∀ x ∈ flowOut high low close volume, 0 ≤ x := by
  have key : ∀ p ∈ pairs (zip4 high low close volume), 0 ≤ typical p.2 * p.2.2.2.2 := fun p h => by
    obtain ⟨j, hj⟩ := List.mem_iff_getElem?.1 h
    obtain ⟨-, h2⟩ := pairs_getElem?_some hj
    obtain ⟨a, b1, b2, b3, b4⟩ := p
    exact mul_nonneg (hp _ (List.mem_of_getElem? h2)) (hv _ (List.mem_of_getElem? (zip4_getElem?.1 h2).2.2.2))
  constructor
  all_goals
    intro x hx
    obtain ⟨p, h, rfl⟩ := List.mem_map.1 hx
    split
    · exact key p h
    · exact le_rfl

/-- `100 - 100 / (1 + p / n)` is `100 p / (p + n)`. -/
theorem index_quotIs {x y : XF} {p n : ℝ} (hx : x ⇓ p) (hy : y ⇓ n) (hp : 0 ≤ p) (hn : 0 ≤ n) :
    QuotIs (100 * p) (p + n) (100 - 100 / (1 + x / y)) := by
  by_cases h0 : n = 0
  · by_cases h1 : p = 0
    · have := (quotIs hx hy).2.1 h0 h1
      subst h0 h1
      refine ⟨fun h => absurd (add_zero _) h, fun _ _ => ?_, fun _ h => absurd (mul_zero _) h⟩
      rw [this]
      show (100 : XF) - 100 / (1 + FP.nan) = nan
      rw [FP.add_nan, FP.div_nan]
      show (100 : XF) + -FP.nan = nan
      rw [show (-FP.nan : XF) = FP.nan from rfl, FP.add_nan]
      rfl
    · obtain ⟨s, hs⟩ := (quotIs hx hy).2.2 h0 h1
      subst h0
      refine ⟨fun _ => ?_, fun h => absurd (by simpa using h) h1, fun h => absurd (by simpa using h) h1⟩
      have e1 : (1 : XF) + FP.inf s = FP.inf s := by
        rcases is_iff.1 is_one with h | ⟨h, -⟩ <;> rw [h] <;> rfl
      have e2 : (100 : XF) / FP.inf s ⇓ 0 := by
        rcases is_iff.1 (is_lit 100 : (100 : XF) ⇓ 100) with h | ⟨h, -⟩ <;> rw [h]
        · show (if sgn (fin 100 : XF) != s then negz else fin 0 : XF) ⇓ 0
          split
          · exact is_negz
          · exact is_fin 0
        · show (if sgn (negz : XF) != s then negz else fin 0 : XF) ⇓ 0
          split
          · exact is_negz
          · exact is_fin 0
      rw [hs, e1]
      refine (is_sub (is_lit 100) e2).congr ?_
      field_simp
      ring
  · have hn' : 0 < n := lt_of_le_of_ne hn (Ne.symm h0)
    have hpn : p + n ≠ 0 := by positivity
    have h1 : 1 + p / n ≠ 0 := by positivity
    refine ⟨fun _ => ?_, fun h => absurd h hpn, fun h => absurd h hpn⟩
    refine (is_sub (is_lit 100) (is_div (is_lit 100) (is_add is_one (is_div hx hy h0)) h1)).congr ?_
    have h2 : n + p ≠ 0 := by rwa [add_comm]
    field_simp
    ring

/-- C34: `mfi` is the percentage of the money flow of the last `w` bars that flowed in (NaN where nothing flowed). -/
theorem mfi_reports (high low close volume : List XF) (w : ℕ) (hl : low.length = high.length) (hc : close.length = high.length)
    (hv : volume.length = high.length) (hw : 1 ≤ w) (hn : w + 1 ≤ high.length) (fh : Fins high) (fl : Fins low) (fc : Fins close)
    (fv : Fins volume) (hp : ∀ b ∈ zip4 (vals high) (vals low) (vals close) (vals volume), 0 ≤ typical b)
    (hv' : ∀ v ∈ vals volume, 0 ≤ v) :
    ReportsP high.length w (fun i y =>
      let P := (recent (flowIn (vals high) (vals low) (vals close) (vals volume)) w (i - 1)).sum
      let N := (recent (flowOut (vals high) (vals low) (vals close) (vals volume)) w (i - 1)).sum
      QuotIs (100 * P) (P + N) y) (mfi high low close volume w) := by
  obtain ⟨out, eo, -⟩ := mfi_aligned high low close volume w hl hc hv hw (by omega)
  rw [eo, mfi_eq hw eo]
  have lz : (zip4 high low close volume).length = high.length := by simp; omega
  have fz : ∀ p ∈ pairs (zip4 high low close volume), _ := fun p h =>
    mfiTerm_is (p := p) (zip4_fins fh fl fc fv (Smooth.mem_pairs h).1) (zip4_fins fh fl fc fv (Smooth.mem_pairs h).2)
  obtain ⟨f1, v1⟩ := vals_map_of (v := pairs (zip4 high low close volume))
    (f := fun p => (mfiStep ((p.1.1 + p.1.2.1 + p.1.2.2.1) / 3) p.2).2.1)
    (r := flowIn (vals high) (vals low) (vals close) (vals volume)) (by rw [flowIn, zip4_vals]; simp) fun j b hj => by
      refine ⟨_, ?_, (fz b (List.mem_of_getElem? hj)).1⟩
      rw [flowIn, zip4_vals, pairs_map, List.getElem?_map, List.getElem?_map, hj]
      rfl
  obtain ⟨f2, v2⟩ := vals_map_of (v := pairs (zip4 high low close volume))
    (f := fun p => (mfiStep ((p.1.1 + p.1.2.1 + p.1.2.2.1) / 3) p.2).2.2)
    (r := flowOut (vals high) (vals low) (vals close) (vals volume)) (by rw [flowOut, zip4_vals]; simp) fun j b hj => by
      refine ⟨_, ?_, (fz b (List.mem_of_getElem? hj)).2⟩
      rw [flowOut, zip4_vals, pairs_map, List.getElem?_map, List.getElem?_map, hj]
      rfl
  obtain ⟨n1, n2⟩ := flow_nonneg hp hv'
  generalize hA : (pairs (zip4 high low close volume)).map (fun p => (mfiStep ((p.1.1 + p.1.2.1 + p.1.2.2.1) / 3) p.2).2.1) = A at *
  generalize hB : (pairs (zip4 high low close volume)).map (fun p => (mfiStep ((p.1.1 + p.1.2.1 + p.1.2.2.1) / 3) p.2).2.2) = B at *
  have lA : A.length = high.length - 1 := by rw [← hA]; simp; omega
  have lB : B.length = high.length - 1 := by rw [← hB]; simp; omega
  have key := reportsP_windows2 (a := A) (b := B) (w := w) (P := fun i y =>
      QuotIs (100 * (recent (vals A) w i).sum) ((recent (vals A) w i).sum + (recent (vals B) w i).sum) y)
    (f := fun p => 100 - 100 / (1 + fsum p.1 / fsum p.2)) hw (by omega) (by omega) fun i h1 h2 => by
      have i1 := is_fsum (f1.recent w i)
      have i2 := is_fsum (f2.recent w i)
      have r1 : (recent A w i).map val = recent (vals A) w i := recent_vals ..
      have r2 : (recent B w i).map val = recent (vals B) w i := recent_vals ..
      rw [r1] at i1
      rw [r2] at i2
      refine index_quotIs i1 i2 (List.sum_nonneg fun x hx => ?_) (List.sum_nonneg fun x hx => ?_)
      · rw [v1] at hx; exact n1 x (List.mem_of_mem_drop (List.mem_of_mem_take hx))
      · rw [v2] at hx; exact n2 x (List.mem_of_mem_drop (List.mem_of_mem_take hx))
  have := (key.shift1 hw).cast (n' := high.length) (k' := w) (by omega) (by omega)
  rw [v1, v2] at this
  exact this

/-! Every rounding -/

theorem mfiTerm_nonneg {p : Bar (FP ρ) × Bar (FP ρ)} (h2 : p.2.1.Finite ∧ p.2.2.1.Finite ∧ p.2.2.2.1.Finite ∧ p.2.2.2.2.Finite)
    (n1 : 0 ≤ p.2.1.val) (n2 : 0 ≤ p.2.2.1.val) (n3 : 0 ≤ p.2.2.2.1.val) (n4 : 0 ≤ p.2.2.2.2.val) (s : FP ρ) :
    NonNegOrNaN (mfiStep s p.2).2.1 ∧ NonNegOrNaN (mfiStep s p.2).2.2 := by
  obtain ⟨a, b1, b2, b3, b4⟩ := p
  have z : NonNegOrNaN (0 : FP ρ) := Or.inr (Or.inr ⟨0, isZero, le_rfl⟩)
  have t : NonNegInf ((b1 + b2 + b3) / 3) := ((NonNegInf.add (NonNegInf.add (Or.inr ⟨_, h2.1.is, n1⟩) (Or.inr ⟨_, h2.2.1.is, n2⟩))
    (Or.inr ⟨_, h2.2.2.1.is, n3⟩))).div (isLit 3 (by norm_num)) (by norm_num)
  have m := NonNegInf.mul_nonneg t h2.2.2.2.is n4
  unfold mfiStep
  dsimp only
  constructor <;> split <;> assumption

theorem index_inRange {x y : FP ρ} (hx : NonNegOrNaN x) (hy : NonNegOrNaN y) : InRange 0 100 (100 - 100 / (1 + x / y)) := by
  have h100 : (100 : FP ρ) ⇓ 100 := isLit 100 (by norm_num)
  have ofQ : ∀ q : FP ρ, (q = nan ∨ (∃ s, q = inf s) ∨ ∃ r, q ⇓ r ∧ 0 ≤ r) → InRange 0 100 (100 - 100 / (1 + q)) := by
    have ofD : ∀ d : FP ρ, ((∃ s, d = inf s) ∨ ∃ r, d ⇓ r ∧ 1 ≤ r) → InRange 0 100 (100 - 100 / d) := by
      intro d hd
      have : ∃ t, (100 : FP ρ) / d ⇓ t ∧ 0 ≤ t ∧ t ≤ 100 := by
        rcases hd with ⟨s, rfl⟩ | ⟨r, hr, r1⟩
        · refine ⟨0, ?_, le_rfl, by norm_num⟩
          rcases is_iff.1 h100 with h | ⟨h, -⟩ <;> rw [h]
          · show (if sgn (fin 100 : FP ρ) != s then negz else fin 0 : FP ρ) ⇓ 0
            split
            · exact is_negz
            · exact is_fin 0
          · show (if sgn (negz : FP ρ) != s then negz else fin 0 : FP ρ) ⇓ 0
            split
            · exact is_negz
            · exact is_fin 0
        · have r0 : 0 < r := by linarith
          obtain ⟨t, ht, t0, t1⟩ := (rounds_div h100 hr r0.ne').between (n := 100) (by norm_num) (by positivity) (by
            rw [div_le_iff₀ r0]; norm_num; linarith)
          exact ⟨t, ht, t0, by simpa using t1⟩
      obtain ⟨t, ht, t0, t1⟩ := this
      obtain ⟨u, hu, u0, u1⟩ := (rounds_sub h100 ht).between (n := 100) (by norm_num) (by linarith) (by norm_num; linarith)
      exact Or.inr ⟨u, hu, u0, by simpa using u1⟩
    rintro q (rfl | ⟨s, rfl⟩ | ⟨r, hr, r0⟩)
    · left
      show (100 : FP ρ) - 100 / (1 + FP.nan) = nan
      rw [FP.add_nan, FP.div_nan]
      show (100 : FP ρ) + -FP.nan = nan
      rw [show (-FP.nan : FP ρ) = FP.nan from rfl, FP.add_nan]
      rfl
    · apply ofD
      left
      refine ⟨s, ?_⟩
      rcases is_iff.1 (isOne (ρ := ρ)) with h | ⟨h, -⟩ <;> rw [h] <;> rfl
    · apply ofD
      rcases (rounds_add isOne hr).cases with ⟨-, h⟩ | ⟨-, h⟩
      · refine Or.inr ⟨_, h, ?_⟩
        have := ρ.mono 1 (1 + r) (by linarith)
        rwa [rnd_one] at this
      · exact Or.inl ⟨_, h⟩
  apply ofQ
  rcases hx with rfl | hx
  · exact Or.inl rfl
  rcases hy with rfl | hy
  · exact Or.inl FP.div_nan
  rcases hx with rfl | ⟨a, ha, a0⟩ <;> rcases hy with rfl | ⟨b, hb, b0⟩
  · exact Or.inl rfl
  · rcases is_iff.1 hb with rfl | ⟨rfl, -⟩ <;> exact Or.inr (Or.inl ⟨_, rfl⟩)
  · right; right
    refine ⟨0, ?_, le_rfl⟩
    rcases is_iff.1 ha with rfl | ⟨rfl, -⟩
    · show (if sgn (fin a : FP ρ) != false then negz else fin 0 : FP ρ) ⇓ 0
      split
      · exact is_negz
      · exact is_fin 0
    · exact is_negz
  · by_cases h0 : b = 0
    · by_cases h1 : a = 0
      · subst h0 h1
        left
        rcases is_iff.1 ha with rfl | ⟨rfl, -⟩ <;> rcases is_iff.1 hb with rfl | ⟨rfl, -⟩ <;> simp [div_def, FP.div, val] <;> rfl
      · subst h0
        right; left
        have h2 : x.val ≠ 0 := by rw [ha.2]; exact h1
        rcases is_iff.1 ha with rfl | ⟨rfl, rfl⟩
        · rcases is_iff.1 hb with rfl | ⟨rfl, -⟩ <;> exact ⟨_, by simp [div_def, FP.div, val, h1]; rfl⟩
        · exact absurd rfl h1
    · have hb' : 0 < b := lt_of_le_of_ne b0 (Ne.symm h0)
      rcases (rounds_div ha hb h0).nonNegInf (by positivity) with h | h
      · exact Or.inr (Or.inl ⟨_, h⟩)
      · exact Or.inr (Or.inr h)

/-- C34: in every rounding `mfi` is NaN or between 0 and 100 for prices and volumes that are not negative. -/
theorem mfi_range (high low close volume : List (FP ρ)) (w : ℕ) (hl : low.length = high.length) (hc : close.length = high.length)
    (hv : volume.length = high.length) (hw : 1 ≤ w) (hn : w ≤ high.length) (fh : Fins high) (fl : Fins low) (fc : Fins close)
    (fv : Fins volume) (ph : ∀ x ∈ vals high, 0 ≤ x) (pl : ∀ x ∈ vals low, 0 ≤ x) (pc : ∀ x ∈ vals close, 0 ≤ x)
    (pv : ∀ x ∈ vals volume, 0 ≤ x) :
    ReportsP high.length w (fun _ y => InRange 0 100 y) (mfi high low close volume w) := by
  refine (mfi_aligned high low close volume w hl hc hv hw (by omega)).reportsP fun out eo i y hi hy => ?_
  rw [mfi_eq hw eo, List.getElem?_append_right (by simpa using hi)] at hy
  obtain ⟨p, hp, rfl⟩ := List.mem_map.1 (List.mem_of_getElem? hy)
  have key : ∀ q ∈ pairs (zip4 high low close volume), NonNegOrNaN (mfiStep ((q.1.1 + q.1.2.1 + q.1.2.2.1) / 3) q.2).2.1 ∧
      NonNegOrNaN (mfiStep ((q.1.1 + q.1.2.1 + q.1.2.2.1) / 3) q.2).2.2 := fun q h => by
    obtain ⟨j, hj⟩ := List.mem_iff_getElem?.1 (Smooth.mem_pairs h).2
    obtain ⟨a, b1, b2, b3, b4⟩ := q
    obtain ⟨h1, h2, h3, h4⟩ := zip4_getElem?.1 hj
    exact mfiTerm_nonneg (p := (a, b1, b2, b3, b4)) (zip4_fins fh fl fc fv (Smooth.mem_pairs h).2)
      (ph _ (List.mem_map_of_mem (List.mem_of_getElem? h1))) (pl _ (List.mem_map_of_mem (List.mem_of_getElem? h2)))
      (pc _ (List.mem_map_of_mem (List.mem_of_getElem? h3))) (pv _ (List.mem_map_of_mem (List.mem_of_getElem? h4)))
      ((a.1 + a.2.1 + a.2.2.1) / 3)
  refine index_inRange (NonNegOrNaN.fsum fun x hx => ?_) (NonNegOrNaN.fsum fun x hx => ?_)
  · obtain ⟨q, hq, rfl⟩ := List.mem_map.1 (mem_of_mem_windowsOf (List.of_mem_zip hp).1 hx)
    exact (key q hq).1
  · obtain ⟨q, hq, rfl⟩ := List.mem_map.1 (mem_of_mem_windowsOf (List.of_mem_zip hp).2 hx)
    exact (key q hq).2

/-! ## cmf and twiggs -/

/-- `|x| ≤ y`, or `x` is NaN -/
def AbsDom (x y : XF) : Prop := x = nan ∨ ∃ a b, x ⇓ a ∧ y ⇓ b ∧ |a| ≤ b

theorem AbsDom.add {x y x' y' : XF} (h : AbsDom x y) (h' : AbsDom x' y') : AbsDom (x + x') (y + y') := by
  rcases h with rfl | ⟨a, b, ha, hb, ab⟩
  · exact Or.inl rfl
  rcases h' with rfl | ⟨a', b', ha', hb', ab'⟩
  · exact Or.inl FP.add_nan
  · exact Or.inr ⟨_, _, is_add ha ha', is_add hb hb', (abs_add_le _ _).trans (add_le_add ab ab')⟩

theorem AbsDom.mul {x y c : XF} {k : ℝ} (h : AbsDom x y) (hc : c ⇓ k) (hk : 0 ≤ k) : AbsDom (x * c) (y * c) := by
  rcases h with rfl | ⟨a, b, ha, hb, ab⟩
  · exact Or.inl rfl
  · exact Or.inr ⟨_, _, is_mul ha hc, is_mul hb hc, by rw [abs_mul, abs_of_nonneg hk]; gcongr⟩

theorem AbsDom.div {x y c : XF} {k : ℝ} (h : AbsDom x y) (hc : c ⇓ k) (hk : 0 < k) : AbsDom (x / c) (y / c) := by
  rcases h with rfl | ⟨a, b, ha, hb, ab⟩
  · exact Or.inl rfl
  · exact Or.inr ⟨_, _, is_div ha hc hk.ne', is_div hb hc hk.ne', by rw [abs_div, abs_of_pos hk]; gcongr⟩

theorem AbsDom.foldl {l l' : List XF} (h : List.Forall₂ AbsDom l l') {s s' : XF} (hs : AbsDom s s') :
    AbsDom (l.foldl (· + ·) s) (l'.foldl (· + ·) s') := by
  induction h generalizing s s' with
  | nil => exact hs
  | cons h _ ih => exact ih (hs.add h)

theorem AbsDom.fsum {l l' : List XF} (h : List.Forall₂ AbsDom l l') : AbsDom (fsum l) (fsum l') :=
  AbsDom.foldl h (Or.inr ⟨0, 0, is_zero, is_zero, by simp⟩)

theorem AbsDom.share {x y : XF} (h : AbsDom x y) : InRange (-1) 1 (x / y) := by
  rcases h with rfl | ⟨a, b, ha, hb, ab⟩
  · exact Or.inl rfl
  · have b0 : 0 ≤ b := (abs_nonneg a).trans ab
    refine (quotIs ha hb).inRange (fun h => abs_nonpos_iff.1 (h ▸ ab)) fun h => ?_
    have bp : 0 < b := lt_of_le_of_ne b0 (Ne.symm h)
    rw [← abs_le, abs_div, abs_of_nonneg b0, div_le_one bp]
    exact ab

theorem AbsDom.wilder_sum {l l' p q : List XF} {w : ℕ} (hw : 1 ≤ w) (h : List.Forall₂ AbsDom l l')
    (hp : wilder_sum l w = some p) (hq : wilder_sum l' w = some q) : List.Forall₂ AbsDom p q := by
  obtain ⟨k, ek, hp⟩ := Option.bind_eq_some_iff.1 hp
  obtain ⟨k', ek', hq⟩ := Option.bind_eq_some_iff.1 hq
  obtain ⟨-, rfl⟩ := usub_some ek
  obtain ⟨-, rfl⟩ := usub_some ek'
  obtain ⟨t, et, hp⟩ := Option.bind_eq_some_iff.1 hp
  obtain ⟨t', et', hq⟩ := Option.bind_eq_some_iff.1 hq
  obtain ⟨-, rfl⟩ := sliceTo_some et
  obtain ⟨-, rfl⟩ := sliceTo_some et'
  obtain ⟨u, eu, hp⟩ := Option.bind_eq_some_iff.1 hp
  obtain ⟨u', eu', hq⟩ := Option.bind_eq_some_iff.1 hq
  obtain ⟨-, rfl⟩ := sliceFrom_some eu
  obtain ⟨-, rfl⟩ := sliceFrom_some eu'
  cases hp; cases hq
  have hwp : (0 : ℝ) < w := by exact_mod_cast hw
  refine scanS_rel (S := AbsDom) (fun s t x y hs hx => ?_) (forall₂_drop h _) (AbsDom.fsum (forall₂_take h _))
  exact ((hs.mul (is_flt _) (by positivity)).div (is_flt _) hwp).add hx

theorem absDom_ratio {v x y : XF} {c a b : ℝ} (hv : v ⇓ c) (hx : x ⇓ a) (hy : y ⇓ b) (c0 : 0 ≤ c) (ab : |a| ≤ b) :
    AbsDom (v * (x / y)) v ∧ AbsDom (v * x / y) v := by
  have b0 : 0 ≤ b := (abs_nonneg a).trans ab
  by_cases h : b = 0
  · have a0 : a = 0 := abs_nonpos_iff.1 (h ▸ ab)
    constructor
    · rw [(quotIs hx hy).2.1 h a0]
      left
      cases v <;> rfl
    · exact Or.inl ((quotIs (is_mul hv hx) hy).2.1 h (by rw [a0, mul_zero]))
  · have bp : 0 < b := lt_of_le_of_ne b0 (Ne.symm h)
    have hq : |a / b| ≤ 1 := by rw [abs_div, abs_of_pos bp, div_le_one bp]; exact ab
    constructor
    · refine Or.inr ⟨_, _, is_mul hv (is_div hx hy h), hv, ?_⟩
      rw [abs_mul, abs_of_nonneg c0]
      nlinarith
    · refine Or.inr ⟨_, _, is_div (is_mul hv hx) hy h, hv, ?_⟩
      rw [mul_div_assoc, abs_mul, abs_of_nonneg c0]
      nlinarith

/-- C34: `cmf` is NaN or between −1 and 1 for sane bars and volumes that are not negative. -/
theorem cmf_range (high low close volume : List XF) (w : ℕ) (hv : volume.length = high.length) (hw : 1 ≤ w)
    (hn : w ≤ high.length + 1) (fh : Fins high) (fl : Fins low) (fc : Fins close) (fv : Fins volume)
    (hs : SaneBars (vals high) (vals low) (vals close)) (pv : ∀ x ∈ vals volume, 0 ≤ x) :
    ReportsP high.length (w - 1) (fun _ y => InRange (-1) 1 y) (cmf high low close volume w) := by
  have hl : low.length = high.length := by simpa [vals] using hs.low_length
  have hc : close.length = high.length := by simpa [vals] using hs.close_length
  have dom : List.Forall₂ AbsDom ((zip4 high low close volume).map fun (h, l, c, vol) => vol * ((c - l) - (h - c)) / (h - l)) volume := by
    rw [List.forall₂_iff_get]
    refine ⟨by simp; omega, fun j h1 h2 => ?_⟩
    simp only [List.length_map] at h1
    have hj := List.getElem?_eq_getElem h1
    generalize hb : (zip4 high low close volume)[j] = b at hj
    obtain ⟨b1, b2, b3, b4⟩ := b
    obtain ⟨e1, e2, e3, e4⟩ := zip4_getElem?.1 hj
    have lo := hs.low_le j _ _ (by rw [vals_getElem?, e2]; rfl) (by rw [vals_getElem?, e3]; rfl)
    have hi := hs.le_high j _ _ (by rw [vals_getElem?, e3]; rfl) (by rw [vals_getElem?, e1]; rfl)
    have i1 := fh.isAt e1
    have i2 := fl.isAt e2
    have i3 := fc.isAt e3
    have i4 := fv.isAt e4
    have e5 : volume[j] = b4 := Option.some.inj ((List.getElem?_eq_getElem h2).symm.trans e4)
    simp only [List.get_eq_getElem, List.getElem_map, hb, e5]
    refine (absDom_ratio i4 (is_sub (is_sub i3 i2) (is_sub i1 i3)) (is_sub i1 i2) (pv _ (List.mem_map_of_mem (List.mem_of_getElem? e4))) ?_).2
    rw [abs_le]
    constructor <;> linarith
  refine (cmf_aligned high low close volume w hl hc hv hw hn).reportsP fun out eo i y hi hy => ?_
  run_at eo [cmf]
  cases eo
  rw [List.getElem?_append_right (by simpa using hi)] at hy
  rw [List.getElem?_map] at hy
  obtain ⟨⟨p, q⟩, hp, rfl⟩ := Option.map_eq_some_iff.1 hy
  obtain ⟨h1, h2⟩ := List.getElem?_zip_eq_some.1 hp
  simp only [nans, List.length_replicate] at h1 h2
  have l1 := (List.getElem?_eq_some_iff.1 h1).1
  have l2 := (List.getElem?_eq_some_iff.1 h2).1
  simp only [windowsOf_length] at l1 l2
  rw [windowsOf_getElem? (by omega)] at h1 h2
  cases h1; cases h2
  exact (AbsDom.fsum (forall₂_take (forall₂_drop dom _) _)).share

/-- C34: `twiggs` is NaN or between −1 and 1 for sane bars and volumes that are not negative. -/
theorem twiggs_range (high low close volume : List XF) (w : ℕ) (hv : volume.length = high.length) (hw : 1 ≤ w)
    (hn : w ≤ high.length) (fh : Fins high) (fl : Fins low) (fc : Fins close) (fv : Fins volume)
    (hs : SaneBars (vals high) (vals low) (vals close)) (pv : ∀ x ∈ vals volume, 0 ≤ x) :
    ReportsP high.length w (fun _ y => InRange (-1) 1 y) (twiggs high low close volume w) := by
  have hl : low.length = high.length := by simpa [vals] using hs.low_length
  have hc : close.length = high.length := by simpa [vals] using hs.close_length
  refine (twiggs_aligned high low close volume w hl hc hv hw hn).reportsP fun out eo i y hi hy => ?_
  obtain ⟨v, ev, e⟩ := Option.bind_eq_some_iff.1 eo
  obtain ⟨c0, e3, e⟩ := Option.bind_eq_some_iff.1 e
  obtain ⟨rv, er, e⟩ := Option.bind_eq_some_iff.1 e
  obtain ⟨vt, et, e⟩ := Option.bind_eq_some_iff.1 e
  obtain ⟨-, rfl⟩ := sliceFrom_some et
  obtain ⟨vs, es, e⟩ := Option.bind_eq_some_iff.1 e
  cases e
  have tv := tailBars_some ev
  have hscan : scan twiggsStep c0 v = (pairs (zip4 high low close volume)).map fun p => (twiggsStep p.1.2.2.1 p.2).2 := by
    cases hz : zip4 high low close volume with
    | nil => rw [hz] at tv; rw [tv]; rfl
    | cons b bs =>
      rw [hz] at tv
      obtain ⟨b1, b2, b3, b4⟩ := b
      have := zip4_getElem?.1 (show (zip4 high low close volume)[0]? = some (b1, b2, b3, b4) by rw [hz]; rfl)
      cases this.2.2.1.symm.trans e3
      rw [tv]
      exact scan_pairs (f := twiggsStep (F := XF)) (k := fun b => b.2.2.1) (fun _ _ => rfl) (_, _, _, _) bs
  have dom : List.Forall₂ AbsDom ((pairs (zip4 high low close volume)).map fun p => (twiggsStep p.1.2.2.1 p.2).2) (volume.drop 1) := by
    rw [List.forall₂_iff_get]
    refine ⟨by simp; omega, fun j h1 h2 => ?_⟩
    simp only [List.length_map] at h1
    have hj := List.getElem?_eq_getElem h1
    generalize hb : (pairs (zip4 high low close volume))[j] = b at hj
    obtain ⟨⟨a1, a2, a3, a4⟩, b1, b2, b3, b4⟩ := b
    obtain ⟨g1, g2⟩ := pairs_getElem?_some hj
    obtain ⟨-, -, d3, -⟩ := zip4_getElem?.1 g1
    obtain ⟨e1, e2, e3, e4⟩ := zip4_getElem?.1 g2
    have lo := hs.low_le _ _ _ (by rw [vals_getElem?, e2]; rfl) (by rw [vals_getElem?, e3]; rfl)
    have hi := hs.le_high _ _ _ (by rw [vals_getElem?, e3]; rfl) (by rw [vals_getElem?, e1]; rfl)
    have i1 := fh.isAt e1
    have i2 := fl.isAt e2
    have i3 := fc.isAt e3
    have i4 := fv.isAt e4
    have i0 := fc.isAt d3
    have e5 : (volume.drop 1)[j] = b4 := Option.some.inj ((List.getElem?_eq_getElem h2).symm.trans (by
      rw [List.getElem?_drop, Nat.add_comm]; exact e4))
    simp only [List.get_eq_getElem, List.getElem_map, hb, e5]
    refine (absDom_ratio i4 (is_sub (is_sub (is_mul (is_lit 2) i3) (is_fmin i2 i0)) (is_fmax i1 i0))
      (is_sub (is_fmax i1 i0) (is_fmin i2 i0)) (pv _ (List.mem_map_of_mem (List.mem_of_getElem? e4))) ?_).1
    have m1 := min_le_left b2.val a3.val
    have m2 := le_max_left b1.val a3.val
    rw [abs_le]
    constructor <;> linarith
  rw [hscan] at er
  have := AbsDom.wilder_sum hw dom er es
  rw [List.getElem?_append_right (by simpa using hi)] at hy
  obtain ⟨⟨p, q⟩, hp, rfl⟩ := List.mem_map.1 (List.mem_of_getElem? hy)
  exact ((List.forall₂_iff_zip.1 this).2 hp).share

example : ReportsP 5 2 (fun _ y => InRange 0 100 y)
    (mfi ([3, 5, 6, 6, 9].map (fin : ℝ → FP ρ)) ([1, 2, 4, 3, 5].map fin) ([2, 4, 5, 3, 9].map fin) ([7, 0, 4, 3, 2].map fin) 2) :=
  mfi_range _ _ _ _ 2 (by simp) (by simp) (by simp) (by decide) (by simp) (fins_map_fin _) (fins_map_fin _)
    (fins_map_fin _) (fins_map_fin _) (by simp only [vals_map_fin]; simp) (by simp only [vals_map_fin]; simp)
    (by simp only [vals_map_fin]; simp) (by simp only [vals_map_fin]; simp)

example : ReportsP 5 2 (fun _ y => InRange (-1) 1 y)
    (twiggs ([3, 5, 6, 6, 9].map (fin : ℝ → XF)) ([1, 2, 4, 3, 5].map fin) ([2, 4, 5, 3, 9].map fin) ([7, 0, 4, 3, 2].map fin) 2) :=
  twiggs_range _ _ _ _ 2 (by simp) (by decide) (by simp) (fins_map_fin _) (fins_map_fin _)
    (fins_map_fin _) (fins_map_fin _) (by simp only [vals_map_fin]; exact saneBars_example) (by simp only [vals_map_fin]; simp)

end Traquer.Volume
