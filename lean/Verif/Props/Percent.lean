import Verif.Lemmas.Bars
import Verif.Props.Rsi
import Verif.Props.Dispersion
import Verif.Props.ShapeMomentum
/-!
# C35: percent oscillators
-/

namespace Traquer.Momentum
open FP FloatLit
variable {ρ : Rounding}

/-! ## ultimate -/

theorem sumPair_fst (w : List (FP ρ × FP ρ)) : sumPair w = (fsum (w.map (·.1)), fsum (w.map (·.2))) := by
  have : ∀ (w : List (FP ρ × FP ρ)) (s t : FP ρ), w.foldl (fun acc p => (acc.1 + p.1, acc.2 + p.2)) (s, t) =
      ((w.map (·.1)).foldl (· + ·) s, (w.map (·.2)).foldl (· + ·) t) := by
    intro w
    induction w with
    | nil => exact fun _ _ => rfl
    | cons x w ih => exact fun s t => ih _ _
  exact this w 0 0

theorem sumPair_dominated {w : List (FP ρ × FP ρ)} (h : ∀ p ∈ w, Dominated p.1 p.2) : Dominated (sumPair w).1 (sumPair w).2 := by
  rw [sumPair_fst]
  refine Dominated.fsum ?_
  rw [List.forall₂_map_left_iff, List.forall₂_map_right_iff]
  exact List.forall₂_same.2 h

theorem bpTr_dominated {high low close : List (FP ρ)} {v : List (FP ρ × FP ρ)} (e : bpTr high low close = some v)
    (fh : Fins high) (fl : Fins low) (fc : Fins close) (hs : SaneBars (vals high) (vals low) (vals close)) :
    ∀ p ∈ v, Dominated p.1 p.2 := by
  unfold bpTr at e
  unslice e
  obtain ⟨-, -, -, -, -, e⟩ := e
  cases e
  intro p hp
  obtain ⟨⟨h, l, pc, c⟩, hq, rfl⟩ := List.mem_map.1 hp
  obtain ⟨j, hj⟩ := List.mem_iff_getElem?.1 hq
  obtain ⟨e1, e2, e3, e4⟩ := zip4_getElem?.1 hj
  rw [List.getElem?_drop] at e1 e2 e4
  have i1 := fh.isAt e1
  have i2 := fl.isAt e2
  have i3 := (fc _ (List.mem_of_mem_take (List.mem_of_getElem? e3))).is
  have i4 := fc.isAt e4
  have lo := hs.low_le _ _ _ (by rw [vals_getElem?, e2]; rfl) (by rw [vals_getElem?, e4]; rfl)
  have hi := hs.le_high _ _ _ (by rw [vals_getElem?, e4]; rfl) (by rw [vals_getElem?, e1]; rfl)
  have m1 := min_le_left l.val pc.val
  have m2 := le_max_left h.val pc.val
  exact (rounds_sub i4 (is_fmin i2 i3)).dominated (rounds_sub (is_fmax i1 i3) (is_fmin i2 i3)) (by linarith) (by linarith)

/-- C35: in every rounding `ultimate` is NaN or between 0 and 100 for sane bars. -/
theorem ultimate_range (high low close : List (FP ρ)) (w1 w2 w3 : ℕ) (hw : 1 ≤ w3) (h1 : w1 ≤ w3) (h2 : w2 ≤ w3)
    (hn : w3 ≤ high.length) (fh : Fins high) (fl : Fins low) (fc : Fins close) (hs : SaneBars (vals high) (vals low) (vals close)) :
    ReportsP high.length w3 (fun _ y => InRange 0 100 y) (ultimate high low close w1 w2 w3) := by
  have hl : low.length = high.length := by simpa [vals] using hs.low_length
  have hc : close.length = high.length := by simpa [vals] using hs.close_length
  refine (ultimate_aligned high low close w1 w2 w3 hl hc hw h1 h2 hn).reportsP fun out eo i y hi hy => ?_
  obtain ⟨v, ev, e⟩ := Option.bind_eq_some_iff.1 eo
  have dom := bpTr_dominated ev fh fl fc hs
  obtain ⟨ws, ew, e⟩ := Option.bind_eq_some_iff.1 e
  rw [windows_eq _ hw] at ew
  cases ew
  obtain ⟨r, er, e⟩ := Option.bind_eq_some_iff.1 e
  cases e
  rw [List.getElem?_append_right (by simpa using hi)] at hy
  obtain ⟨win, hwin, ey⟩ := mapP_mem er (List.mem_of_getElem? hy)
  rw [usub_of_le h1, usub_of_le h2] at ey
  simp only [Option.bind_eq_bind, Option.bind_some] at ey
  cases ey
  have share : ∀ k, InRange 0 1 ((sumPair (win.drop k)).1 / (sumPair (win.drop k)).2) := fun k =>
    (sumPair_dominated fun p hp => dom p (mem_of_mem_windowsOf hwin (List.mem_of_mem_drop hp))).share
  have s0 := share 0
  rw [List.drop_zero] at s0
  have iff0 : ∀ {n : ℕ} {x : FP ρ}, InRange 0 n x ↔ InRange (-(0 : ℕ)) n x := by simp
  have mulc : ∀ {m k : ℕ} {x c : FP ρ}, InRange 0 m x → c ⇓ k → m * k ≤ 2 ^ 53 → InRange 0 (m * k : ℕ) (x * c) := by
    intro m k x c hx hc hk
    rcases hx with rfl | ⟨r, hr, r0, r1⟩
    · exact Or.inl rfl
    · obtain ⟨u, hu, u0, u1⟩ := (rounds_mul hr hc).between (n := m * k) hk (by positivity) (by push_cast; gcongr)
      exact Or.inr ⟨u, hu, u0, u1⟩
  have a1 := mulc (m := 1) (k := 4) (by simpa using share (w3 - w1)) (c := 4) (isLit 4 (by norm_num)) (by norm_num)
  have a2 := mulc (m := 1) (k := 2) (by simpa using share (w3 - w2)) (c := 2) (isLit 2 (by norm_num)) (by norm_num)
  have b := ((iff0.1 a1).add (iff0.1 a2) (by norm_num) (by norm_num)).add ((iff0 (n := 1)).1 (by simpa using s0)) (by norm_num) (by norm_num)
  norm_num at b
  have seven : (4 + 2 + 1 : FP ρ) ⇓ 7 := by
    have e6 : (4 + 2 : FP ρ) ⇓ 6 := by
      rcases (rounds_add (isLit 4 (by norm_num)) (isLit 2 (by norm_num)) : Rounds ((4 : FP ρ) + 2) (4 + 2)).cases with ⟨-, h⟩ | ⟨h, -⟩
      · have := ρ.nat 6 (by norm_num)
        norm_num at this h
        rwa [this] at h
      · have := ρ.nat 6 (by norm_num)
        have f := ρ.fits_nat 6 (by norm_num)
        norm_num at this h f
        rw [this] at h
        exact absurd f h
    rcases (rounds_add e6 isOne).cases with ⟨-, h⟩ | ⟨h, -⟩
    · have := ρ.nat 7 (by norm_num)
      norm_num at this h
      rwa [this] at h
    · have := ρ.nat 7 (by norm_num)
      have f := ρ.fits_nat 7 (by norm_num)
      norm_num at this h f
      rw [this] at h
      exact absurd f h
  rcases b with hb | ⟨r, hr, r0, r1⟩
  · left
    rw [hb]
    show (100 : FP ρ) * FP.nan / _ = nan
    have n100 : (100 : FP ρ) * FP.nan = FP.nan := by cases (100 : FP ρ) <;> rfl
    rw [n100]; rfl
  · obtain ⟨u, hu, u0, u1⟩ := (rounds_mul (isLit 100 (by norm_num)) hr).between (n := 700) (by norm_num) (by positivity) (by norm_num; linarith)
    obtain ⟨t, ht, t0, t1⟩ := (rounds_div hu seven (by norm_num)).between (n := 100) (by norm_num) (by positivity) (by
      rw [div_le_iff₀ (by norm_num)]; norm_num at u1 ⊢; linarith)
    exact Or.inr ⟨t, ht, t0, by simpa using t1⟩

/-! ## psych -/

theorem psychTerm_range (x : FP ρ) : ∃ r, fmax (signum x) 0 ⇓ r ∧ 0 ≤ r ∧ r ≤ 1 := by
  have h : signum x = FP.nan ∨ (signum x : FP ρ) = fin 1 ∨ (signum x : FP ρ) = fin (-1) := by
    show FP.signum x = _ ∨ FP.signum x = _ ∨ FP.signum x = _
    cases x with
    | nan => exact Or.inl rfl
    | _ => 
      right
      simp only [FP.signum]
      split
      · exact Or.inr rfl
      · exact Or.inl rfl
  rcases h with h | h | h <;> rw [h]
  · exact ⟨0, isZero, le_rfl, zero_le_one⟩
  · exact ⟨_, is_fmax (is_fin 1) isZero, by norm_num, by norm_num⟩
  · exact ⟨_, is_fmax (is_fin (-1)) isZero, by norm_num, by norm_num⟩

/-- C35: whatever the data and the rounding, every reported value of `psych` is a number between 0 and 100. -/
theorem psych_range (data : List (FP ρ)) (w : ℕ) (hw : 1 ≤ w) (hn : w ≤ data.length) (hw' : 100 * w ≤ 2 ^ 53) :
    ReportsP data.length w (fun _ y => ∃ r, y ⇓ r ∧ 0 ≤ r ∧ r ≤ 100) (psych data w) := by
  refine (psych_aligned data w hw hn).reportsP fun out eo i y hi hy => ?_
  run_at eo [psych]
  cases eo
  rw [List.getElem?_append_right (by simpa using hi)] at hy
  obtain ⟨win, hwin, rfl⟩ := List.mem_map.1 (List.mem_of_getElem? hy)
  have hl := windowsOf_mem_length hwin
  have hin : ∀ x ∈ win, ∃ r, x ⇓ r ∧ 0 ≤ r ∧ r ≤ 1 := fun x hx => by
    obtain ⟨⟨p, q⟩, -, rfl⟩ := List.mem_map.1 (mem_of_mem_windowsOf hwin hx)
    exact psychTerm_range _
  have key : ∀ (l : List (FP ρ)) (s : FP ρ) (m : ℕ), (∀ x ∈ l, ∃ r, x ⇓ r ∧ 0 ≤ r ∧ r ≤ 1) → (∃ r, s ⇓ r ∧ 0 ≤ r ∧ r ≤ m) →
      m + l.length ≤ 2 ^ 53 → ∃ r, l.foldl (· + ·) s ⇓ r ∧ 0 ≤ r ∧ r ≤ (m + l.length : ℕ) := by
    intro l
    induction l with
    | nil => intro s m _ hs _; simpa using hs
    | cons x l ih =>
      intro s m h hs hm
      rw [List.length_cons] at hm
      obtain ⟨r, hr, r0, r1⟩ := hs
      obtain ⟨q, hq, q0, q1⟩ := h x (by simp)
      have := ih (s + x) (m + 1) (fun y hy => h y (by simp [hy])) ((rounds_add hr hq).between (by omega) (by positivity) (by push_cast; linarith)) (by omega)
      rw [List.length_cons, show m + (l.length + 1) = m + 1 + l.length by omega]
      exact this
  obtain ⟨r, hr, r0, r1⟩ := key win 0 0 hin ⟨0, isZero, le_rfl, by simp⟩ (by omega)
  rw [hl, Nat.zero_add] at r1
  have hp : (0 : ℝ) < w := by exact_mod_cast hw
  obtain ⟨u, hu, u0, u1⟩ := (rounds_mul hr (isLit 100 (by norm_num))).between (n := 100 * w) hw' (by positivity) (by push_cast; linarith)
  obtain ⟨t, ht, t0, t1⟩ := (rounds_div hu (isFlt (by omega)) hp.ne').between (n := 100) (by norm_num) (by positivity) (by
    rw [div_le_iff₀ hp]; push_cast at u1 ⊢; linarith)
  exact ⟨t, ht, t0, by simpa using t1⟩

/-! ## rsi of any series, tii, crsi -/

theorem zip_percent {g l : List XF} (hg : ∀ x ∈ g, NonNegOrNaN x) (hl : ∀ x ∈ l, NonNegOrNaN x) :
    ∀ y ∈ (g.zip l).map (fun (g, l) => 100 * g / (g + l)), InRange 0 100 y := fun y hy => by
  obtain ⟨⟨a, b⟩, hp, rfl⟩ := List.mem_map.1 hy
  exact (hg a (List.of_mem_zip hp).1).percent (hl b (List.of_mem_zip hp).2)

theorem wilder_nonNegOrNaN {l p : List XF} {w : ℕ} (hw : 1 ≤ w) (h : ∀ x ∈ l, NonNegOrNaN x)
    (hp : Smooth.wilder l w = some p) : ∀ y ∈ p, NonNegOrNaN y := by
  unfold Smooth.wilder at hp
  split at hp
  · cases hp; exact h
  · obtain ⟨k, ek, hp⟩ := Option.bind_eq_some_iff.1 hp
    obtain ⟨-, rfl⟩ := usub_some ek
    obtain ⟨t, et, hp⟩ := Option.bind_eq_some_iff.1 hp
    obtain ⟨-, rfl⟩ := sliceTo_some et
    obtain ⟨u, eu, hp⟩ := Option.bind_eq_some_iff.1 hp
    obtain ⟨-, rfl⟩ := sliceFrom_some eu
    cases hp
    have hk0 : (0 : ℝ) < (w - 1 : ℕ) := by exact_mod_cast (by omega : 0 < w - 1)
    have hwp : (0 : ℝ) < w := by exact_mod_cast hw
    intro y hy
    rcases List.mem_append.1 hy with hy | hy
    · exact Or.inl (List.eq_of_mem_replicate hy)
    refine scanS_invariant (I := NonNegOrNaN) (fun s x hx hs => ?_) ?_ y hy
    · exact ((hs.mul (is_flt _) hk0.le).add (h x (List.mem_of_mem_drop hx))).div (is_flt _) hwp
    · exact (NonNegOrNaN.fsum fun x hx => h x (List.mem_of_mem_take hx)).div (is_flt _) hk0

theorem rsi_mem_range {data out : List XF} {w : ℕ} (hw : 1 ≤ w) (hd : Fins data) (e : rsi data w = some out) :
    ∀ y ∈ out, InRange 0 100 y := by
  obtain ⟨g, eg, e⟩ := Option.bind_eq_some_iff.1 e
  obtain ⟨l, el, e⟩ := Option.bind_eq_some_iff.1 e
  cases e
  have nn : ∀ {l : List XF}, Fins l → (∀ r ∈ vals l, 0 ≤ r) → ∀ x ∈ l, NonNegOrNaN x := fun hf h x hx =>
    Or.inr (Or.inr ⟨x.val, (hf x hx).is, h _ (List.mem_map_of_mem hx)⟩)
  obtain ⟨g1, g2⟩ := gains_is hd
  obtain ⟨l1, l2⟩ := losses_is hd
  intro y hy
  rcases List.mem_cons.1 hy with rfl | hy
  · exact Or.inl rfl
  · exact zip_percent (wilder_nonNegOrNaN hw (nn g1 (by rw [g2]; exact fun r h => rises_nonneg h)) eg)
      (wilder_nonNegOrNaN hw (nn l1 (by rw [l2]; exact fun r h => falls_nonneg h)) el) y hy

theorem fmax_zero_nonneg (x : XF) (hx : x.Finite ∨ x = nan) : NonNegOrNaN (fmax x 0) := by
  rcases hx with hx | rfl
  · exact Or.inr (Or.inr ⟨_, is_fmax hx.is is_zero, le_max_right _ _⟩)
  · exact Or.inr (Or.inr ⟨0, is_zero, le_rfl⟩)

theorem fabs_nonneg (x : XF) (hx : x.Finite ∨ x = nan) : NonNegOrNaN (fabs x) := by
  rcases hx with hx | rfl
  · exact Or.inr (Or.inr ⟨_, is_abs hx.is, abs_nonneg _⟩)
  · exact Or.inl rfl

/-- C35: `tii` is NaN or between 0 and 100. -/
theorem tii_range (data : List XF) (w : ℕ) (hw : 1 ≤ w) (hn : w ≤ data.length + 1) (hd : Fins data) :
    ReportsP data.length ((w + 1) / 2 - 1) (fun _ y => InRange 0 100 y) (tii data w) := by
  refine (tii_aligned data w hw hn).reportsP fun out eo i y hi hy => ?_
  obtain ⟨k, ek, e⟩ := Option.bind_eq_some_iff.1 eo
  obtain ⟨m, em, e⟩ := Option.bind_eq_some_iff.1 e
  obtain ⟨ws, ew, e⟩ := Option.bind_eq_some_iff.1 e
  have hdc : 1 ≤ divCeil w 2 := by rw [divCeil_two]; omega
  rw [windows_eq _ hdc] at ew
  cases ew; cases e
  rcases List.mem_append.1 (List.mem_of_getElem? hy) with hy | hy
  · exact Or.inl (List.eq_of_mem_replicate hy)
  obtain ⟨win, hwin, rfl⟩ := List.mem_map.1 hy
  have fm : ∀ x ∈ m, x.Finite ∨ x = nan := by
    intro x hx
    run_at em [Smooth.sma]
    cases em
    rcases List.mem_append.1 hx with hx | hx
    · exact Or.inr (List.eq_of_mem_replicate hx)
    · obtain ⟨u, hu, rfl⟩ := List.mem_map.1 hx
      exact Or.inl (is_div (is_fsum (hd.window hu)) (is_flt w) (Smooth.natCast_pos hw).ne').1
  have key : ∀ p ∈ win, NonNegOrNaN p.1 ∧ NonNegOrNaN p.2 := fun p hp => by
    obtain ⟨⟨a, x⟩, hq, rfl⟩ := List.mem_map.1 (mem_of_mem_windowsOf hwin hp)
    have hdev : (x - a).Finite ∨ x - a = nan := by
      rcases fm a (List.of_mem_zip hq).1 with h | rfl
      · exact Or.inl (is_sub (hd x (List.of_mem_zip hq).2).is h.is).1
      · right
        show x + -FP.nan = nan
        rw [show (-FP.nan : XF) = FP.nan from rfl, FP.add_nan]; rfl
    refine ⟨fmax_zero_nonneg _ hdev, ?_⟩
    dsimp only
    apply fabs_nonneg
    rcases hdev with h | h
    · exact Or.inl (is_fmin h.is is_zero).1
    · rw [h]; exact Or.inl (is_zero).1
  dsimp only
  rw [sumPair_fst]
  refine NonNegOrNaN.percent (NonNegOrNaN.fsum fun x hx => ?_) (NonNegOrNaN.fsum fun x hx => ?_)
  · obtain ⟨p, hp, rfl⟩ := List.mem_map.1 hx; exact (key p hp).1
  · obtain ⟨p, hp, rfl⟩ := List.mem_map.1 hx; exact (key p hp).2

theorem streak_finite {data : List XF} (hd : Fins data) : Fins ((scanS streakStep ((0, 0) : XF × XF) (pairs data)).map (·.1)) := by
  intro x hx
  obtain ⟨p, hp, rfl⟩ := List.mem_map.1 hx
  refine scanS_invariant (I := fun s : XF × XF => s.1.Finite) (fun s q hq hs => ?_) (show (0 : XF).Finite from is_zero.1) p hp
  obtain ⟨w0, w1⟩ := q
  obtain ⟨f0, f1⟩ := pairs_finite hd hq
  have sg : (signum (w1 - w0)).Finite := by
    have hd' := (is_sub f1.is f0.is).1
    show (FP.signum (w1 - w0)).Finite
    cases h : w1 - w0 with
    | nan => rw [h] at hd'; exact hd'.elim
    | _ => 
      simp only [FP.signum]
      split <;> trivial
  unfold streakStep
  dsimp only
  split
  · exact is_zero.1
  · split
    · exact (is_add hs.is sg.is).1
    · exact sg

theorem count_le (l : List XF) (c : XF) : ∀ n : ℕ, l.foldl (fun acc x => if x <. c then acc + 1 else acc) n ≤ n + l.countP (fun x => x <. c) := by
  induction l with
  | nil => simp
  | cons x l ih =>
    intro n
    rw [List.foldl_cons]
    refine (ih _).trans ?_
    rw [List.countP_cons]
    by_cases h : (x <. c) = true
    · simp only [h, if_true]; omega
    · simp [h]

theorem lt_irrefl_xf (c : XF) : (c <. c) = false := by
  show FP.lt c c = false
  cases c <;> simp [FP.lt]

/-- C35: `crsi` is NaN or between 0 and 100. -/
theorem crsi_range (data : List XF) (w1 w2 w3 : ℕ) (h1 : 1 ≤ w1) (h2 : 1 ≤ w2) (h3 : 1 ≤ w3) (n1 : w1 ≤ data.length)
    (n2 : w2 < data.length) (n3 : w3 ≤ data.length) (hd : Fins data) :
    ReportsP data.length (max w1 (max (w2 + 1) w3)) (fun _ y => InRange 0 100 y) (crsi data w1 w2 w3) := by
  refine (crsi_aligned data w1 w2 w3 h1 h2 h3 n1 n2 n3).reportsP fun out eo i y hi hy => ?_
  obtain ⟨r, er, e⟩ := Option.bind_eq_some_iff.1 eo
  obtain ⟨sr, es, e⟩ := Option.bind_eq_some_iff.1 e
  obtain ⟨ws, ew, e⟩ := Option.bind_eq_some_iff.1 e
  rw [windows_eq _ h3] at ew
  cases ew
  obtain ⟨rk, ek, e⟩ := Option.bind_eq_some_iff.1 e
  cases e
  obtain ⟨⟨x, y, z⟩, hp, rfl⟩ := List.mem_map.1 (List.mem_of_getElem? hy)
  obtain ⟨j, hj⟩ := List.mem_iff_getElem?.1 hp
  obtain ⟨e1, e2, e3⟩ := zip3_getElem?.1 hj
  have rx := rsi_mem_range h1 hd er x (List.mem_of_getElem? e1)
  have ry : InRange 0 100 y := by
    rcases List.mem_cons.1 (List.mem_of_getElem? e2) with rfl | h
    · exact Or.inl rfl
    · exact rsi_mem_range h2 (streak_finite hd) es y h
  have rz : InRange 0 100 z := by
    rcases List.mem_append.1 (List.mem_of_getElem? e3) with h | h
    · exact Or.inl (List.eq_of_mem_replicate h)
    · obtain ⟨win, hwin, ez⟩ := mapP_mem ek h
      have hlen := windowsOf_mem_length hwin
      rw [usub_of_le h3] at ez
      simp only [Option.bind_eq_bind, Option.bind_some] at ez
      obtain ⟨c, hc, ez⟩ := Option.bind_eq_some_iff.1 ez
      cases ez
      apply inRange_pct
      have hcnt : win.reverse.foldl (fun acc x => if x <. c then acc + 1 else acc) 0 ≤ w3 - 1 := by
        refine (count_le _ _ 0).trans ?_
        rw [Nat.zero_add, List.countP_reverse]
        have := List.countP_lt_length_iff (p := fun x => x <. c) (l := win) |>.2 ⟨c, List.mem_of_getElem? hc, by simp [lt_irrefl_xf]⟩
        omega
      refine (quotIs (is_flt _) (is_flt _)).inRange (fun h => ?_) fun h => ?_
      · have h' : w3 - 1 = 0 := by exact_mod_cast h
        have : win.reverse.foldl (fun acc x => if x <. c then acc + 1 else acc) 0 = 0 := by omega
        rw [this, Nat.cast_zero]
      · have hp : (0 : ℝ) < (w3 - 1 : ℕ) := lt_of_le_of_ne (by positivity) (Ne.symm h)
        exact ⟨by positivity, by rw [div_le_one hp]; exact_mod_cast hcnt⟩
  rcases rx with rfl | ⟨a, ha, a0, a1⟩
  · exact Or.inl rfl
  rcases ry with rfl | ⟨b, hb, b0, b1⟩
  · left
    show (x + FP.nan + z) / 3 = nan
    rw [FP.add_nan]; rfl
  rcases rz with rfl | ⟨c, hc, c0, c1⟩
  · left
    show (x + y + FP.nan) / 3 = nan
    rw [FP.add_nan]; rfl
  · exact Or.inr ⟨_, is_div (is_add (is_add ha hb) hc) (is_lit 3) (by norm_num), by positivity, by
      rw [div_le_iff₀ (by norm_num)]; linarith⟩

example : ReportsP 5 2 (fun _ y => InRange 0 100 y)
    (ultimate ([3, 5, 6, 6, 9].map (fin : ℝ → FP ρ)) ([1, 2, 4, 3, 5].map fin) ([2, 4, 5, 3, 9].map fin) 1 2 2) :=
  ultimate_range _ _ _ 1 2 2 (by decide) (by decide) (by decide) (by simp) (fins_map_fin _) (fins_map_fin _)
    (fins_map_fin _) (by simp only [vals_map_fin]; exact saneBars_example)

example : ReportsP 5 3 (fun _ y => InRange 0 100 y) (crsi ([3, 5, 6, 6, 9].map (fin : ℝ → XF)) 2 2 3) :=
  crsi_range _ 2 2 3 (by decide) (by decide) (by decide) (by simp) (by simp) (by simp) (fins_map_fin _)

end Traquer.Momentum

namespace Traquer.Volatility
open FP FloatLit

/-- C35: `relative_vol` is NaN or between 0 and 100. -/
theorem relative_vol_range (close : List XF) (w s : ℕ) (hw : 2 ≤ w) (hs : 1 ≤ s) (hn : w - 1 + (s - 1) < close.length) (hd : Fins close) :
    ReportsP close.length (w - 1 + (s - 1)) (fun _ y => InRange 0 100 y) (relative_vol close w s) := by
  refine (relative_vol_aligned close w s hw hs hn).reportsP fun out eo i y hi hy => ?_
  run_at eo [relative_vol, Distribution.stdDevRaw]
  obtain ⟨g, eg, e⟩ := Option.bind_eq_some_iff.1 eo
  obtain ⟨l, el, e⟩ := Option.bind_eq_some_iff.1 e
  cases e
  rcases List.mem_append.1 (List.mem_of_getElem? hy) with hy | hy
  · exact Or.inl (List.eq_of_mem_replicate hy)
  have term : ∀ (x std : XF), std.Finite → 0 ≤ std.val → NonNegOrNaN (fmax 0 (signum x) * std) := fun x std hf h0 => by
    have h : signum x = FP.nan ∨ (signum x : XF) = fin 1 ∨ (signum x : XF) = fin (-1) := by
      show FP.signum x = _ ∨ FP.signum x = _ ∨ FP.signum x = _
      cases x with
      | nan => exact Or.inl rfl
      | _ => 
        right
        simp only [FP.signum]
        split
        · exact Or.inr rfl
        · exact Or.inl rfl
    rcases h with h | h | h <;> rw [h]
    · refine NonNegOrNaN.mul (Or.inr (Or.inr ⟨0, ?_, le_rfl⟩)) hf.is h0
      have : fmax (0 : XF) FP.nan = 0 := by
        unfold fmax
        rw [if_neg (by rw [is_zero.not_nan]; simp), if_pos (by simp)]
      rw [this]; exact is_zero
    · exact NonNegOrNaN.mul (Or.inr (Or.inr ⟨_, is_fmax is_zero (is_fin 1), le_max_left _ _⟩)) hf.is h0
    · exact NonNegOrNaN.mul (Or.inr (Or.inr ⟨_, is_fmax is_zero (is_fin (-1)), le_max_left _ _⟩)) hf.is h0
  have std : ∀ x ∈ (windowsOf w close).map (Distribution.stdDevWin w), x.Finite ∧ 0 ≤ x.val := fun x hx => by
    obtain ⟨u, hu, rfl⟩ := List.mem_map.1 hx
    have := Distribution.stdDevWin_is (hd.window hu) (windowsOf_mem_length hu) (by omega)
    exact ⟨this.1, by rw [this.2]; exact Real.sqrt_nonneg _⟩
  refine Momentum.zip_percent (Momentum.wilder_nonNegOrNaN hs (fun x hx => ?_) eg) (Momentum.wilder_nonNegOrNaN hs (fun x hx => ?_) el) y hy
  · obtain ⟨p, hp, rfl⟩ := List.mem_map.1 hx
    obtain ⟨⟨a, b, c⟩, hq, rfl⟩ := List.mem_map.1 hp
    obtain ⟨j, hj⟩ := List.mem_iff_getElem?.1 hq
    have := std a (List.mem_of_getElem? (zip3_getElem?.1 hj).1)
    exact term _ _ this.1 this.2
  · obtain ⟨p, hp, rfl⟩ := List.mem_map.1 hx
    obtain ⟨⟨a, b, c⟩, hq, rfl⟩ := List.mem_map.1 hp
    obtain ⟨j, hj⟩ := List.mem_iff_getElem?.1 hq
    have := std a (List.mem_of_getElem? (zip3_getElem?.1 hj).1)
    exact term _ _ this.1 this.2

example : ReportsP 5 2 (fun _ y => InRange 0 100 y) (relative_vol ([3, 5, 6, 6, 9].map (fin : ℝ → XF)) 2 2) :=
  relative_vol_range _ 2 2 (by decide) (by decide) (by simp) (fins_map_fin _)

end Traquer.Volatility
