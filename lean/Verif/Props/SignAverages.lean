import Verif.Lemmas.Every
import Verif.Props.MonoSmooth
/-!
# C81: averages of non-negative prices are non-negative, in every rounding
-/

namespace Traquer
open FP FloatLit
variable {ρ : Rounding}

/-- One minus something that is neither negative nor above one. -/
theorem SignClear.one_sub {a : FP ρ} (h : SignClear a) (h1 : NotAbove a 1) : SignClear (1 - a) := by
  obtain ⟨o, e⟩ : ∃ o, (1 : FP ρ) = fin o ∧ o = 1 := by
    rcases is_iff.1 (isOne (ρ := ρ)) with h | ⟨-, h⟩
    · exact ⟨1, h, rfl⟩
    · exact absurd h one_ne_zero
  obtain ⟨e, rfl⟩ := e
  rw [e] at h1 ⊢
  rcases h with rfl | rfl | ⟨r, hr, rfl⟩
  · exact .inl rfl
  · have := notAbove_iff.1 h1 nofun nofun
    exact absurd (top_le_iff.1 this) (EReal.coe_ne_top 1)
  · have h2 := notAbove_iff.1 h1 nofun nofun
    have h3 : r ≤ 1 := EReal.coe_le_coe_iff.1 h2
    show SignClear (FP.add (fin 1) (FP.neg (fin r)))
    by_cases hz : r = 0
    · subst hz
      simp only [FP.neg, if_true, FP.add]
      exact signClear_mk zero_le_one
    · simp only [FP.neg, if_neg hz, FP.add]
      exact signClear_mk (by linarith)

end Traquer

namespace Traquer.Smooth
open FP FloatLit
variable {ρ : Rounding} {data : List (FP ρ)}

/-- C81: the simple average of prices without sign bit has no sign bit. -/
theorem sma_clear (h : ∀ x ∈ data, SignClear x) (window : ℕ) : Every SignClear (sma data window) :=
  .bind fun _ _ => .bind fun _ e => every_warm signClear_nan <| every_map fun _ hw =>
    (SignClear.fsum fun _ hx => h _ (mem_of_windows e hw hx)).div (signClear_flt _)

theorem usub_one {w k : ℕ} (e : usub w 1 = some k) : 1 ≤ w := by
  rw [usub] at e
  split at e
  · assumption
  · exact absurd e (by simp)

/-- C81: the exponential average. -/
theorem ewma_clear (h : ∀ x ∈ data, SignClear x) (window : ℕ) : Every SignClear (ewma data window) := by
  refine .bind fun hd e1 => .bind fun k e2 => .bind fun rest e3 => every_warm signClear_nan ?_
  have hi : SignClear (fsum hd / flt window) := (SignClear.fsum fun x hx => h x (mem_of_sliceTo e1 hx)).div (signClear_flt _)
  intro y hy
  rcases List.mem_cons.1 hy with rfl | hy
  · exact hi
  refine scanS_all hi (fun s hs x hx => ?_) y hy
  have ha : SignClear (2 / flt (window + 1) : FP ρ) := (signClear_flt 2).div (signClear_flt _)
  exact ((h x (mem_of_sliceFrom e3 hx)).mul ha).add (hs.mul (ha.one_sub (alpha_notAbove_one window (usub_one e2))))

/-- C81: Wilder's average. -/
theorem wilder_clear (h : ∀ x ∈ data, SignClear x) (window : ℕ) : Every SignClear (wilder data window) := by
  unfold wilder
  split
  · exact every_some.2 h
  · refine .bind fun k _ => .bind fun hd e1 => .bind fun rest e2 => every_warm signClear_nan ?_
    refine scanS_all ((SignClear.fsum fun x hx => h x (mem_of_sliceTo e1 hx)).div (signClear_flt _)) fun s hs x hx => ?_
    exact ((hs.mul (signClear_flt k)).add (h x (mem_of_sliceFrom e2 hx))).div (signClear_flt _)

theorem dot_clear {weights w : List (FP ρ)} (hw : ∀ x ∈ weights, SignClear x) (h : ∀ x ∈ w, SignClear x) : SignClear (dot weights w) := by
  refine SignClear.fsum (every_map ?_)
  rintro ⟨a, b⟩ hab
  exact (h a (List.of_mem_zip hab).1).mul (hw b (List.of_mem_zip hab).2)

/-- C81: the linearly weighted average. -/
theorem wma_clear (h : ∀ x ∈ data, SignClear x) (window : ℕ) : Every SignClear (wma data window) :=
  .bind fun _ _ => .bind fun _ e => every_warm signClear_nan <| every_map fun _ hw =>
    dot_clear (every_map fun i _ => (signClear_flt i).div ((signClear_flt _).div (signClear_flt 2))) fun _ hx => h _ (mem_of_windows e hw hx)

/-- C81: the Pascal weighted average. -/
theorem pwma_clear (h : ∀ x ∈ data, SignClear x) (window : ℕ) : Every SignClear (pwma data window) :=
  .bind fun _ _ => .bind fun _ _ => .bind fun _ e => every_warm signClear_nan <| every_map fun _ hw =>
    dot_clear (every_map fun i _ => (signClear_flt i).div (signClear_flt _)) fun _ hx => h _ (mem_of_windows e hw hx)

/-- C81: the Fibonacci weighted average. -/
theorem fwma_clear (h : ∀ x ∈ data, SignClear x) (window : ℕ) : Every SignClear (fwma data window) := by
  refine .bind fun w2 _ => .bind fun _ _ => .bind fun _ e => every_warm signClear_nan <| every_map fun _ hw =>
    dot_clear ?_ fun _ hx => h _ (mem_of_windows e hw hx)
  obtain ⟨h1, h2⟩ := fibScan_signClear (ρ := ρ) w2 (signClear_flt 1) (signClear_flt 1) (signClear_flt 2)
  refine every_map fun i hi => SignClear.div ?_ h2
  rcases List.mem_cons.1 hi with rfl | hi
  · exact signClear_flt 1
  rcases List.mem_cons.1 hi with rfl | hi
  · exact signClear_flt 1
  · exact h1 _ hi

/-- C81: the triangular average. -/
theorem trima_clear (h : ∀ x ∈ data, SignClear x) (window : ℕ) : Every SignClear (trima data window) :=
  .bind fun m e => sma_clear (sma_clear h _ m e) _

theorem weighted_clear {weights v : List (FP ρ)} (hw : ∀ x ∈ weights, SignClear x) (h : ∀ x ∈ v, SignClear x) :
    let r := (weights.zip v).foldl (fun (st : FP ρ × FP ρ) (wv : FP ρ × FP ρ) => (st.1 + wv.1 * wv.2, st.2 + wv.1)) (0, 0)
    SignClear (r.1 / r.2) := by
  have key : ∀ (l : List (FP ρ × FP ρ)) (s : FP ρ × FP ρ), SignClear s.1 ∧ SignClear s.2 → (∀ p ∈ l, SignClear p.1 ∧ SignClear p.2) →
      SignClear (l.foldl (fun st wv => (st.1 + wv.1 * wv.2, st.2 + wv.1)) s).1 ∧
        SignClear (l.foldl (fun st wv => (st.1 + wv.1 * wv.2, st.2 + wv.1)) s).2 := by
    intro l
    induction l with
    | nil => exact fun s hs _ => hs
    | cons p l ih =>
      refine fun s hs hl => ih _ ⟨hs.1.add ?_, hs.2.add ?_⟩ fun q hq => hl q (by simp [hq])
      · exact (hl p (by simp)).1.mul (hl p (by simp)).2
      · exact (hl p (by simp)).1
  obtain ⟨h1, h2⟩ := key (weights.zip v) (0, 0) ⟨signClear_zero, signClear_zero⟩ fun p hp =>
    ⟨hw _ (List.of_mem_zip hp).1, h _ (List.of_mem_zip hp).2⟩
  exact h1.div h2

/-- C81: the Gaussian kernel average. -/
theorem kernel_clear (h : ∀ x ∈ data, SignClear x) (sigma : FP ρ) : ∀ y ∈ kernel data sigma, SignClear y :=
  every_map fun _ _ => weighted_clear (every_map fun _ _ => signClear_exp _) fun x hx =>
    h x (List.mem_of_mem_take (List.mem_reverse.1 (List.mem_of_mem_take hx)))

end Traquer.Smooth

namespace Traquer.Volume
open FP FloatLit
variable {ρ : Rounding} {data volume high low close : List (FP ρ)}

/-- C81: the volume weighted average. -/
theorem vwma_clear (h : ∀ x ∈ data, SignClear x) (hv : ∀ x ∈ volume, SignClear x) (window : ℕ) : Every SignClear (vwma data volume window) := by
  refine .bind fun _ _ => .bind fun ds e1 => .bind fun vs e2 => every_warm signClear_nan <| every_map ?_
  rintro ⟨d, v⟩ hdv
  obtain ⟨hd, hv'⟩ := List.of_mem_zip hdv
  refine (SignClear.foldl ?_ signClear_zero).div (SignClear.fsum fun x hx => hv x (mem_of_windows e2 hv' hx))
  rintro ⟨a, b⟩ hab
  exact (h a (mem_of_windows e1 hd (List.of_mem_zip hab).1)).mul (hv b (mem_of_windows e2 hv' (List.of_mem_zip hab).2))

/-- C81: the positive volume index of non-negative prices. -/
theorem pvi_clear (h : ∀ x ∈ data, SignClear x) (volume : List (FP ρ)) : ∀ y ∈ pvi data volume, SignClear y := by
  intro y hy
  rcases List.mem_cons.1 hy with rfl | hy
  · exact signClear_nan
  refine scanS_all (signClear_flt 100) ?_ y hy
  rintro s hs ⟨c, v⟩ hcv
  dsimp only
  split
  · obtain ⟨h1, h2⟩ := mem_of_pairs (List.of_mem_zip hcv).1
    exact hs.mul ((h _ h2).div (h _ h1))
  · exact hs

/-- C81: the negative volume index of non-negative prices. -/
theorem nvi_clear (h : ∀ x ∈ data, SignClear x) (volume : List (FP ρ)) : ∀ y ∈ nvi data volume, SignClear y := by
  intro y hy
  rcases List.mem_cons.1 hy with rfl | hy
  · exact signClear_nan
  refine scanS_all (signClear_flt 100) ?_ y hy
  rintro s hs ⟨c, v⟩ hcv
  dsimp only
  split
  · obtain ⟨h1, h2⟩ := mem_of_pairs (List.of_mem_zip hcv).1
    exact hs.mul ((h _ h2).div (h _ h1))
  · exact hs

end Traquer.Volume
