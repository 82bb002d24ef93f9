import Verif.Lemmas.Bars
import Verif.Lemmas.Indexed
import Verif.Props.ShapeVolatility
/-!
# C38: Heikin-Ashi candles
-/

namespace Traquer.Volatility
open FP FloatLit
variable {ρ : Rounding}

/-- The candles after the first come from the scan over the bars after the first. -/
theorem heikin_ashi_eq {openp high low close : List (FP ρ)} {out : List (FP ρ × FP ρ × FP ρ × FP ρ)}
    (e : heikin_ashi openp high low close = some out) :
    ∃ o h l c bars, zip4 openp high low close = (o, h, l, c) :: bars ∧
      out = ((o + c) / 2, h, l, (o + h + l + c) / 4) :: scan haStep ((o + c) / 2, (o + h + l + c) / 4) bars := by
  unfold heikin_ashi at e
  match openp, high, low, close with
  | [], _, _, _ => simp at e
  | _ :: _, [], _, _ => simp at e
  | _ :: _, _ :: _, [], _ => simp at e
  | _ :: _, _ :: _, _ :: _, [] => simp at e
  | o :: os, h :: hs, l :: ls, c :: cs =>
    simp [sliceFrom] at e
    exact ⟨o, h, l, c, _, rfl, e.symm⟩

/-- C38, in every rounding: from the second candle on, where open and close are numbers they lie between low and high,
and so do the high and the low of the bar itself. -/
theorem heikin_ashi_contains (openp high low close : List (FP ρ)) (fh : Fins high) (fl : Fins low)
    {out : List (FP ρ × FP ρ × FP ρ × FP ρ)} (e : heikin_ashi openp high low close = some out) {i : ℕ}
    {o h l c bh bl : FP ρ} {a b : ℝ} (ho : out[i + 1]? = some (o, h, l, c)) (eh : high[i + 1]? = some bh) (el : low[i + 1]? = some bl)
    (ha : o ⇓ a) (hb : c ⇓ b) :
    ∃ u d, h ⇓ u ∧ l ⇓ d ∧ d ≤ a ∧ a ≤ u ∧ d ≤ b ∧ b ≤ u ∧ bh.val ≤ u ∧ d ≤ bl.val := by
  obtain ⟨o0, h0, l0, c0, bars, hz, rfl⟩ := heikin_ashi_eq e
  rw [List.getElem?_cons_succ] at ho
  have key := scan_idx (I := fun _ _ => True) (P := fun j (p : FP ρ × FP ρ × FP ρ × FP ρ) => ∀ bh bl a b, high[j + 1]? = some bh →
    low[j + 1]? = some bl → p.1 ⇓ a → p.2.2.2 ⇓ b →
      ∃ u d, p.2.1 ⇓ u ∧ p.2.2.1 ⇓ d ∧ d ≤ a ∧ a ≤ u ∧ d ≤ b ∧ b ≤ u ∧ bh.val ≤ u ∧ d ≤ bl.val) ?_ trivial i _ ho
  · exact key bh bl a b eh el ha hb
  · rintro j s ⟨x1, x2, x3, x4⟩ hx -
    refine ⟨trivial, fun bh bl a b eh el i1 i2 => ?_⟩
    have := zip4_getElem?.1 (show (zip4 openp high low close)[j + 1]? = some (x1, x2, x3, x4) by rw [hz]; exact hx)
    cases this.2.1.symm.trans eh
    cases this.2.2.1.symm.trans el
    refine ⟨_, _, is_fmax (is_fmax (fh.isAt eh) i1) i2, is_fmin (is_fmin (fl.isAt el) i1) i2, ?_, ?_, ?_, ?_, ?_, ?_⟩ <;> simp

/-- C38: over bars whose open and close lie between low and high, the close of every Heikin-Ashi candle is the mean of the
bar's four prices, its open is the mean of the previous candle's open and close (of the bar's own for the first), its high and
low are the extremes of the bar's high (low) and the candle's open and close. -/
theorem heikin_ashi_candles (openp high low close : List XF) (ho : openp.length = high.length) (hl : low.length = high.length)
    (hc : close.length = high.length) (hn : 1 ≤ high.length) (fo : Fins openp) (fh : Fins high) (fl : Fins low) (fc : Fins close)
    (hs : ∀ b ∈ zip4 (vals openp) (vals high) (vals low) (vals close),
      b.2.2.1 ≤ b.1 ∧ b.1 ≤ b.2.1 ∧ b.2.2.1 ≤ b.2.2.2 ∧ b.2.2.2 ≤ b.2.1) :
    ∃ O C : ℕ → ℝ, (∀ o c, (vals openp)[0]? = some o → (vals close)[0]? = some c → O 0 = (o + c) / 2) ∧
      (∀ i, i + 1 < high.length → O (i + 1) = (O i + C i) / 2) ∧
      Items high.length 0 (fun i p => ∀ o h l c, (zip4 (vals openp) (vals high) (vals low) (vals close))[i]? = some (o, h, l, c) →
        C i = (o + h + l + c) / 4 ∧ p.1 ⇓ O i ∧ p.2.2.2 ⇓ C i ∧ p.2.1 ⇓ max (max h (O i)) (C i) ∧
          p.2.2.1 ⇓ min (min l (O i)) (C i)) (heikin_ashi openp high low close) := by
  obtain ⟨out, e, lo⟩ := heikin_ashi_yields openp high low close ho hl hc hn
  obtain ⟨o0, h0, l0, c0, bars, hz, rfl⟩ := heikin_ashi_eq e
  have hz' := zip4_vals openp high low close
  rw [hz] at hz'
  have f0 := zip4_fins fo fh fl fc (b := (o0, h0, l0, c0)) (by rw [hz]; simp)
  have fb : ∀ b ∈ bars, b.1.Finite ∧ b.2.1.Finite ∧ b.2.2.1.Finite ∧ b.2.2.2.Finite := fun b hb =>
    zip4_fins fo fh fl fc (by rw [hz]; simp [hb])
  let cl : ℝ × ℝ × ℝ × ℝ → ℝ := fun b => (b.1 + b.2.1 + b.2.2.1 + b.2.2.2) / 4
  let C : ℕ → ℝ := fun i => cl (((zip4 openp high low close).map barVal)[i]?.getD (0, 0, 0, 0))
  let O : ℕ → ℝ := fun i => Nat.rec ((o0.val + c0.val) / 2) (fun i r => (r + C i) / 2) i
  have hC0 : C 0 = (o0.val + h0.val + l0.val + c0.val) / 4 := by simp [C, hz, cl, barVal]
  refine ⟨O, C, ?_, fun i _ => rfl, _, e, lo, fun i p _ hp o h l c hb => ?_⟩
  · intro o c e1 e2
    have := zip4_getElem?.1 (show (zip4 openp high low close)[0]? = some (o0, h0, l0, c0) by rw [hz]; rfl)
    rw [vals_getElem?, this.1] at e1
    rw [vals_getElem?, this.2.2.2] at e2
    cases e1; cases e2
    rfl
  · have hCi : C i = (o + h + l + c) / 4 := by
      simp only [C, ← zip4_vals, hb]
      rfl
    refine ⟨hCi, ?_⟩
    have hsi := hs _ (List.mem_of_getElem? hb)
    cases i with
    | zero =>
      simp only [hz', List.map_cons, List.getElem?_cons_zero, Option.some.injEq] at hb
      cases hb
      simp only [List.getElem?_cons_zero, Option.some.injEq] at hp
      subst hp
      dsimp only [barVal] at hsi
      have i1 : (o0 + c0) / 2 ⇓ O 0 := is_div (is_add f0.1.is f0.2.2.2.is) (is_lit 2) (by norm_num)
      have i2 : (o0 + h0 + l0 + c0) / 4 ⇓ C 0 :=
        (is_div (is_add (is_add (is_add f0.1.is f0.2.1.is) f0.2.2.1.is) f0.2.2.2.is) (is_lit 4) (by norm_num)).congr hC0.symm
      have hO : O 0 = (o0.val + c0.val) / 2 := rfl
      obtain ⟨s1, s2, s3, s4⟩ := hsi
      refine ⟨i1, i2, f0.2.1.is.congr ?_, f0.2.2.1.is.congr ?_⟩
      · rw [max_eq_left, max_eq_left]
        · rw [hO]; linarith
        · exact le_max_of_le_left (by rw [hC0]; linarith)
      · rw [min_eq_left, min_eq_left]
        · rw [hO]; linarith
        · exact min_le_of_left_le (by rw [hC0]; linarith)
    | succ i =>
      rw [List.getElem?_cons_succ] at hp
      have key := scan_idx (I := fun j (s : XF × XF) => s.1 ⇓ O j ∧ s.2 ⇓ C j)
        (P := fun j (p : XF × XF × XF × XF) => ∀ o h l c, (zip4 (vals openp) (vals high) (vals low) (vals close))[j + 1]? = some (o, h, l, c) →
          p.1 ⇓ O (j + 1) ∧ p.2.2.2 ⇓ C (j + 1) ∧ p.2.1 ⇓ max (max h (O (j + 1))) (C (j + 1)) ∧
          p.2.2.1 ⇓ min (min l (O (j + 1))) (C (j + 1))) ?_ ?_ i _ hp
      · exact key o h l c hb
      · rintro j s ⟨x1, x2, x3, x4⟩ hx ⟨i1, i2⟩
        obtain ⟨g1, g2, g3, g4⟩ := fb _ (List.mem_of_getElem? hx)
        have hCj : C (j + 1) = (x1.val + x2.val + x3.val + x4.val) / 4 := by simp [C, hz, hx, cl, barVal]
        have j2 : (x1 + x2 + x3 + x4) / 4 ⇓ C (j + 1) :=
          (is_div (is_add (is_add (is_add g1.is g2.is) g3.is) g4.is) (is_lit 4) (by norm_num)).congr hCj.symm
        have j1 : (s.1 + s.2) / 2 ⇓ O (j + 1) := is_div (is_add i1 i2) (is_lit 2) (by norm_num)
        refine ⟨⟨j1, j2⟩, fun o h l c hb => ?_⟩
        rw [zip4_vals, hz, List.map_cons, List.getElem?_cons_succ, List.getElem?_map, hx] at hb
        cases hb
        exact ⟨j1, j2, is_fmax (is_fmax g2.is j1) j2, is_fmin (is_fmin g3.is j1) j2⟩
      · exact ⟨is_div (is_add f0.1.is f0.2.2.2.is) (is_lit 2) (by norm_num),
          (is_div (is_add (is_add (is_add f0.1.is f0.2.1.is) f0.2.2.1.is) f0.2.2.2.is) (is_lit 4) (by norm_num)).congr hC0.symm⟩

/-- C38: every Heikin-Ashi candle is a candle: open and close lie between low and high. -/
theorem heikin_ashi_sane (openp high low close : List XF) (ho : openp.length = high.length) (hl : low.length = high.length)
    (hc : close.length = high.length) (hn : 1 ≤ high.length) (fo : Fins openp) (fh : Fins high) (fl : Fins low) (fc : Fins close)
    (hs : ∀ b ∈ zip4 (vals openp) (vals high) (vals low) (vals close),
      b.2.2.1 ≤ b.1 ∧ b.1 ≤ b.2.1 ∧ b.2.2.1 ≤ b.2.2.2 ∧ b.2.2.2 ≤ b.2.1) :
    Items high.length 0 (fun _ p => ∃ o h l c, p.1 ⇓ o ∧ p.2.1 ⇓ h ∧ p.2.2.1 ⇓ l ∧ p.2.2.2 ⇓ c ∧ l ≤ o ∧ o ≤ h ∧ l ≤ c ∧ c ≤ h)
      (heikin_ashi openp high low close) := by
  obtain ⟨O, C, -, -, h⟩ := heikin_ashi_candles openp high low close ho hl hc hn fo fh fl fc hs
  refine h.mono fun i p _ hi hp => ?_
  have hlen : i < (zip4 (vals openp) (vals high) (vals low) (vals close)).length := by simp [zip4_eq]; omega
  obtain ⟨⟨o, h, l, c⟩, hb⟩ : ∃ b, (zip4 (vals openp) (vals high) (vals low) (vals close))[i]? = some b := ⟨_, List.getElem?_eq_getElem hlen⟩
  obtain ⟨-, i1, i2, i3, i4⟩ := hp o h l c hb
  exact ⟨_, _, _, _, i1, i3, i4, i2, by simp, by simp, by simp, by simp⟩

example : Items 3 0 (fun _ p => ∃ o h l c, p.1 ⇓ o ∧ p.2.1 ⇓ h ∧ p.2.2.1 ⇓ l ∧ p.2.2.2 ⇓ c ∧ l ≤ o ∧ o ≤ h ∧ l ≤ c ∧ c ≤ h)
    (heikin_ashi ([2, 4, 3].map (fin : ℝ → XF)) ([3, 5, 4].map fin) ([1, 2, 3].map fin) ([2, 3, 4].map fin)) :=
  heikin_ashi_sane _ _ _ _ rfl rfl rfl (by simp) (fins_map_fin _) (fins_map_fin _) (fins_map_fin _) (fins_map_fin _) (by
    simp only [vals_map_fin]
    intro b hb
    simp [zip4] at hb
    rcases hb with rfl | rfl | rfl <;> norm_num)

end Traquer.Volatility
