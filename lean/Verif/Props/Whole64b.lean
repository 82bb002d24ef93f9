import Verif.Props.Whole64
/-! C90, continued: `cmo`, `cog`, `shinohara`, `vhf`, `vortex`, `donchian`. -/

namespace Traquer.Smooth
open FP FloatLit
variable {ρ : Rounding}

theorem gainLoss_whole (data : List (FP ρ)) (c : ℕ) (hd : Wholes c data) (hc : data.length * (2 * c) ≤ 2 ^ 53) (i : ℕ) (hi : i < data.length) :
    ∃ p, (gainLoss data)[i]? = some p ∧ Whole p.1 (gainsOf ((vals data).take (i + 1))) (i * (2 * c)) ∧
      Whole p.2 (lossesOf ((vals data).take (i + 1))) (i * (2 * c)) := by
  induction i with
  | zero =>
    refine ⟨_, rfl, ?_⟩
    have : ((vals data).take (0 + 1)).length = 1 := by simp; omega
    obtain ⟨a, ha⟩ := List.length_eq_one_iff.1 this
    rw [ha, Nat.zero_mul]
    exact ⟨Whole.zero.congr (by simp [gainsOf, pairs]), Whole.zero.congr (by simp [lossesOf, pairs])⟩
  | succ i ih =>
    obtain ⟨p, hp, h1, h2⟩ := ih (by omega)
    have ex := getElem?_of_lt (show i < data.length by omega)
    have ey := getElem?_of_lt hi
    have hx := hd.of_mem (List.getElem_mem (show i < data.length by omega))
    have hy := hd.of_mem (List.getElem_mem hi)
    have hq : (pairs data)[i]? = some (data[i], data[i + 1]) := by
      rw [pairs_getElem?, ex, ey]
    refine ⟨_, scanS_cons_step _ _ _ hp hq, ?_⟩
    have g := gainsOf_take (l := vals data) (i := i) (x := data[i].val) (y := data[i + 1].val)
      (by rw [vals_getElem?, ex]; rfl) (by rw [vals_getElem?, ey]; rfl)
    rw [g.1, g.2]
    have e1 : i * (2 * c) + 2 * c = (i + 1) * (2 * c) := by ring
    have e2 : (i + 1) * (2 * c) ≤ data.length * (2 * c) := Nat.mul_le_mul_right _ hi.le
    have d1 := hy.sub hx (by omega)
    have d2 := hx.sub hy (by omega)
    rw [← Nat.two_mul] at d1 d2
    have m1 := (Whole.zero (ρ := ρ)).fmax d1
    have m2 := (Whole.zero (ρ := ρ)).fmax d2
    rw [Nat.zero_max] at m1 m2
    rw [← e1]
    exact ⟨h1.add m1 (by omega), h2.add m2 (by omega)⟩

/-- The ratio `(gain - loss) / (gain + loss)` of every window of whole numbers: numerator and denominator are exact. -/
theorem cmoRaw_whole (data : List (FP ρ)) (w c : ℕ) (hd : Wholes c data) (h1 : 1 ≤ data.length) (hc : data.length * (8 * c) ≤ 2 ^ 53) (out : List (FP ρ))
    (ho : cmoRaw data w = some out) (i : ℕ) (hi : i + w < data.length) :
    ∃ a b, out[i]? = some (a / b) ∧
      a ⇓ gainsOf (recent (vals data) (w + 1) (i + w)) - lossesOf (recent (vals data) (w + 1) (i + w)) ∧
      b ⇓ gainsOf (recent (vals data) (w + 1) (i + w)) + lossesOf (recent (vals data) (w + 1) (i + w)) := by
  have hl : (gainLoss data).length = data.length := by simp [gainLoss]; omega
  run_at ho [cmoRaw]
  have hg := mapP_getElem? ho i
  have e8 : data.length * (8 * c) = 4 * (data.length * (2 * c)) := by ring
  obtain ⟨p, ep, p1, p2⟩ := gainLoss_whole data c hd (by omega) i (by omega)
  obtain ⟨q, eq, q1, q2⟩ := gainLoss_whole data c hd (by omega) (i + w) hi
  have b1 : i * (2 * c) ≤ data.length * (2 * c) := Nat.mul_le_mul_right _ (by omega)
  have b2 : (i + w) * (2 * c) ≤ data.length * (2 * c) := Nat.mul_le_mul_right _ (by omega)
  have hw : (windowsOf (w + 1) (gainLoss data))[i]? = some (((gainLoss data).drop i).take (w + 1)) :=
    windowsOf_getElem? (by omega)
  have hlen : (((gainLoss data).drop i).take (w + 1)).length = w + 1 := by simp; omega
  have f0 : (((gainLoss data).drop i).take (w + 1))[0]? = some p := by
    rw [List.getElem?_take_of_lt (by omega), List.getElem?_drop]; exact ep
  have f1 : (((gainLoss data).drop i).take (w + 1))[w]? = some q := by
    rw [List.getElem?_take_of_lt (by omega), List.getElem?_drop]; exact eq
  rw [hw] at hg
  simp only [Option.bind_some, hlen, Nat.add_sub_cancel, f0, f1] at hg
  have gw := gains_window (vals data) i w (by simpa using hi)
  have er : recent (vals data) (w + 1) (i + w) = ((vals data).drop i).take (w + 1) := by
    rw [recent, show i + w + 1 - (w + 1) = i by omega]
  rw [er, ← gw.1, ← gw.2]
  have u := q1.sub p1 (by omega)
  have v := q2.sub p2 (by omega)
  exact ⟨_, _, hg, (u.sub v (by omega)).1, (u.add v (by omega)).1⟩

end Traquer.Smooth

namespace Traquer.Momentum
open FP FloatLit
variable {ρ : Rounding}

/-- C90: `cmo` of whole prices, whose totals do not exceed `2^53`, is the exact ratio rounded, times 100 and rounded again. -/
theorem cmo_rounded (data : List (FP ρ)) (w c : ℕ) (hn : w ≤ data.length) (h1 : 1 ≤ data.length) (hd : Wholes c data)
    (hc : data.length * (8 * c) ≤ 2 ^ 53) :
    ReportsP data.length w (fun i y =>
      let up := (rises (recent (vals data) (w + 1) i)).sum
      let down := (falls (recent (vals data) (w + 1) i)).sum
      up + down ≠ 0 → ∃ (q : FP ρ) (r : ℝ), Rounds q ((up - down) / (up + down)) ∧ q ⇓ r ∧ Rounds y (r * 100)) (cmo data w) := by
  obtain ⟨a, ec, lc⟩ := Smooth.cmoRaw_length data w
  run_model [cmo, ec]
  refine ⟨_, rfl, by simp [lc]; omega, fun i hi _ => ?_, fun i hi hin => ?_⟩
  · rw [List.getElem?_append_left (by simpa using hi), nans, List.getElem?_replicate, if_pos hi]
  obtain ⟨a, b, e, ha, hb⟩ := Smooth.cmoRaw_whole data w c hd h1 hc _ ec (i - w) (by omega)
  rw [show i - w + w = i by omega] at ha hb
  refine ⟨a / b * 100, by rw [List.getElem?_append_right (by simpa using hi), nans_length, List.getElem?_map, e]; rfl, ?_⟩
  intro h
  have hu := gainsOf_nonneg (recent (vals data) (w + 1) i)
  have hl := lossesOf_nonneg (recent (vals data) (w + 1) i)
  have q := rounds_div ha hb h
  obtain ⟨s1, s2⟩ := signed_share hu hl h
  have fin : ∃ r, a / b ⇓ r := by
    rcases le_total 0 ((gainsOf (recent (vals data) (w + 1) i) - lossesOf (recent (vals data) (w + 1) i)) /
        (gainsOf (recent (vals data) (w + 1) i) + lossesOf (recent (vals data) (w + 1) i))) with h0 | h0
    · obtain ⟨r, hr, -⟩ := q.between (n := 1) (by norm_num) h0 (by simpa using s2)
      exact ⟨r, hr⟩
    · obtain ⟨r, hr, -⟩ := q.between_neg (n := 1) (by norm_num) (by simpa using s1) h0
      exact ⟨r, hr⟩
  obtain ⟨r, hr⟩ := fin
  exact ⟨_, r, q, hr, rounds_mul hr (isLit 100 (by norm_num))⟩

/-- C90: `cog` of whole prices is the exact quotient of the two totals, rounded once. -/
theorem cog_rounded (data : List (FP ρ)) (w c : ℕ) (hw : 1 ≤ w) (hn : w ≤ data.length + 1) (hd : Wholes c data) (hc : 1 ≤ c) (h53 : w * (c * w) ≤ 2 ^ 53) :
    ReportsP data.length (w - 1) (fun i y =>
      let weighted := ((List.range w).map fun j : ℕ => bar (vals data) (i - j) * ((j : ℝ) + 1)).sum
      let total := (recent (vals data) w i).sum
      total ≠ 0 → Rounds y (-weighted / total)) (cog data w) := by
  run_model [cog]
  refine reportsP_windows hw hn fun i h1 h2 => ?_
  have hl : (recent data w i).length = w := recent_length h1 h2
  have cw : c * w ≤ 2 ^ 53 := le_trans (Nat.le_mul_of_pos_left _ hw) h53
  have w53 : w ≤ 2 ^ 53 := le_trans (Nat.le_mul_of_pos_left _ hc) cw
  have key : List.Forall₂ (fun x a => Whole x a (c * w))
      (((recent data w i).reverse.zip ((List.range' 1 w).map fun x => (flt x : FP ρ))).map fun (e, i) => e * i)
      ((List.range w).map fun j : ℕ => bar (vals data) (i - j) * ((j : ℝ) + 1)) := by
    rw [List.forall₂_iff_get]
    refine ⟨by simp [hl], fun j g1 g2 => ?_⟩
    have hjw : j < w := by simpa using g2
    simp only [List.get_eq_getElem, List.getElem_map, List.getElem_range, List.getElem_zip, List.getElem_range', List.getElem_reverse]
    have g3 : data[i - j]? = some ((recent data w i)[(recent data w i).length - 1 - j]'(by omega)) := by
      rw [← List.getElem?_eq_getElem]
      show _ = ((data.drop (i + 1 - w)).take w)[_]?
      rw [hl, List.getElem?_take_of_lt (by omega), List.getElem?_drop]; congr 1; omega
    have := (hd.bar g3).mul ((Whole.nat (ρ := ρ) (n := 1 + 1 * j) (by omega)).mono (d := w) (by omega)) cw
    refine this.congr ?_
    push_cast; ring
  have s1 := Whole.fsum key (by simpa [hl] using h53)
  have s2 := Whole.fsum (hd.recent w i).forall₂ (by rw [hl, Nat.mul_comm]; exact cw)
  rw [recent_vals] at s2
  intro hne
  exact s1.neg.div s2 hne

end Traquer.Momentum

namespace Traquer.Trend
open FP FloatLit
variable {ρ : Rounding}

/-- C90: both lines of `shinohara` of whole prices are the exact quotient of the totals, rounded once. -/
theorem shinohara_rounded (high low close : List (FP ρ)) (w c : ℕ) (hl : low.length = high.length) (hc : close.length = high.length)
    (hw : 1 ≤ w) (hn : w ≤ high.length) (fh : Wholes c high) (fl : Wholes c low) (fc : Wholes c close) (h53 : 200 * (w * c) ≤ 2 ^ 53) :
    Items high.length (w - 1) (fun i y =>
      (windowSum (vals close) w i - windowSum (vals low) w i ≠ 0 →
        Rounds y.2 (100 * (windowSum (vals high) w i - windowSum (vals close) w i) / (windowSum (vals close) w i - windowSum (vals low) w i))) ∧
      (w ≤ i → windowSum (vals close) w (i - 1) - windowSum (vals low) w i ≠ 0 →
        Rounds y.1 (100 * (windowSum (vals high) w i - windowSum (vals close) w (i - 1)) / (windowSum (vals close) w (i - 1) - windowSum (vals low) w i))))
      (shinohara high low close w) := by
  refine ⟨_, by run_model [shinohara]; rfl, by simp [hl, hc]; omega, ?_⟩
  have tot : ∀ {l : List (FP ρ)}, Wholes c l → ∀ i, Whole (fsum (recent l w i)) (windowSum (vals l) w i) (w * c) := by
    intro l h i
    have hlen : (recent l w i).length ≤ w := by simp [recent]
    have hle : (recent l w i).length * c ≤ w * c := Nat.mul_le_mul_right _ hlen
    have := Whole.fsum (h.recent w i).forall₂ (by omega)
    rw [recent_vals] at this
    exact this.mono hle
  have quot : ∀ {x y z : FP ρ} {a b d : ℝ}, Whole x a (w * c) → Whole y b (w * c) → Whole z d (w * c) → b - d ≠ 0 →
      Rounds (100 * (x - y) / (y - z)) (100 * (a - b) / (b - d)) := by
    intro x y z a b d hx hy hz hne
    have h100 : Whole (100 : FP ρ) 100 100 := ⟨isLit 100 (by norm_num), ⟨100, by simp⟩, by norm_num⟩
    have := h100.mul (hx.sub hy (by omega)) (by omega)
    exact this.div (hy.sub hz (by omega)) hne
  rintro i ⟨s, k⟩ hi hy
  obtain ⟨h1, h2⟩ := List.getElem?_zip_eq_some.1 hy
  refine ⟨?_, fun hw' => ?_⟩
  · rw [List.getElem?_append_right (by simpa using hi), nans_length, List.getElem?_map] at h2
    obtain ⟨⟨h, l, c⟩, e, rfl⟩ := Option.map_eq_some_iff.1 h2
    rw [zip3_getElem?] at e
    simp only [List.getElem?_map, Option.map_eq_some_iff] at e
    obtain ⟨⟨_, e1, rfl⟩, ⟨_, e2, rfl⟩, ⟨_, e3, rfl⟩⟩ := e
    obtain ⟨rfl, -⟩ := windowsOf_at hw e1
    obtain ⟨rfl, -⟩ := windowsOf_at hw e2
    obtain ⟨rfl, -⟩ := windowsOf_at hw e3
    rw [show i - (w - 1) + w - 1 = i by omega]
    exact quot (tot fh i) (tot fc i) (tot fl i)
  · rw [List.getElem?_append_right (by simpa using hw'), nans_length, List.getElem?_map] at h1
    obtain ⟨⟨h, l, c⟩, e, rfl⟩ := Option.map_eq_some_iff.1 h1
    rw [zip3_getElem?] at e
    obtain ⟨e1, e2, e3⟩ := e
    rw [List.getElem?_take_of_lt (by by_contra hh; rw [List.getElem?_eq_none (by rw [List.length_take]; omega)] at e3; cases e3)] at e3
    simp only [List.getElem?_map, List.getElem?_drop, Option.map_eq_some_iff] at e1 e2 e3
    obtain ⟨_, e1, rfl⟩ := e1
    obtain ⟨_, e2, rfl⟩ := e2
    obtain ⟨_, e3, rfl⟩ := e3
    obtain ⟨rfl, -⟩ := windowsOf_at hw e1
    obtain ⟨rfl, -⟩ := windowsOf_at hw e2
    obtain ⟨rfl, -⟩ := windowsOf_at hw e3
    rw [show 1 + (i - w) + w - 1 = i by omega, show i - w + w - 1 = i - 1 by omega]
    exact quot (tot fh i) (tot fc _) (tot fl i)

/-- C90: both lines of `vortex` of whole prices are the exact quotient of the totals, rounded once. -/
theorem vortex_rounded (high low close : List (FP ρ)) (w c : ℕ) (hl : low.length = high.length) (hc : close.length = high.length)
    (hw : 1 ≤ w) (hn : w ≤ high.length) (fh : Wholes c high) (fl : Wholes c low) (fc : Wholes c close) (h53 : w * (2 * c) ≤ 2 ^ 53) :
    Items high.length w (fun i y =>
      let plus := (lastOf (vmPlus (vals high) (vals low)) w i).sum
      let minus := (lastOf (vmMinus (vals high) (vals low)) w i).sum
      let range := (lastOf (trAt (vals high) (vals low) (vals close)) w i).sum
      range ≠ 0 → Rounds y.1 (plus / range) ∧ Rounds y.2 (minus / range)) (vortex high low close w) := by
  obtain ⟨v, ev, lv⟩ := dmBars_yields high low close hl hc (by omega)
  have c53 : 2 * c ≤ 2 ^ 53 := le_trans (Nat.le_mul_of_pos_left _ hw) h53
  have el : ∀ i b, v[i]? = some b →
      Whole (vortexTerm b).1 (vmPlus (vals high) (vals low) (1 + i)) (2 * c) ∧ Whole (vortexTerm b).2.1 (vmMinus (vals high) (vals low) (1 + i)) (2 * c) ∧
      Whole (vortexTerm b).2.2 (trAt (vals high) (vals low) (vals close) (1 + i)) (2 * c) := by
    run_at ev [dmBars]
    cases ev
    rintro i ⟨ph, h, pl, l, pc⟩ hb
    have hi := (List.getElem?_eq_some_iff.1 hb).1
    simp [hl, hc] at hi
    rw [zip5_getElem?] at hb
    obtain ⟨e1, e2, e3, e4, e5⟩ := hb
    rw [List.getElem?_take_of_lt (by omega)] at e1 e3 e5
    rw [List.getElem?_drop] at e2 e4
    have b1 := fh.bar e1
    have b2 := fh.bar e2
    have b3 := fl.bar e3
    have b4 := fl.bar e4
    have b5 := fc.bar e5
    rw [vmPlus, vmMinus, trAt, trueRangeOf, show 1 + i - 1 = i by omega]
    have d1 := b2.sub b3 (by omega)
    have d2 := b4.sub b1 (by omega)
    have d3 := b2.sub b4 (by omega)
    have d4 := b2.sub b5 (by omega)
    have d5 := b4.sub b5 (by omega)
    rw [← Nat.two_mul] at d1 d2 d3 d4 d5
    have := (d3.fmax d4.abs).fmax d5.abs
    rw [max_self, max_self, max_assoc] at this
    exact ⟨d1.abs, d2.abs, this⟩
  set z := v.map vortexTerm with hz
  have lz : z.length = high.length - 1 := by simp [hz, lv]
  have win : ∀ (g : FP ρ × FP ρ × FP ρ → FP ρ) (f : ℕ → ℝ), (∀ i b, v[i]? = some b → Whole (g (vortexTerm b)) (f (1 + i)) (2 * c)) →
      ∀ i, i + w ≤ z.length → List.Forall₂ (fun x a => Whole x a (2 * c)) ((recent z w (i + w - 1)).map g) (lastOf f w (w + i)) := by
    intro g f hg i hi
    rw [List.forall₂_iff_get]
    have hlen := recent_length (l := z) (w := w) (i := i + w - 1) (by omega) (by omega)
    refine ⟨by rw [List.length_map, hlen]; simp [lastOf], fun j g1 g2 => ?_⟩
    rw [List.length_map] at g1
    have g1' : j < w := by rw [← hlen]; exact g1
    have e : (recent z w (i + w - 1))[j]? = z[i + j]? := by
      rw [recent, List.getElem?_take_of_lt (by omega), List.getElem?_drop]; congr 1; omega
    have e2 := getElem?_of_lt (show i + j < v.length by omega)
    have := hg _ _ e2
    rw [hz, List.getElem?_map, e2, ← hz, List.getElem?_eq_getElem g1] at e
    simp only [List.get_eq_getElem, lastOf, List.getElem_map, List.getElem_range]
    rw [Option.some.inj e, show w + i + 1 - w + j = 1 + (i + j) by omega]
    exact this
  run_model [vortex, ev]
  have tot : ∀ x ∈ windowsOf w z, ∃ p n t, reduce3 x = some (p, n, t) := by
    intro x hx
    have := windowsOf_mem_length hx
    cases x with
    | nil => simp at this; omega
    | cons y ys => exact ⟨_, _, _, rfl⟩
  obtain ⟨r, er⟩ := mapP_isSome (f := fun x => (reduce3 x).bind fun p => some (p.1 / p.2.2, p.2.1 / p.2.2)) (l := windowsOf w z) fun x hx => by
    obtain ⟨p, n, t, e⟩ := tot x hx
    simp [e]
  have lr := mapP_length er
  simp only [windowsOf_length] at lr
  erw [er]
  refine items_pad _ (by omega) fun i y hy => ?_
  rw [mapP_getElem? er] at hy
  obtain ⟨x, hx, hy⟩ := Option.bind_eq_some_iff.1 hy
  obtain ⟨rfl, hi⟩ := windowsOf_at hw hx
  have f1 := win (·.1) _ (fun i b hb => (el i b hb).1) i hi
  have f2 := win (·.2.1) _ (fun i b hb => (el i b hb).2.1) i hi
  have f3 := win (·.2.2) _ (fun i b hb => (el i b hb).2.2) i hi
  have hlen := recent_length (l := z) (w := w) (i := i + w - 1) (by omega) (by omega)
  generalize recent z w (i + w - 1) = q at *
  have red : ∀ {x : FP ρ} {v : List (FP ρ)} {r : List ℝ}, List.Forall₂ (fun x a => Whole x a (2 * c)) (x :: v) r → v.length + 1 = w →
      (v.foldl (· + ·) x) ⇓ r.sum := by
    intro x v r h hl
    obtain ⟨a, r', hx, hv, rfl⟩ := List.forall₂_cons_left_iff.1 h
    have e : 2 * c + v.length * (2 * c) = w * (2 * c) := by rw [← hl]; ring
    exact (Whole.foldl hv x a (2 * c) hx (by omega)).1.congr (by simp)
  cases q with
  | nil => simp at hlen; omega
  | cons a q =>
    rw [reduce3_cons] at hy
    cases hy
    rw [List.length_cons] at hlen
    intro h0
    exact ⟨rounds_div (red f1 (by simpa using hlen)) (red f3 (by simpa using hlen)) h0,
      rounds_div (red f2 (by simpa using hlen)) (red f3 (by simpa using hlen)) h0⟩

end Traquer.Trend

namespace Traquer.Volatility
open FP FloatLit
variable {ρ : Rounding}

/-- C90: `vhf` of whole prices is the exact quotient of the range and the distance travelled, rounded once. -/
theorem vhf_rounded (high low close : List (FP ρ)) (w c : ℕ) (hl : low.length = high.length) (hc : close.length = high.length)
    (hw : 1 ≤ w) (hn : w ≤ high.length) (fh : Wholes c high) (fl : Wholes c low) (fc : Wholes c close) (h53 : w * (2 * c) ≤ 2 ^ 53) :
    ReportsP high.length w (fun i y =>
        let range := maxOf (recent (vals high) w i) - minOf (recent (vals low) w i)
        let travelled := (lastOf (fun j => |bar (vals close) j - bar (vals close) (j - 1)|) w i).sum
        travelled ≠ 0 → Rounds y (range / travelled)) (vhf high low close w) := by
  have c53 : 2 * c ≤ 2 ^ 53 := le_trans (Nat.le_mul_of_pos_left _ hw) h53
  have base : ReportsP close.length 1 (fun j y => Whole y |bar (vals close) j - bar (vals close) (j - 1)| (2 * c))
      (some (nans 1 ++ (pairs close).map fun (prev, curr) => fabs (curr - prev))) := by
    refine reportsP_front (by simp; omega) fun i y hy => ?_
    rw [List.getElem?_map] at hy
    obtain ⟨⟨p, q⟩, hp, rfl⟩ := Option.map_eq_some_iff.1 hy
    obtain ⟨h1, h2⟩ := pairs_getElem?_some hp
    have := ((fc.bar h2).sub (fc.bar h1) (by omega)).abs
    rw [Nat.add_comm 1 i, Nat.two_mul]
    exact this
  run_model [vhf]
  refine reportsP_front (by simp [hl, hc]; omega) ?_
  intro i y hy
  rw [List.getElem?_map] at hy
  obtain ⟨⟨d, h, l⟩, hz, rfl⟩ := Option.map_eq_some_iff.1 hy
  rw [zip3_getElem?] at hz
  simp only [List.getElem?_drop] at hz
  obtain ⟨rfl, -⟩ := windowsOf_at hw hz.1
  obtain ⟨rfl, l2⟩ := windowsOf_at hw hz.2.1
  obtain ⟨rfl, l3⟩ := windowsOf_at hw hz.2.2
  have e : 1 + i + w - 1 = w + i := by omega
  rw [e]
  have hr := whole_window (w := w) (i := w + i) base (by omega) (by omega) h53
  have eq : recent (nans 1 ++ (pairs close).map fun (prev, curr) => fabs (curr - prev)) w (w + i) =
      recent ((pairs close).map fun (prev, curr) => fabs (curr - prev)) w (i + w - 1) := by
    rw [show w + i = 1 + (i + w - 1) by omega, ← recent_drop _ _ _ _ (by omega), List.drop_left' (by simp)]
  rw [eq] at hr
  intro hne
  have i1 := (fh.recent w (w + i)).foldMax (recent_ne_nil hw (by omega) (by omega))
  have i2 := (fl.recent w (w + i)).foldMin (recent_ne_nil hw (by omega) (by omega))
  rw [recent_vals] at i1 i2
  exact (i1.sub i2 (by omega)).div hr hne

/-- C90: the middle line of `donchian` of whole prices is the exact midpoint, rounded once (the outer lines are prices). -/
theorem donchian_rounded (high low : List (FP ρ)) (w c : ℕ) (hl : low.length = high.length) (hw : 1 ≤ w) (hn : w ≤ high.length + 1)
    (fh : Wholes c high) (fl : Wholes c low) (h53 : 2 * c ≤ 2 ^ 53) :
    Items high.length (w - 1) (fun i y => (y.1 ⇓ maxOf (recent (vals high) w i)) ∧
      Rounds y.2.1 ((maxOf (recent (vals high) w i) + minOf (recent (vals low) w i)) / 2) ∧ (y.2.2 ⇓ minOf (recent (vals low) w i))) (donchian high low w) := by
  refine ⟨_, by run_model [donchian]; rfl, by simp [hl]; omega, fun i y hi hy => ?_⟩
  rw [List.getElem?_append_right (by simpa using hi), List.length_replicate, List.getElem?_map] at hy
  obtain ⟨⟨h, l⟩, e, rfl⟩ := Option.map_eq_some_iff.1 hy
  obtain ⟨e1, e2⟩ := List.getElem?_zip_eq_some.1 e
  obtain ⟨rfl, l1⟩ := windowsOf_at hw e1
  obtain ⟨rfl, l2⟩ := windowsOf_at hw e2
  rw [show i - (w - 1) + w - 1 = i by omega]
  have i1 := (fh.recent w i).foldMax (recent_ne_nil hw (by omega) (by omega))
  have i2 := (fl.recent w i).foldMin (recent_ne_nil hw (by omega) (by omega))
  rw [recent_vals] at i1 i2
  exact ⟨i1.1, rounds_div (i1.add i2 (by omega)).1 (isLit 2 (by norm_num)) (by norm_num), i2.1⟩

end Traquer.Volatility
