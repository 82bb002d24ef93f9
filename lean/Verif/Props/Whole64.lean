import Verif.Lemmas.Whole
import Verif.Props.Ratio64c
/-!
# C90: series of whole numbers in any rounding

Prices in ticks and volumes in shares are whole numbers. As long as the totals stay below `2^53` their sums are exact in binary64 (and in every
rounding that keeps whole numbers up to `2^53`), so what is a total is reported exactly and what is one quotient of totals is the exact value
rounded once.
-/

namespace Traquer
open FP FloatLit
open scoped BigOperators

variable {ρ : Rounding}

/-- A scan that adds a whole number per item. -/
theorem scan_adds_whole {σ α : Type} {f : σ → α → Option (σ × FP ρ)} {acc : σ → FP ρ} {l : List α} {k c : ℕ} {t : ℕ → ℝ} {J : ℕ → σ → Prop}
    (h : ∀ i s x s' y, l[i]? = some x → J i s → f s x = some (s', y) → J (i + 1) s' ∧ y = acc s' ∧
      ∀ u d, d + c ≤ 2 ^ 53 → Whole (acc s) u d → Whole (acc s') (u + t (i + k)) (d + c)) {s : σ} (h0 : J 0 s) (hs : Whole (acc s) 0 0)
    (hc : l.length * c ≤ 2 ^ 53) {o : List (FP ρ)}
    (ho : scanM f s l = some o) (i : ℕ) (y : FP ρ) (hy : o[i]? = some y) : y ⇓ ∑ j ∈ Finset.Ico k (i + k + 1), t j := by
  refine scanM_idx (I := fun i s => J i s ∧ Whole (acc s) (∑ j ∈ Finset.Ico k (i + k), t j) (i * c))
    (P := fun i y => y ⇓ ∑ j ∈ Finset.Ico k (i + k + 1), t j) ?_ ⟨h0, by simpa using hs⟩ ho i y hy
  rintro i s x s' y hx ⟨hj, ha⟩ e
  obtain ⟨g1, rfl, g2⟩ := h i s x s' y hx hj e
  have hi := (List.getElem?_eq_some_iff.1 hx).1
  have e1 : i * c + c = (i + 1) * c := by ring
  have e2 : (i + 1) * c ≤ l.length * c := Nat.mul_le_mul_right _ hi
  have := g2 _ _ (by omega) ha
  rw [← Finset.sum_Ico_succ_top (by omega), e1] at this
  exact ⟨⟨g1, by rw [show i + 1 + k = i + k + 1 by omega]; exact this⟩, this.1⟩

theorem whole_dir {v : FP ρ} {b : ℝ} {c : ℕ} (hv : Whole v b c) (hc : c ≤ 2 ^ 53) {s : FP ρ} {p : Prop} [Decidable p]
    (hs : s ⇓ if p then -1 else 1) : Whole (s * v) (if p then -b else b) c := by
  have h1 : Whole s (if p then -1 else 1) 1 := by
    refine ⟨hs, ?_, ?_⟩
    · split
      · exact ⟨-1, by simp⟩
      · exact ⟨1, by simp⟩
    · split <;> simp
  have := h1.mul hv (by omega)
  rw [Nat.one_mul] at this
  refine this.congr ?_
  split <;> ring

end Traquer

namespace Traquer.Smooth
open FP FloatLit
variable {ρ : Rounding}

/-- C90: `sma` of whole numbers is the exact mean, rounded once. -/
theorem sma_rounded (data : List (FP ρ)) (w c : ℕ) (hw : 1 ≤ w) (hn : w ≤ data.length + 1) (hd : Wholes c data) (hc : 1 ≤ c) (h53 : w * c ≤ 2 ^ 53) :
    ReportsP data.length (w - 1) (fun i y => Rounds y (mean (recent (vals data) w i))) (sma data w) := by
  run_model [sma]
  refine reportsP_windows hw hn fun i h1 h2 => ?_
  have hl : (recent data w i).length = w := recent_length h1 h2
  have := Whole.fsum (hd.recent w i).forall₂ (by rwa [hl])
  rw [recent_vals] at this
  rw [mean, recent_length h1 (by simpa using h2)]
  have hw' : w ≤ 2 ^ 53 := le_trans (Nat.le_mul_of_pos_right _ hc) h53
  exact rounds_div this.1 (isFlt hw') (by positivity)

end Traquer.Smooth

namespace Traquer.Volume
open FP FloatLit
open scoped BigOperators
variable {ρ : Rounding}

/-- C90: `obv` of whole volumes is exact, whatever the prices. -/
theorem obv_exact (close volume : List (FP ρ)) (c : ℕ) (hv : volume.length = close.length) (hn : 1 ≤ close.length) (hc : Fins close)
    (hf : Wholes c volume) (hz : ∀ x ∈ close, x ≠ negz) (hc' : close.length * c ≤ 2 ^ 53) :
    Accumulates close.length 1 (obvTerm (vals close) (vals volume)) (obv close volume) := by
  refine (obv_aligned close volume hv hn).reportsP fun out ho i y hi hy => ?_
  obtain ⟨r, er, ho⟩ := Option.bind_eq_some_iff.1 ho
  cases ho
  obtain ⟨i, rfl⟩ : ∃ j, i = j + 1 := ⟨i - 1, by omega⟩
  rw [List.getElem?_cons_succ] at hy
  refine scan_adds_whole (acc := fun s => s) (J := fun _ _ => True) (c := c) ?_ trivial Whole.zero ?_ er i y hy
  · rintro i s ⟨j, p⟩ s' y hx - e
    rw [List.getElem?_zip_eq_some] at hx
    obtain ⟨hj, hp⟩ := hx
    obtain rfl := range_getElem hj
    obtain ⟨v, ev, e⟩ := Option.bind_eq_some_iff.1 e
    simp only [Option.some.injEq, Prod.mk.injEq] at e
    obtain ⟨rfl, rfl⟩ := e
    refine ⟨trivial, rfl, fun u d hd hu => ?_⟩
    obtain ⟨h1, h2⟩ := pairs_getElem?_some hp
    have s1 := signum_diff (hc _ (List.mem_of_getElem? h2)).is (hc _ (List.mem_of_getElem? h1)).is (.inr (hz _ (List.mem_of_getElem? h2)))
    rw [obvTerm, Nat.add_sub_cancel, bar_vals h1, bar_vals h2]
    exact hu.add (whole_dir (hf.bar ev) (by omega) s1) hd
  · refine le_trans (Nat.mul_le_mul_right _ ?_) hc'
    simp

/-- C90: `tvi` of whole prices, volumes and tick is exact. -/
theorem tvi_exact (close volume : List (FP ρ)) (tick : FP ρ) (c m : ℕ) (hv : volume.length = close.length) (hn : 1 ≤ close.length)
    (hc : Wholes m close) (hm : 2 * m ≤ 2 ^ 53) (hf : Wholes c volume) (ht : tick.Finite) (hc' : close.length * c ≤ 2 ^ 53) :
    Accumulates close.length 1 (tviTerm (vals close) (vals volume) tick.val) (tvi close volume tick) := by
  refine (tvi_aligned close volume tick hv hn).reportsP fun out ho i y hi hy => ?_
  obtain ⟨n, en, ho⟩ := Option.bind_eq_some_iff.1 ho
  obtain ⟨-, rfl⟩ := usub_some en
  obtain ⟨_, e1, ho⟩ := Option.bind_eq_some_iff.1 ho
  obtain ⟨-, rfl⟩ := sliceTo_some e1
  obtain ⟨_, e1, ho⟩ := Option.bind_eq_some_iff.1 ho
  obtain ⟨-, rfl⟩ := sliceFrom_some e1
  obtain ⟨_, e1, ho⟩ := Option.bind_eq_some_iff.1 ho
  obtain ⟨-, rfl⟩ := sliceFrom_some e1
  cases ho
  obtain ⟨i, rfl⟩ : ∃ j, i = j + 1 := ⟨i - 1, by omega⟩
  rw [List.getElem?_cons_succ] at hy
  refine scan_adds_whole (acc := fun s => s.2) (J := fun i s => s.1 = tickUp (vals close) tick.val i) (f := fun s x => some (_, _)) (c := c)
    ?_ rfl Whole.zero ?_ (scanM_some _ _ _) i y hy
  · rintro i s ⟨p, q, v⟩ s' y hx hj e
    obtain ⟨e1, e2, e3⟩ := zip3_getElem?.1 hx
    rw [List.getElem?_drop, add_comm] at e2 e3
    have e1 : close[i]? = some p := by
      rw [List.getElem?_take] at e1
      split at e1
      · exact e1
      · cases e1
    simp only [Option.some.injEq, Prod.mk.injEq] at e
    obtain ⟨rfl, rfl⟩ := e
    have cp := hc.of_mem (List.mem_of_getElem? e1)
    have cc := hc.of_mem (List.mem_of_getElem? e2)
    have key : (if tick <. q - p then true else if tick <. p - q then false else s.1) = tickUp (vals close) tick.val (i + 1) := by
      rw [is_lt ht.is (cc.sub cp (by omega)).1, is_lt ht.is (cp.sub cc (by omega)).1, tickUp, bar_vals e1, bar_vals e2, hj]
      simp only [decide_eq_true_eq]
    refine ⟨key, rfl, fun u d hd hu => ?_⟩
    rw [tviTerm, ← key]
    have dir : ∀ b : Bool, Whole ((if b then (1 : FP ρ) else -1) * v) (if b then bar (vals volume) (i + 1) else -bar (vals volume) (i + 1)) c := by
      intro b
      have := whole_dir (hf.bar e3) (by omega) (s := if b then (1 : FP ρ) else -1) (p := b = false) (by
        cases b
        · simpa using is_neg isOne
        · simpa using isOne)
      refine this.congr ?_
      cases b <;> simp
    exact hu.add (dir _) hd
  · refine le_trans (Nat.mul_le_mul_right _ ?_) hc'
    simp [hv]

/-- C90: `vwma` of whole prices and volumes is the exact quotient of the two totals, rounded once. -/
theorem vwma_rounded (data volume : List (FP ρ)) (w c m : ℕ) (hv : volume.length = data.length) (hw : 1 ≤ w) (hn : w ≤ data.length + 1)
    (hd : Wholes m data) (hf : Wholes c volume) (h1 : w * (m * c) ≤ 2 ^ 53) (h2 : w * c ≤ 2 ^ 53) :
    ReportsP data.length (w - 1) (fun i y =>
      let money := (lastOf (fun j => bar (vals data) j * bar (vals volume) j) w i).sum
      let shares := (lastOf (bar (vals volume)) w i).sum
      shares ≠ 0 → Rounds y (money / shares)) (vwma data volume w) := by
  run_model [vwma]
  refine reportsP_windows2 hw hv hn fun i g1 g2 => ?_
  have l1 : (recent data w i).length = w := recent_length g1 g2
  have l2 : (recent volume w i).length = w := recent_length g1 (by omega)
  have get : ∀ {l : List (FP ρ)} {j : ℕ} (h : j < (recent l w i).length), l[i + 1 - w + j]? = some (recent l w i)[j] := by
    intro l j h
    have hj : j < w := lt_of_lt_of_le h (by simp [recent])
    rw [← List.getElem?_eq_getElem h, recent, List.getElem?_take_of_lt hj, List.getElem?_drop]
  have f1 : List.Forall₂ (fun x a => Whole x a (m * c)) (((recent data w i).zip (recent volume w i)).map fun (x, v) => x * v)
      (lastOf (fun j => bar (vals data) j * bar (vals volume) j) w i) := by
    rw [List.forall₂_iff_get]
    refine ⟨by simp [l1, l2, lastOf], fun j j1 j2 => ?_⟩
    have hj : j < w := by simpa [lastOf] using j2
    simp only [List.get_eq_getElem, List.getElem_map, List.getElem_zip, lastOf, List.getElem_range]
    exact (hd.bar (get (by omega))).mul (hf.bar (get (by omega))) (le_trans (Nat.le_mul_of_pos_left _ hw) h1)
  have f2 : List.Forall₂ (fun x a => Whole x a c) (recent volume w i) (lastOf (bar (vals volume)) w i) := by
    rw [List.forall₂_iff_get]
    refine ⟨by simp [l2, lastOf], fun j j1 j2 => ?_⟩
    have hj : j < w := by simpa [lastOf] using j2
    simp only [List.get_eq_getElem, lastOf, List.getElem_map, List.getElem_range]
    exact hf.bar (get j1)
  intro hne
  have s1 := Whole.fsum f1 (by simpa [l1, l2] using h1)
  have s2 := Whole.fsum f2 (by simpa [l2] using h2)
  rw [Traquer.fsum, List.foldl_map] at s1
  exact s1.div s2 hne

end Traquer.Volume

namespace Traquer.Momentum
open FP FloatLit
variable {ρ : Rounding}

/-- C90: `psych` of any finite prices is the exact percentage of bars that did not fall, rounded once. -/
theorem psych_rounded (data : List (FP ρ)) (w : ℕ) (hw : 1 ≤ w) (hn : w ≤ data.length) (hw' : 100 * w ≤ 2 ^ 53) (hd : Fins data)
    (hz : ∀ x ∈ data, x ≠ negz) :
    ReportsP data.length w (fun i y => Rounds y (100 * (((List.range w).countP fun j => decide (bar (vals data) (i - j - 1) ≤ bar (vals data) (i - j)) : ℕ) : ℝ) / w))
      (psych data w) := by
  have base : ReportsP data.length 1 (fun j y => Whole y (if bar (vals data) j < bar (vals data) (j - 1) then 0 else 1) 1)
      (some (nans 1 ++ (pairs data).map fun (p : FP ρ × FP ρ) => fmax (signum (p.2 - p.1)) 0)) := by
    refine reportsP_front (by simp; omega) fun i y hy => ?_
    rw [List.getElem?_map] at hy
    obtain ⟨⟨p, q⟩, hp, rfl⟩ := Option.map_eq_some_iff.1 hy
    obtain ⟨h1, h2⟩ := pairs_getElem?_some hp
    have s1 := signum_diff (hd _ (List.mem_of_getElem? h2)).is (hd _ (List.mem_of_getElem? h1)).is (.inr (hz _ (List.mem_of_getElem? h2)))
    have s2 := is_fmax s1 isZero
    rw [Nat.add_comm 1 i, Nat.add_sub_cancel, bar_vals h1, bar_vals h2]
    by_cases h : q.val < p.val
    · simp only [h, if_true] at s2 ⊢
      exact ⟨s2.congr (by norm_num), ⟨0, by simp⟩, by simp⟩
    · simp only [h, if_false] at s2 ⊢
      exact ⟨s2.congr (by norm_num), ⟨1, by simp⟩, by simp⟩
  have e : psych data w = some (nans w ++ (windowsOf w ((pairs data).map fun (p : FP ρ × FP ρ) => fmax (signum (p.2 - p.1)) 0)).map
      fun l => fsum l * 100 / flt w) := by
    run_model [psych]
  rw [e]
  refine reportsP_front (by simp; omega) fun i y hy => ?_
  rw [List.getElem?_map] at hy
  obtain ⟨l, hx, rfl⟩ := Option.map_eq_some_iff.1 hy
  obtain ⟨rfl, hi⟩ := windowsOf_at hw hx
  simp at hi
  have hr := whole_window (w := w) (i := w + i) base (by omega) (by omega) (by omega)
  have eq : recent (nans 1 ++ (pairs data).map fun (p : FP ρ × FP ρ) => fmax (signum (p.2 - p.1)) 0) w (w + i) =
      recent ((pairs data).map fun (p : FP ρ × FP ρ) => fmax (signum (p.2 - p.1)) 0) w (i + w - 1) := by
    rw [show w + i = 1 + (i + w - 1) by omega, ← recent_drop _ _ _ _ (by omega), List.drop_left' (by simp)]
  rw [eq] at hr
  have cnt : (lastOf (fun j => if bar (vals data) j < bar (vals data) (j - 1) then (0 : ℝ) else 1) w (w + i)).sum =
      (((List.range w).countP fun j => decide (bar (vals data) (w + i - j - 1) ≤ bar (vals data) (w + i - j)) : ℕ) : ℝ) := by
    have : ∀ n : ℕ, n ≤ w → ((List.range n).map fun j => if bar (vals data) (w + i - j) < bar (vals data) (w + i - j - 1) then (0 : ℝ) else 1).sum =
        (((List.range n).countP fun j => decide (bar (vals data) (w + i - j - 1) ≤ bar (vals data) (w + i - j)) : ℕ) : ℝ) := by
      intro n
      induction n with
      | zero => simp
      | succ n ih =>
        intro h
        rw [List.range_succ, List.map_append, List.sum_append, ih (by omega), List.countP_append]
        push_cast
        congr 1
        by_cases h : bar (vals data) (w + i - n) < bar (vals data) (w + i - n - 1)
        · simp [h]
        · simp [h, not_lt.1 h]
    rw [← this w le_rfl, lastOf, ← List.sum_reverse, ← List.map_reverse, List.range_eq_range', List.reverse_range', List.map_map]
    congr 1
    rw [← List.range_eq_range']
    refine List.map_congr_left fun j hj => ?_
    have hj := List.mem_range.1 hj
    simp only [Function.comp]
    rw [show w + i + 1 - w + (0 + w - 1 - j) = w + i - j by omega]
  have hw0 : (w : ℝ) ≠ 0 := by positivity
  have := (hr.mul (y := (100 : FP ρ)) (b := 100) (d := 100) ⟨isLit 100 (by norm_num), ⟨100, by simp⟩, by norm_num⟩ (by omega))
  have := rounds_div this.1 (isFlt (n := w) (by omega)) hw0
  rw [cnt, mul_comm _ (100 : ℝ)] at this
  exact this

end Traquer.Momentum
