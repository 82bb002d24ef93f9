import Verif.Lemmas.NearSum
import Verif.Props.ShapeSmooth
/-!
# Rounding errors of windows over approximate series
-/

namespace Traquer
open FP FloatLit

variable {M : ℝ} {n k w : ℕ} {v : ℕ → ℝ} {c e : ℝ} {m : List F64}

/-- A rolling-window function over an approximate series. -/
theorem NearS.windows {P : ℕ → F64 → Prop} {f : List F64 → F64} (hM : Sized M) (h : NearS M n k v c e m) (he : e ≤ 2 ^ 53) (hw : 1 ≤ w)
    (hn : w ≤ n + 1)
    (hnan : ∀ l : List F64, l.length = w → (∃ x ∈ l, Traquer.isNaN x = true) → Traquer.isNaN (f l) = true)
    (hf : ∀ i (v' : ℕ → ℝ), k + w ≤ i + 1 → i < n → Bounded ((c + 1) * M) (recent m w i) → vals (recent m w i) = lastOf v' w i →
      (∀ j, k ≤ j → j < n → |v' j - v j| ≤ e * unit64 * M) → P i (f (recent m w i))) :
    ReportsP n (k + (w - 1)) P (some (nans (w - 1) ++ (windowsOf w m).map f)) := by
  obtain ⟨v', r, b, d⟩ := h.exists_vals hM he
  have hl := h.length
  have hg : ∀ i, w ≤ i + 1 → i < n → (nans (w - 1) ++ (windowsOf w m).map f)[i]? = some (f (recent m w i)) := by
    intro i h1 h2
    rw [List.getElem?_append_right (by simp; omega), nans_length, List.getElem?_map, windowsOf_recent hw h1 (by omega)]
    rfl
  refine ⟨_, rfl, by simp; omega, fun i hi hin => ?_, fun i hi hin => ⟨_, hg i (by omega) hin, ?_⟩⟩
  · by_cases h1 : w ≤ i + 1
    · rw [hg i h1 hin]
      refine congrArg Option.some (isNaN_iff.1 ?_)
      refine hnan _ (recent_length h1 (by omega)) ⟨nan, ?_, rfl⟩
      rw [List.mem_iff_getElem?]
      refine ⟨0, ?_⟩
      rw [recent, List.getElem?_take_of_lt (by omega), List.getElem?_drop]
      exact r.get_nan (by omega) (by omega)
    · rw [List.getElem?_append_left (by simp; omega), nans, List.getElem?_replicate, if_pos (by omega)]
  · refine hf i v' (by omega) hin (b.sub fun x hx => ?_) (r.recent (by omega) hin).2 d
    rw [recent] at hx
    have := List.mem_of_mem_take hx
    rw [show i + 1 - w = k + (i + 1 - w - k) by omega, ← List.drop_drop] at this
    exact List.mem_of_mem_drop this

theorem weightedMean_near {us : List ℝ} (hu : ∀ u ∈ us, 0 ≤ u) (hs : 0 < us.sum) {e : ℝ} {l l' : List ℝ} (hl : l.length = us.length)
    (h : List.Forall₂ (fun a b => |a - b| ≤ e) l l') : |weightedMean us l - weightedMean us l'| ≤ e := by
  rw [weightedMean, weightedMean, ← sub_div, abs_div, abs_of_pos hs, div_le_iff₀ hs]
  clear hs
  induction us generalizing l l' with
  | nil => simp
  | cons u us ih =>
    cases h with
    | nil => simp at hl
    | cons ha h =>
      have := ih (fun u hu' => hu u (by simp [hu'])) (by simpa using hl) h
      simp only [List.zip_cons_cons, List.map_cons, List.sum_cons]
      rw [add_sub_add_comm, ← mul_sub]
      refine (abs_add_le _ _).trans ?_
      have u0 := hu u (by simp)
      rw [abs_mul, abs_of_nonneg u0]
      have := mul_le_mul_of_nonneg_left ha u0
      linarith

theorem lastOf_forall₂ {v v' : ℕ → ℝ} {e : ℝ} (h : ∀ j, k ≤ j → j < n → |v' j - v j| ≤ e) {i : ℕ} (h1 : k + w ≤ i + 1) (h2 : i < n) :
    List.Forall₂ (fun a b => |a - b| ≤ e) (lastOf v' w i) (lastOf v w i) := by
  rw [List.forall₂_iff_get]
  refine ⟨by simp [lastOf], fun j g1 g2 => ?_⟩
  simp only [lastOf, List.length_map, List.length_range] at g1
  simp only [lastOf, List.get_eq_getElem, List.getElem_map, List.getElem_range]
  exact h _ (by omega) (by omega)

theorem weightedMean_bounded {us : List ℝ} (hu : ∀ u ∈ us, 0 ≤ u) (hs : 0 < us.sum) {B : ℝ} {l : List ℝ} (hl : l.length = us.length)
    (h : ∀ x ∈ l, |x| ≤ B) : |weightedMean us l| ≤ B := by
  have := weightedMean_near (l' := l.map fun _ => 0) hu hs hl (by
    rw [List.forall₂_map_right_iff, List.forall₂_same]
    intro x hx
    simpa using h x hx)
  have e : weightedMean us (l.map fun _ => 0) = 0 := by
    have : ((us.zip (l.map fun _ => (0 : ℝ))).map fun p => p.1 * p.2) = (us.zip (l.map fun _ => (0 : ℝ))).map fun _ => 0 :=
      List.map_congr_left fun p hp => by
        have := (List.of_mem_zip hp).2
        obtain ⟨_, -, h⟩ := List.mem_map.1 this
        rw [← h, mul_zero]
    rw [weightedMean, this]
    simp
  rwa [e, sub_zero] at this

/-- A weighted mean of an approximate series. -/
theorem NearS.dot (hM : Sized M) (h : NearS M n k v c e m) (c0 : 0 ≤ c) (he : e ≤ 2 ^ 53) (hw : 1 ≤ w) (hn : w ≤ n + 1) (hc : c ≤ 2 ^ 20)
    {ws : List F64} {us : List ℝ} (hu : ∀ u ∈ us, 0 ≤ u) (hs : 0 < us.sum) (hwl : ws.length = w) (hul : us.length = w)
    (hR : ∀ i (h : i < us.length), Rounds (ws[i]'(by omega)) (us[i] / us.sum)) (hk : 5 * (w : ℝ) + 2 ≤ 2 ^ 53) (hMc : Sized ((c + 1) * M)) :
    NearS M n (k + (w - 1)) (fun i => weightedMean us (lastOf v w i)) c (e + (5 * w + 2) * (c + 1))
      (nans (w - 1) ++ (windowsOf w m).map (Smooth.dot ws)) := by
  refine h.windows hM he hw hn (fun l hl hx => Smooth.dot_isNaN (by omega) hx) fun i v' h1 h2 hb hv hd => ?_
  have hl : (recent m w i).length = w := recent_length (by omega) (by rw [h.length]; exact h2)
  have := near_dot hMc hu hs (by omega) hR (l := recent m w i) (by omega) hb (by rw [hul]; exact hk)
  rw [hv, hul] at this
  obtain ⟨z, hz, ez⟩ := this.approx
  refine ⟨⟨z, hz, ?_⟩, ?_⟩
  · have := weightedMean_near hu hs (by simp [lastOf, hul]) (lastOf_forall₂ hd h1 h2)
    have := abs_add_le (z - weightedMean us (lastOf v' w i)) (weightedMean us (lastOf v' w i) - weightedMean us (lastOf v w i))
    rw [sub_add_sub_cancel] at this
    linarith
  · refine weightedMean_bounded hu hs (by simp [lastOf, hul]) fun x hx => ?_
    simp only [lastOf, List.mem_map, List.mem_range] at hx
    obtain ⟨j, hj, rfl⟩ := hx
    exact h.bound _ (by omega) (by omega)

end Traquer
