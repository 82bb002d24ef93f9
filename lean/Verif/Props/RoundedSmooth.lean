import Verif.Lemmas.Dominated
import Verif.Props.ShapeSmooth
import Verif.Lemmas.Items
/-!
# C18: percentages stay percentages under Wilder smoothing and simple averaging, in every rounding
-/

namespace Traquer.Smooth
open FP
variable {ρ : Rounding}

theorem inRange_of_percent {data : List (FP ρ)} (hd : Fins data) (h : Within 0 100 (vals data)) :
    ∀ x ∈ data, InRange (-((0 : ℕ) : ℝ)) ((100 : ℕ) : ℝ) x := fun x hx => by
  have := h x.val (List.mem_map_of_mem hx)
  exact Or.inr ⟨x.val, ⟨hd x hx, rfl⟩, by simpa using this.1, by simpa using this.2⟩

/-- C18: whatever the rounding of the arithmetic, Wilder smoothing of finite values between 0 and 100 reports finite values
between 0 and 100. -/
theorem wilder_percent (data : List (FP ρ)) (w : ℕ) (hw : 1 ≤ w) (hn : w ≤ data.length) (hw' : 100 * w ≤ 2 ^ 53) (hd : Fins data)
    (h : Within 0 100 (vals data)) :
    ReportsP data.length (w - 1) (fun _ y => ∃ r, y ⇓ r ∧ 0 ≤ r ∧ r ≤ 100) (wilder data w) := by
  refine (wilder_aligned data w hw (by omega)).reportsP fun out eo i y hi hy => ?_
  have a := InRange.wilder hw (inRange_of_percent hd h) (by omega) (by omega) hw' eo y (List.mem_of_getElem? hy)
  have b := NonNegInf.wilder hw (by omega) (fun x hx => Or.inr ⟨x.val, ⟨hd x hx, rfl⟩, (h x.val (List.mem_map_of_mem hx)).1⟩) eo hi hy
  rcases a with rfl | ⟨r, hr, r0, r1⟩
  · rcases b with hb | ⟨r, hr, -⟩
    · cases hb
    · exact hr.1.elim
  · exact ⟨r, hr, by simpa using r0, by simpa using r1⟩

example : ReportsP 4 1 (fun _ y => ∃ r, y ⇓ r ∧ 0 ≤ r ∧ r ≤ 100) (wilder ([10, 0, 100, 7].map (fin : ℝ → FP ρ)) 2) :=
  wilder_percent _ 2 (by decide) (by simp) (by norm_num) (fins_map_fin _) (by
    simp only [vals_map_fin]; intro x hx; simp at hx; rcases hx with rfl | rfl | rfl | rfl <;> norm_num)

end Traquer.Smooth
