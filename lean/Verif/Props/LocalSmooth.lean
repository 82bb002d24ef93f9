import Verif.Lemmas.Local
import Verif.Model.Smooth
import Verif.Props.ShapeSmooth
/-!
# The averages over a finite window depend on that window only
-/

namespace Traquer.Smooth
open FloatLit
variable {F : Type} [FloatOps F] {W i j c d : Nat}

theorem sma_ag {l l' : List F} (h : Ag W i j c d l l') (w : Nat) : OR (Ag W i j (c + (w - 1)) d) (sma l w) (sma l' w) := by
  locality [sma]
macro_rules | `(tactic| local_fn) => `(tactic| (with_reducible apply sma_ag; local_list))

theorem wma_ag {l l' : List F} (h : Ag W i j c d l l') (w : Nat) : OR (Ag W i j (c + (w - 1)) d) (wma l w) (wma l' w) := by
  locality [wma]
macro_rules | `(tactic| local_fn) => `(tactic| (with_reducible apply wma_ag; local_list))

theorem lrf_ag {l l' : List F} (h : Ag W i j c d l l') (w : Nat) : OR (Ag W i j (c + (w - 1)) d) (lrf l w) (lrf l' w) := by
  locality [lrf]
macro_rules | `(tactic| local_fn) => `(tactic| (with_reducible apply lrf_ag; local_list))

theorem sma_local {w : Nat} (hw : 1 ≤ w) : DependsOnLast w fun l : List F => sma l w :=
  dependsOnLast_of_or (fun a b i j _ _ h => by locality []) hw

example (p q x y z : F) : SameAtEnd (fun l => sma l 3) [p, x, y, z] [q, q, x, y, z] := (sma_local (by decide)).shown ⟨_, rfl⟩ ⟨_, rfl⟩

theorem wma_local {w : Nat} (hw : 1 ≤ w) : DependsOnLast w fun l : List F => wma l w :=
  dependsOnLast_of_or (fun a b i j _ _ h => by locality []) hw

example (p q x y z : F) : SameAtEnd (fun l => wma l 3) [p, x, y, z] [q, q, x, y, z] := (wma_local (by decide)).shown ⟨_, rfl⟩ ⟨_, rfl⟩

theorem lrf_local {w : Nat} (hw : 1 ≤ w) : DependsOnLast w fun l : List F => lrf l w :=
  dependsOnLast_of_or (fun a b i j _ _ h => by locality []) hw

example (p q x y z : F) : SameAtEnd (fun l => lrf l 3) [p, x, y, z] [q, q, x, y, z] := (lrf_local (by decide)).shown ⟨_, rfl⟩ ⟨_, rfl⟩

theorem pwma_local {w : Nat} (hw : 1 ≤ w) : DependsOnLast w fun l : List F => pwma l w :=
  dependsOnLast_of_or (fun a b i j _ _ h => by locality [pwma]) hw

example (p q x y z : F) : SameAtEnd (fun l => pwma l 3) [p, x, y, z] [q, q, x, y, z] := (pwma_local (by decide)).shown ⟨_, rfl⟩ ⟨_, rfl⟩

theorem fwma_local {w : Nat} (hw : 1 ≤ w) : DependsOnLast w fun l : List F => fwma l w :=
  dependsOnLast_of_or (fun a b i j _ _ h => by locality [fwma]) hw

example (p q x y z : F) : SameAtEnd (fun l => fwma l 3) [p, x, y, z] [q, q, x, y, z] := (fwma_local (by decide)).shown ⟨_, rfl⟩ ⟨_, rfl⟩

/-- Two averages one after the other still look at `w` bars only. -/
theorem trima_local {w : Nat} (hw : 1 ≤ w) : DependsOnLast w fun l : List F => trima l w :=
  dependsOnLast_of_or (fun a b i j _ _ h => by
    have : divCeil w 2 = (w + 1) / 2 := rfl
    simp only [trima, this]
    split <;> locality []) hw

example (p q x y z : F) : SameAtEnd (fun l => trima l 3) [p, x, y, z] [q, q, x, y, z] := (trima_local (by decide)).shown ⟨_, rfl⟩ ⟨_, rfl⟩

/-- The second average, over `⌊√w⌋` bars, reaches further back than the window. -/
theorem hull_local {w : Nat} (hw : 1 ≤ w) : DependsOnLast (w + (toUsize (floor (sqrt (flt w : F))) - 1)) fun l : List F => hull l w :=
  dependsOnLast_of_or (fun a b i j _ _ h => by
    have : divCeil w 2 ≤ w := by simp only [divCeil]; omega
    locality [hull]) (by omega)

example (p q x y z : F) (hs : toUsize (floor (sqrt (flt 3 : F))) = 1) : SameAtEnd (fun l => hull l 3) [p, x, y, z] [q, q, x, y, z] := by
  have h := hull_local (F := F) (w := 3) (by decide)
  rw [hs] at h
  have hu : ∀ l : List F, 3 ≤ l.length → ∃ out, hull l 3 = some out := fun l hl => by
    simp only [hull, hs]
    exact ⟨_, rfl⟩
  exact h.shown (hu _ (by simp)) (hu _ (by simp))

/-- The newest bar and the window's worth before it: the window is one bar longer than the weights, since the first average is at bar `w`. -/
theorem alma_local {w : Nat} (sigma : F) (mu : Option F) : DependsOnLast (w + 1) fun l : List F => alma l w sigma mu :=
  dependsOnLast_of_or (fun a b i j hia hjb h => by
    simp only [alma, Option.bind_eq_bind]
    refine or_bind_usub_same fun k hk => OR.bind (R := Ag (w + 1) i j w w) ?_ fun r r' hr => OR.some (hr.nansF.weaken (by omega) (by omega))
    refine Ag.index h.hi h.hj hia hjb (Nat.le_refl w) fun t ht => ?_
    have e : mapP (fun idx => (usub (i - t) idx).bind fun p => a[p]?) (List.range (almaWeights w sigma (mu.getD 0.85 * flt k)).length) =
        mapP (fun idx => (usub (j - t) idx).bind fun p => b[p]?) (List.range (almaWeights w sigma (mu.getD 0.85 * flt k)).length) := by
      refine mapP_congr fun idx hidx => ?_
      have hidx : idx < w := by simpa [almaWeights] using hidx
      have := h.hi
      have := h.hj
      rw [usub, usub, if_pos (by omega), if_pos (by omega), Option.bind_some, Option.bind_some]
      have := h.eq (t := t + idx) (by omega)
      rwa [show i - (t + idx) - 0 = i - t - idx by omega, show j - (t + idx) - 0 = j - t - idx by omega] at this
    rw [e]) (by omega)

example (p q x y z sigma : F) (mu : Option F) : SameAtEnd (fun l => alma l 2 sigma mu) [p, x, y, z] [q, q, x, y, z] := (alma_local sigma mu).shown ⟨_, rfl⟩ ⟨_, rfl⟩

/-- The kernel regression stops after 255 bars. -/
theorem kernel_local (sigma : F) : DependsOnLast 255 fun l : List F => some (kernel l sigma) := by
  intro a b i j out out' ho ho' hi hj hia hjb hr
  cases ho
  cases ho'
  have key : ∀ (l : List F) (i : Nat), 255 ≤ i + 1 → i < l.length →
      (kernel l sigma)[i]? = some (kernelAt (kernelWeights sigma) (recent l 255 i).reverse) := by
    intro l i hi hl
    have e : (l.take (i + 1)).reverse.take 255 = (recent l 255 i).reverse := by
      rw [List.take_reverse, List.length_take, Nat.min_eq_left (by omega), List.drop_take, recent, show i + 1 - (i + 1 - 255) = 255 by omega]
    have h1 : ((l.take (i + 1)).reverse).length = i + 1 := by simp; omega
    have h2 : ((recent l 255 i).reverse).length = 255 := by simp [recent]; omega
    rw [kernel, List.getElem?_map, List.getElem?_range hl, Option.map_some, kernelAt, kernelAt, h1, h2, Nat.min_eq_right hi, e, Nat.min_self,
      List.take_of_length_le (Nat.le_of_eq h2)]
  rw [key a i hi hia, key b j hj hjb, hr]

example (p q x sigma : F) : SameAtEnd (fun l => some (kernel l sigma)) (p :: List.replicate 255 x) (q :: q :: List.replicate 255 x) :=
  (kernel_local sigma).shown ⟨_, rfl⟩ ⟨_, rfl⟩ (by decide)
    (by simp only [List.length_cons, List.length_replicate]; omega) (by simp only [List.length_cons, List.length_replicate]; omega)
    (by simp only [recent, List.length_cons, List.length_replicate]; rfl)

end Traquer.Smooth

namespace Traquer

/-- A bad bar (NaN, an infinity, a typing error) is contained: replacing the bar at `p` by whatever else changes nothing that a function of the last
`W` bars reports from bar `p + W` on. -/
theorem bad_bar_contained {β γ : Type} {W : Nat} {f : List β → Option (List γ)} (h : DependsOnLast W f) (a : List β) (p : Nat) (x : β)
    (out out' : List γ) (ho : f a = some out) (ho' : f (a.set p x) = some out') (i : Nat) (hi : p + W ≤ i) (hia : i < a.length) :
    out[i]? = out'[i]? := h.set ho ho' hi hia

example {F : Type} [FloatOps F] (a b c d : F) (out out' : List F) (h : Smooth.sma [a, b, c, d] 2 = some out)
    (h' : Smooth.sma [a, nan, c, d] 2 = some out') : out[3]? = out'[3]? :=
  bad_bar_contained (Smooth.sma_local (by decide)) [a, b, c, d] 1 nan out out' h h' 3 (by decide) (by simp)

end Traquer
