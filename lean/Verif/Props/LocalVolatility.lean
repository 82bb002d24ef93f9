import Verif.Props.LocalStats
import Verif.Props.ShapeVolatility
import Verif.Props.ShapeVolume
/-!
# The volatility and volume measures over a window depend on that window only
-/

namespace Traquer.Volatility
open FP FloatLit
variable {F : Type} [FloatOps F] {W i j c d : Nat}

theorem trueRange_ag {x x' y y' z z' : List F} (hx : Ag W i j c d x x') (hy : Ag W i j c d y y') (hz : Ag W i j c d z z') :
    OR (Ag W i j (c + 1) (d + 1)) (trueRange x y z) (trueRange x' y' z') := by
  have := hx.le
  locality [trueRange]
macro_rules | `(tactic| local_fn) => `(tactic| (with_reducible apply trueRange_ag; local_list; local_list; local_list))

/-- The true range looks at the bar and at the close before it. -/
theorem tr_local  : DependsOnLast 2 fun l : List (Candle F) =>
    tr (l.map (·.high)) (l.map (·.low)) (l.map (·.close)) :=
  dependsOnLast_of_or (fun a b i j _ _ h => by locality [tr]) (by decide)

example (p q x y z : Candle F) : SameAtEnd (fun l => tr (l.map (·.high)) (l.map (·.low)) (l.map (·.close))) [p, x, y, z] [q, q, x, y, z] :=
  (tr_local).shown ⟨_, rfl⟩ ⟨_, rfl⟩

theorem gri_local {w : Nat} (hw : 1 ≤ w) : DependsOnLast w fun l : List (Candle F) =>
    gri (l.map (·.high)) (l.map (·.low)) w :=
  dependsOnLast_of_or (fun a b i j _ _ h => by locality [gri]) hw

example (p q x y z : Candle F) : SameAtEnd (fun l => gri (l.map (·.high)) (l.map (·.low)) 3) [p, x, y, z] [q, q, x, y, z] :=
  (gri_local (by decide)).shown ⟨_, rfl⟩ ⟨_, rfl⟩

theorem typical_local {w : Nat} (hw : 1 ≤ w) : DependsOnLast w fun l : List (Candle F) =>
    typical (l.map (·.high)) (l.map (·.low)) (l.map (·.close)) w :=
  dependsOnLast_of_or (fun a b i j _ _ h => by locality [typical]) hw

example (p q x y z : Candle F) : SameAtEnd (fun l => typical (l.map (·.high)) (l.map (·.low)) (l.map (·.close)) 3) [p, x, y, z] [q, q, x, y, z] :=
  (typical_local (by decide)).shown ⟨_, rfl⟩ ⟨_, rfl⟩

theorem std_dev_ag {l l' : List F} (h : Ag W i j c d l l') (w : Nat) (dev : Option F) :
    OR (Ag W i j (c + (w - 1)) d) (std_dev l w dev) (std_dev l' w dev) := by
  locality [std_dev]
macro_rules | `(tactic| local_fn) => `(tactic| (with_reducible apply std_dev_ag; local_list))

theorem std_dev_local {w : Nat} (hw : 1 ≤ w) (dev : Option F) : DependsOnLast w fun l : List F =>
    std_dev l w dev :=
  dependsOnLast_of_or (fun a b i j _ _ h => by locality [std_dev]) hw

example (p q x y z : F) (dev : Option F) : SameAtEnd (fun l => std_dev l 3 dev) [p, x, y, z] [q, q, x, y, z] :=
  (std_dev_local (by decide) dev).shown ⟨_, rfl⟩ ⟨_, rfl⟩

/-- The bands around a simple average. -/
theorem bbands_sma_local {w : Nat} (hw : 1 ≤ w) (dev : Option F) : DependsOnLast w fun l : List F =>
    bbands l w dev (some .SMA) :=
  dependsOnLast_of_or (fun a b i j _ _ h => by locality [bbands, Option.getD_some, Smooth.ma]) hw

example (p q x y z : F) (dev : Option F) : SameAtEnd (fun l => bbands l 3 dev (some .SMA)) [p, x, y, z] [q, q, x, y, z] :=
  (bbands_sma_local (by decide) dev).shown ⟨_, rfl⟩ ⟨_, rfl⟩

theorem donchian_local {w : Nat} (hw : 1 ≤ w) : DependsOnLast w fun l : List (Candle F) =>
    donchian (l.map (·.high)) (l.map (·.low)) w :=
  dependsOnLast_of_or (fun a b i j _ _ h => by locality [donchian]) hw

example (p q x y z : Candle F) : SameAtEnd (fun l => donchian (l.map (·.high)) (l.map (·.low)) 3) [p, x, y, z] [q, q, x, y, z] :=
  (donchian_local (by decide)).shown ⟨_, rfl⟩ ⟨_, rfl⟩

theorem hv_local {w : Nat} (hw : 1 ≤ w) (dev : Option F) : DependsOnLast (w + 1) fun l : List F =>
    hv l w dev :=
  dependsOnLast_of_or (fun a b i j _ _ h => by locality [hv]) (by omega)

example (p q x y z : F) (dev : Option F) : SameAtEnd (fun l => hv l 2 dev) [p, x, y, z] [q, q, x, y, z] :=
  (hv_local (by decide) dev).shown ⟨_, rfl⟩ ⟨_, rfl⟩

theorem chop_local {w : Nat} (hw : 1 ≤ w) : DependsOnLast (w + 1) fun l : List (Candle F) =>
    chop (l.map (·.high)) (l.map (·.low)) (l.map (·.close)) w :=
  dependsOnLast_of_or (fun a b i j _ _ h => by locality [chop]) (by omega)

example (p q x y z : Candle F) : SameAtEnd (fun l => chop (l.map (·.high)) (l.map (·.low)) (l.map (·.close)) 2) [p, x, y, z] [q, q, x, y, z] :=
  (chop_local (by decide)).shown ⟨_, rfl⟩ ⟨_, rfl⟩

theorem vhf_local {w : Nat} (hw : 1 ≤ w) : DependsOnLast (w + 1) fun l : List (Candle F) =>
    vhf (l.map (·.high)) (l.map (·.low)) (l.map (·.close)) w :=
  dependsOnLast_of_or (fun a b i j _ _ h => by locality [vhf]) (by omega)

example (p q x y z : Candle F) : SameAtEnd (fun l => vhf (l.map (·.high)) (l.map (·.low)) (l.map (·.close)) 2) [p, x, y, z] [q, q, x, y, z] :=
  (vhf_local (by decide)).shown ⟨_, rfl⟩ ⟨_, rfl⟩

theorem wcp_local  : DependsOnLast 1 fun l : List (Candle F) =>
    some (wcp (l.map (·.high)) (l.map (·.low)) (l.map (·.close))) :=
  dependsOnLast_of_or (fun a b i j _ _ h => by locality [wcp]) (Nat.le_refl 1)

example (p q x y z : Candle F) : SameAtEnd (fun l => some (wcp (l.map (·.high)) (l.map (·.low)) (l.map (·.close)))) [p, x, y, z] [q, q, x, y, z] :=
  (wcp_local).shown ⟨_, rfl⟩ ⟨_, rfl⟩

theorem cc_hv_local {w : Nat} (hw : 1 ≤ w) : DependsOnLast (w + 1) fun l : List F =>
    cc_hv l w :=
  dependsOnLast_of_or (fun a b i j _ _ h => by locality [cc_hv]) (by omega)

example (p q x y z : F) : SameAtEnd (fun l => cc_hv l 2) [p, x, y, z] [q, q, x, y, z] :=
  (cc_hv_local (by decide)).shown ⟨_, rfl⟩ ⟨_, rfl⟩

theorem gkyz_hv_local {w : Nat} (hw : 1 ≤ w) : DependsOnLast (w + 1) fun l : List (Candle F) =>
    gkyz_hv (l.map (·.openp)) (l.map (·.high)) (l.map (·.low)) (l.map (·.close)) w :=
  dependsOnLast_of_or (fun a b i j _ _ h => by locality [gkyz_hv]) (by omega)

example (p q x y z : Candle F) : SameAtEnd (fun l => gkyz_hv (l.map (·.openp)) (l.map (·.high)) (l.map (·.low)) (l.map (·.close)) 2) [p, x, y, z] [q, q, x, y, z] :=
  (gkyz_hv_local (by decide)).shown ⟨_, rfl⟩ ⟨_, rfl⟩

end Traquer.Volatility

namespace Traquer.Volume
open FloatLit
variable {F : Type} [FloatOps F]

theorem cmf_local {w : Nat} (hw : 1 ≤ w) : DependsOnLast w fun l : List (Candle F) =>
    cmf (l.map (·.high)) (l.map (·.low)) (l.map (·.close)) (l.map (·.volume)) w :=
  dependsOnLast_of_or (fun a b i j _ _ h => by locality [cmf]) hw

example (p q x y z : Candle F) : SameAtEnd (fun l => cmf (l.map (·.high)) (l.map (·.low)) (l.map (·.close)) (l.map (·.volume)) 3) [p, x, y, z] [q, q, x, y, z] :=
  (cmf_local (by decide)).shown ⟨_, rfl⟩ ⟨_, rfl⟩

theorem vwma_local {w : Nat} (hw : 1 ≤ w) : DependsOnLast w fun l : List (F × F) =>
    vwma (l.map (·.1)) (l.map (·.2)) w :=
  dependsOnLast_of_or (fun a b i j _ _ h => by locality [vwma]) hw

example (p q x y z : F × F) : SameAtEnd (fun l => vwma (l.map (·.1)) (l.map (·.2)) 3) [p, x, y, z] [q, q, x, y, z] :=
  (vwma_local (by decide)).shown ⟨_, rfl⟩ ⟨_, rfl⟩

theorem bw_mfi_local  : DependsOnLast 1 fun l : List (Candle F) =>
    some (bw_mfi (l.map (·.high)) (l.map (·.low)) (l.map (·.volume))) :=
  dependsOnLast_of_or (fun a b i j _ _ h => by locality [bw_mfi]) (Nat.le_refl 1)

example (p q x y z : Candle F) : SameAtEnd (fun l => some (bw_mfi (l.map (·.high)) (l.map (·.low)) (l.map (·.volume)))) [p, x, y, z] [q, q, x, y, z] :=
  (bw_mfi_local).shown ⟨_, rfl⟩ ⟨_, rfl⟩

/-- The money flow index looks at the window and at the typical price of the bar before it. -/
theorem mfi_local {w : Nat} (hw : 1 ≤ w) : DependsOnLast (w + 1) fun l : List (Candle F) =>
    mfi (l.map (·.high)) (l.map (·.low)) (l.map (·.close)) (l.map (·.volume)) w :=
  dependsOnLast_of_or (fun a b i j hia hjb h => by
    have key : ∀ l : List (Candle F), l ≠ [] → mfi (l.map (·.high)) (l.map (·.low)) (l.map (·.close)) (l.map (·.volume)) w =
        (let mf := (pairs l).map fun p => (mfiStep ((p.1.high + p.1.low + p.1.close) / 3) (p.2.high, p.2.low, p.2.close, p.2.volume)).2
         (windows w (mf.map (·.1))).bind fun pos => (windows w (mf.map (·.2))).bind fun neg =>
          some (nans w ++ (pos.zip neg).map fun (pos, neg) => 100 - 100 / (1 + fsum pos / fsum neg))) := by
      intro l hl
      obtain ⟨x, l, rfl⟩ := List.exists_cons_of_ne_nil hl
      have e : ∀ x : Candle F, scan mfiStep ((x.high + x.low + x.close) / 3) (l.map fun y => (y.high, y.low, y.close, y.volume)) =
          (pairs (x :: l)).map fun p => (mfiStep ((p.1.high + p.1.low + p.1.close) / 3) (p.2.high, p.2.low, p.2.close, p.2.volume)).2 := by
        induction l with
        | nil => intro x; rfl
        | cons y l ih => intro x; simp only [List.map_cons, scan, pairs]; rw [← ih (by simp) y]; rfl
      have ez : zip4 (l.map (·.high)) (l.map (·.low)) (l.map (·.close)) (l.map (·.volume)) = l.map fun y => (y.high, y.low, y.close, y.volume) := by
        simp only [zip4_eq, List.zip_map']
      simp only [mfi, tailBars, sliceFrom, List.map_cons, List.length_cons, Option.bind_eq_bind, List.drop_one, List.tail_cons,
        List.getElem?_cons_zero, Option.bind_some, Nat.le_add_left, if_true, ez, e]
    have ha : a ≠ [] := by rintro rfl; simp at hia
    have hb : b ≠ [] := by rintro rfl; simp at hjb
    simp only [key a ha, key b hb]
    locality []) (by omega)

example (p q x y z : Candle F) : SameAtEnd (fun l => mfi (l.map (·.high)) (l.map (·.low)) (l.map (·.close)) (l.map (·.volume)) 2)
    [p, x, y, z] [q, q, x, y, z] := (mfi_local (by decide)).shown ⟨_, rfl⟩ ⟨_, rfl⟩

/-- Ease of movement looks at the window and at the middle of the bar before it. -/
theorem ease_local {w : Nat} (hw : 1 ≤ w) : DependsOnLast (w + 1) fun l : List (Candle F) =>
    ease (l.map (·.high)) (l.map (·.low)) (l.map (·.volume)) w :=
  dependsOnLast_of_or (fun a b i j hia hjb h => by
    simp only [ease, Option.bind_eq_bind]
    refine OR.bind (R := Ag (w + 1) i j 1 1) (Ag.index h.hi h.hj (by simpa using hia) (by simpa using hjb) (Nat.le_refl 1) fun t ht => ?_)
      fun r r' hr => ?_
    · have e0 : ∀ {γ : Type} (f : Candle F → γ), (a.map f)[i - t]? = (b.map f)[j - t]? := fun f => by simpa using (h.map f).eq (t := t) (by omega)
      have e1 : ∀ {γ : Type} (f : Candle F → γ), (a.map f)[i - t - 1]? = (b.map f)[j - t - 1]? := fun f => by
        have := (h.map f).eq (t := t + 1) (by omega)
        rwa [show i - (t + 1) - 0 = i - t - 1 by omega, show j - (t + 1) - 0 = j - t - 1 by omega] at this
      simp only [e0, e1]
    · locality []) (by omega)

example (p q x y z : Candle F) : SameAtEnd (fun l => ease (l.map (·.high)) (l.map (·.low)) (l.map (·.volume)) 2)
    [p, x, y, z] [q, q, x, y, z] := (ease_local (by decide)).shown ⟨_, rfl⟩ ⟨_, rfl⟩

end Traquer.Volume
