import Verif.Props.LocalVolatility
import Verif.Props.ShapeMomentum
import Verif.Props.ShapeTrend
import Verif.Props.Hurst
/-!
# The momentum and trend measures over a window depend on that window only
-/

namespace Traquer
variable {α : Type} {W i j : Nat}

/-- Series that agree on the last `W` bars agree on the last `L ≤ W`. -/
theorem Ag.recent {c : Nat} {l l' : List α} (h : Ag W i j c 0 l l') {L : Nat} (h1 : 1 ≤ L) (hL : L + c ≤ W) :
    Traquer.recent l L i = Traquer.recent l' L j := by
  have hi := h.hi
  have hj := h.hj
  have e := (h.windowsOf h1).eq (t := 0) (by omega)
  have lt := h.lt (t := 0) (by omega)
  rw [windowsOf_getElem? (by omega), windowsOf_getElem? (by omega)] at e
  have e := Option.some.inj e
  rwa [show i - 0 - (0 + (L - 1)) = i + 1 - L by omega, show j - 0 - (0 + (L - 1)) = j + 1 - L by omega] at e

end Traquer

namespace Traquer.Momentum
open FP FloatLit
open Traquer.Volatility (trueRange)
variable {F : Type} [FloatOps F] {W i j c d : Nat}

theorem cfo_local {w : Nat} (hw : 1 ≤ w) : DependsOnLast w fun l : List F =>
    cfo l w :=
  dependsOnLast_of_or (fun a b i j _ _ h => by locality [cfo]) hw

example (p q x y z : F) : SameAtEnd (fun l => cfo l 3) [p, x, y, z] [q, q, x, y, z] :=
  (cfo_local (by decide)).shown ⟨_, rfl⟩ ⟨_, rfl⟩

theorem wpr_local {w : Nat} (hw : 1 ≤ w) : DependsOnLast w fun l : List (Candle F) =>
    wpr (l.map (·.high)) (l.map (·.low)) (l.map (·.close)) w :=
  dependsOnLast_of_or (fun a b i j _ _ h => by locality [wpr]) hw

example (p q x y z : Candle F) : SameAtEnd (fun l => wpr (l.map (·.high)) (l.map (·.low)) (l.map (·.close)) 3) [p, x, y, z] [q, q, x, y, z] :=
  (wpr_local (by decide)).shown ⟨_, rfl⟩ ⟨_, rfl⟩

theorem roc_local {w : Nat} (hw : 1 ≤ w) : DependsOnLast w fun l : List F =>
    roc l w :=
  dependsOnLast_of_or (fun a b i j _ _ h => by locality [roc]) hw

example (p q x y z : F) : SameAtEnd (fun l => roc l 3) [p, x, y, z] [q, q, x, y, z] :=
  (roc_local (by decide)).shown ⟨_, rfl⟩ ⟨_, rfl⟩

theorem cog_local {w : Nat} (hw : 1 ≤ w) : DependsOnLast w fun l : List F =>
    cog l w :=
  dependsOnLast_of_or (fun a b i j _ _ h => by locality [cog]) hw

example (p q x y z : F) : SameAtEnd (fun l => cog l 3) [p, x, y, z] [q, q, x, y, z] :=
  (cog_local (by decide)).shown ⟨_, rfl⟩ ⟨_, rfl⟩

theorem cci_local {w : Nat} (hw : 1 ≤ w) : DependsOnLast w fun l : List (Candle F) =>
    cci (l.map (·.high)) (l.map (·.low)) (l.map (·.close)) w :=
  dependsOnLast_of_or (fun a b i j _ _ h => by locality [cci]) hw

example (p q x y z : Candle F) : SameAtEnd (fun l => cci (l.map (·.high)) (l.map (·.low)) (l.map (·.close)) 3) [p, x, y, z] [q, q, x, y, z] :=
  (cci_local (by decide)).shown ⟨_, rfl⟩ ⟨_, rfl⟩

theorem psych_local {w : Nat} (hw : 1 ≤ w) : DependsOnLast (w + 1) fun l : List F =>
    psych l w :=
  dependsOnLast_of_or (fun a b i j _ _ h => by locality [psych]) (by omega)

example (p q x y z : F) : SameAtEnd (fun l => psych l 2) [p, x, y, z] [q, q, x, y, z] :=
  (psych_local (by decide)).shown ⟨_, rfl⟩ ⟨_, rfl⟩

/-- An average over `w` bars of deviations from an average over `w` bars, the second over half as many. -/
theorem tii_local {w : Nat} (hw : 1 ≤ w) : DependsOnLast (w + (w + 1) / 2 - 1) fun l : List F => tii l w :=
  dependsOnLast_of_or (fun a b i j _ _ h => by
    have e : divCeil w 2 = (w + 1) / 2 := rfl
    locality [tii, e]) (by omega)

example (p q x y z : F) : SameAtEnd (fun l => tii l 2) [p, x, y, z] [q, q, x, y, z] := (tii_local (by decide)).shown ⟨_, rfl⟩ ⟨_, rfl⟩

theorem bpTr_ag {x x' y y' z z' : List F} (hx : Ag W i j c d x x') (hy : Ag W i j c d y y') (hz : Ag W i j c d z z') :
    OR (Ag W i j (c + 1) (d + 1)) (bpTr x y z) (bpTr x' y' z') := by
  have := hx.le
  locality [bpTr]
macro_rules | `(tactic| local_fn) => `(tactic| (with_reducible apply bpTr_ag; local_list; local_list; local_list))

theorem swing_ag {o o' x x' y y' z z' : List F} (ho : Ag W i j c d o o') (hx : Ag W i j c d x x') (hy : Ag W i j c d y y')
    (hz : Ag W i j c d z z') (limit : F) : OR (Ag W i j (c + 1) (d + 1)) (swing o x y z limit) (swing o' x' y' z' limit) := by
  have := hx.le
  locality [swing]
macro_rules | `(tactic| local_fn) => `(tactic| (with_reducible apply swing_ag; local_list; local_list; local_list; local_list))

theorem stoch_ag {x x' y y' z z' : List F} (hx : Ag W i j c d x x') (hy : Ag W i j c d y y') (hz : Ag W i j c d z z') (w s : Nat) :
    OR (Ag W i j (c + (w - 1) + 2 * (s - 1)) d) (stoch x y z w s) (stoch x' y' z' w s) := by
  have := hx.le
  locality [stoch]
macro_rules | `(tactic| local_fn) => `(tactic| (with_reducible apply stoch_ag; local_list; local_list; local_list))

theorem ultimate_local {win1 win2 win3 : Nat} (hw : 1 ≤ win3) : DependsOnLast (win3 + 1) fun l : List (Candle F) =>
    ultimate (l.map (·.high)) (l.map (·.low)) (l.map (·.close)) win1 win2 win3 :=
  dependsOnLast_of_or (fun a b i j _ _ h => by locality [ultimate]) (by omega)

example (p q x y z : Candle F) : SameAtEnd (fun l => ultimate (l.map (·.high)) (l.map (·.low)) (l.map (·.close)) 1 2 2) [p, x, y, z] [q, q, x, y, z] :=
  (ultimate_local (by decide)).shown ⟨_, rfl⟩ ⟨_, rfl⟩

theorem si_local (limit : F) : DependsOnLast 2 fun l : List (Candle F) =>
    si (l.map (·.openp)) (l.map (·.high)) (l.map (·.low)) (l.map (·.close)) limit :=
  dependsOnLast_of_or (fun a b i j _ _ h => by locality [si]) (by decide)

example (p q x y z : Candle F) (limit : F) : SameAtEnd (fun l => si (l.map (·.openp)) (l.map (·.high)) (l.map (·.low)) (l.map (·.close)) limit) [p, x, y, z] [q, q, x, y, z] :=
  (si_local limit).shown ⟨_, rfl⟩ ⟨_, rfl⟩

/-- The window and two rounds of a three-bar average. -/
theorem stochastic_local {w : Nat} (hw : 1 ≤ w) : DependsOnLast (w + 4) fun l : List (Candle F) =>
    stochastic (l.map (·.high)) (l.map (·.low)) (l.map (·.close)) w :=
  dependsOnLast_of_or (fun a b i j _ _ h => by locality [stochastic]) (by omega)

example (p q x y z : Candle F) : SameAtEnd (fun l => stochastic (l.map (·.high)) (l.map (·.low)) (l.map (·.close)) 2) [p, x, y, z, x, y, z] [q, q, x, y, z, x, y, z] :=
  (stochastic_local (by decide)).shown ⟨_, rfl⟩ ⟨_, rfl⟩

theorem kdj_local {w s : Nat} (hw : 1 ≤ w) (kf df : Option F) : DependsOnLast (w + 2 * (s - 1)) fun l : List (Candle F) =>
    kdj (l.map (·.high)) (l.map (·.low)) (l.map (·.close)) w s kf df :=
  dependsOnLast_of_or (fun a b i j _ _ h => by locality [kdj]) (by omega)

example (p q x y z : Candle F) (kf df : Option F) : SameAtEnd (fun l => kdj (l.map (·.high)) (l.map (·.low)) (l.map (·.close)) 2 2 kf df) [p, x, y, z, x, y] [q, q, x, y, z, x, y] :=
  (kdj_local (by decide) kf df).shown ⟨_, rfl⟩ ⟨_, rfl⟩

theorem relative_vigor_local {w : Nat} (hw : 1 ≤ w) : DependsOnLast (w + 3) fun l : List (Candle F) =>
    relative_vigor (l.map (·.openp)) (l.map (·.high)) (l.map (·.low)) (l.map (·.close)) w :=
  dependsOnLast_of_or (fun a b i j _ _ h => by locality [relative_vigor, vigorSmooth]) (by omega)

example (p q x y z : Candle F) : SameAtEnd (fun l => relative_vigor (l.map (·.openp)) (l.map (·.high)) (l.map (·.low)) (l.map (·.close)) 2) [p, x, y, z, x, y, z] [q, q, x, y, z, x, y, z] :=
  (relative_vigor_local (by decide)).shown ⟨_, rfl⟩ ⟨_, rfl⟩

/-- The slower of the two rates of change, and the average over the window. -/
theorem coppock_local {w short long : Nat} (hw : 1 ≤ w) : DependsOnLast (max short long + w) fun l : List F => coppock l w short long :=
  dependsOnLast_of_or (fun a b i j hia hjb h => by
    simp only [coppock, Option.bind_eq_bind]
    refine OR.bind (R := Ag (max short long + w) i j (max short long) long)
      (Ag.index h.hi h.hj hia hjb (by omega) fun t ht => ?_) fun r r' hr => ?_
    · have hi := h.hi
      have hj := h.hj
      have e : ∀ s, s ≤ max short long → a[i - t - s]? = b[j - t - s]? := fun s hs => by
        have := h.eq (t := t + s) (by omega)
        rwa [show i - (t + s) - 0 = i - t - s by omega, show j - (t + s) - 0 = j - t - s by omega] at this
      have e0 : a[i - t]? = b[j - t]? := e 0 (by omega)
      have u : ∀ s, s ≤ max short long → (usub (i - t) s = some (i - t - s)) ∧ usub (j - t) s = some (j - t - s) := fun s hs =>
        ⟨if_pos (by omega), if_pos (by omega)⟩
      simp only [e0, (u short (by omega)).1, (u short (by omega)).2, (u long (by omega)).1, (u long (by omega)).2, Option.bind_some,
        e short (by omega), e long (by omega)]
    · locality []) (by omega)

example (p q x y z : F) : SameAtEnd (fun l => coppock l 2 1 2) [p, x, y, z, x] [q, q, x, y, z, x] :=
  (coppock_local (by decide)).shown ⟨_, rfl⟩ ⟨_, rfl⟩

theorem smaChain_ag {w : Nat} (n : Nat) {c : Nat} {l l' : List F} (h : Ag W i j c d l l') :
    OR (List.Forall₂ (Ag W i j (c + n * (w - 1)) d)) (smaChain w n l) (smaChain w n l') := by
  induction n generalizing c l l' with
  | zero => exact OR.some .nil
  | succ n ih =>
    simp only [smaChain, Option.bind_eq_bind]
    refine OR.bind (Smooth.sma_ag h w) fun m m' hm => OR.bind (ih hm) fun r r' hr => OR.some (.cons ?_ ?_)
    · refine hm.weaken (Nat.le_refl _) ?_
      rw [Nat.add_mul, Nat.one_mul]
      omega
    · have e : c + (n + 1) * (w - 1) = c + (w - 1) + n * (w - 1) := by rw [Nat.add_mul, Nat.one_mul]; omega
      rw [e]
      exact hr

/-- Ten averages one after the other, or the look-back if that is longer. -/
theorem rainbow_local {w lookback : Nat} : DependsOnLast (max (10 * (w - 1) + 1) lookback) fun l : List F => rainbow l w lookback :=
  dependsOnLast_of_or (fun a b i j hia hjb h => by
    simp only [rainbow, Option.bind_eq_bind]
    refine OR.bind (smaChain_ag (w := w) 10 h) fun s s' hs => or_bind_usub_same fun k hk => ?_
    refine OR.bind (R := Ag _ i j (max (10 * (w - 1) + 1) lookback - 1) (k * 10))
      (Ag.index h.hi h.hj hia hjb (by omega) fun t ht => ?_) fun r r' hr => ?_
    · obtain rfl : t = 0 := by omega
      simp only [Nat.sub_zero]
      have hi := h.hi
      have hj := h.hj
      have e1 : mapP (fun sma : List F => sma[i]?) s = mapP (fun sma : List F => sma[j]?) s' := by
        induction hs with
        | nil => rfl
        | cons hx _ ih =>
          have := hx.eq (t := 0) (by omega)
          simp only [Nat.sub_zero] at this
          simp only [mapP, this, ih]
      have e0 : a[i]? = b[j]? := by simpa using h.eq (t := 0) (by omega)
      rw [e1, e0]
      refine congrArg _ (funext fun v => ?_)
      simp only [usub]
      by_cases hl : 1 ≤ lookback
      · have er := h.recent hl (by omega)
        have dr : ∀ (l : List F) (i : Nat), lookback ≤ i + 1 → (l.take (i + 1)).drop (i - (lookback - 1)) = recent l lookback i := fun l i hi => by
          rw [List.drop_take, recent, show i - (lookback - 1) = i + 1 - lookback by omega, show i + 1 - (i + 1 - lookback) = lookback by omega]
        simp only [if_pos hl, Option.bind_some, if_pos (show lookback - 1 ≤ i by omega), if_pos (show lookback - 1 ≤ j by omega), sliceTo,
          if_pos (show i + 1 ≤ a.length by omega), if_pos (show j + 1 ≤ b.length by omega), dr a i (by omega), dr b j (by omega), er]
      · simp only [if_neg hl, Option.bind_none]
    · locality []) (by omega)

example (p q x : F) : SameAtEnd (fun l => rainbow l 2 3) (p :: List.replicate 11 x) (q :: q :: List.replicate 11 x) :=
  rainbow_local.shown (rainbow_aligned _ 2 3 (by decide) (by decide) (by decide) (by simp)).yields.answers
    (rainbow_aligned _ 2 3 (by decide) (by decide) (by decide) (by simp)).yields.answers

end Traquer.Momentum

namespace Traquer.Trend
open FP FloatLit
open Traquer.Volatility (trueRange)
variable {F : Type} [FloatOps F] {W i j c d : Nat}

theorem dmBars_ag {x x' y y' z z' : List F} (hx : Ag W i j c d x x') (hy : Ag W i j c d y y') (hz : Ag W i j c d z z') :
    OR (Ag W i j (c + 1) (d + 1)) (dmBars x y z) (dmBars x' y' z') := by
  have := hx.le
  locality [dmBars]
macro_rules | `(tactic| local_fn) => `(tactic| (with_reducible apply dmBars_ag; local_list; local_list; local_list))

theorem shinohara_local {w : Nat} (hw : 1 ≤ w) : DependsOnLast (w + 1) fun l : List (Candle F) =>
    shinohara (l.map (·.high)) (l.map (·.low)) (l.map (·.close)) w :=
  dependsOnLast_of_or (fun a b i j _ _ h => by locality [shinohara]) (by omega)

example (p q x y z : Candle F) : SameAtEnd (fun l => shinohara (l.map (·.high)) (l.map (·.low)) (l.map (·.close)) 2) [p, x, y, z] [q, q, x, y, z] :=
  (shinohara_local (by decide)).shown ⟨_, rfl⟩ ⟨_, rfl⟩

theorem vortex_local {w : Nat} (hw : 1 ≤ w) : DependsOnLast (w + 1) fun l : List (Candle F) =>
    vortex (l.map (·.high)) (l.map (·.low)) (l.map (·.close)) w :=
  dependsOnLast_of_or (fun a b i j _ _ h => by locality [vortex]) (by omega)

example (p q x y z : Candle F) : SameAtEnd (fun l => vortex (l.map (·.high)) (l.map (·.low)) (l.map (·.close)) 2) [p, x, y, z] [q, q, x, y, z] :=
  (vortex_local (by decide)).shown ⟨_, rfl⟩ ⟨_, rfl⟩

theorem rwi_local {w : Nat} (hw : 1 ≤ w) : DependsOnLast (w + 1) fun l : List (Candle F) =>
    rwi (l.map (·.high)) (l.map (·.low)) (l.map (·.close)) w :=
  dependsOnLast_of_or (fun a b i j _ _ h => by locality [rwi]) (by omega)

example (p q x y z : Candle F) : SameAtEnd (fun l => rwi (l.map (·.high)) (l.map (·.low)) (l.map (·.close)) 2) [p, x, y, z] [q, q, x, y, z] :=
  (rwi_local (by decide)).shown ⟨_, rfl⟩ ⟨_, rfl⟩

theorem aroon_local {w : Nat} : DependsOnLast (w + 1) fun l : List (Candle F) =>
    aroon (l.map (·.high)) (l.map (·.low)) w :=
  dependsOnLast_of_or (fun a b i j _ _ h => by locality [aroon]) (by omega)

example (p q x y z : Candle F) : SameAtEnd (fun l => aroon (l.map (·.high)) (l.map (·.low)) 2) [p, x, y, z] [q, q, x, y, z] :=
  aroon_local.shown (aroon_aligned _ _ 2 (by simp) (by simp)).yields.answers (aroon_aligned _ _ 2 (by simp) (by simp)).yields.answers

/-- The drawdown from the highest close of the window, averaged over the window. -/
theorem ulcer_local {w : Nat} (hw : 1 ≤ w) : DependsOnLast (2 * w - 1) fun l : List F =>
    ulcer l w :=
  dependsOnLast_of_or (fun a b i j _ _ h => by locality [ulcer]) (by omega)

example (p q x y z : F) : SameAtEnd (fun l => ulcer l 2) [p, x, y, z] [q, q, x, y, z] :=
  (ulcer_local (by decide)).shown ⟨_, rfl⟩ ⟨_, rfl⟩

/-- With the default simple average. -/
theorem dpo_local {w : Nat} (hw : 1 ≤ w) : DependsOnLast w fun l : List F =>
    dpo l w none :=
  dependsOnLast_of_or (fun a b i j _ _ h => by locality [dpo, Option.getD_none, Smooth.ma]) hw

example (p q x y z : F) : SameAtEnd (fun l => dpo l 4 none) [p, x, y, z, x, y] [q, q, x, y, z, x, y] :=
  (dpo_local (by decide)).shown ⟨_, rfl⟩ ⟨_, rfl⟩

theorem hurst_local {w : Nat} (hw : 1 ≤ w) (m : Option Nat) : DependsOnLast w fun l : List F =>
    hurst l w m :=
  dependsOnLast_of_or (fun a b i j _ _ h => by locality [hurst]) hw

/-- Two histories of a random walk that differ in their beginning, the smallest scale being one bar. -/
example (p q x y z : XF) : SameAtEnd (fun l => hurst l 3 (some 1)) [p, x, y, z] [q, q, x, y, z] := by
  obtain ⟨n, hs, -, -⟩ := hurst_scales 1 3 (Nat.le_refl 1) (by norm_num)
  have hp : ∀ x ∈ (List.range n).map (scaleAt 1), 1 ≤ x := by
    intro x hx
    obtain ⟨k, -, rfl⟩ := List.mem_map.1 hx
    rw [scaleAt, Nat.one_le_floor_iff]
    rw [Nat.cast_one, one_mul]
    exact Real.one_le_rpow (by norm_num) (by positivity)
  exact (hurst_local (by decide) (some 1)).shown (hurst_aligned _ 3 (some 1) _ hs hp (by decide) (by simp)).answers
    (hurst_aligned _ 3 (some 1) _ hs hp (by decide) (by simp)).answers

end Traquer.Trend
