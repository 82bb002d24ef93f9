import Verif.Model.Lazy
import Verif.Model.Volume
/-!
# The iterators of the running totals that can panic

obv, vwap and mama keep a state between items (`Iterator::scan`). Their closures can panic: obv looks up a volume that may be
missing, vwap the head of a list of resets that may be empty, mama clamps to bounds that may be NaN. As in `Model/Lazy` an
entry is `none` when the call of `next()` that should produce it panics. What was written to the state before the panic stays written, so
the entries after a `none` are again what a caller who catches the panic sees next.
-/

namespace Traquer

/-- The items of a `scan` such as that of volume.rs:577-581 whose closure can panic: `f` is the closure, `bad` what a panicking run of it leaves of the state. -/
def scanE {σ α β : Type} (f : σ → α → Option (σ × β)) (bad : σ → α → σ) : σ → List α → List (Option β)
  | _, [] => []
  | s, x :: xs =>
    match f s x with
    | none => none :: scanE f bad (bad s x) xs
    | some (s', y) => some y :: scanE f bad s' xs

end Traquer

namespace Traquer.Volume
open FloatLit
variable {F : Type} [FloatOps F]

/-- The iterator of obv, volume.rs:573-582: the missing volume is looked up before the state is written. -/
def obvIter (close volume : List F) : Option (List (Option F)) :=
  some (some nan :: scanE (fun (state : F) ((i, p) : Nat × (F × F)) => do
    let v ← volume[i + 1]?
    let s := state + signum (p.2 - p.1) * v
    some (s, s)) (fun s _ => s) 0 ((List.range (pairs close).length).zip (pairs close)))

/-- The iterator of vwap, volume.rs:719-749: the sums are copied out of the state before `reset_idx[0]` is looked up. -/
def vwapIter (high low close volume : List F) (resetIdx : Option (List Nat)) : Option (List (Option F)) :=
  let resets := resetIdx.getD [close.length]
  let bars := zip4 high low close volume
  some (scanE vwapStep (fun s _ => s) { tpv := 0, vol := 0, resets := resets } ((List.range bars.length).zip bars))

end Traquer.Volume

namespace Traquer.Smooth
open FloatLit
variable {F : Type} [FloatOps F]

/-- What a run of mama's closure that panics in `clamp` leaves behind, smooth.rs:808-855: the three queues have moved on, the tuple has not
been written. The look-ups before the `clamp` do not panic for an index of the series; where this definition would differ because they do, it
keeps the state. -/
def mamaStuck (sm : List F) (st : MamaState F) (i : Nat) : MamaState F :=
  let tweak := 0.075 * st.pd + 0.54
  (do
    let s0 ← sm[i]?
    let s2 ← sm[i - 2]?
    let s4 ← sm[i - 4]?
    let s6 ← sm[i - 6]?
    let dtrend := pushFront st.dtrend (hilbert s0 s2 s4 s6 tweak)
    let q ← hilbertQ dtrend tweak
    let d3 ← dtrend[3]?
    some { st with dtrend := dtrend, q1 := pushFront st.q1 q, i1 := pushFront st.i1 d3 }).getD st

/-- The iterator of mama, smooth.rs:781-878: the weighted prices are computed by the call. -/
def mamaIter (data : List F) (fast slow : Option F) : Option (List (Option (F × F))) :=
  let fast := fast.getD 0.5
  let slow := slow.getD 0.05
  let sm := mamaSmooth data
  some ((List.replicate 6 (nan, nan)).map some ++ scanE (mamaStep fast slow sm data) (mamaStuck sm) mamaInit ((List.range data.length).drop 6))

end Traquer.Smooth
