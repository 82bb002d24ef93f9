import Verif.Model.Smooth
/-!
# Model of `/repo/src/volume.rs`
-/

namespace Traquer.Volume
open FloatLit
variable {F : Type} [FloatOps F]

/-- A bar `(high, low, close, volume)` as produced by `izip!`, volume.rs:19. -/
abbrev Bar (F : Type) := F × F × F × F

/-- State of vforce's scan: `(h, l, c, trend, cm, dm)`, volume.rs:29. -/
structure VfState (F : Type) where
  h : F
  l : F
  c : F
  trend : F
  cm : F
  dm : F

/-- The closure of vforce, volume.rs:28-45 -/
def vforceStep (s : VfState F) (b : Bar F) : VfState F × F :=
  let (h, l, c, v) := b
  let trend := signum ((h + l + c) - (s.h + s.l + s.c))
  let dm := h - l
  let cm := if trend ==. s.trend then s.cm + dm else s.dm + dm
  ({ h, l, c, trend, cm, dm }, v * (dm / cm - 1) * trend * 200)

/-- `izip!(&high[1..], &low[1..], &close[1..], &volume[1..])`, volume.rs:19, 55, 176, 259, 361 -/
def tailBars (high low close volume : List F) : Option (List (Bar F)) := do
  some (zip4 (← sliceFrom high 1) (← sliceFrom low 1) (← sliceFrom close 1) (← sliceFrom volume 1))

/-- volume.rs:13-47 -/
def vforce (high low close volume : List F) : Option (List F) := do
  let bars ← tailBars high low close volume
  let h0 ← high[0]?
  let l0 ← low[0]?
  let c0 ← close[0]?
  some (scan vforceStep { h := h0, l := l0, c := c0, trend := 0, cm := 0, dm := 0 } bars)

/-- volume.rs:49-74. The unused fourth state component is dropped. -/
def vforce_alt (high low close volume : List F) : Option (List F) := do
  let bars ← tailBars high low close volume
  let h0 ← high[0]?
  let l0 ← low[0]?
  let c0 ← close[0]?
  some (scan (fun (s : F × F × F) (b : Bar F) =>
    let (h, l, c, v) := b
    let trend := signum ((h + l + c) - (s.1 + s.2.1 + s.2.2))
    ((h, l, c), v * trend)) (h0, l0, c0) bars)

/-- volume.rs:105-127 -/
def kvo (high low close volume : List F) (short long : Nat) (alt : Option Bool) :
    Option (List F) := do
  let vf ← if alt.getD true then vforce_alt high low close volume else vforce high low close volume
  let shortMa ← Smooth.ewma vf short
  let longMa ← Smooth.ewma vf long
  some (nan :: (shortMa.zip longMa).map fun (x, y) => x - y)

/-- volume.rs:129-139 -/
def wilder_sum (data : List F) (window : Nat) : Option (List F) := do
  let k ← usub window 1
  let head ← sliceTo data k
  let initial := fsum head
  let rest ← sliceFrom data k
  some (scanS (fun state x => state * flt k / flt window + x) initial rest)

/-- The range-volume of twiggs, volume.rs:181-193 -/
def twiggsStep (s : F) (b : Bar F) : F × F :=
  let (h, l, c, vol) := b
  let rangeVol := vol * ((2 * c - fmin l s - fmax h s) / (fmax h s - fmin l s))
  (c, rangeVol)

/-- volume.rs:169-201 -/
def twiggs (high low close volume : List F) (window : Nat) : Option (List F) := do
  let bars ← tailBars high low close volume
  let c0 ← close[0]?
  let rv ← wilder_sum (scan twiggsStep c0 bars) window
  let vtail ← sliceFrom volume 1
  let vs ← wilder_sum vtail window
  some (nans window ++ (rv.zip vs).map fun (range, vol) => range / vol)

/-- volume.rs:233-281 -/
def ad (high low close volume : List F) (alt : Option Bool) : Option (List F) :=
  if !(alt.getD false) then
    some (scanS (fun state ((h, l, c, vol) : Bar F) =>
      let mfm := ((c - l) - (h - c)) / (h - l)
      let mfv := mfm * vol
      state + mfv) 0 (zip4 high low close volume))
  else do
    let bars ← tailBars high low close volume
    let c0 ← close[0]?
    some (nan :: scan (fun (state : F × F) ((h, l, c, vol) : Bar F) =>
      let mfm := if c >. state.1 then c - fmin l state.1 else c - fmax h state.1
      let mfv := mfm * vol
      let adl := state.2 + mfv
      ((c, adl), adl)) (c0, 0) bars)

/-- volume.rs:308-324 -/
def elder_force (close volume : List F) (window : Nat) : Option (List F) := do
  let n ← usub close.length 1
  let prevs ← sliceTo close n
  let currs ← sliceFrom close 1
  let vols ← sliceFrom volume 1
  let r ← Smooth.ewma ((zip3 prevs currs vols).map fun (prev, curr, vol) => (curr - prev) * vol) window
  some (nan :: r)

/-- The closure of mfi's scan, volume.rs:365-377 -/
def mfiStep (s : F) (b : Bar F) : F × (F × F) :=
  let (h, l, c, vol) := b
  let hlc := (h + l + c) / 3
  let posMf := if hlc >. s then hlc * vol else 0
  let negMf := if hlc <. s then hlc * vol else 0
  (hlc, (posMf, negMf))

/-- volume.rs:353-389 -/
def mfi (high low close volume : List F) (window : Nat) : Option (List F) := do
  let bars ← tailBars high low close volume
  let h0 ← high[0]?
  let l0 ← low[0]?
  let c0 ← close[0]?
  let mf := scan mfiStep ((h0 + l0 + c0) / 3) bars
  let pos ← windows window (mf.map (·.1))
  let neg ← windows window (mf.map (·.2))
  some (nans window ++ (pos.zip neg).map fun (pos, neg) =>
    100 - 100 / (1 + fsum pos / fsum neg))

/-- volume.rs:419-445 -/
def cmf (high low close volume : List F) (window : Nat) : Option (List F) := do
  let k ← usub window 1
  let mfv := (zip4 high low close volume).map fun (h, l, c, vol) =>
    vol * ((c - l) - (h - c)) / (h - l)
  let ms ← windows window mfv
  let vs ← windows window volume
  some (nans k ++ (ms.zip vs).map fun (m, v) => fsum m / fsum v)

/-- volume.rs:471-498. `direction` is the integer `1`/`-1`; the flag `true` stands for `1`. -/
def tvi (close volume : List F) (minTick : F) : Option (List F) := do
  let n ← usub close.length 1
  let prevs ← sliceTo close n
  let currs ← sliceFrom close 1
  let vols ← sliceFrom volume 1
  some (nan :: scan (fun (state : Bool × F) ((prev, curr, vol) : F × F × F) =>
    let direction :=
      if (curr - prev) >. minTick then true
      else if (prev - curr) >. minTick then false
      else state.1
    let dirF : F := if direction then 1 else -1
    let tvi := state.2 + dirF * vol
    ((direction, tvi), tvi)) (true, 0) (zip3 prevs currs vols))

/-- volume.rs:525-548 -/
def ease (high low volume : List F) (window : Nat) : Option (List F) := do
  let r ← mapP (fun i => do
    let h ← high[i]?
    let l ← low[i]?
    let hp ← high[i - 1]?
    let lp ← low[i - 1]?
    let v ← volume[i]?
    some ((h + l - hp - lp) / 2 / (v / 100000000 / (h - l)))) ((List.range high.length).drop 1)
  let m ← Smooth.sma r window
  some (nan :: m)

/-- volume.rs:573-582 -/
def obv (close volume : List F) : Option (List F) := do
  let r ← scanM (fun (state : F) ((i, p) : Nat × (F × F)) => do
    let v ← volume[i + 1]?
    let s := state + signum (p.2 - p.1) * v
    some (s, s)) 0 ((List.range (pairs close).length).zip (pairs close))
  some (nan :: r)

/-- volume.rs:609-617 -/
def bw_mfi (high low volume : List F) : List F :=
  (zip3 high low volume).map fun (h, l, vol) => (h - l) / vol * powi 10 6

/-- volume.rs:642-655 -/
def pvi (data volume : List F) : List F :=
  nan :: scanS (fun (state : F) ((c, vol) : (F × F) × (F × F)) =>
    if vol.2 >. vol.1 then state * (c.2 / c.1) else state) 100 ((pairs data).zip (pairs volume))

/-- volume.rs:680-693 -/
def nvi (data volume : List F) : List F :=
  nan :: scanS (fun (state : F) ((c, vol) : (F × F) × (F × F)) =>
    if vol.2 <. vol.1 then state * (c.2 / c.1) else state) 100 ((pairs data).zip (pairs volume))

/-- State of vwap's scan: the running sums and the remaining reset indices, volume.rs:727-729. -/
structure VwapState (F : Type) where
  tpv : F
  vol : F
  resets : List Nat

/-- The closure of vwap, volume.rs:730-747. `reset_idx[0]` panics on an empty list;
`rotate_left(1)` moves the head to the back. -/
def vwapStep (s : VwapState F) (x : Nat × Bar F) : Option (VwapState F × F) :=
  let (idx, h, l, c, vol) := x
  match s.resets with
  | [] => none
  | r :: rs =>
    let (tpv, vs, resets) := if idx = r then (0, 0, rs ++ [r]) else (s.tpv, s.vol, r :: rs)
    let tpv := tpv + (h + l + c) / 3 * vol
    let vs := vs + vol
    some ({ tpv := tpv, vol := vs, resets := resets }, tpv / vs)

/-- volume.rs:719-749 -/
def vwap (high low close volume : List F) (resetIdx : Option (List Nat)) : Option (List F) :=
  let resets := resetIdx.getD [close.length]
  let bars := zip4 high low close volume
  scanM vwapStep { tpv := 0, vol := 0, resets := resets } ((List.range bars.length).zip bars)

/-- volume.rs:774-788 -/
def vwma (data volume : List F) (window : Nat) : Option (List F) := do
  let k ← usub window 1
  let ds ← windows window data
  let vs ← windows window volume
  some (nans k ++ (ds.zip vs).map fun (d, v) =>
    (d.zip v).foldl (fun acc (x, v) => acc + x * v) 0 / fsum v)

/-- volume.rs:813-826 -/
def vpt (data volume : List F) : Option (List F) := do
  let vols ← sliceFrom volume 1
  some (nan :: scanS (fun (state : F) ((w, v) : (F × F) × F) =>
    state + v * (w.2 - w.1) / w.1) 0 ((pairs data).zip vols))

end Traquer.Volume
