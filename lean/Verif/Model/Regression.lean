import Verif.Rust
/-!
# Model of `/repo/src/statistic/regression.rs`
-/

namespace Traquer.Regression
open FloatLit
variable {F : Type} [FloatOps F]

/-- `data.iter().enumerate().zip(estimate).scan(0.0, ...)`: the accumulation shared by mse, rmse, mae,
mape and smape (regression.rs:31-37, 63-69, 93-99, 125-133, 160-168). `err` is the increment, `fin`
the value computed from the total and `cnt + 1`. -/
def runningError (err : F → F → F) (fin : F → F → F) (data estimate : List F) : List F :=
  scan (fun (state : F) (p : Nat × F × F) =>
    let state := state + err p.2.1 p.2.2
    (state, fin state (flt (p.1 + 1)))) 0
    ((List.range data.length).zip (data.zip estimate))

/-- regression.rs:30-38 -/
def mse (data estimate : List F) : List F :=
  runningError (fun o e => powi (o - e) 2) (fun s n => s / n) data estimate

/-- regression.rs:59-70 -/
def rmse (data estimate : List F) : List F :=
  runningError (fun o e => powi (o - e) 2) (fun s n => sqrt (s / n)) data estimate

/-- regression.rs:92-100 -/
def mae (data estimate : List F) : List F :=
  runningError (fun o e => fabs (o - e)) (fun s n => s / n) data estimate

/-- regression.rs:121-134 -/
def mape (data estimate : List F) : List F :=
  runningError (fun o e => fabs ((o - e) / o)) (fun s n => 100 * s / n) data estimate

/-- regression.rs:156-169 -/
def smape (data estimate : List F) : List F :=
  runningError (fun o e => fmax (fabs (o - e) / ((fabs o + fabs e) / 2)) 0)
    (fun s n => 100 * s / n) data estimate

/-- regression.rs:191-201 -/
def mda (data estimate : List F) : Option (List F) := do
  let d1 ← sliceFrom data 1
  let e1 ← sliceFrom estimate 1
  let d0 ← data[0]?
  some (nan :: scan (fun (state : F × F) (p : Nat × F × F) =>
    let dir := boolF (signum (p.2.1 - state.2) ==. signum (p.2.2 - state.2))
    let state := (state.1 + dir, p.2.1)
    (state, state.1 / flt (p.1 + 1))) (0, d0) ((List.range d1.length).zip (d1.zip e1)))

/-- `mae_naive`, regression.rs:230-233 -/
def maeNaive (data : List F) : List F :=
  scan (fun (state : F) (p : Nat × F × F) =>
    let state := state + fabs (p.2.2 - p.2.1)
    (state, state / flt (p.1 + 1))) 0 ((List.range (pairs data).length).zip (pairs data))

/-- regression.rs:225-241 -/
def mase (data estimate : List F) : List F :=
  nan :: (((mae data estimate).drop 1).zip (maeNaive data)).map fun (est, naive) => est / naive

/-- regression.rs:259-269 -/
def emae (data estimate : List F) : List F :=
  scan (fun (state : F × F) (p : F × F × Nat) =>
    let (actual, est, n) := p
    let state := (state.1 + fabs (actual - est), state.2 + fmax actual est)
    (state, state.1 / state.2 * 100 / flt n)) (0, 0)
    (zip3 data estimate (List.range' 1 data.length))

end Traquer.Regression
