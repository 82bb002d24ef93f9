import Verif.FloatOps
/-!
# The parts of the Rust standard library used by traquer, on lists

Slices and drained iterators are `List`s, a panicking computation is an `Option`
(`none` = panic).
-/

namespace Traquer

variable {α β σ : Type}

/-- Checked `usize` subtraction `a - b` (panics on underflow: debug / `overflow-checks` semantics). -/
def usub (a b : Nat) : Option Nat := if b ≤ a then some (a - b) else none

/-- Checked `usize` multiplication on a 64-bit target. -/
def umul (a b : Nat) : Option Nat := if a * b < 2 ^ 64 then some (a * b) else none

/-- Checked `usize` addition on a 64-bit target. -/
def uadd (a b : Nat) : Option Nat := if a + b < 2 ^ 64 then some (a + b) else none

/-- `&data[..n]` -/
def sliceTo (l : List α) (n : Nat) : Option (List α) :=
  if n ≤ l.length then some (l.take n) else none

/-- `&data[n..]` -/
def sliceFrom (l : List α) (n : Nat) : Option (List α) :=
  if n ≤ l.length then some (l.drop n) else none

/-- The windows of `slice::windows(n)` for `n ≥ 1`: all contiguous sublists of length `n`, in order. -/
def windowsOf (n : Nat) (l : List α) : List (List α) :=
  (List.range (l.length + 1 - n)).map fun i => (l.drop i).take n

/-- `slice::windows(n)`: panics for `n = 0`. -/
def windows (n : Nat) (l : List α) : Option (List (List α)) :=
  if n = 0 then none else some (windowsOf n l)

/-- `slice::windows(2)` as pairs `(w[0], w[1])`. -/
def pairs : List α → List (α × α)
  | x :: y :: r => (x, y) :: pairs (y :: r)
  | _ => []

/-- `Iterator::scan(s, f)` for a closure that always returns `Some`: `f` returns the new state and
the item. -/
def scan (f : σ → α → σ × β) : σ → List α → List β
  | _, [] => []
  | s, x :: xs => (f s x).2 :: scan f (f s x).1 xs

/-- `Iterator::scan(s, f)` for a closure that may panic. -/
def scanM (f : σ → α → Option (σ × β)) : σ → List α → Option (List β)
  | _, [] => some []
  | s, x :: xs =>
    match f s x with
    | none => none
    | some (s', y) =>
      match scanM f s' xs with
      | none => none
      | some ys => some (y :: ys)

/-- A scan that yields its state, the most frequent form (`Some(*state)`). -/
def scanS (f : σ → α → σ) (s : σ) (l : List α) : List σ := scan (fun s x => (f s x, f s x)) s l

/-- A list traversal whose closure may panic (`map` + `collect`). -/
def mapP (f : α → Option β) : List α → Option (List β)
  | [] => some []
  | x :: xs =>
    match f x with
    | none => none
    | some y =>
      match mapP f xs with
      | none => none
      | some ys => some (y :: ys)

/-- `izip!(a, b, c)` -/
def zip3 {α β γ : Type} : List α → List β → List γ → List (α × β × γ)
  | x :: xs, y :: ys, z :: zs => (x, y, z) :: zip3 xs ys zs
  | _, _, _ => []

/-- `izip!(a, b, c, d)` -/
def zip4 {α β γ δ : Type} : List α → List β → List γ → List δ → List (α × β × γ × δ)
  | x :: xs, y :: ys, z :: zs, w :: ws => (x, y, z, w) :: zip4 xs ys zs ws
  | _, _, _, _ => []

/-- `izip!(a, b, c, d, e)` -/
def zip5 {α β γ δ ε : Type} :
    List α → List β → List γ → List δ → List ε → List (α × β × γ × δ × ε)
  | x :: xs, y :: ys, z :: zs, w :: ws, v :: vs => (x, y, z, w, v) :: zip5 xs ys zs ws vs
  | _, _, _, _, _ => []

/-- `izip!` of six lists -/
def zip6 {α β γ δ ε ζ : Type} : List α → List β → List γ → List δ → List ε → List ζ →
    List (α × β × γ × δ × ε × ζ)
  | x :: xs, y :: ys, z :: zs, w :: ws, v :: vs, u :: us => (x, y, z, w, v, u) :: zip6 xs ys zs ws vs us
  | _, _, _, _, _, _ => []

/-- `iter::repeat(f64::NAN).take(n)` -/
def nans {F : Type} [FloatOps F] (n : Nat) : List F := List.replicate n nan

/-- `usize::div_ceil` -/
def divCeil (a b : Nat) : Nat := (a + b - 1) / b

end Traquer
