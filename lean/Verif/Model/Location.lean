import Verif.Model.Basic
/-! # Source locations (`src/graph/nodes.rs`) -/
namespace Adoc

/-- `nodes.rs:79-84`, `Location`. -/
structure Location where
  line : Nat
  col : Nat
  file : List Str
deriving DecidableEq, Repr

/-- `nodes.rs:86-94`, `Location::default`. -/
def Location.default : Location := ⟨1, 1, []⟩

/-- `nodes.rs:96-108`, `Ord::cmp`. -/
def Location.cmp (a b : Location) : Ordering :=
  if a.file.length = b.file.length then
    if a.line = b.line then compare a.col b.col else compare a.line b.line
  else compare a.file.length b.file.length

/-- `a ≤ b` as decided by `cmp`. -/
def Location.le (a b : Location) : Bool := a.cmp b != .gt

/-- One insertion of the stable sort below: before the first strictly greater element. -/
def insertLoc (x : Location) : List Location → List Location
  | [] => [x]
  | y :: ys => if x.cmp y = .lt then x :: y :: ys else y :: insertLoc x ys

/-- `Vec::sort` (a stable sort by `cmp`), as insertion sort from the left. -/
def sortLocs (l : List Location) : List Location := l.foldl (fun acc x => insertLoc x acc) []

/-- `nodes.rs:125-135`, `Location::reconcile`. -/
def reconcile (start other : List Location) : List Location :=
  if other.isEmpty then start
  else
    let sorted := sortLocs (start ++ other)
    -- `drain(1..len-1)` keeps the first and the last element
    match sorted with
    | [] => []
    | [x] => [x]
    | x :: y :: ys => [x, (y :: ys).getLast (by simp)]

/-- `nodes.rs:137-151`, `destructure_inline_locations`: line and column of the first, column of the last. -/
def destructureLocs (l : List Location) : Nat × Nat × Nat :=
  match l with
  | [] => (0, 0, 0)
  | x :: xs => (x.line, x.col, ((x :: xs).getLast (by simp)).col)

end Adoc
