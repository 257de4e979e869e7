import Verif.Model.Deserialize
/-
Model of `src/indexes/intervals.rs`.
-/
namespace Pq

/-- `usize` addition: panics on overflow with overflow checks (`ck`), wraps otherwise. -/
def uadd (ck : Bool) (a b : Nat) : Res Nat :=
  if a + b < 2 ^ 64 then .ok (a + b) else if ck then .panic else .ok ((a + b) % 2 ^ 64)

/-- `collect::<Result<Vec<_>, _>>()`: the first error stops. -/
def collectRes {α : Type} : List (Res α) → Res (List α)
  | [] => .ok []
  | x :: xs => do
    let a ← x
    let as ← collectRes xs
    .ok (a :: as)

/-- `slice::windows(2)`. -/
def windows2 {α : Type} : List α → List (α × α)
  | x :: y :: rest => (x, y) :: windows2 (y :: rest)
  | _ => []

/-- `i64::checked_sub`. -/
def checkedSubI64 (a b : I64) : Option I64 :=
  let d := a.toInt - b.toInt
  if -(2 ^ 63) ≤ d ∧ d < 2 ^ 63 then some (a - b) else none

/-- `src/indexes/intervals.rs:37-43`: the last page of `compute_page_row_intervals`. -/
def lastInterval (last : Thrift.PageLocation) (numRows : Nat) : Res Interval := do
  let start ← toUsize last.firstRowIndex
  let length ← if start ≤ numRows then .ok (numRows - start) else .err .oos
  .ok { start, length }

/-- `src/indexes/intervals.rs:47-56`: a page followed by another one. -/
def windowInterval (x : Thrift.PageLocation × Thrift.PageLocation) : Res Interval := do
  let start ← toUsize x.1.firstRowIndex
  let d ← Res.ofOption .oos (checkedSubI64 x.2.firstRowIndex x.1.firstRowIndex)
  let length ← toUsize d
  .ok { start, length }

/-- `src/indexes/intervals.rs:29-60` `compute_page_row_intervals`. -/
def computePageRowIntervals (locations : List Thrift.PageLocation) (numRows : Nat) :
    Res (List Interval) :=
  match locations.getLast? with
  | none => .ok []
  | some last =>
    collectRes ((windows2 locations).map windowInterval ++ [lastInterval last numRows])

/-- `src/indexes/intervals.rs:64-84` `compute_rows`. -/
def computeRows (selected : List Bool) (locations : List Thrift.PageLocation) (numRows : Nat) :
    Res (List Interval) := do
  let pageIntervals ← computePageRowIntervals locations numRows
  .ok ((selected.zip pageIntervals).filterMap fun x => if x.1 then some x.2 else none)

/-- `src/indexes/intervals.rs:89-96` `FilteredPage`. -/
structure FilteredPage where
  start : Nat
  length : Nat
  selectedRows : List Interval
  numRows : Nat
  deriving DecidableEq, Repr

/-- `src/indexes/intervals.rs:101-112`: the closure of `is_in`. -/
def isInOne (ck : Bool) (probe interval : Interval) : Res (Option Interval) := do
  let intervalEnd ← uadd ck interval.start interval.length
  let probeEnd ← uadd ck probe.start probe.length
  let overlaps := decide (probe.start < intervalEnd) && decide (probeEnd > interval.start)
  if overlaps then do
    let start := max interval.start probe.start
    let «end» := min intervalEnd probeEnd
    let s ← Deser.usub ck start probe.start
    let l ← Deser.usub ck «end» start
    .ok (some { start := s, length := l })
  else .ok none

/-- `src/indexes/intervals.rs:98-114` `is_in`. -/
def isIn (ck : Bool) (probe : Interval) : List Interval → Res (List Interval)
  | [] => .ok []
  | iv :: ivs => do
    let o ← isInOne ck probe iv
    let rest ← isIn ck probe ivs
    .ok (o.toList ++ rest)

/-- `src/indexes/intervals.rs:128-136`: the closure of `select_pages`. -/
def selectPage (ck : Bool) (intervals : List Interval) (x : Interval × Thrift.PageLocation) :
    Res FilteredPage := do
  let selectedRows ← isIn ck x.1 intervals
  let start ← toUsize x.2.offset
  let length ← toUsize x.2.compressedPageSize
  .ok { start, length, selectedRows, numRows := x.1.length }

/-- `src/indexes/intervals.rs:118-138` `select_pages`. -/
def selectPages (ck : Bool) (intervals : List Interval) (locations : List Thrift.PageLocation)
    (numRows : Nat) : Res (List FilteredPage) := do
  let pageIntervals ← computePageRowIntervals locations numRows
  collectRes ((pageIntervals.zip locations).map (selectPage ck intervals))

end Pq
