import Mathlib.Data.List.Infix
import Verif.Spec.Writer
/-
How the calls of a writer end, told from the pages alone: done, refused with an error, or aborting the
program.
-/
namespace Pq.Spec

/-- How a call ends. -/
inductive Outcome where
  | done | refused | aborts
  deriving DecidableEq, Repr

/-- How a call with this result ended. -/
def outcome {α : Type} : Res α → Outcome
  | .ok _ => .done
  | .err _ => .refused
  | .panic => .aborts

/-- One step, and, when it is done, another one. -/
def Outcome.andThen : Outcome → Outcome → Outcome
  | .done, o => o
  | o, _ => o

/-- Steps, until one is not done. -/
def inTurn (steps : List Outcome) : Outcome := steps.foldr Outcome.andThen .done

/-- A step refused unless something holds. -/
def requires (p : Prop) [Decidable p] : Outcome := if p then .done else .refused

/-- A step aborting unless something holds. -/
def expects (p : Prop) [Decidable p] : Outcome := if p then .done else .aborts

/-- An integer of 64 bits (signed). -/
def Fits64 (n : Int) : Prop := -(2 ^ 63) ≤ n ∧ n < 2 ^ 63

instance (n : Int) : Decidable (Fits64 n) := inferInstanceAs (Decidable (_ ∧ _))

/-- Adding up the numbers, one after the other, every sum fits in 64 bits. -/
def SumsFit (xs : List Int) : Prop := ∀ ys ∈ xs.inits, Fits64 ys.sum

instance (xs : List Int) : Decidable (SumsFit xs) := inferInstanceAs (Decidable (∀ _ ∈ _, _))

/-! ### Pages -/

instance (p : CompressedPage) : Decidable (SizesOk p) :=
  match p with
  | .data q => decidable_of_iff (q.uncompressedPageSize < 2 ^ 31 ∧ q.buffer.length < 2 ^ 31)
      ⟨fun h => ⟨h.1, h.2, fun _ e => by cases e⟩, fun h => ⟨h.1, h.2.1⟩⟩
  | .dict q => decidable_of_iff
      (q.uncompressedPageSize < 2 ^ 31 ∧ q.buffer.length < 2 ^ 31 ∧ q.numValues < 2 ^ 31)
      ⟨fun h => ⟨h.1, h.2.1, fun _ e => by cases e; exact h.2.2⟩, fun h => ⟨h.1, h.2.1, h.2.2 q rfl⟩⟩

instance (v : Thrift.Statistics) (t : PhysicalType) : Decidable (WidthsOk v t) :=
  decidable_of_iff (∀ w ∈ (plainWidth t).toList,
      (∀ x ∈ v.maxValue.toList, x.length = w) ∧ ∀ x ∈ v.minValue.toList, x.length = w)
    (by simp only [Option.mem_toList, Option.mem_def]; exact Iff.rfl)

/-- The bounds in the header of the page, if any, have the width of the type of the page. -/
def StatisticsOk (p : CompressedPage) : Prop :=
  ∀ s ∈ (statisticsOf p).toList, WidthsOk s.1 s.2

instance (p : CompressedPage) : Decidable (StatisticsOk p) := inferInstanceAs (Decidable (∀ _ ∈ _, _))

/-- A page: its sizes fit in 32 bits and the bounds of its statistics have the width of their type, or
it is refused; the list of selected rows, if any, is not empty, or the program aborts. -/
def pageOutcome (p : CompressedPage) : Outcome :=
  (requires (SizesOk p ∧ StatisticsOk p)).andThen (expects (p.selectedRows ≠ some []))

/-- A page, or what the caller gave in its place. -/
def itemOutcome : Res CompressedPage → Outcome
  | .ok p => pageOutcome p
  | .err _ => .refused
  | .panic => .aborts

/-- What the caller gave. -/
def given {α : Type} (xs : List (Res α)) : List α :=
  xs.filterMap fun
    | .ok x => some x
    | _ => none

/-! ### Columns -/

/-- The null counts in the headers of the pages. -/
def nullCounts (pages : List CompressedPage) : List Int :=
  ((pages.filterMap statisticsOf).filterMap (·.1.nullCount)).map BitVec.toInt

/-- The types of the pages with statistics. -/
def statisticsTypes (pages : List CompressedPage) : List PhysicalType :=
  (pages.filterMap statisticsOf).map (·.2)

/-- The pages of a column, all of them taken: they have one codec and statistics of one type, or the
column is refused; the type is not int96, and the null counts can be added up (if overflow is
detected), or the program aborts. -/
def pagesOutcome (ck : Bool) (pages : List CompressedPage) : Outcome :=
  (requires ((∀ p ∈ pages, ∀ q ∈ pages, p.compression = q.compression) ∧
      ∀ s ∈ statisticsTypes pages, ∀ t ∈ statisticsTypes pages, s = t)).andThen
    (expects (PhysicalType.int96 ∉ statisticsTypes pages ∧ (ck = true → SumsFit (nullCounts pages))))

/-- A column: its pages in turn, then all of them. -/
def columnOutcome (ck : Bool) : Res (List (Res CompressedPage)) → Outcome
  | .ok items => (inTurn (items.map itemOutcome)).andThen (pagesOutcome ck (given items))
  | .err _ => .refused
  | .panic => .aborts

/-! ### Rows -/

/-- The rows of a page as the writer counts them: those of the last selected interval. -/
def lastRows (p : CompressedPage) : Option Nat :=
  p.selectedRows.bind fun x => x.getLast?.map (·.length)

/-- A number as one of 64 bits (signed). -/
def signed (n : Nat) : Int := (n : Int).bmod (2 ^ 64)

/-- Counting the rows of pages, `rows` being counted already: refused at a page that says nothing about
its rows, or is not as required; aborting when there are too many, if overflow is detected. -/
def countRows (ck : Bool) (required : CompressedPage → Bool) : Int → List CompressedPage → Outcome
  | _, [] => .done
  | rows, p :: ps =>
    match lastRows p with
    | none => .refused
    | some n =>
      (requires (required p = true)).andThen
        ((expects (ck = true → Fits64 (rows + signed n))).andThen
          (countRows ck required (rows + signed n) ps))

/-! ### Row groups -/

/-- The pages of the first column of a row group. -/
def firstPages (columns : List (Res (List (Res CompressedPage)))) : List CompressedPage :=
  (given columns).head?.elim [] given

/-- A row group for a schema with `n` columns: the columns in turn, then the rows of the first. -/
def groupOutcome (ck : Bool) (n : Nat) (columns : List (Res (List (Res CompressedPage)))) : Outcome :=
  (inTurn ((columns.take n).map (columnOutcome ck))).andThen
    (countRows ck (fun _ => true) 0 ((firstPages (columns.take n)).filter isData))

/-- Everything given by the caller fits in memory: less than 2^31 pages in a column, the sizes of all
of them less than 2^63. -/
structure Moderate (cs : ThriftCodecs) (n : Nat) (columns : List (Res (List (Res CompressedPage)))) :
    Prop where
  pages : ∀ c ∈ given (columns.take n), (given c).length < 2 ^ 31
  total : ((given (columns.take n)).map fun c => chunkUncompressed cs.page (given c)).sum < 2 ^ 63

/-! ### The end -/

/-- A page can be in a column index: it has a null count, and a maximum if it has a minimum. -/
def Indexable (p : CompressedPage) : Prop :=
  ∃ s ∈ (statisticsOf p).toList, s.1.nullCount.isSome = true ∧
    (s.1.minValue.isSome = true → s.1.maxValue.isSome = true)

instance (p : CompressedPage) : Decidable (Indexable p) := inferInstanceAs (Decidable (∃ _ ∈ _, _))

/-- The rows recorded for a row group. -/
def recordedRows (columns : List (List CompressedPage)) : Int :=
  signed (((columns.head?.getD []).filter isData).map fun p => (lastRows p).getD 0).sum

/-- Ending a file in which these row groups are: the rows of the row
groups can be added up, if overflow is detected; with statistics, every data page can be in a column
index; and the data pages of every column can be in an offset index: their sizes, with header, fit in
32 bits and their rows can be counted. -/
def endOutcome (cs : ThriftCodecs) (ck statistics : Bool) (groups : List (List (List CompressedPage))) :
    Outcome :=
  (expects (ck = true → SumsFit (groups.map recordedRows))).andThen <|
    (requires (statistics = true → ∀ g ∈ groups, ∀ c ∈ g, ∀ p ∈ c, isData p = true → Indexable p)).andThen <|
      inTurn (groups.flatten.map fun c =>
        countRows ck (fun p => decide ((pageBytes cs.page p).length < 2 ^ 31)) 0 (c.filter isData))

/-- `w` is the writer after some calls on a new one: `groups` are the row groups that were accepted,
others may have been refused. -/
inductive Tried (cs : ThriftCodecs) (ck : Bool) (schema : SchemaDescriptor) (options : WriteOptions)
    (createdBy : Option String) : List (List (List CompressedPage)) → FileWriter → Prop where
  | new : Tried cs ck schema options createdBy [] (FileWriter.new schema options createdBy)
  | start {groups : List (List (List CompressedPage))} {w w' : FileWriter} {r : Res Unit} :
      Tried cs ck schema options createdBy groups w → w.start = (r, w') →
      Tried cs ck schema options createdBy groups w'
  | accepted {groups : List (List (List CompressedPage))} {g : List (List CompressedPage)}
      {w w' : FileWriter} : Tried cs ck schema options createdBy groups w →
      w.write cs ck (g.map fun pages => .ok (pages.map .ok)) = (.ok (), w') →
      Tried cs ck schema options createdBy (groups ++ [g]) w'
  | refused {groups : List (List (List CompressedPage))}
      {columns : List (Res (List (Res CompressedPage)))} {w w' : FileWriter} {e : Err} :
      Tried cs ck schema options createdBy groups w → w.write cs ck columns = (.err e, w') →
      Tried cs ck schema options createdBy groups w'

end Pq.Spec
