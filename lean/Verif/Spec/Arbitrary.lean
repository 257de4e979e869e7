import Verif.Spec.Rle
import Verif.Spec.Page
import Verif.Model.Page
/-
What makes the decoders abort on arbitrary pages. Independent of the model but for the type of a page.
-/
namespace Pq.Spec

/-- A bit-packed run at the start of `v` whose header, followed by at least one byte, announces groups
of `n`-bit values of 2^64 bytes or more. -/
def WideRun (n : Nat) (v : List Byte) : Prop :=
  ¬ Overlong 9 v ∧ base128 (varintPrefix v) % 2 = 1 ∧
    0 < (v.drop (varintPrefix v).length).length ∧ 2 ^ 64 ≤ base128 (varintPrefix v) / 2 * n

/-- The three sections of a page: by the length prefixes of the levels that the column has (V1), or by
the lengths in the header (V2). -/
def PageSections (page : DataPage) (rep def' values : List Byte) : Prop :=
  match page.header with
  | .v1 _ => LayoutV1 (0 < page.descriptor.maxRepLevel.toInt) (0 < page.descriptor.maxDefLevel.toInt)
      rep def' values page.buffer
  | .v2 h => page.buffer = rep ++ def' ++ values ∧
      h.repetitionLevelsByteLength.toInt = rep.length ∧ h.definitionLevelsByteLength.toInt = def'.length

/-- A V2 header whose levels are longer than the page. -/
def Overrun (page : DataPage) : Prop :=
  ∃ h, page.header = .v2 h ∧ 0 ≤ h.repetitionLevelsByteLength.toInt ∧
    0 ≤ h.definitionLevelsByteLength.toInt ∧
    (page.buffer.length : Int) < h.repetitionLevelsByteLength.toInt + h.definitionLevelsByteLength.toInt

/-- `w` is the least number of bits that hold the number `m` (read without sign). -/
def LevelWidth (m : BitVec 16) (w : Nat) : Prop := m.toNat < 2 ^ w ∧ ∀ v, m.toNat < 2 ^ v → w ≤ v

/-- Definition levels of a maximum other than 1 whose first run is malformed. -/
def LevelsAbort (page : DataPage) (levels : List Byte) : Prop :=
  page.descriptor.maxDefLevel ≠ 1#16 ∧
    ∃ w, LevelWidth page.descriptor.maxDefLevel w ∧ w ≠ 0 ∧ BadRun w levels

/-- Dictionary indices without a width, or of a width up to 32 bits whose first run is malformed. -/
def IndicesAbort (values : List Byte) : Prop :=
  values = [] ∨ ∃ w rest, values = w :: rest ∧ w.toNat ≠ 0 ∧ w.toNat ≤ 32 ∧ BadRun w.toNat rest

/-- The code of the encoding of the values in the header of a page. -/
def encodingCode (page : DataPage) : BitVec 32 :=
  match page.header with
  | .v1 h => h.encoding
  | .v2 h => h.encoding

/-- The codes that the parquet format assigns to an encoding. -/
def knownCodes : List (BitVec 32) := [0, 2, 3, 4, 5, 6, 7, 8, 9]

/-- The leaf of the column is declared optional. -/
def DeclaredOptional (page : DataPage) : Prop :=
  page.descriptor.primitiveType.fieldInfo.repetition = .optional

/-- What aborts the process when a page is opened whose values are malformed when `bad`: levels longer
than the page, a malformed first run of the levels of an optional page, malformed values. -/
def PageAborts (page : DataPage) (bad : List Byte → Prop) : Prop :=
  Overrun page ∨ ∃ rep def' values, PageSections page rep def' values ∧
    ((DeclaredOptional page ∧ LevelsAbort page def') ∨ bad values)

end Pq.Spec
