import Verif.Model.FileMetadata
import Verif.Spec.Thrift
/-
What is said about reading files of arbitrary bytes.
-/
namespace Pq.Spec

/-- The external decompressors do not panic, on any bytes. -/
structure NoPanic (cs : Codecs) : Prop where
  readExact : ∀ c input output, (cs.readExact c input output).1 ≠ .panic
  snappyLen : ∀ input, cs.snappyLen input ≠ .panic
  decBlock : ∀ c input output, (cs.decBlock c input output).1 ≠ .panic

/-- The level lengths a V2 page header announces do not add up to an `i32`. -/
def LevelsOverflow (h : Thrift.DataPageHeaderV2) : Prop :=
  ¬ (-(2 ^ 31) ≤ h.definitionLevelsByteLength.toInt + h.repetitionLevelsByteLength.toInt ∧
    h.definitionLevelsByteLength.toInt + h.repetitionLevelsByteLength.toInt < 2 ^ 31)

/-- A compressed V2 page whose level lengths do not add up. -/
def BadLevels (page : CompressedPage) : Prop :=
  page.compression ≠ .uncompressed ∧ ∃ d h, page = .data d ∧ d.header = .v2 h ∧ LevelsOverflow h

/-- A column of a row group of the metadata. -/
def InMetadata (m : FileMetaData) (c : ColumnChunkMetaData) : Prop :=
  ∃ g ∈ m.rowGroups, c ∈ g.columns

/-- States of a decompressor reachable by `advance`, whatever the capacity of the buffer at each call
(the capacity is chosen by the allocator). -/
inductive DReaches {σ α : Type} (advance : Nat → σ → α × σ) : σ → σ → Prop where
  | refl (s : σ) : DReaches advance s s
  | step {s t : σ} (cap : Nat) : DReaches advance (advance cap s).2 t → DReaches advance s t

/-- The sum of the sizes. -/
def total (xs : List Nat) : Nat := xs.foldr (· + ·) 0

end Pq.Spec
