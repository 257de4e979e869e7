import Verif.Model.Deserialize
/-
The `size_hint` of the iterators of the crate: a lower bound of the number of items to come, and an
upper bound if there is one. That of `BinaryIter` is in `Model/DeltaBytes.lean`; the iterators left out
here have the default `(0, None)`, which promises nothing, or pass on that of an iterator of the
standard library.
-/
namespace Pq

/-- `src/encoding/hybrid_rle/bitmap.rs:65-67` `size_hint`. -/
def Bitmap.Iter.sizeHint (it : Bitmap.Iter) : Nat × Option Nat := (it.remaining, some it.remaining)

/-- `src/encoding/hybrid_rle/bitmap.rs:46-62` `next`, as an iterator that cannot fail. -/
def Bitmap.Iter.step (it : Bitmap.Iter) : Res (Option Bool × Bitmap.Iter) := .ok it.next

/-- `src/encoding/bitpacked/decode.rs:83-85` `size_hint`. -/
def Bitpack.Decoder.sizeHint {b : Nat} (d : Bitpack.Decoder b) : Nat × Option Nat :=
  (d.remaining, some d.remaining)

/-- `src/encoding/hybrid_rle/mod.rs:111-113` `size_hint`; `ExactSizeIterator::len` (line 116) is its
first component. -/
def Rle.Dec.sizeHint (d : Rle.Dec) : Nat × Option Nat := (d.remaining, some d.remaining)

/-- `src/encoding/delta_bitpacked/decoder.rs:241-243` `size_hint`. -/
def Delta.Decoder.sizeHint (d : Delta.Decoder) : Nat × Option Nat :=
  (d.valuesRemaining, some d.valuesRemaining)

/-- `src/encoding/plain_byte_array.rs:23-40` `next`, in the form of the other iterators: an `Err` item
is an item. -/
def PlainBytes.BinaryIter.step (it : PlainBytes.BinaryIter) :
    Res (Option (Except Err (List Byte)) × PlainBytes.BinaryIter) :=
  match it.next with
  | none => .ok (none, it)
  | some (x, it) => .ok (some x, it)

/-- `src/deserialize/utils.rs:145-147` `size_hint`. -/
def Deser.SliceIter.sizeHint {σ : Type} (it : Deser.SliceIter σ) : Nat × Option Nat :=
  (it.totalLength, some it.totalLength)

/-- `src/deserialize/hybrid_rle.rs:198-201` `size_hint`, over the iterator of runs of
`HybridRleDecoderIter` (`number_of_elements`, lines 77-79, is its `len`). -/
def Deser.BoolIter.sizeHint (it : Deser.BoolIter Deser.RunIter) : Nat × Option Nat :=
  (it.iter.len, some it.iter.len)

/-- `src/deserialize/utils.rs:87-89` `size_hint` of `OptionalValues`: that of the validity. -/
def Deser.optionalHint {σ τ : Type} (validity : σ → Nat × Option Nat) (s : σ × τ) : Nat × Option Nat :=
  validity s.1

end Pq
