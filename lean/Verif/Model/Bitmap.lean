import Verif.Model.Bitpacked
/-
Model of `src/encoding/hybrid_rle/bitmap.rs`.
-/
namespace Pq.Bitmap

/-- `src/encoding/hybrid_rle/bitmap.rs:7-9` `set` with the table `BIT_MASK` (`i < 8`; a larger
index, a Rust panic, never occurs in the callers). -/
def set (byte : Byte) (i : Nat) : Byte := byte ||| (1#8 <<< i)

/-- `src/encoding/hybrid_rle/bitmap.rs:82-87` and `92-97`: one output byte from at most 8
booleans. -/
def byteOf (bits : List Bool) : Byte :=
  (bits.zipIdx).foldl (fun byte (v, i) => if v then set byte i else byte) 0#8

/-- `src/encoding/hybrid_rle/bitmap.rs:71-102` `encode_bool` (re-exported as
`bitpacked_encode`). The iterator is a list; its `size_hint` is exact. -/
def encodeBool (bits : List Bool) : List Byte :=
  let chunks := bits.length / 8
  let reminder := bits.length % 8
  (List.range chunks).map (fun c => byteOf ((bits.drop (8 * c)).take 8))
    ++ (if reminder ≠ 0 then [byteOf (bits.drop (8 * chunks))] else [])

/-- `src/encoding/hybrid_rle/bitmap.rs:14-19` `BitmapIter`. -/
structure Iter where
  iter : List Byte
  currentByte : Byte
  remaining : Nat
  mask : Byte
  deriving DecidableEq, Repr

/-- `src/encoding/hybrid_rle/bitmap.rs:26-39` `BitmapIter::new`; the slice `[offset / 8..]`
panics when out of range. -/
def Iter.new (slice : List Byte) (offset len : Nat) : Res Iter :=
  if slice.length < offset / 8 then .panic
  else
    let bytes := slice.drop (offset / 8)
    .ok { iter := bytes.tail, currentByte := bytes.headD 0#8
          mask := (1#8).rotateLeft (offset % 2 ^ 32), remaining := len }

/-- `src/encoding/hybrid_rle/bitmap.rs:46-62` `BitmapIter::next`. When the bytes are exhausted
the last byte is kept. -/
def Iter.next (it : Iter) : Option Bool × Iter :=
  if it.remaining = 0 then (none, it)
  else
    let value := (it.currentByte &&& it.mask) != 0#8
    let mask := it.mask.rotateLeft 1
    if mask = 1#8 then
      match it.iter with
      | v :: rest => (some value,
          { iter := rest, currentByte := v, remaining := it.remaining - 1, mask })
      | [] => (some value, { it with remaining := it.remaining - 1, mask })
    else (some value, { it with remaining := it.remaining - 1, mask })

/-- `BitmapIter::collect()`. -/
def Iter.collect (it : Iter) : Res (List Bool) :=
  drain (fun s => .ok (Iter.next s)) (it.remaining + 1) it

end Pq.Bitmap
