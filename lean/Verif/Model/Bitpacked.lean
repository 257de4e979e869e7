import Verif.Model.Base
/-
Model of `src/encoding/bitpacked/{pack,unpack,encode,decode,mod}.rs`.

The four macro instantiations (`pack8/16/32/64`, `unpack8/16/32/64`, trait `Unpackable` for
u8/u16/u32/u64) are modelled once, generically in `b = size_of::<T>()` (1, 2, 4, 8): the word
type is `BitVec (8*b)` and `$bits = T::Unpacked::LENGTH = 8*b`. Arrays `[T; $bits]` are lists of
that length.
-/
namespace Pq

/-- Driver for an iterator: call `next` until it returns `None` and collect the items
(`Iterator::collect`). Running out of fuel is a failure (`panic`), so a successful result
certifies termination within `fuel` calls. Not part of the repo: models `for`/`collect`. -/
def drain {σ α : Type} (next : σ → Res (Option α × σ)) : Nat → σ → Res (List α)
  | 0, _ => .panic
  | fuel + 1, s =>
    match next s with
    | .ok (none, _) => .ok []
    | .ok (some a, s') => (drain next fuel s').map' (a :: ·)
    | .err e => .err e
    | .panic => .panic

namespace Bitpack

/-- `src/encoding/bitpacked/pack.rs:14-17`, `unpack.rs:33-36`: `mask`. -/
def mask (b n : Nat) : BitVec (8 * b) :=
  if n = 8 * b then BitVec.allOnes (8 * b) else (1#(8 * b) <<< n) - 1#(8 * b)

/-- `src/encoding/bitpacked/pack.rs:30-32` (and 36-38, 43-45):
`for i in 0..$bytes { output[pos + i] |= v[i] }`. Positions are in range by the assert of
line 12 (out-of-range positions, a Rust panic, would be ignored here). -/
def orBytes (output : List Byte) (pos : Nat) (v : List Byte) : List Byte :=
  output.mapIdx fun k x => if pos ≤ k ∧ k < pos + v.length then x ||| v.getD (k - pos) 0#8 else x

/-- `src/encoding/bitpacked/pack.rs:19-47`: body of the loop for value `i`. -/
def packStep (b n : Nat) (input : List (BitVec (8 * b))) (output : List Byte) (i : Nat) :
    List Byte :=
  let x := input.getD i 0#(8 * b)
  let start_bit := i * n
  let end_bit := start_bit + n
  let start_bit_offset := start_bit % (8 * b)
  let end_bit_offset := end_bit % (8 * b)
  let start_byte := start_bit / (8 * b)
  let end_byte := end_bit / (8 * b)
  if start_byte ≠ end_byte ∧ end_bit_offset ≠ 0 then
    let a := x <<< start_bit_offset
    let output := orBytes output (start_byte * b) (toLe b a)
    let c := (x >>> (n - end_bit_offset)) &&& mask b n
    orBytes output (end_byte * b) (toLe b c)
  else
    let val := (x &&& mask b n) <<< start_bit_offset
    orBytes output (start_byte * b) (toLe b val)

/-- `src/encoding/bitpacked/pack.rs:4-48,60-68`: `pack8/16/32/64(input, output, num_bits)`.
`num_bits > $bits` reaches `unreachable!`; `num_bits = 0` zeroes the whole output; a short
output fails the assert. Note that the packed words are OR-ed into `output`. -/
def pack (b : Nat) (input : List (BitVec (8 * b))) (output : List Byte) (n : Nat) :
    Res (List Byte) :=
  if 8 * b < n then .panic
  else if n = 0 then .ok (List.replicate output.length 0#8)
  else if output.length < n * b then .panic
  else .ok ((List.range (8 * b)).foldl (packStep b n input) output)

/-- `src/encoding/bitpacked/unpack.rs:40-46`: the closure `r` (word `w` of the input). In range
by the assert of line 38. -/
def readWord (b : Nat) (input : List Byte) (w : Nat) : BitVec (8 * b) :=
  fromLe (8 * b) ((input.drop (w * b)).take b)

/-- `src/encoding/bitpacked/unpack.rs:48-67`: value `i` of the unpacked block. -/
def unpackVal (b n : Nat) (input : List Byte) (i : Nat) : BitVec (8 * b) :=
  let start_bit := i * n
  let end_bit := start_bit + n
  let start_bit_offset := start_bit % (8 * b)
  let end_bit_offset := end_bit % (8 * b)
  let start_byte := start_bit / (8 * b)
  let end_byte := end_bit / (8 * b)
  if start_byte ≠ end_byte ∧ end_bit_offset ≠ 0 then
    let val := readWord b input start_byte
    let a := val >>> start_bit_offset
    let val := readWord b input end_byte
    let c := val <<< (n - end_bit_offset)
    a ||| (c &&& mask b n)
  else
    let val := readWord b input start_byte
    (val >>> start_bit_offset) &&& mask b n

/-- `src/encoding/bitpacked/unpack.rs:23-68,80-88`: `unpack8/16/32/64(input, output, num_bits)`;
every element of `output` is overwritten, so the new output is returned. -/
def unpack (b : Nat) (input : List Byte) (n : Nat) : Res (List (BitVec (8 * b))) :=
  if 8 * b < n then .panic
  else if n = 0 then .ok (List.replicate (8 * b) 0#(8 * b))
  else if input.length < n * b then .panic
  else .ok ((List.range (8 * b)).map (unpackVal b n input))

/-- `src/encoding/bitpacked/mod.rs:22-52,108-166`: `T::Packed::LENGTH` (8, 32, 128, 4096 bytes
for u8, u16, u32, u64). -/
def packedLength (b : Nat) : Nat := if b = 8 then 64 * 64 else 8 * b * b

/-- `slice::chunks_exact(k)`: the complete chunks and the remainder. -/
def chunksExact {α : Type} (k : Nat) : (fuel : Nat) → List α → List (List α) × List α
  | 0, xs => ([], xs)
  | fuel + 1, xs =>
    if 0 < k ∧ k ≤ xs.length then
      let (cs, r) := chunksExact k fuel (xs.drop k)
      (xs.take k :: cs, r)
    else ([], xs)

/-- The loop `chunks.zip(packed_chunks).for_each(|..| T::pack(..))` of
`src/encoding/bitpacked/encode.rs:24-29,32-34`; `packed` is cut in chunks of `size` bytes
(`chunks_mut`: the last may be short; `exact = true` for `chunks_exact_mut`: a short last chunk
is left untouched). Returns the updated `packed`. -/
def packChunks (b n size : Nat) (exact : Bool) :
    List (List (BitVec (8 * b))) → List Byte → Res (List Byte)
  | [], packed => .ok packed
  | chunk :: chunks, packed =>
    if packed = [] ∨ (exact = true ∧ packed.length < size) then .ok packed
    else
      match pack b chunk (packed.take size) n with
      | .ok p => (packChunks b n size exact chunks (packed.drop size)).map' (p ++ ·)
      | .err e => .err e
      | .panic => .panic

/-- `src/encoding/bitpacked/encode.rs:11-36` `encode(unpacked, num_bits, packed)`, returning
the updated `packed`. `chunks_mut(0)` (num_bits = 0) panics. -/
def encode (b : Nat) (unpacked : List (BitVec (8 * b))) (n : Nat) (packed : List Byte) :
    Res (List Byte) :=
  let (chunks, remainder) := chunksExact (8 * b) unpacked.length unpacked
  let packed_size := (8 * b * n + 7) / 8
  if packed_size = 0 then .panic
  else if remainder ≠ [] then
    let last_chunk := remainder ++ List.replicate (8 * b - remainder.length) 0#(8 * b)
    packChunks b n packed_size false (chunks ++ [last_chunk]) packed
  else packChunks b n packed_size true chunks packed

/-- `src/encoding/bitpacked/encode.rs:46-54` `encode_pack`. `copy_from_slice` into
`[..unpacked.len()]` panics when there are more than LENGTH values; `try_into().unwrap()` panics
unless there are exactly LENGTH. (The test compares against the *byte* length of a pack.) -/
def encodePack (b : Nat) (unpacked : List (BitVec (8 * b))) (n : Nat) (packed : List Byte) :
    Res (List Byte) :=
  if unpacked.length < packedLength b then
    if 8 * b < unpacked.length then .panic
    else pack b (unpacked ++ List.replicate (8 * b - unpacked.length) 0#(8 * b)) packed n
  else if unpacked.length = 8 * b then pack b unpacked packed n
  else .panic

/-- `src/encoding/bitpacked/decode.rs:18-26` `decode_pack`. -/
def decodePack (b : Nat) (packed : List Byte) (n : Nat) : Res (List (BitVec (8 * b))) :=
  if packed.length < 8 * b * n / 8 then
    if packedLength b < packed.length then .panic
    else unpack b (packed ++ List.replicate (packedLength b - packed.length) 0#8) n
  else unpack b packed n

/-- `src/encoding/bitpacked/decode.rs:9-15` `Decoder`; `std::slice::Chunks` is the list of bytes
not yet handed out together with the chunk size `size_of::<T>() * num_bits`. -/
structure Decoder (b : Nat) where
  packed : List Byte
  numBits : Nat
  remaining : Nat
  idx : Nat
  unpacked : List (BitVec (8 * b))

/-- `src/encoding/bitpacked/decode.rs:30-59` `Decoder::try_new`. The products are unbounded
here: those of the code overflow for lengths of 2^56 and more only. -/
def Decoder.tryNew (b : Nat) (packed : List Byte) (n length : Nat) : Res (Decoder b) :=
  let block_size := b * n
  if n = 0 then .err .oos
  else if packed.length * 8 < length * n then .err .oos
  else if packed = [] then
    .ok { packed := [], numBits := n, remaining := 0, idx := 0
          unpacked := List.replicate (8 * b) 0#(8 * b) }
  else
    match decodePack b (packed.take block_size) n with
    | .ok u => .ok { packed := packed.drop block_size, numBits := n, remaining := length,
                     idx := 0, unpacked := u }
    | .err e => .err e
    | .panic => .panic

/-- `src/encoding/bitpacked/decode.rs:66-80` `Decoder::next`. -/
def Decoder.next {b : Nat} (d : Decoder b) : Res (Option (BitVec (8 * b)) × Decoder b) :=
  if d.remaining = 0 then .ok (none, d)
  else
    match d.unpacked[d.idx]? with
    | none => .panic
    | some result =>
      let d := { d with idx := d.idx + 1, remaining := d.remaining - 1 }
      if d.idx = 8 * b then
        if d.packed = [] then .ok (some result, d)
        else
          match decodePack b (d.packed.take (b * d.numBits)) d.numBits with
          | .ok u => .ok (some result,
              { d with packed := d.packed.drop (b * d.numBits), unpacked := u, idx := 0 })
          | .err e => .err e
          | .panic => .panic
      else .ok (some result, d)

/-- `Decoder::try_new(..)?.collect()`. -/
def decode (b : Nat) (packed : List Byte) (n length : Nat) : Res (List (BitVec (8 * b))) :=
  match Decoder.tryNew b packed n length with
  | .ok d => drain Decoder.next (d.remaining + 1) d
  | .err e => .err e
  | .panic => .panic

end Bitpack
end Pq
