import Verif.Model.Leb128
import Verif.Model.Bitmap
/-
Model of `src/encoding/hybrid_rle/{mod,decoder,encoder}.rs`.
-/
namespace Pq.Rle

/-- `u32`. -/
abbrev U32 := BitVec 32

/-- `src/encoding/hybrid_rle/mod.rs:15-21` `HybridEncoded`. -/
inductive Encoded where
  | bitpacked (bytes : List Byte)
  | rle (bytes : List Byte) (length : Nat)
  deriving DecidableEq, Repr

/-- `src/encoding/hybrid_rle/decoder.rs:8-11` `Decoder`. -/
structure Runs where
  values : List Byte
  numBits : Nat
  deriving DecidableEq, Repr

/-- `src/encoding/hybrid_rle/decoder.rs:30-64` `Decoder::next`. `usize` is 64 bits; the product
of line 50 is taken modulo 2^64 (release arithmetic). The error branch of line 41 is subsumed by
`Leb.decode`, which never returns an error. -/
def Runs.next (d : Runs) : Res (Option Encoded × Runs) :=
  if d.numBits = 0 then .ok (none, d)
  else if d.values = [] then .ok (none, d)
  else
    match Leb.decode d.values with
    | .err e => .err e
    | .panic => .panic
    | .ok (indicator, consumed) =>
      let values := d.values.drop consumed
      if values = [] then .ok (none, { d with values })
      else if indicator &&& 1#64 = 1#64 then
        let bytes := ((indicator >>> 1).toNat * d.numBits) % 2 ^ 64
        let bytes := min bytes values.length
        .ok (some (.bitpacked (values.take bytes)), { d with values := values.drop bytes })
      else
        let run_length := (indicator >>> 1).toNat
        match splitAt' values (ceil8 d.numBits) with
        | .ok (result, remaining) =>
          .ok (some (.rle result run_length), { d with values := remaining })
        | .err e => .err e
        | .panic => .panic

/-- `src/encoding/hybrid_rle/mod.rs:24-31` `State`; `Take<Repeat<u32>>` is the value and the
number of repetitions left. -/
inductive State where
  | none
  | bitpacked (d : Bitpack.Decoder 4)
  | rle (value : U32) (left : Nat)
  | single (v : Option U32)

/-- `src/encoding/hybrid_rle/mod.rs:35-39` `HybridRleDecoder`. -/
structure Dec where
  decoder : Runs
  state : State
  remaining : Nat

/-- `src/encoding/hybrid_rle/mod.rs:51-55`: the repeated value, at most 4 bytes of it. -/
def rleValue (pack : List Byte) : U32 := fromLe 32 (pack.take 4)

/-- `src/encoding/hybrid_rle/mod.rs:42-64` `read_next`. -/
def readNext (decoder : Runs) (remaining : Nat) : Res (State × Runs) :=
  match decoder.next with
  | .err e => .err e
  | .panic => .panic
  | .ok (some (.bitpacked packed), d) =>
    let length := min (packed.length * 8 / d.numBits) remaining
    match Bitpack.Decoder.tryNew 4 packed d.numBits length with
    | .ok b => .ok (.bitpacked b, d)
    | .err e => .err e
    | .panic => .panic
  | .ok (some (.rle pack additional), d) =>
    if additional = 1 then .ok (.single (some (rleValue pack)), d)
    else .ok (.rle (rleValue pack) additional, d)
  | .ok (none, d) => .ok (.none, d)

/-- `src/encoding/hybrid_rle/mod.rs:68-77` `HybridRleDecoder::try_new`. -/
def Dec.tryNew (data : List Byte) (numBits numValues : Nat) : Res Dec :=
  match readNext { values := data, numBits } numValues with
  | .ok (state, decoder) => .ok { decoder, state, remaining := numValues }
  | .err e => .err e
  | .panic => .panic

/-- `src/encoding/hybrid_rle/mod.rs:87-96`: one step of the current state. -/
def State.next : State → Res (Option U32 × State)
  | .single v => .ok (v, .single .none)
  | .bitpacked d =>
    match Bitpack.Decoder.next d with
    | .ok (o, d) => .ok (o, .bitpacked d)
    | .err e => .err e
    | .panic => .panic
  | .rle v left => if left = 0 then .ok (.none, .rle v 0) else .ok (some v, .rle v (left - 1))
  | .none => .ok (some 0#32, .none)

/-- `src/encoding/hybrid_rle/mod.rs:83-109` `HybridRleDecoder::next`. The recursive call (line
104) is made after a run has been read; `fuel` bounds the number of runs read by one call.
An `Err` item is the outcome `err`. -/
def Dec.nextFuel : Nat → Dec → Res (Option U32 × Dec)
  | 0, _ => .panic
  | fuel + 1, d =>
    if d.remaining = 0 then .ok (none, d)
    else
      match d.state.next with
      | .err e => .err e
      | .panic => .panic
      | .ok (some result, state) =>
        .ok (some result, { d with state, remaining := d.remaining - 1 })
      | .ok (none, _) =>
        match readNext d.decoder d.remaining with
        | .err e => .err e
        | .panic => .panic
        | .ok (state, decoder) => Dec.nextFuel fuel { d with state, decoder }

/-- `HybridRleDecoder::next`: every run read consumes a byte, hence the fuel is never exhausted
(`Rle.next_fuel`). -/
def Dec.next (d : Dec) : Res (Option U32 × Dec) := Dec.nextFuel (d.decoder.values.length + 2) d

/-- `HybridRleDecoder::try_new(data, num_bits, num_values)?.collect::<Result<Vec<_>, _>>()`. -/
def decode (data : List Byte) (numBits numValues : Nat) : Res (List U32) :=
  match Dec.tryNew data numBits numValues with
  | .ok d => drain Dec.next (numValues + 1) d
  | .err e => .err e
  | .panic => .panic

/-! ### encoder -/

/-- `src/encoding/hybrid_rle/encoder.rs:18-24` (and 83-89): the header of a single bit-packed
run covering `length` values. -/
def header (length : Nat) : Res (List Byte) :=
  Leb.encode ((BitVec.ofNat 64 (ceil8 length) <<< 1) ||| 1#64)

/-- `.zip(buffer.iter_mut()).for_each(|(item, buf)| *buf = item)`: overwrite the front of the
buffer, keeping what is behind. -/
def overwrite {α : Type} (items buffer : List α) : List α :=
  items.take buffer.length ++ buffer.drop items.length

/-- `src/encoding/hybrid_rle/encoder.rs:47-57`: the loop over full blocks; returns the bytes
written, the buffer and what is left of the iterator. -/
def encodeBlocks (numBits : Nat) : Nat → List U32 → List U32 → Res (List Byte × List U32 × List U32)
  | 0, xs, buffer => .ok ([], buffer, xs)
  | chunks + 1, xs, buffer =>
    let buffer := overwrite (xs.take 32) buffer
    match Bitpack.encodePack 4 buffer numBits (List.replicate (4 * 32) 0#8) with
    | .err e => .err e
    | .panic => .panic
    | .ok packed =>
      match slice packed 0 (ceil8 (32 * numBits)) with
      | .err e => .err e
      | .panic => .panic
      | .ok out =>
        (encodeBlocks numBits chunks (xs.drop 32) buffer).map' fun (w, b, r) => (out ++ w, b, r)

/-- `src/encoding/hybrid_rle/encoder.rs:33-72` `bitpacked_encode_u32`. -/
def bitpackedEncodeU32 (xs : List U32) (numBits : Nat) : Res (List Byte) :=
  let length := xs.length
  let chunks := length / 32
  let remainder := length - chunks * 32
  match encodeBlocks numBits chunks xs (List.replicate 32 0#32) with
  | .err e => .err e
  | .panic => .panic
  | .ok (out, buffer, rest) =>
    if remainder ≠ 0 then
      let buffer := overwrite (rest.take remainder) buffer
      match Bitpack.encodePack 4 buffer numBits (List.replicate (4 * 32) 0#8) with
      | .err e => .err e
      | .panic => .panic
      | .ok packed =>
        (slice packed 0 (ceil8 (remainder * numBits))).map' (out ++ ·)
    else .ok out

/-- `src/encoding/hybrid_rle/encoder.rs:9-29` `encode_u32` into an infallible writer.
`num_bits as u8` truncates. -/
def encodeU32 (xs : List U32) (numBits : Nat) : Res (List Byte) :=
  match header xs.length with
  | .err e => .err e
  | .panic => .panic
  | .ok h => (bitpackedEncodeU32 xs (numBits % 256)).map' (h ++ ·)

/-- `src/encoding/hybrid_rle/encoder.rs:75-93` `encode_bool`. -/
def encodeBool (xs : List Bool) : Res (List Byte) :=
  (header xs.length).map' (· ++ Bitmap.encodeBool xs)

end Pq.Rle
