import Verif.Model.Base
/-
Model of `src/encoding/uleb128.rs` and `src/encoding/zigzag_leb128.rs`.
-/
namespace Pq.Leb

/-- `src/encoding/uleb128.rs:8-22`: the loop of `decode`, with the loop variables `result`,
`shift` and `consumed` as arguments. The `panic!()` of line 11 is `Res.panic`.  `shift` is a
`Nat`: `Props` shows it stays ≤ 63, so the Rust shift cannot overflow. -/
def decodeLoop : List Byte → BitVec 64 → Nat → Nat → Res (BitVec 64 × Nat)
  | [], result, _, consumed => .ok (result, consumed)
  | byte :: bytes, result, shift, consumed =>
    if shift = 63 ∧ byte > 1#8 then .panic
    else
      let result := result ||| ((byte &&& 0x7F#8).setWidth 64 <<< shift)
      if byte &&& 0x80#8 = 0#8 then .ok (result, consumed + 1)
      else decodeLoop bytes result (shift + 7) (consumed + 1)

/-- `src/encoding/uleb128.rs:3-23` `decode`. -/
def decode (values : List Byte) : Res (BitVec 64 × Nat) := decodeLoop values 0 0 0

/-- `src/encoding/uleb128.rs:30-46` `encode`: writes into `container` (returned updated) and
returns the number of bytes written; `iter.next().unwrap()` panics when the container is too
small. The recursion follows the container iterator. -/
def encodeInto : BitVec 64 → List Byte → Res (List Byte × Nat)
  | _, [] => .panic
  | value, _ :: container =>
    let byte := value.setWidth 8 &&& ~~~ 128#8
    let value := value >>> 7
    let byte := if value ≠ 0 then byte ||| 128#8 else byte
    if value = 0 then .ok (byte :: container, 1)
    else (encodeInto value container).map' fun (c, n) => (byte :: c, n + 1)

/-- How every caller uses `encode` (e.g. `src/encoding/hybrid_rle/encoder.rs:22-24`,
`src/encoding/delta_bitpacked/encoder.rs:15-17`): a zeroed 10-byte container, of which the
written prefix is emitted. -/
def encode (value : BitVec 64) : Res (List Byte) :=
  (encodeInto value (List.replicate 10 0#8)).map' fun (c, n) => c.take n

/-- `src/encoding/zigzag_leb128.rs:5-8` `decode`. `i64` is the same 64 bits. -/
def zigzagDecode (values : List Byte) : Res (BitVec 64 × Nat) :=
  (decode values).map' fun (u, consumed) => ((u >>> 1) ^^^ (-(u &&& 1#64)), consumed)

/-- `src/encoding/zigzag_leb128.rs:11` the zig-zag map: `((value << 1) ^ (value >> 63)) as u64`
with an arithmetic right shift. -/
def zigzag (value : BitVec 64) : BitVec 64 := (value <<< 1) ^^^ (value.sshiftRight 63)

/-- `src/encoding/zigzag_leb128.rs:10-15` `encode`, returning the written prefix of the array. -/
def zigzagEncode (value : BitVec 64) : Res (List Byte) := encode (zigzag value)

end Pq.Leb
