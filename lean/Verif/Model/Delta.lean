import Verif.Model.HybridRle
/-
Model of `src/encoding/delta_bitpacked/{encoder,decoder}.rs`.

`i64`/`u64` are `BitVec 64`. The parameter `ck` selects the build profile: `true` is a build with
overflow checks (debug), where an overflowing `i64` operation panics; `false` is a release build,
where it wraps.
-/
namespace Pq.Delta

/-- Rust's `i64`, the values of `src/encoding/delta_bitpacked/encoder.rs:11`. -/
abbrev I64 := BitVec 64

/-- `i64` subtraction. Not in the repo: semantics of Rust's `-` (`ck`: overflow checks on). -/
def subI (ck : Bool) (a b : I64) : Res I64 :=
  if ck && BitVec.ssubOverflow a b then .panic else .ok (a - b)

/-- `i64` addition. Not in the repo: semantics of Rust's `+` (`ck`: overflow checks on). -/
def addI (ck : Bool) (a b : I64) : Res I64 :=
  if ck && BitVec.saddOverflow a b then .panic else .ok (a + b)

/-! ### encoder -/

/-- `64 - x.leading_zeros()` (`src/encoding/delta_bitpacked/encoder.rs:44`): the bit length of
the 64-bit pattern. -/
def bitLen (x : I64) : Nat := if x = 0 then 0 else Nat.log2 x.toNat + 1

/-- `src/encoding/delta_bitpacked/encoder.rs:39-47`: the loop over (at most 128) values of a
block; returns the deltas, `min_delta`, `num_bits` and `prev`. The array `values` of the code is
only read at the positions written here. -/
def scan (ck : Bool) : List I64 → I64 → I64 → I64 → Nat → Res (List I64 × I64 × Nat × I64)
  | [], prev, min_delta, _, num_bits => .ok ([], min_delta, num_bits, prev)
  | integer :: rest, prev, min_delta, max_delta, _ => do
    let delta ← subI ck integer prev
    let min_delta := if delta.slt min_delta then delta else min_delta
    let max_delta := if max_delta.slt delta then delta else max_delta
    let spread ← subI ck max_delta min_delta
    let (ds, m, n, p) ← scan ck rest integer min_delta max_delta (bitLen spread)
    return (delta :: ds, m, n, p)

/-- `src/encoding/delta_bitpacked/encoder.rs:52-54`: the non-negative deltas, as `u64`. -/
def relative (ck : Bool) (min_delta : I64) : List I64 → Res (List I64)
  | [] => .ok []
  | v :: vs => do
    let d ← subI ck v min_delta
    let ds ← relative ck min_delta vs
    return d :: ds

/-- `src/encoding/delta_bitpacked/encoder.rs:66-78` `write_miniblock`, returning the appended
bytes; `deltas` has 128 elements. -/
def writeMiniblock (num_bits : Nat) (deltas : List I64) : Res (List Byte) :=
  if 0 < num_bits then
    Bitpack.encode 8 deltas num_bits (List.replicate (ceil8 (deltas.length * num_bits)) 0#8)
  else .ok []

/-- `src/encoding/delta_bitpacked/encoder.rs:35-63`: the loop over blocks. `deltas` persists
between blocks, so that the last, incomplete block is padded with stale deltas. `fuel` bounds
the number of blocks; each block takes at least one value, so `xs.length` blocks suffice. -/
def blocks (ck : Bool) : Nat → List I64 → I64 → List I64 → Res (List Byte)
  | 0, [], _, _ => .ok []
  | 0, _ :: _, _, _ => .panic
  | fuel + 1, xs, prev, deltas =>
    if xs = [] then .ok []
    else do
      let (values, min_delta, num_bits, prev) ←
        scan ck (xs.take 128) prev (BitVec.ofNat 64 (2 ^ 63 - 1)) (BitVec.ofNat 64 (2 ^ 63)) 0
      let rel ← relative ck min_delta values
      let deltas := Rle.overwrite rel deltas
      let z ← Leb.zigzagEncode min_delta
      let mini ← writeMiniblock num_bits deltas
      let tail ← blocks ck fuel (xs.drop 128) prev deltas
      return z ++ [BitVec.ofNat 8 num_bits] ++ mini ++ tail

/-- `src/encoding/delta_bitpacked/encoder.rs:11-64` `encode`, returning the appended bytes. -/
def encode (ck : Bool) (xs : List I64) : Res (List Byte) := do
  let h1 ← Leb.encode 128#64
  let h2 ← Leb.encode 1#64
  let h3 ← Leb.encode (BitVec.ofNat 64 xs.length)
  let first := xs.headD 0#64
  let h4 ← Leb.zigzagEncode first
  let body ← blocks ck xs.length xs.tail first (List.replicate 128 0#64)
  return h1 ++ h2 ++ h3 ++ h4 ++ body

/-! ### decoder -/

/-- `src/encoding/delta_bitpacked/decoder.rs:10-24` `Block`. -/
structure Block where
  minDelta : I64
  vpm : Nat
  bitwidths : List Byte
  values : List Byte
  remaining : Nat
  currentIndex : Nat
  mini : Option (Bitpack.Decoder 8)
  consumed : Nat

/-- `src/encoding/delta_bitpacked/decoder.rs:67-92` `advance_miniblock`. The `usize` product
panics on overflow when `ck`, else wraps at 2^64. -/
def Block.advance (ck : Bool) (b : Block) : Res Block :=
  match b.bitwidths with
  | [] => .panic
  | w :: ws =>
    let num_bits := w.toNat
    if 0 < num_bits then
      let length := min b.remaining b.vpm
      let miniblock_length := ceil8 ((b.vpm * num_bits) % 2 ^ 64)
      if ck && decide (2 ^ 64 ≤ b.vpm * num_bits) then .panic
      else if b.values.length < miniblock_length then .err .oos
      else
        match Bitpack.Decoder.tryNew 8 (b.values.take miniblock_length) num_bits length with
        | .ok d => .ok { b with
            bitwidths := ws, values := b.values.drop miniblock_length
            consumed := b.consumed + miniblock_length, mini := some d, currentIndex := 0 }
        | _ => .panic
    else .ok { b with bitwidths := ws, mini := none, currentIndex := 0 }

/-- `src/encoding/delta_bitpacked/decoder.rs:27-65` `Block::try_new`. -/
def Block.tryNew (ck : Bool) (values : List Byte) (num_mini_blocks vpm length : Nat) : Res Block := do
  let length := min length (num_mini_blocks * vpm)
  let (min_delta, consumed) ← Leb.zigzagDecode values
  let values := values.drop consumed
  if values.length < num_mini_blocks then .err .oos
  else
    Block.advance ck
      { minDelta := min_delta, vpm, bitwidths := values.take num_mini_blocks
        values := values.drop num_mini_blocks, remaining := length, currentIndex := 0
        mini := none, consumed := consumed + num_mini_blocks }

/-- `src/encoding/delta_bitpacked/decoder.rs:102-107`: the next value of the current miniblock
(0 when its bit width is 0 or when it is exhausted). -/
def miniNext : Option (Bitpack.Decoder 8) → Res (I64 × Option (Bitpack.Decoder 8))
  | none => .ok (0#64, none)
  | some d => (Bitpack.Decoder.next d).map' fun (o, d) => (o.getD 0#64, some d)

/-- `src/encoding/delta_bitpacked/decoder.rs:98-118` `Block::next`. -/
def Block.next (ck : Bool) (b : Block) : Res (Option I64 × Block) :=
  if b.remaining = 0 then .ok (none, b)
  else do
    let (x, mini) ← miniNext b.mini
    let result ← addI ck b.minDelta x
    let b := { b with mini, currentIndex := b.currentIndex + 1, remaining := b.remaining - 1 }
    if 0 < b.remaining ∧ b.currentIndex = b.vpm then
      (Block.advance ck b).map' fun b => (some result, b)
    else .ok (some result, b)

/-- `src/encoding/delta_bitpacked/decoder.rs:125-134` `Decoder`. -/
structure Decoder where
  numMiniBlocks : Nat
  vpm : Nat
  valuesRemaining : Nat
  nextValue : I64
  values : List Byte
  currentBlock : Option Block
  consumed : Nat

/-- `src/encoding/delta_bitpacked/decoder.rs:137-179` `Decoder::try_new`. The two `assert_eq!`
and the division by zero are panics. -/
def Decoder.tryNew (ck : Bool) (values : List Byte) : Res Decoder := do
  let (block_size, c1) ← Leb.decode values
  let _ ← Res.assert (block_size.toNat % 128 == 0)
  let values := values.drop c1
  let (num_mini_blocks, c2) ← Leb.decode values
  let values := values.drop c2
  let (total_count, c3) ← Leb.decode values
  let values := values.drop c3
  let (first_value, c4) ← Leb.zigzagDecode values
  let values := values.drop c4
  let _ ← Res.assert (num_mini_blocks.toNat != 0)
  let vpm := block_size.toNat / num_mini_blocks.toNat
  let _ ← Res.assert (vpm % 8 == 0)
  let current_block ← (if 1 < total_count.toNat then
      (Block.tryNew ck values num_mini_blocks.toNat vpm (total_count.toNat - 1)).map' some
    else .ok none)
  return { numMiniBlocks := num_mini_blocks.toNat, vpm, valuesRemaining := total_count.toNat
           nextValue := first_value, values, currentBlock := current_block
           consumed := c1 + c2 + c3 + c4 }

/-- `src/encoding/delta_bitpacked/decoder.rs:182-184` `consumed_bytes`. -/
def Decoder.consumedBytes (d : Decoder) : Nat :=
  d.consumed + (match d.currentBlock with
    | some b => b.consumed
    | none => 0)

/-- `src/encoding/delta_bitpacked/decoder.rs:186-213` `load_delta`. After an error the decoder
is not modelled further. -/
def Decoder.loadDelta (ck : Bool) (d : Decoder) : Res (I64 × Decoder) :=
  match d.currentBlock with
  | none => .panic
  | some b => do
    let (o, b) ← Block.next ck b
    match o with
    | some x => return (x, { d with currentBlock := some b })
    | none =>
      let values ← slice d.values b.consumed d.values.length
      let next ← Block.tryNew ck values d.numMiniBlocks d.vpm d.valuesRemaining
      let (o, next) ← Block.next ck next
      match o with
      | some x => return (x, { d with values, consumed := d.consumed + b.consumed
                                      currentBlock := some next })
      | none => .err .oos

/-- `src/encoding/delta_bitpacked/decoder.rs:219-239` `Decoder::next`. -/
def Decoder.next (ck : Bool) (d : Decoder) : Res (Option I64 × Decoder) :=
  if d.valuesRemaining = 0 then .ok (none, d)
  else
    let result := d.nextValue
    let d := { d with valuesRemaining := d.valuesRemaining - 1 }
    if d.valuesRemaining = 0 then .ok (some result, d)
    else do
      let (delta, d) ← d.loadDelta ck
      let v ← addI ck d.nextValue delta
      return (some result, { d with nextValue := v })

/-- Drain a decoder, keeping its final state (to observe `consumed_bytes`). -/
def Decoder.drain (ck : Bool) : Nat → Decoder → Res (List I64 × Decoder)
  | 0, _ => .panic
  | fuel + 1, d => do
    let (o, d) ← d.next ck
    match o with
    | none => return ([], d)
    | some x =>
      let (xs, d) ← Decoder.drain ck fuel d
      return (x :: xs, d)

/-- `Decoder::try_new(values)?` drained: the values and the final `consumed_bytes()`. -/
def decode (ck : Bool) (values : List Byte) : Res (List I64 × Nat) := do
  let d ← Decoder.tryNew ck values
  let (xs, d) ← d.drain ck (d.valuesRemaining + 1)
  return (xs, d.consumedBytes)

end Pq.Delta
