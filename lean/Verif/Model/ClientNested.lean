import Verif.Model.Client
/-
Model of the client code of the repository for nested columns: `tests/it/read/struct_.rs` (which structures
are there) and `tests/it/read/primitive_nested.rs` (lists of 64-bit integers).
-/
namespace Pq.Client
open Pq.Deser

/-- `tests/it/read/struct_.rs:6-27` `extend_validity`: `val` is returned. `definition_level_encoding` may panic;
its value is not used. -/
def extendValidity (val : List Bool) (page : DataPage) : Res (List Bool) := do
  let (_, def_levels, _) ← splitBuffer page
  let length := page.numValues
  if page.descriptor.maxDefLevel = 0#16 then .ok val
  else do
    let _ ← page.definitionLevelEncoding
    let levels ← Rle.Dec.tryNew def_levels (getBitWidth page.descriptor.maxDefLevel) length
    let more ← drain Rle.Dec.next (levels.remaining + 1) levels
    .ok (val ++ more.map fun x => decide (x ≠ 0#32))

/-- `tests/it/main.rs:9-21`: `Array::List` of `Array::Int64`. -/
abbrev Lists := List (Option (List (Option (BitVec (8 * 8)))))

/-- The two kinds of level iterators of `tests/it/read/primitive_nested.rs:87-120`: `repeat(Ok(0)).take(n)` and
the decoder. -/
inductive LevelIter where
  | zeros (n : Nat)
  | decoder (d : Rle.Dec)

/-- Their `next`. -/
def LevelIter.next : LevelIter → Res (Option Rle.U32 × LevelIter)
  | .zeros 0 => .ok (none, .zeros 0)
  | .zeros (n + 1) => .ok (some 0#32, .zeros n)
  | .decoder d => do
    let (x, d) ← d.next
    .ok (x, .decoder d)

/-- The variables of the loop of `compose_array`: `tests/it/read/primitive_nested.rs:38-43`. -/
structure Composer (τ : Type) where
  outer : Lists
  inner : List (Option (BitVec (8 * 8)))
  prevDef : Nat
  values : τ

/-- `tests/it/read/primitive_nested.rs:50-58`: what a repetition level does. -/
def Composer.repetition {τ : Type} (c : Composer τ) (rep : Nat) : Res (Composer τ) :=
  match rep with
  | 1 => .ok c
  | 0 => if 1 < c.prevDef then .ok { c with outer := c.outer ++ [some c.inner], inner := [] } else .ok c
  | _ => .panic

/-- `tests/it/read/primitive_nested.rs:59-66`: what a definition level does; no value left: `unwrap` panics. -/
def Composer.definition {τ : Type} (next : τ → Res (Option (BitVec (8 * 8)) × τ)) (c : Composer τ) (d : Nat) :
    Res (Composer τ) :=
  match d with
  | 3 => do
    let (o, values) ← next c.values
    match o with
    | none => .panic
    | some x => .ok { c with inner := c.inner ++ [some x], values, prevDef := 3 }
  | 2 => .ok { c with inner := c.inner ++ [none], prevDef := 2 }
  | 1 => .ok { c with outer := c.outer ++ [some []], prevDef := 1 }
  | 0 => .ok { c with outer := c.outer ++ [none], prevDef := 0 }
  | _ => .panic

/-- `tests/it/read/primitive_nested.rs:44-68`: the loop over the zipped levels, at most `fuel` of them. -/
def composeLoop {τ : Type} (next : τ → Res (Option (BitVec (8 * 8)) × τ)) :
    Nat → LevelIter → LevelIter → Composer τ → Res (Composer τ)
  | 0, _, _, _ => .panic
  | fuel + 1, reps, defs, c => do
    let (rep, reps) ← reps.next
    match rep with
    | none => .ok c
    | some rep => do
      let (d, defs) ← defs.next
      match d with
      | none => .ok c
      | some d => do
        let c ← c.repetition rep.toNat
        let c ← c.definition next d.toNat
        composeLoop next fuel reps defs c

/-- `tests/it/read/primitive_nested.rs:26-71` `compose_array`, over iterators of at most `length` levels. -/
def composeArray {τ : Type} (next : τ → Res (Option (BitVec (8 * 8)) × τ)) (length : Nat)
    (reps defs : LevelIter) (maxRep maxDef : Nat) (values : τ) : Res Lists := do
  Res.assert (maxRep = 1)
  Res.assert (maxDef = 3)
  let c ← composeLoop next (length + 1) reps defs { outer := [], inner := [], prevDef := 0, values }
  .ok (c.outer ++ [some c.inner])

/-- `tests/it/read/primitive_nested.rs:86-120`: the iterator of levels, zeros if the greatest one is zero. -/
def levelIter (levels : List Byte) (max : BitVec 16) (length : Nat) : Res LevelIter :=
  if (max.signExtend 32).toNat = 0 then .ok (.zeros length)
  else (Rle.Dec.tryNew levels (getBitWidth max) length).map' .decoder

/-- `tests/it/read/primitive_nested.rs:73-123` `read_array_impl`: other encodings of levels than RLE are not
implemented (`todo!`). -/
def readArrayImpl {τ : Type} (next : τ → Res (Option (BitVec (8 * 8)) × τ)) (reps defs : List Byte) (values : τ)
    (length : Nat) (repEncoding defEncoding : Encoding) (maxRep maxDef : BitVec 16) : Res Lists :=
  if repEncoding = .rle ∧ defEncoding = .rle then do
    let reps ← levelIter reps maxRep length
    let defs ← levelIter defs maxDef length
    composeArray next length reps defs (maxRep.signExtend 32).toNat (maxDef.signExtend 32).toNat values
  else .panic

/-- `tests/it/read/primitive_nested.rs:144-169` `page_to_array`, with `read_array` (lines 125-142) and
`read_buffer` (lines 13-23): full chunks of 8 bytes, a remainder is dropped. Without a dictionary;
`todo!` for other encodings. -/
def listsPlain (page : DataPage) : Res Lists := do
  let (reps, defs, values) ← splitBuffer page
  let encoding ← page.encoding
  match encoding with
  | .plain => do
    let repEncoding ← page.repetitionLevelEncoding
    let defEncoding ← page.definitionLevelEncoding
    readArrayImpl itemsNext reps defs ((chunksExact 8 values).map (nativeDecode 8)) (page.numValues % 2 ^ 32)
      repEncoding defEncoding page.descriptor.maxRepLevel page.descriptor.maxDefLevel
  | _ => .panic

/-- `tests/it/read/primitive_nested.rs:189`: an index of the bit-packed decoder, then the entry of the
dictionary (out of bounds: panic). -/
def packedNext (dict : List (BitVec (8 * 8))) (indices : Bitpack.Decoder 4) :
    Res (Option (BitVec (8 * 8)) × Bitpack.Decoder 4) := do
  let (id, indices) ← indices.next
  match id with
  | none => .ok (none, indices)
  | some id =>
    match dict[id.toNat]? with
    | some x => .ok (some x, indices)
    | none => .panic

/-- `tests/it/read/primitive_nested.rs:171-198` `read_dict_array`: one byte for the number of bits, one header,
then bit-packed indices. -/
def readDictArray (reps defs values : List Byte) (length : Nat) (dict : List (BitVec (8 * 8)))
    (repEncoding defEncoding : Encoding) (maxRep maxDef : BitVec 16) : Res Lists :=
  match values with
  | [] => .panic
  | bitWidth :: values => do
    let (_, consumed) ← Leb.decode values
    let indices ← Bitpack.Decoder.tryNew 4 (values.drop consumed) bitWidth.toNat length
    readArrayImpl (packedNext dict) reps defs indices length repEncoding defEncoding maxRep maxDef

/-- `tests/it/read/primitive_nested.rs:200-231` `page_dict_to_array`: `todo!` for encodings other than the old
PLAIN_DICTIONARY. -/
def listsDict (page : DataPage) (dict : Option (List (BitVec (8 * 8)))) : Res Lists := do
  Res.assert (page.descriptor.maxRepLevel = 1#16)
  let (reps, defs, values) ← splitBuffer page
  let encoding ← page.encoding
  match encoding, dict with
  | .plainDictionary, some dict => do
    let repEncoding ← page.repetitionLevelEncoding
    let defEncoding ← page.definitionLevelEncoding
    readDictArray reps defs values (page.numValues % 2 ^ 32) dict repEncoding defEncoding
      page.descriptor.maxRepLevel page.descriptor.maxDefLevel
  | _, none => .err .oos
  | _, _ => .panic

/-- `tests/it/read/mod.rs:126-145`: `page_to_array` of a nested page; `todo!` for other types than 64-bit
integers. -/
def pageToLists (page : DataPage) (dict : Option Dict) : Res Lists :=
  match page.descriptor.primitiveType.physicalType, dict with
  | .int64, none => listsPlain page
  | .int64, some dict => do
    let dict ← expectDict Dict.asInt64 (some dict)
    listsDict page dict
  | _, _ => .panic

end Pq.Client
