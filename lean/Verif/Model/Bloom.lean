import Verif.Model.Deserialize
/-
Model of `src/bloom_filter/split_block.rs` and `src/bloom_filter/read.rs`. `usize` is a `Nat` below
2^64 where it is cast. The filter is studied for all 64-bit hashes; for `hash.rs` see `Model/Hash`.
-/
namespace Pq.Bloom
open Deser (chunksExact)

/-- `src/bloom_filter/split_block.rs:4-6` `SALT`. -/
def SALT : List (BitVec 32) :=
  [1203114875#32, 1150766481#32, 2284105051#32, 2729912477#32, 1884591559#32, 770785867#32,
   2667333959#32, 1550580529#32]

/-- `src/bloom_filter/split_block.rs:8-13` `hash_to_block_index`. The `u64` product panics on
overflow when overflow checks are on (`ck`), and wraps otherwise. -/
def hashToBlockIndex (ck : Bool) (hash : BitVec 64) (len : Nat) : Res Nat :=
  let numberOfBlocks := len / 32
  let lowHash := hash >>> 32
  if ck ∧ 2 ^ 64 ≤ lowHash.toNat * numberOfBlocks then .panic
  else
    let blockIndex := ((lowHash * BitVec.ofNat 64 numberOfBlocks) >>> 32).setWidth 32
    .ok blockIndex.toNat

/-- `src/bloom_filter/split_block.rs:15-24` `new_mask`. -/
def newMask (x : BitVec 32) : List (BitVec 32) :=
  SALT.map fun salt => 1#32 <<< ((x * salt) >>> 27)

/-- `src/bloom_filter/split_block.rs:28-35` `load_block`: words without a chunk stay zero. -/
def loadBlock (bitset : List Byte) : List (BitVec 32) :=
  let words := ((chunksExact 4 bitset).take 8).map (fromLe 32)
  words ++ List.replicate (8 - words.length) 0#32

/-- `src/bloom_filter/split_block.rs:39-48` `unload_block`: bytes outside the (at most 8) chunks are
unchanged. -/
def unloadBlock (block : List (BitVec 32)) (bitset : List Byte) : List Byte :=
  let chunks := (chunksExact 4 bitset).take 8
  let written := List.zipWith (fun a _ => toLe 4 a) block chunks
  written.flatten ++ bitset.drop (4 * written.length)

/-- `src/bloom_filter/split_block.rs:59-64`: the loop of `is_in_set`, from index `i`. -/
def isInLoop (mask block : List (BitVec 32)) : Nat → Nat → Bool
  | 0, _ => true
  | n + 1, i => if mask.getD i 0#32 &&& block.getD i 0#32 = 0#32 then false
                else isInLoop mask block n (i + 1)

/-- `src/bloom_filter/split_block.rs:51-65` `is_in_set`. -/
def isInSet (ck : Bool) (bitset : List Byte) (hash : BitVec 64) : Res Bool := do
  let blockIndex ← hashToBlockIndex ck hash bitset.length
  let key := hash.setWidth 32
  let mask := newMask key
  let sl ← slice bitset (blockIndex * 32) ((blockIndex + 1) * 32)
  let blockMask := loadBlock sl
  .ok (isInLoop mask blockMask 8 0)

/-- `&mut bitset[a..b]` overwritten by `f`. -/
def modifySlice (bitset : List Byte) (a b : Nat) (f : List Byte → List Byte) : Res (List Byte) := do
  let sl ← slice bitset a b
  .ok (bitset.take a ++ f sl ++ bitset.drop b)

/-- `src/bloom_filter/split_block.rs:76-81`: the loop of `insert`, from index `i`. -/
def insertLoop (mask : List (BitVec 32)) (blockIndex : Nat) :
    Nat → Nat → List (BitVec 32) → List Byte → Res (List Byte)
  | 0, _, _, bitset => .ok bitset
  | n + 1, i, block, bitset => do
    let block := block.set i (block.getD i 0#32 ||| mask.getD i 0#32)
    let bitset ← modifySlice bitset (blockIndex * 32) ((blockIndex + 1) * 32) (unloadBlock block)
    insertLoop mask blockIndex n (i + 1) block bitset

/-- `src/bloom_filter/split_block.rs:68-82` `insert`. -/
def insert (ck : Bool) (bitset : List Byte) (hash : BitVec 64) : Res (List Byte) := do
  let blockIndex ← hashToBlockIndex ck hash bitset.length
  let key := hash.setWidth 32
  let mask := newMask key
  let sl ← slice bitset (blockIndex * 32) ((blockIndex + 1) * 32)
  let blockMask := loadBlock sl
  insertLoop mask blockIndex 8 0 blockMask bitset

/-- Successive calls of `insert`. -/
def insertAll (ck : Bool) : List Byte → List (BitVec 64) → Res (List Byte)
  | bitset, [] => .ok bitset
  | bitset, h :: hs => do
    let bitset ← insert ck bitset h
    insertAll ck bitset hs

/-- `parquet.thrift` `BloomFilterHeader`; `algorithm` and `compression` are unions, of which only
"the supported variant" is distinguished. -/
structure Header where
  numBytes : I32
  algorithmIsBlock : Bool
  compressionIsUncompressed : Bool
  deriving DecidableEq, Repr

/-- `src/bloom_filter/read.rs:14-49` `read`: what `bitset` is set to. `file` is the content of the
reader; `parse` deserializes the header (external crate) from the bytes at the cursor and returns the
remaining bytes. Seeking past the end is allowed (`std::io::Seek`), reading there gives no bytes.
An offset cast to `u64` that is negative makes the seek fail for files. -/
def readFilter (parse : List Byte → Res (Header × List Byte)) (offset : Option I64) (file : List Byte) :
    Res (List Byte) :=
  match offset with
  | none => .ok []
  | some offset => do
    let (header, rest) ← parse (file.drop offset.toNat)
    if !header.algorithmIsBlock then .ok []
    else if !header.compressionIsUncompressed then .ok []
    else do
      let length ← toUsize header.numBytes
      .ok (rest.take length)

end Pq.Bloom
