import Verif.Model.Bloom
import Verif.Model.Types
/-
Model of `src/bloom_filter/hash.rs`. The function `xxh64` is that of the external crate
`xxhash_rust`; it is defined here after the published description of xxHash64 (arithmetic on
64-bit words modulo 2^64, little-endian reads). That the definition is the function of the crate
is checked against the two filters of other writers which the tests of
`src/bloom_filter/mod.rs:17-70` compare with (`Props/Hash.lean`).
-/
namespace Pq.Bloom

/-- `xxhash_rust::xxh64` (external; `src/bloom_filter/hash.rs:1`): the first prime. -/
def PRIME1 : BitVec 64 := 11400714785074694791#64
/-- `xxhash_rust::xxh64` (external; `src/bloom_filter/hash.rs:1`): the second prime. -/
def PRIME2 : BitVec 64 := 14029467366897019727#64
/-- `xxhash_rust::xxh64` (external; `src/bloom_filter/hash.rs:1`): the third prime. -/
def PRIME3 : BitVec 64 := 1609587929392839161#64
/-- `xxhash_rust::xxh64` (external; `src/bloom_filter/hash.rs:1`): the fourth prime. -/
def PRIME4 : BitVec 64 := 9650029242287828579#64
/-- `xxhash_rust::xxh64` (external; `src/bloom_filter/hash.rs:1`): the fifth prime. -/
def PRIME5 : BitVec 64 := 2870177450012600261#64

/-- `u64::rotate_left`, as used by `xxhash_rust::xxh64` (`src/bloom_filter/hash.rs:1`). -/
def rotl (x : BitVec 64) (k : Nat) : BitVec 64 := (x <<< k) ||| (x >>> (64 - k))

/-- `xxhash_rust::xxh64` (external; `src/bloom_filter/hash.rs:1`): one round of an accumulator. -/
def xxRound (acc input : BitVec 64) : BitVec 64 := rotl (acc + input * PRIME2) 31 * PRIME1

/-- `xxhash_rust::xxh64` (external; `src/bloom_filter/hash.rs:1`): an accumulator joins the hash. -/
def xxMerge (hash acc : BitVec 64) : BitVec 64 := (hash ^^^ xxRound 0#64 acc) * PRIME1 + PRIME4

/-- `xxhash_rust::xxh64` (external; `src/bloom_filter/hash.rs:1`): the final mixing. -/
def xxAvalanche (h : BitVec 64) : BitVec 64 :=
  let h := (h ^^^ (h >>> 33)) * PRIME2
  let h := (h ^^^ (h >>> 29)) * PRIME3
  h ^^^ (h >>> 32)

/-- `xxhash_rust::xxh64` (external; `src/bloom_filter/hash.rs:1`): one word of 8 bytes of the tail. -/
def xxWord (h word : BitVec 64) : BitVec 64 := rotl (h ^^^ xxRound 0#64 word) 27 * PRIME1 + PRIME4

/-- `xxhash_rust::xxh64` (external; `src/bloom_filter/hash.rs:1`): one word of 4 bytes of the tail. -/
def xxHalf (h word : BitVec 64) : BitVec 64 := rotl (h ^^^ (word * PRIME1)) 23 * PRIME2 + PRIME3

/-- `xxhash_rust::xxh64` (external; `src/bloom_filter/hash.rs:1`): one byte of the tail. -/
def xxByte (h : BitVec 64) (b : Byte) : BitVec 64 := rotl (h ^^^ (b.setWidth 64 * PRIME5)) 11 * PRIME1

/-- `xxhash_rust::xxh64` (external; `src/bloom_filter/hash.rs:1`): the four accumulators. -/
structure Lanes where
  v1 : BitVec 64
  v2 : BitVec 64
  v3 : BitVec 64
  v4 : BitVec 64

/-- `xxhash_rust::xxh64` (external; `src/bloom_filter/hash.rs:1`): the accumulators take one stripe of
32 bytes. -/
def Lanes.stripe (l : Lanes) (s : List Byte) : Lanes where
  v1 := xxRound l.v1 (fromLe 64 (s.take 8))
  v2 := xxRound l.v2 (fromLe 64 ((s.drop 8).take 8))
  v3 := xxRound l.v3 (fromLe 64 ((s.drop 16).take 8))
  v4 := xxRound l.v4 (fromLe 64 ((s.drop 24).take 8))

/-- `xxhash_rust::xxh64` (external; `src/bloom_filter/hash.rs:1`): the accumulators joined. -/
def Lanes.merge (l : Lanes) : BitVec 64 :=
  let h := rotl l.v1 1 + rotl l.v2 7 + rotl l.v3 12 + rotl l.v4 18
  xxMerge (xxMerge (xxMerge (xxMerge h l.v1) l.v2) l.v3) l.v4

/-- `xxhash_rust::xxh64` (external; `src/bloom_filter/hash.rs:1`): the state before the tail. -/
def xxStart (input : List Byte) (seed : BitVec 64) : BitVec 64 :=
  if 32 ≤ input.length then
    ((Deser.chunksExact 32 input).foldl Lanes.stripe
      ⟨seed + PRIME1 + PRIME2, seed + PRIME2, seed, seed - PRIME1⟩).merge
  else seed + PRIME5

/-- `xxhash_rust::xxh64` (external; `src/bloom_filter/hash.rs:1`): the tail of fewer than 32 bytes:
words of 8 bytes, then at most one of 4 bytes, then bytes. -/
def xxTail (h : BitVec 64) (tail : List Byte) : BitVec 64 :=
  let h := (Deser.chunksExact 8 tail).foldl (fun h w => xxWord h (fromLe 64 w)) h
  let tail := tail.drop (tail.length / 8 * 8)
  if 4 ≤ tail.length then (tail.drop 4).foldl xxByte (xxHalf h (fromLe 64 (tail.take 4)))
  else tail.foldl xxByte h

/-- `xxhash_rust::xxh64` (external; called at `src/bloom_filter/hash.rs:10,16`). -/
def xxh64 (input : List Byte) (seed : BitVec 64) : BitVec 64 :=
  let h := xxStart input seed + BitVec.ofNat 64 input.length
  xxAvalanche (xxTail h (input.drop (input.length / 32 * 32)))

/-- `src/bloom_filter/hash.rs:5` `SEED`. -/
def SEED : BitVec 64 := 0#64

/-- `src/bloom_filter/hash.rs:14-17` `hash_byte`. -/
def hashByte (value : List Byte) : BitVec 64 := xxh64 value SEED

/-- `src/bloom_filter/hash.rs:8-11` `hash_native`, of a type of `b` bytes (`i32`, `f32`: 4; `i64`,
`f64`: 8), given by its bit pattern. -/
def hashNative (b : Nat) (value : BitVec (8 * b)) : BitVec 64 := xxh64 (nativeToLe b value) SEED

/-- `src/bloom_filter/hash.rs:8-11` `hash_native`, of an int96. -/
def hashInt96 (value : Int96) : BitVec 64 := xxh64 (int96ToLe value) SEED

end Pq.Bloom
