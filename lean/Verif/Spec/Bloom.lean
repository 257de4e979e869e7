import Verif.Spec.Bits
/-
The split-block bloom filter of the parquet format (BloomFilter.md), as arithmetic on numbers and
a set of bit positions. Independent of the model.
-/
namespace Pq.Spec

/-- The salts of the format. -/
def bloomSalt : List Nat :=
  [0x47b6137b, 0x44974d91, 0x8824ad5b, 0xa2b7289d, 0x705495c7, 0x2df1424b, 0x9efc4947, 0x5c6bfb31]

/-- The block of a hash: the upper half of the hash scaled to the number of blocks. -/
def bloomBlock (hash blocks : Nat) : Nat := (hash / 2 ^ 32) * blocks / 2 ^ 32

/-- The bit of word `i` set for a hash: the top 5 bits of the (32-bit) product of the lower half of
the hash and the salt. -/
def bloomBit (hash i : Nat) : Nat := (hash % 2 ^ 32) * bloomSalt.getD i 0 % 2 ^ 32 / 2 ^ 27

/-- The bit positions of a hash in a filter of `len` bytes: one bit in each of the eight 32-bit
words of the hash's 256-bit block. -/
def BloomPos (len hash p : Nat) : Prop :=
  ∃ i < 8, p = 256 * bloomBlock hash (len / 32) + 32 * i + bloomBit hash i

end Pq.Spec
