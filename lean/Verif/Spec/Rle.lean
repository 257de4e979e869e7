import Verif.Spec.Bits
import Verif.Spec.Leb128
/-
Model-independent description of the parquet "RLE / bit-packing hybrid" (Encodings.md):

    run               := <bit-packed-run> | <rle-run>
    bit-packed-run    := <bit-packed-header> <bit-packed-values>
    bit-packed-header := varint-encode(<number of groups of 8 values> << 1 | 1)
    rle-run           := <rle-header> <repeated-value>
    rle-header        := varint-encode(<repetitions> << 1)
    repeated-value    := value, using ceil(bit-width / 8) bytes, little endian
-/
namespace Pq.Spec

/-- `k` little-endian bytes of a number. -/
def leBytes (k v : Nat) : List Byte := (List.range k).map fun i => BitVec.ofNat 8 (v / 256 ^ i)

inductive Run where
  | rle (count value : Nat)
  | packed (groups : Nat) (bytes : List Byte)

/-- The values a run stands for. -/
def Run.values (n : Nat) : Run → List Nat
  | .rle c v => List.replicate c v
  | .packed g bs => fields bs n (8 * g)

/-- A legal header: any (not necessarily minimal) varint of at most ten bytes. -/
def IsHeader (h : List Byte) (v : Nat) : Prop :=
  IsVarint h ∧ h.length ≤ 10 ∧ base128 h = v ∧ v < 2 ^ 64

instance (h : List Byte) (v : Nat) : Decidable (IsHeader h v) := by
  unfold IsHeader; infer_instance

/-- `out` is a legal serialisation of the run with bit width `n`. -/
def Run.Ser (n : Nat) (r : Run) (out : List Byte) : Prop :=
  match r with
  | .rle c v => v < 2 ^ n ∧ ∃ h, IsHeader h (2 * c) ∧ out = h ++ leBytes ((n + 7) / 8) v
  | .packed g bs => bs.length = g * n ∧ bs.length < 2 ^ 64 ∧
      ∃ h, IsHeader h (2 * g + 1) ∧ out = h ++ bs

/-- `stream` is a legal serialisation of a sequence of runs. -/
inductive RunStream (n : Nat) : List Run → List Byte → Prop where
  | nil : RunStream n [] []
  | cons {r : Run} {rs : List Run} {out stream : List Byte} :
      r.Ser n out → RunStream n rs stream → RunStream n (r :: rs) (out ++ stream)

/-- A malformed run at the start of `v`: an over-long header, or an RLE header (even number)
followed by at least one byte but by fewer bytes than the repeated value needs. -/
def BadRun (n : Nat) (v : List Byte) : Prop :=
  Overlong 9 v ∨ (¬ Overlong 9 v ∧ base128 (varintPrefix v) % 2 = 0 ∧
    0 < (v.drop (varintPrefix v).length).length ∧
    (v.drop (varintPrefix v).length).length < (n + 7) / 8)

instance (n : Nat) (v : List Byte) : Decidable (BadRun n v) := by
  unfold BadRun; infer_instance

/-- The first `wanted` values of any bytes read as runs of values of `n` bits. The values that are missing at the end
are zero; a bit-packed run may have less bytes than its header says, or more than are wanted; the bytes of a repeated
value are all taken, whatever `n`. There is no value if a header has more than 64 bits or a repeated value is cut. The
length of a bit-packed run is taken modulo 2^64. Every run has a byte, so that `bytes.length + 1` runs are enough. -/
def valuesOfRuns (n : Nat) : Nat → List Byte → Nat → Option (List Nat)
  | 0, _, _ => none
  | runs + 1, bytes, wanted =>
    if wanted = 0 then some []
    else match readVarint bytes with
    | none => none
    | some (header, bytes) =>
      if bytes = [] then some (List.replicate wanted 0)
      else if header % 2 = 1 then
        let packed := bytes.take (header / 2 * n % 2 ^ 64)
        let values := fields packed n (min (packed.length * 8 / n) wanted)
        (valuesOfRuns n runs (bytes.drop packed.length) (wanted - values.length)).map (values ++ ·)
      else if bytes.length < (n + 7) / 8 then none
      else
        let values := List.replicate (min (header / 2) wanted) (fieldAt bytes (8 * ((n + 7) / 8)) 0)
        (valuesOfRuns n runs (bytes.drop ((n + 7) / 8)) (wanted - values.length)).map (values ++ ·)

/-- Any bytes read as runs: the first one is read even if no value is wanted. Values of no bits are zero. -/
def hybridValues (n : Nat) (bytes : List Byte) (wanted : Nat) : Option (List Nat) :=
  if n = 0 then some (List.replicate wanted 0)
  else if BadRun n bytes then none
  else valuesOfRuns n (bytes.length + 1) bytes wanted

end Pq.Spec
