import Verif.Model.Compression
/-
What is required of the external codecs, and the observable behaviour of the streaming (de)compressors.
-/
namespace Pq.Spec

/-- The codecs are correct: decoding, into an output of the original length, what was encoded gives
the original. -/
structure Lawful (cs : Codecs) : Prop where
  stream : ∀ c lvl x y, cs.encStream c lvl x = .ok y →
    ∀ out : List Byte, out.length = x.length → cs.readExact c y out = (.ok (), x)
  block : ∀ c x n y, cs.encBlock c x n = .ok y →
    ∀ out : List Byte, out.length = x.length → cs.decBlock c y out = (.ok x.length, x)
  snappyLen : ∀ x n y, cs.encBlock .snappy x n = .ok y → cs.snappyLen y = .ok x.length

/-- What a decoder does depends on its input and the size of the output only; a streaming decoder
fills the output, a block decoder writes a prefix and leaves the rest. -/
structure Pure (cs : Codecs) : Prop where
  stream : ∀ c i (o o' : List Byte), o.length = o'.length →
    (cs.readExact c i o).1 = (cs.readExact c i o').1 ∧
    ((cs.readExact c i o).1 = .ok () → (cs.readExact c i o).2 = (cs.readExact c i o').2)
  block : ∀ c i n, (∃ r : Res Nat, (∀ k, r ≠ .ok k) ∧
        ∀ o : List Byte, o.length = n → (cs.decBlock c i o).1 = r) ∨
    ∃ w : List Byte, w.length ≤ n ∧
      ∀ o : List Byte, o.length = n → cs.decBlock c i o = (.ok w.length, w ++ o.drop w.length)

/-- A page iterator delivers a fixed sequence of items, whatever buffers are swapped into it. `R` is
the relation between its states and the items still to come. -/
structure Serves {σ : Type} (it : PageIter σ) (R : σ → List (Res CompressedPage) → Prop) : Prop where
  nil : ∀ s, R s [] → ∃ s', it.next s = (none, s') ∧ R s' []
  cons : ∀ s x xs, R s (x :: xs) → ∃ s', it.next s = (some x, s') ∧ R s' xs
  swap : ∀ s xs b, R s xs → R (it.swap s b).2 xs

/-- What a user sees of a streaming iterator: the result of each `advance`, and on success the
current item. -/
def observe {σ α : Type} (advance : Nat → σ → Res Unit × σ) (get : σ → Option α) :
    Nat → Nat → σ → List (Res (Option α))
  | 0, _, _ => []
  | n + 1, k, s =>
    let (r, s') := advance k s
    r.map' (fun _ => get s') :: observe advance get n (k + 1) s'

/-- A Hadoop LZ4 frame: big-endian decompressed and compressed sizes, then the block. -/
def hadoopFrame (decompressed compressed : List Byte) : List Byte :=
  (toLe 4 (BitVec.ofNat 32 decompressed.length)).reverse
    ++ (toLe 4 (BitVec.ofNat 32 compressed.length)).reverse ++ compressed

end Pq.Spec

namespace Pq.Spec

/-- The compressed values of a page and the number of bytes announced for them (for a V2 page
without the levels, which are not compressed). -/
def payload (ck : Bool) (page : CompressedPage) : List Byte × Nat :=
  match page with
  | .data p => match p.header with
    | .v1 _ => (p.buffer, p.uncompressedPageSize)
    | .v2 h => match addI32 ck h.definitionLevelsByteLength h.repetitionLevelsByteLength with
      | .ok sum => (p.buffer.drop (asUsize sum), p.uncompressedPageSize - asUsize sum)
      | _ => ([], 0)
  | .dict p => (p.buffer, p.uncompressedPageSize)

/-- The page does not announce more bytes than its block decoder produces. -/
def ExactSize (cs : Codecs) (ck : Bool) (page : CompressedPage) : Prop :=
  page.compression ≠ .lz4 ∧
  ∀ o k, o.length = (payload ck page).2 →
    (cs.decBlock page.compression (payload ck page).1 o).1 = .ok k → k = (payload ck page).2

end Pq.Spec
