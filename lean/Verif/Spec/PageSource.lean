import Verif.Model.PageSource
import Verif.Spec.Source
import Verif.Spec.Thrift
/-
What is assumed of a thrift protocol that reads from a reader, and what a user sees who asks for pages until
there is an error or no more page.
-/
namespace Pq.Spec

/-- The bytes that a protocol may have read at some point. -/
inductive Asked (asks : List Byte → Nat) : List Byte → Prop where
  | start : Asked asks []
  | more {bs ext : List Byte} : Asked asks bs → asks bs ≠ 0 → ext.length = asks bs → Asked asks (bs ++ ext)

/-- A protocol stops only when the rest of the bytes does not matter, and does not take more bytes than
belong to the structure; as long as it lacks bytes, the bytes read so far are not a structure. -/
structure LawfulProtocol {T : Type} (p : Protocol T) : Prop where
  enough : ∀ max bs, Asked (p.asks max) bs → p.asks max bs = 0 → ∀ rest,
    (p.codec.parse max (bs ++ rest)).1 = (p.codec.parse max bs).1 ∧
    ∀ x, (p.codec.parse max bs).1 = .ok x → (p.codec.parse max (bs ++ rest)).2 = rest
  short : ∀ max bs ext, Asked (p.asks max) bs → ext.length < p.asks max bs →
    (p.codec.parse max (bs ++ ext)).1 = .err .oos

/-- The first items of an iterator, at most `n`: up to the first that is not a success; and the state
after them. -/
def items {σ α : Type} (next : σ → Option (Res α) × σ) : Nat → σ → List (Option (Res α)) × σ
  | 0, s => ([], s)
  | n + 1, s =>
    match next s with
    | (some (.ok a), s) => let (l, s) := items next n s; (some (.ok a) :: l, s)
    | (x, s) => ([x], s)

/-- Items read from a reader, against those in the bytes: they are the same, or the reader failed, and they
are the same up to an error. -/
def ItemsDelivered {α : Type} (failedBefore failedAfter : Bool) (read inBytes : List (Option (Res α))) : Prop :=
  (read = inBytes ∧ failedAfter = failedBefore) ∨
  (failedAfter = true ∧ ∃ k, k < inBytes.length ∧ read = inBytes.take k ++ [some (.err .oos)])

end Pq.Spec
