import Verif.Model.PageIO
/-
What is required of the external thrift (de)serializer.
-/
namespace Pq.Spec

/-- Reading what was written gives it back and leaves what follows, provided the allocation limit is
at least `limit x`. -/
structure LawfulCodec {T : Type} (codec : Codec T) (limit : T → Nat) : Prop where
  roundtrip : ∀ x rest max, limit x ≤ max → codec.parse max (codec.ser x ++ rest) = (.ok x, rest)

/-- Reading arbitrary bytes does not panic, leaves an end of them, and takes at least a byte if it
succeeds. -/
structure SaneCodec {T : Type} (codec : Codec T) : Prop where
  noPanic : ∀ max bs, (codec.parse max bs).1 ≠ .panic
  suffix : ∀ max bs, (codec.parse max bs).2 <:+ bs
  progress : ∀ max bs x, (codec.parse max bs).1 = .ok x → (codec.parse max bs).2.length < bs.length

end Pq.Spec
