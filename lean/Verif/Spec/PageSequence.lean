import Verif.Spec.PageSource
import Verif.Spec.PageIO
import Verif.Spec.Thrift
/-
Relations between what iterators over pages deliver.
-/
namespace Pq.Spec
open Pq

/-- Starting in state `s`, so many calls of `next` return exactly the items `xs`; the state is then `t`. -/
inductive Pulled {σ α : Type} (next : σ → Option α × σ) : σ → List α → σ → Prop where
  | nil (s : σ) : Pulled next s [] s
  | cons {s s' t : σ} {x : α} {xs : List α} :
      next s = (some x, s') → Pulled next s' xs t → Pulled next s (x :: xs) t

/-- The same items up to an error, after which nothing is said. -/
def SameUntilError {α : Type} (xs ys : List (Option (Res α))) : Prop :=
  xs = ys ∨ ∃ k e, k < ys.length ∧ xs = ys.take k ++ [some (.err e)]

/-- What is read within a limit is read the same within a larger one. -/
structure MonotoneCodec {T : Type} (codec : Codec T) : Prop where
  mono : ∀ max max' bs x rest, max ≤ max' → codec.parse max bs = (.ok x, rest) →
    codec.parse max' bs = (.ok x, rest)

/-- A structure is read the same, whatever follows it. -/
structure LocalCodec {T : Type} (codec : Codec T) : Prop where
  loc : ∀ max bs x rest, codec.parse max bs = (.ok x, rest) →
    ∃ c, bs = c ++ rest ∧ ∀ ext, codec.parse max (c ++ ext) = (.ok x, ext)

/-- Whether an item is kept by a filter of pages: all but the pages that do not pass. -/
def keeps (filter : Descriptor → DataPageHeader → Bool) (d : Descriptor) : Res CompressedPage → Bool
  | .ok p => passes filter d p
  | _ => true

end Pq.Spec
