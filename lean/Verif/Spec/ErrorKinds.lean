import Verif.Model.PageIO
/-
What the kind of an error tells.
-/
namespace Pq.Spec

/-- If this is an error, its kind is one of these. -/
def Fails {α : Type} (kinds : Err → Prop) (r : Res α) : Prop := ∀ e, r = .err e → kinds e

/-- If this is an error, it says that the file is out of specification. -/
abbrev FailsOos {α : Type} (r : Res α) : Prop := Fails (· = .oos) r

/-- The external thrift crate: what does not parse is out of specification (`src/error.rs:90-94`). -/
def CodecOos {T : Type} (codec : Codec T) : Prop := ∀ max bytes, FailsOos (codec.parse max bytes).1

/-- The external codecs: their errors are out of specification (`src/error.rs:69-101`). -/
structure CodecsOos (cs : Codecs) : Prop where
  encStream : ∀ c l b, FailsOos (cs.encStream c l b)
  maxLen : ∀ c n, FailsOos (cs.maxLen c n)
  encBlock : ∀ c b n, FailsOos (cs.encBlock c b n)
  readExact : ∀ c b o, FailsOos (cs.readExact c b o).1
  snappyLen : ∀ b, FailsOos (cs.snappyLen b)
  decBlock : ∀ c b o, FailsOos (cs.decBlock c b o).1

/-- The feature a codec depends on, if any (`src/compression.rs`). -/
def neededFeature : Compression → Option Compression
  | .uncompressed => none
  | .lzo => none
  | .lz4 => some .lz4
  | .lz4Raw => some .lz4
  | c => some c

/-- The codec needs a feature that is not active. -/
def Inactive (cs : Codecs) (c : Compression) : Prop := ∃ f, neededFeature c = some f ∧ cs.active f = false

/-- The kinds of errors of a reader of pages with this limit: out of specification, or more than the limit
- which the announced 32-bit size must be able to exceed. -/
def PageKinds (limit : Nat) (e : Err) : Prop := e = .oos ∨ (e = .wouldOverAllocate ∧ limit < 2 ^ 31 - 1)

/-- The kinds of errors of compressing or decompressing with this codec. -/
def CompressionKinds (cs : Codecs) (c : Compression) (unsupported : Compression → Prop) (e : Err) : Prop :=
  e = .oos ∨ (e = .featureNotActive ∧ Inactive cs c) ∨ (e = .featureNotSupported ∧ unsupported c)

end Pq.Spec
