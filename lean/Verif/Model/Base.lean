/-
Common vocabulary of the model: bytes, results with explicit panics, slices.
-/
namespace Pq

/-- A byte (`u8`). -/
abbrev Byte := BitVec 8

/-- Error kinds of `src/error.rs:23-34`. Messages are not modelled. -/
inductive Err where
  | oos                  -- Error::OutOfSpec
  | featureNotActive     -- Error::FeatureNotActive
  | featureNotSupported  -- Error::FeatureNotSupported
  | invalidParameter     -- Error::InvalidParameter
  | wouldOverAllocate    -- Error::WouldOverAllocate
  deriving DecidableEq, Repr

/-- `Result<α, Error>` of `src/error.rs:122`, extended with an explicit outcome for a panic
(slice index out of range, failed `assert!`, `unwrap` on `None`, `unreachable!`, `todo!`,
arithmetic overflow where the model tracks it). -/
inductive Res (α : Type u) where
  | ok (a : α)
  | err (e : Err)
  | panic
  deriving DecidableEq, Repr

namespace Res

/-- Sequencing: Rust's `?` operator (an `Err` or a panic aborts the function). -/
@[inline] protected def bind {α : Type u} {β : Type v} (x : Res α) (f : α → Res β) : Res β :=
  match x with
  | .ok a => f a
  | .err e => .err e
  | .panic => .panic

instance : Monad Res where
  pure := .ok
  bind := Res.bind

@[simp] theorem pure_eq {α : Type u} (a : α) : (pure a : Res α) = .ok a := rfl
@[simp] theorem ok_bind {α β : Type u} (a : α) (f : α → Res β) : (Res.ok a >>= f) = f a := rfl
@[simp] theorem err_bind {α β : Type u} (e : Err) (f : α → Res β) :
    ((Res.err e : Res α) >>= f) = .err e := rfl
@[simp] theorem panic_bind {α β : Type u} (f : α → Res β) :
    ((Res.panic : Res α) >>= f) = .panic := rfl
@[simp] theorem map_ok {α β : Type u} (f : α → β) (a : α) : (f <$> (Res.ok a)) = .ok (f a) := rfl
@[simp] theorem map_err {α β : Type u} (f : α → β) (e : Err) : (f <$> (Res.err e : Res α)) = .err e := rfl
@[simp] theorem map_panic {α β : Type u} (f : α → β) : (f <$> (Res.panic : Res α)) = .panic := rfl

theorem bind_eq_ok {α β : Type u} {x : Res α} {f : α → Res β} {b : β} :
    (x >>= f) = .ok b ↔ ∃ a, x = .ok a ∧ f a = .ok b := by
  cases x <;> simp

instance : LawfulMonad Res := LawfulMonad.mk'
  (id_map := by intro α x; cases x <;> rfl)
  (pure_bind := by intros; rfl)
  (bind_assoc := by intro α β γ x f g; cases x <;> rfl)
  (bind_pure_comp := by intro α β f x; cases x <;> rfl)

/-- `Result::map` into another universe-agnostic type. -/
def map' {α : Type u} {β : Type v} (f : α → β) : Res α → Res β
  | .ok a => .ok (f a)
  | .err e => .err e
  | .panic => .panic

/-- `Option::ok_or`. -/
def ofOption {α : Type u} (e : Err) : Option α → Res α
  | some a => .ok a
  | none => .err e

/-- `Option::unwrap`. -/
def unwrap {α : Type u} : Option α → Res α
  | some a => .ok a
  | none => .panic

/-- `if !c { return Err(e) }`. -/
def guard (c : Bool) (e : Err) : Res Unit := if c then .ok () else .err e

/-- `assert!(c)`. -/
def assert (c : Bool) : Res Unit := if c then .ok () else .panic

/-- Whether the outcome is not a panic. -/
def noPanic {α : Type u} : Res α → Bool
  | .panic => false
  | _ => true

/-- `Result::is_ok`, of a `Result` that may also be a panic (see `Res`). -/
def isOk {α : Type u} : Res α → Bool
  | .ok _ => true
  | _ => false

end Res

/-- `&s[a..b]`: panics when `a > b` or `b > s.len()`. -/
def slice {α : Type u} (s : List α) (a b : Nat) : Res (List α) :=
  if a ≤ b ∧ b ≤ s.length then .ok ((s.drop a).take (b - a)) else .panic

/-- `s.split_at(k)`: panics when `k > s.len()`. -/
def splitAt' {α : Type u} (s : List α) (k : Nat) : Res (List α × List α) :=
  if k ≤ s.length then .ok (s.take k, s.drop k) else .panic

/-- Little-endian value of a byte string (`uN::from_le_bytes`). -/
def leNat : List Byte → Nat
  | [] => 0
  | b :: bs => b.toNat + 256 * leNat bs

/-- `uN::from_le_bytes` into a word of `w` bits. -/
def fromLe (w : Nat) (bs : List Byte) : BitVec w := BitVec.ofNat w (leNat bs)

/-- `uN::to_le_bytes`, `b` bytes. -/
def toLe (b : Nat) (x : BitVec (8 * b)) : List Byte :=
  (List.range b).map fun k => x.extractLsb' (8 * k) 8

/-- `src/encoding/mod.rs:17-21` `get_length`: the u32 length prefix, `None` if fewer than 4 bytes. -/
def getLength (values : List Byte) : Option Nat :=
  if 4 ≤ values.length then some (leNat (values.take 4)) else none

/-- `src/encoding/mod.rs:25-27` `ceil8`. -/
def ceil8 (value : Nat) : Nat := value / 8 + (if value % 8 != 0 then 1 else 0)

end Pq
