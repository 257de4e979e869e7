import Verif.Model.Source
import Verif.Model.Intervals
/-
Model of `examples/s3/src/stream.rs`: a reader (`AsyncRead + AsyncSeek`) that fetches ranges of a remote
object, e.g. in S3, and keeps the last one. The function that fetches is external; a future is the number of
times it is polled before it is ready, and its result.
-/
namespace Pq

/-- `examples/s3/src/stream.rs:24-27` `SeekOutput`. -/
structure SeekOutput where
  start : Nat
  data : List Byte
  deriving DecidableEq, Repr

/-- A future of `examples/s3/src/stream.rs:29-31` `F`: it is `Pending` so many times, then `Ready` with an
output or an error. -/
structure RangeFuture where
  pending : Nat
  result : Option SeekOutput
  deriving DecidableEq, Repr

/-- `examples/s3/src/stream.rs:19-22` `State`; `completed` is `Seeking` of a future that has been ready with
an error. -/
inductive RangeState where
  | hasChunk (output : SeekOutput)
  | seeking (future : RangeFuture)
  | completed
  deriving DecidableEq, Repr

/-- `examples/s3/src/stream.rs:11-17` `RangedStreamer`, without `range_get`; `requests` (start, length) are
the calls of `range_get` so far, which are not in the code. -/
structure RangedStreamer where
  pos : Nat
  length : Nat
  state : RangeState
  minRequestSize : Nat
  requests : List (Nat × Nat)
  deriving DecidableEq, Repr

/-- `range_get` (`examples/s3/src/stream.rs:15` and 29-31): by the number of calls before, the start and the
length. -/
abbrev RangeGet := Nat → Nat → Nat → RangeFuture

/-- `examples/s3/src/stream.rs:34-46` `new`. -/
def RangedStreamer.new (length minRequestSize : Nat) : RangedStreamer :=
  { pos := 0, length, state := .hasChunk { start := 0, data := [] }, minRequestSize, requests := [] }

/-- `examples/s3/src/stream.rs:49-60` `range_includes`: intervals are pairs of start and length. -/
def rangeIncludes (ck : Bool) (a test : Nat × Nat) : Res Bool :=
  if test.1 < a.1 then .ok false
  else do
    let testEnd ← uadd ck test.1 test.2
    let aEnd ← uadd ck a.1 a.2
    .ok (!decide (testEnd > aEnd))

/-- What a poll gives; `loops` is a recursion deeper than the bound given. -/
inductive RangePoll where
  | ready (bytes : List Byte)
  | failed
  | pending
  | panic
  | loops
  deriving DecidableEq, Repr

/-- `examples/s3/src/stream.rs:75-79`: the chunk has the range. -/
def RangedStreamer.copy (ck : Bool) (s : RangedStreamer) (output : SeekOutput) (n : Nat) :
    RangePoll × RangedStreamer :=
  let offset := s.pos - output.start
  match slice output.data offset (offset + n) with
  | .ok bytes =>
    match uadd ck s.pos n with
    | .ok pos => (.ready bytes, { s with pos })
    | _ => (.panic, s)
  | _ => (.panic, s)

/-- `examples/s3/src/stream.rs:81-84`: a range is requested. -/
def RangedStreamer.request (get : RangeGet) (s : RangedStreamer) (n : Nat) : RangedStreamer :=
  let length := max s.minRequestSize n
  { s with state := .seeking (get s.requests.length s.pos length)
           requests := s.requests ++ [(s.pos, length)] }

/-- `examples/s3/src/stream.rs:63-100` `poll_read` with a buffer of `n` bytes; the first argument bounds the
depth of its recursion. To poll a future that has been ready is a panic (futures of `async` blocks). -/
def RangedStreamer.pollRead (ck : Bool) (get : RangeGet) :
    Nat → RangedStreamer → Nat → RangePoll × RangedStreamer
  | 0, s, _ => (.loops, s)
  | depth + 1, s, n =>
    match s.state with
    | .hasChunk output =>
      match rangeIncludes ck (output.start, output.data.length) (s.pos, n) with
      | .ok true => s.copy ck output n
      | .ok false => pollRead ck get depth (s.request get n) n
      | _ => (.panic, s)
    | .seeking future =>
      match future.pending with
      | k + 1 => (.pending, { s with state := .seeking { future with pending := k } })
      | 0 =>
        match future.result with
        | some output => pollRead ck get depth { s with state := .hasChunk output } n
        | none => (.failed, { s with state := .completed })
    | .completed => (.panic, s)

/-- `i64 as u64` (`examples/s3/src/stream.rs:112-113`). -/
def asU64 (x : Int) : Nat := (x % 2 ^ 64).toNat

/-- `examples/s3/src/stream.rs:103-117` `poll_seek`, always ready: the new position. Overflow of the sums of
`i64` is not modelled; the casts are. -/
def RangedStreamer.seek (s : RangedStreamer) : SeekFrom → Nat × RangedStreamer
  | .start n => (n, { s with pos := n })
  | .end_ k => (asU64 (s.length + k), { s with pos := asU64 (s.length + k) })
  | .current k => (asU64 (s.pos + k), { s with pos := asU64 (s.pos + k) })

/-- `reader.read(buf).await`: polls until it is ready; the first argument bounds the number of polls
(external: the executor polls as often as the future wakes it). -/
def RangedStreamer.awaitRead (ck : Bool) (get : RangeGet) (depth : Nat) :
    Nat → RangedStreamer → Nat → RangePoll × RangedStreamer
  | 0, s, _ => (.pending, s)
  | polls + 1, s, n =>
    match s.pollRead ck get depth n with
    | (.pending, s) => awaitRead ck get depth polls s n
    | x => x

end Pq
