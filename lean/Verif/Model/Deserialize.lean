import Verif.Model.HybridRle
import Verif.Model.DeltaBytes
import Verif.Model.Page
import Verif.Model.Types
/-
Model of `src/deserialize/*.rs`. Iterators are states with a step function
`σ → Res (Option α × σ)`; an `Err` item is the outcome `err`.
-/
namespace Pq.Deser

/-- Subtraction of `usize`: with overflow checks (`ck`) it panics below zero, without it wraps
modulo 2^64. -/
def usub (ck : Bool) (a b : Nat) : Res Nat :=
  if b ≤ a then .ok (a - b) else if ck then .panic else .ok (a + 2 ^ 64 - b)

/-! ### `hybrid_rle.rs` -/

/-- `src/deserialize/hybrid_rle.rs:7-13` `HybridEncoded`. -/
inductive Encoded where
  | bitmap (bytes : List Byte) (length : Nat)
  | repeated (isSet : Bool) (length : Nat)
  deriving DecidableEq, Repr

/-- `src/deserialize/hybrid_rle.rs:18-23` `len`. -/
def Encoded.len : Encoded → Nat
  | .bitmap _ l => l
  | .repeated _ l => l

/-- `src/deserialize/hybrid_rle.rs:39-46` `HybridRleIter` (over `hybrid_rle::Decoder`, the only
instance used in the crate). -/
structure RunIter where
  iter : Rle.Runs
  length : Nat
  consumed : Nat
  deriving DecidableEq, Repr

/-- `src/deserialize/hybrid_rle.rs:54-60` `HybridRleIter::new`. -/
def RunIter.new (iter : Rle.Runs) (length : Nat) : RunIter := { iter, length, consumed := 0 }

/-- `src/deserialize/hybrid_rle.rs:64-66` `len` (`consumed ≤ length` always). -/
def RunIter.len (it : RunIter) : Nat := it.length - it.consumed

/-- `src/deserialize/hybrid_rle.rs:90-115` `next`. -/
def RunIter.next (it : RunIter) : Res (Option Encoded × RunIter) :=
  if it.consumed = it.length then .ok (none, it)
  else
    match it.iter.next with
    | .err e => .err e
    | .panic => .panic
    | .ok (none, iter) => .ok (none, { it with iter })
    | .ok (some (.bitpacked pack), iter) =>
      let pack_size := pack.length * 8
      let additional := min pack_size it.len
      .ok (some (.bitmap pack additional), { it with iter, consumed := it.consumed + additional })
    | .ok (some (.rle value length), iter) =>
      match value with
      | [] => .panic   -- `value[0]`
      | v :: _ =>
        let is_set := v == 1#8
        let additional := min length it.len
        .ok (some (.repeated is_set additional), { it with iter, consumed := it.consumed + additional })

/-- `src/deserialize/hybrid_rle.rs:126-132` `HybridBooleanState`. -/
inductive BoolState where
  | bitmap (it : Bitmap.Iter)
  | repeated (value : Bool) (remaining : Nat)
  deriving DecidableEq, Repr

/-- `src/deserialize/hybrid_rle.rs:137-143` `HybridRleBooleanIter`, over any iterator of runs. -/
structure BoolIter (σ : Type) where
  iter : σ
  currentRun : Option BoolState

/-- `src/deserialize/hybrid_rle.rs:149-154` `new`. -/
def BoolIter.new {σ : Type} (iter : σ) : BoolIter σ := { iter, currentRun := none }

/-- `src/deserialize/hybrid_rle.rs:165-175`: the step when there is a current run. No other run
is fetched when it is exhausted. -/
def BoolState.next : BoolState → Option Bool × BoolState
  | .bitmap it => let (o, it) := it.next; (o, .bitmap it)
  | .repeated v 0 => (none, .repeated v 0)
  | .repeated v (n + 1) => (some v, .repeated v n)

/-- `src/deserialize/hybrid_rle.rs:177-184`. -/
def BoolState.ofRun : Encoded → Res BoolState
  | .bitmap bytes length => (Bitmap.Iter.new bytes 0 length).map' .bitmap
  | .repeated v n => .ok (.repeated v n)

/-- `src/deserialize/hybrid_rle.rs:164-195` `next`; the recursive call of line 188 goes into the
first branch. -/
def BoolIter.next {σ : Type} (run : σ → Res (Option Encoded × σ)) (it : BoolIter σ) :
    Res (Option Bool × BoolIter σ) :=
  match it.currentRun with
  | some st => let (o, st) := st.next; .ok (o, { it with currentRun := some st })
  | none =>
    match run it.iter with
    | .err e => .err e
    | .panic => .panic
    | .ok (none, iter) => .ok (none, { it with iter })
    | .ok (some r, iter) =>
      match BoolState.ofRun r with
      | .err e => .err e
      | .panic => .panic
      | .ok st => let (o, st) := st.next; .ok (o, { iter, currentRun := some st })

/-! ### `utils.rs` -/

/-- `src/deserialize/utils.rs:63-66` `OptionalValues` is a pair of iterators; `next` of line
79-84. -/
def optionalNext {σ τ α : Type} (validity : σ → Res (Option Bool × σ))
    (values : τ → Res (Option α × τ)) (s : σ × τ) : Res (Option (Option α) × (σ × τ)) :=
  match validity s.1 with
  | .err e => .err e
  | .panic => .panic
  | .ok (none, v) => .ok (none, (v, s.2))
  | .ok (some false, v) => .ok (some none, (v, s.2))
  | .ok (some true, v) =>
    match values s.2 with
    | .err e => .err e
    | .panic => .panic
    | .ok (o, t) => .ok (some o, (v, t))

/-- `Iterator::nth`: drop `n` items (stopping at the end), return the next. -/
def nth {σ α : Type} (next : σ → Res (Option α × σ)) : Nat → σ → Res (Option α × σ)
  | 0, s => next s
  | n + 1, s =>
    match next s with
    | .ok (some _, s) => nth next n s
    | .ok (none, s) => .ok (none, s)
    | .err e => .err e
    | .panic => .panic

/-- `src/deserialize/utils.rs:98-104` `SliceFilteredIter`. -/
structure SliceIter (σ : Type) where
  iter : σ
  selectedRows : List Interval
  currentRemaining : Nat
  current : Nat
  totalLength : Nat

/-- `src/deserialize/utils.rs:108-117` `new`. Sums of 2^64 or more, which the code wraps or panics on, are not
modelled. -/
def SliceIter.new {σ : Type} (iter : σ) (selectedRows : List Interval) : SliceIter σ :=
  { iter, selectedRows, currentRemaining := 0, current := 0
    totalLength := (selectedRows.map (·.length)).sum }

/-- `src/deserialize/utils.rs:124-142` `next`. The subtractions are made before `nth` here, since an `Err` item does
not keep the code from making them. `nth` drops the `Err` items it skips: of the iterators of levels of this crate
those are followed by the same `Err` for ever, so that the outcome is the error all the same. -/
def SliceIter.next {σ α : Type} (ck : Bool) (next : σ → Res (Option α × σ)) (it : SliceIter σ) :
    Res (Option α × SliceIter σ) :=
  if it.currentRemaining = 0 then
    match it.selectedRows with
    | [] => .ok (none, it)
    | interval :: rest => do
      let skip ← usub ck interval.start it.current
      let currentRemaining ← usub ck interval.length 1
      let totalLength ← usub ck it.totalLength 1
      let (item, iter) ← nth next skip it.iter
      .ok (item, { iter, selectedRows := rest, currentRemaining
                   current := interval.start + interval.length, totalLength })
  else do
    let totalLength ← usub ck it.totalLength 1
    let (item, iter) ← next it.iter
    .ok (item, { it with iter, currentRemaining := it.currentRemaining - 1, totalLength })

/-- `src/deserialize/utils.rs:13-27` `dict_indices_decoder`. -/
def dictIndicesDecoder (page : DataPage) : Res Rle.Dec := do
  let (_, _, indices_buffer) ← splitBuffer page
  match indices_buffer with
  | [] => .panic   -- `indices_buffer[0]`
  | bit_width :: indices_buffer =>
    if bit_width.toNat > 32 then .err .oos
    else Rle.Dec.tryNew indices_buffer bit_width.toNat page.numValues

/-- `src/deserialize/utils.rs:31-38` `DefLevelsDecoder`. -/
inductive DefLevels where
  | bitmap (it : RunIter)
  | levels (d : Rle.Dec) (maxLevel : Nat)

/-- `src/deserialize/utils.rs:41-57` `DefLevelsDecoder::try_new`. -/
def DefLevels.tryNew (page : DataPage) : Res DefLevels := do
  let (_, def_levels, _) ← splitBuffer page
  let max_def_level := page.descriptor.maxDefLevel
  if max_def_level = 1#16 then
    .ok (.bitmap (RunIter.new { values := def_levels, numBits := 1 } page.numValues))
  else do
    let iter ← Rle.Dec.tryNew def_levels (getBitWidth max_def_level) page.numValues
    .ok (.levels iter (max_def_level.signExtend 32).toNat)

/-! ### `filtered_rle.rs` -/

/-- `src/deserialize/filtered_rle.rs:15-28` `FilteredHybridEncoded`. -/
inductive Filtered where
  | bitmap (values : List Byte) (offset length : Nat)
  | repeated (isSet : Bool) (length : Nat)
  | skipped (set : Nat)
  deriving DecidableEq, Repr

/-- `src/deserialize/filtered_rle.rs:39-45` `len`. -/
def Filtered.len : Filtered → Nat
  | .bitmap _ _ l => l
  | .repeated _ l => l
  | .skipped _ => 0

/-- `src/deserialize/filtered_rle.rs:30-34` `is_set_count`. -/
def isSetCount (values : List Byte) (offset length : Nat) : Res Nat :=
  match Bitmap.Iter.new values offset length with
  | .err e => .err e
  | .panic => .panic
  | .ok it => it.collect.map' fun bits => (bits.filter id).length

/-- `src/deserialize/filtered_rle.rs:57-67` `FilteredHybridBitmapIter`. -/
structure FilteredIter (σ : Type) where
  iter : σ
  current : Option (Encoded × Nat)
  currentInterval : Option Interval
  selectedRows : List Interval
  currentItemsInRuns : Nat
  totalItems : Nat

/-- `src/deserialize/filtered_rle.rs:70-80` `new`. Sums of 2^64 or more, which the code wraps or panics on, are not
modelled. -/
def FilteredIter.new {σ : Type} (iter : σ) (selectedRows : List Interval) : FilteredIter σ :=
  { iter, current := none, currentInterval := none, selectedRows, currentItemsInRuns := 0
    totalItems := (selectedRows.map (·.length)).sum }

/-- `src/deserialize/filtered_rle.rs:82-88` `advance_current_interval`. -/
def FilteredIter.advance {σ : Type} (ck : Bool) (it : FilteredIter σ) (length : Nat) :
    Res (FilteredIter σ) :=
  match it.currentInterval with
  | none => .ok it
  | some interval => do
    let l ← usub ck interval.length length
    let totalItems ← usub ck it.totalItems length
    .ok { it with currentInterval := some { start := interval.start + length, length := l }
                  totalItems }

/-- `src/deserialize/filtered_rle.rs:150` and `216`: set bits among the `n` items after `offset`
of a run. -/
def Encoded.setCount (run : Encoded) (offset n : Nat) : Res Nat :=
  match run with
  | .repeated is_set _ => .ok (if is_set then n else 0)
  | .bitmap values _ => isSetCount values offset n

/-- `src/deserialize/filtered_rle.rs:199` and `265-269`: what is emitted. -/
def Encoded.emit (run : Encoded) (offset length : Nat) : Filtered :=
  match run with
  | .repeated is_set _ => .repeated is_set length
  | .bitmap values _ => .bitmap values offset length

/-- `src/deserialize/filtered_rle.rs:135-272`: the two arms of the match on the run; they differ
only in `setCount` and `emit` (and in line 234, where the bitmap arm counts `full_run_length`
items; that branch cannot be reached since `interval_start = 0` there). -/
def FilteredIter.step {σ : Type} (ck : Bool) (it : FilteredIter σ) (interval : Interval)
    (run : Encoded) (offset : Nat) : Res (Option Filtered × FilteredIter σ) := do
  let run_length ← usub ck run.len offset
  let interval_start ← usub ck interval.start it.currentItemsInRuns
  if interval_start > 0 then
    let max_skip := run_length
    let to_skip := min interval_start max_skip
    let set ← run.setCount offset to_skip
    .ok (some (.skipped set),
      { it with currentItemsInRuns := it.currentItemsInRuns + to_skip
                current := if to_skip = max_skip then none else some (run, offset + to_skip) })
  else
    let new_offset := offset + interval_start
    if interval_start > run_length then
      let set ← run.setCount offset run_length
      let it ← it.advance ck run_length
      .ok (some (.skipped set),
        { it with currentItemsInRuns := it.currentItemsInRuns + run_length, current := none })
    else if run_length > interval.length then
      let totalItems ← usub ck it.totalItems interval.length
      .ok (some (run.emit new_offset interval.length),
        { it with currentItemsInRuns := it.currentItemsInRuns + interval.length, totalItems
                  currentInterval := it.selectedRows.head?
                  selectedRows := it.selectedRows.tail
                  current := some (run, offset + interval.length) })
    else
      let rest ← usub ck run.len new_offset
      let length := min run_length rest
      let it ← { it with currentItemsInRuns := it.currentItemsInRuns + run_length }.advance ck length
      .ok (some (run.emit new_offset length), { it with current := none })

/-- `src/deserialize/filtered_rle.rs:116-128`: make sure that there is a current run. -/
def FilteredIter.withRun {σ : Type} (ck : Bool) (next : σ → Res (Option Encoded × σ))
    (it : FilteredIter σ) (interval : Interval) : Res (Option Filtered × FilteredIter σ) :=
  match it.current with
  | some (run, offset) => it.step ck interval run offset
  | none =>
    match next it.iter with
    | .err e => .err e
    | .panic => .panic
    | .ok (none, iter) => .ok (none, { it with iter })
    | .ok (some run, iter) =>
      { it with iter, current := some (run, 0) }.step ck interval run 0

/-- `src/deserialize/filtered_rle.rs:107-273` `next` (the recursive calls of lines 113 and 127
are unrolled). -/
def FilteredIter.next {σ : Type} (ck : Bool) (next : σ → Res (Option Encoded × σ))
    (it : FilteredIter σ) : Res (Option Filtered × FilteredIter σ) :=
  match it.currentInterval with
  | some interval => it.withRun ck next interval
  | none =>
    match it.selectedRows with
    | [] => .ok (none, it)
    | interval :: rest =>
      { it with currentInterval := some interval, selectedRows := rest }.withRun ck next interval

/-! ### page states -/

/-- `slice::chunks_exact(k)`, `k > 0`: full chunks only, the remainder is dropped. -/
def chunksExact {α : Type} (k : Nat) (xs : List α) : List (List α) :=
  (List.range (xs.length / k)).map fun i => (xs.drop (i * k)).take k

/-- `src/deserialize/native.rs:15-26` `native_cast`, for a native type of `b` bytes; the lazily
mapped iterator is the list of its items. -/
def nativeCast (b : Nat) (page : DataPage) : Res (List (Res (BitVec (8 * b)))) := do
  let (_, _, values) ← splitBuffer page
  if values.length % b ≠ 0 then .err .oos
  else .ok ((chunksExact b values).map (nativeDecode b))

/-- `src/deserialize/native.rs:15-26` `native_cast::<[u32; 3]>`. -/
def int96Cast (page : DataPage) : Res (List (Res Int96)) := do
  let (_, _, values) ← splitBuffer page
  if values.length % 12 ≠ 0 then .err .oos
  else .ok ((chunksExact 12 values).map int96Decode)

/-- `src/deserialize/fixed_len.rs:17-20` `FixexBinaryIter::new` and its items; `chunks_exact(0)`
panics. -/
def fixedIter (values : List Byte) (size : Nat) : Res (List (List Byte)) :=
  if size = 0 then .panic else .ok (chunksExact size values)

/-- `src/deserialize/native.rs:54-66` `NativePageState`, `fixed_len.rs:57-62`, `binary.rs:31-36`:
`ι` is the iterator of plain values, `π` the dictionary. -/
inductive PageState (ι π : Type) where
  | optional (validity : DefLevels) (values : ι)
  | required (values : ι)
  | requiredDictionary (indexes : Rle.Dec) (dict : π)
  | optionalDictionary (validity : DefLevels) (indexes : Rle.Dec) (dict : π)

/-- `page.descriptor.primitive_type.field_info.repetition == Repetition::Optional`
(`src/deserialize/native.rs:73-74`). -/
def isOptional (page : DataPage) : Bool :=
  page.descriptor.primitiveType.fieldInfo.repetition == .optional

/-- The two dictionary arms of the `try_new` functions (`src/deserialize/native.rs:77-85`,
`fixed_len.rs:81-89`, `binary.rs:43-51`). -/
def dictionaryState {ι π : Type} (page : DataPage) (dict : π) : Res (PageState ι π) :=
  if isOptional page then do
    let validity ← DefLevels.tryNew page
    let indexes ← dictIndicesDecoder page
    .ok (.optionalDictionary validity indexes dict)
  else do
    let indexes ← dictIndicesDecoder page
    .ok (.requiredDictionary indexes dict)

/-- `src/deserialize/native.rs:72-99` `NativePageState::try_new`. -/
def nativeState {π : Type} (b : Nat) (page : DataPage) (dict : Option π) :
    Res (PageState (List (Res (BitVec (8 * b)))) π) := do
  let encoding ← page.encoding
  match encoding, dict with
  | .plainDictionary, some dict => dictionaryState page dict
  | .rleDictionary, some dict => dictionaryState page dict
  | .plain, _ =>
    if isOptional page then do
      let validity ← DefLevels.tryNew page
      let values ← nativeCast b page
      .ok (.optional validity values)
    else (nativeCast b page).map' .required
  | _, _ => .err .featureNotSupported

/-- `src/deserialize/fixed_len.rs:65-109` `FixedLenBinaryPageState::try_new`. -/
def fixedState {π : Type} (page : DataPage) (dict : Option π) :
    Res (PageState (List (List Byte)) π) :=
  match page.descriptor.primitiveType.physicalType with
  | .fixedLenByteArray size => do
    let encoding ← page.encoding
    match encoding, dict with
    | .plainDictionary, some dict => dictionaryState page dict
    | .rleDictionary, some dict => dictionaryState page dict
    | .plain, _ =>
      if isOptional page then do
        let (_, _, values) ← splitBuffer page
        let validity ← DefLevels.tryNew page
        let values ← fixedIter values size
        .ok (.optional validity values)
      else do
        let (_, _, values) ← splitBuffer page
        (fixedIter values size).map' .required
    | _, _ => .err .featureNotSupported
  | _ => .err .invalidParameter

/-- `src/deserialize/binary.rs:38-71` `BinaryPageState::try_new`. -/
def binaryState {π : Type} (page : DataPage) (dict : Option π) :
    Res (PageState PlainBytes.BinaryIter π) := do
  let encoding ← page.encoding
  match encoding, dict with
  | .plainDictionary, some dict => dictionaryState page dict
  | .rleDictionary, some dict => dictionaryState page dict
  | .plain, _ =>
    if isOptional page then do
      let (_, _, values) ← splitBuffer page
      let validity ← DefLevels.tryNew page
      .ok (.optional validity { values, length := none })
    else do
      let (_, _, values) ← splitBuffer page
      .ok (.required { values, length := some page.numValues })
  | _, _ => .err .featureNotSupported

/-- `src/deserialize/boolean.rs:13-16` `BooleanPageState`. -/
inductive BooleanState where
  | optional (validity : DefLevels) (values : Bitmap.Iter)
  | required (values : List Byte) (numValues : Nat)

/-- `src/deserialize/boolean.rs:19-41` `BooleanPageState::try_new`. -/
def booleanState (page : DataPage) : Res BooleanState := do
  let encoding ← page.encoding
  match encoding with
  | .plain =>
    if isOptional page then do
      let validity ← DefLevels.tryNew page
      let (_, _, values) ← splitBuffer page
      let it ← Bitmap.Iter.new values 0 (values.length * 8)
      .ok (.optional validity it)
    else do
      let (_, _, values) ← splitBuffer page
      .ok (.required values page.numValues)
  | _ => .err .invalidParameter

end Pq.Deser
