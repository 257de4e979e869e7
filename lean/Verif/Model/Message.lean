import Verif.Model.Schema
/-
Model of `src/schema/io_message/from_message.rs`: the tokenizer and the recursive-descent parser of the
message syntax of schemas.
-/
namespace Pq.Message

/-- `str::to_uppercase` and `str::to_lowercase` of the standard library, used at
`src/schema/io_message/from_message.rs:269, 283, 330, 333, 335, 355, 414`. They follow the tables of
Unicode, which are not modelled: what is proved holds for every pair of functions that do the expected
on ASCII (`Spec.LawfulCase`). -/
structure CaseMaps where
  upper : String → String
  lower : String → String

/-- `src/schema/io_message/from_message.rs:53-71` `is_logical_type`. -/
def isLogicalType (s : String) : Bool :=
  ["INTEGER", "MAP", "LIST", "ENUM", "DECIMAL", "DATE", "TIME", "TIMESTAMP", "STRING", "JSON", "BSON",
    "UUID", "UNKNOWN", "INTERVAL"].contains s

/-- `src/schema/io_message/from_message.rs:73-96` `is_converted_type`. -/
def isConvertedType (s : String) : Bool :=
  ["UTF8", "ENUM", "DECIMAL", "DATE", "TIME_MILLIS", "TIME_MICROS", "TIMESTAMP_MILLIS",
    "TIMESTAMP_MICROS", "UINT_8", "UINT_16", "UINT_32", "UINT_64", "INT_8", "INT_16", "INT_32", "INT_64",
    "JSON", "BSON", "INTERVAL"].contains s

/-- `src/schema/io_message/from_message.rs:98-105` `converted_group_from_str`. -/
def convertedGroupFromStr (s : String) : Res GroupConvertedType :=
  if s = "MAP" then .ok .map
  else if s = "MAP_KEY_VALUE" then .ok .mapKeyValue
  else if s = "LIST" then .ok .list
  else .err .oos

/-- `src/schema/io_message/from_message.rs:107-131` `converted_primitive_from_str`. -/
def convertedPrimitiveFromStr (s : String) : Option PrimitiveConvertedType :=
  if s = "UTF8" then some .utf8
  else if s = "ENUM" then some .enum
  else if s = "DECIMAL" then some (.decimal 0 0)
  else if s = "DATE" then some .date
  else if s = "TIME_MILLIS" then some .timeMillis
  else if s = "TIME_MICROS" then some .timeMicros
  else if s = "TIMESTAMP_MILLIS" then some .timestampMillis
  else if s = "TIMESTAMP_MICROS" then some .timestampMicros
  else if s = "UINT_8" then some .uint8
  else if s = "UINT_16" then some .uint16
  else if s = "UINT_32" then some .uint32
  else if s = "UINT_64" then some .uint64
  else if s = "INT_8" then some .int8
  else if s = "INT_16" then some .int16
  else if s = "INT_32" then some .int32
  else if s = "INT_64" then some .int64
  else if s = "JSON" then some .json
  else if s = "BSON" then some .bson
  else if s = "INTERVAL" then some .interval
  else none

/-- `src/schema/io_message/from_message.rs:133-140` `repetition_from_str`. -/
def repetitionFromStr (s : String) : Res Repetition :=
  if s = "REQUIRED" then .ok .required
  else if s = "OPTIONAL" then .ok .optional
  else if s = "REPEATED" then .ok .repeated
  else .err .oos

/-- `src/schema/io_message/from_message.rs:142-154` `type_from_str`; the result is the thrift code of the
physical type. -/
def typeFromStr (s : String) : Res I32 :=
  if s = "BOOLEAN" then .ok 0#32
  else if s = "INT32" then .ok 1#32
  else if s = "INT64" then .ok 2#32
  else if s = "INT96" then .ok 3#32
  else if s = "FLOAT" then .ok 4#32
  else if s = "DOUBLE" then .ok 5#32
  else if s = "BYTE_ARRAY" ∨ s = "BINARY" then .ok 6#32
  else if s = "FIXED_LEN_BYTE_ARRAY" then .ok 7#32
  else .err .oos

/-! ### the tokenizer -/

/-- `src/schema/io_message/from_message.rs:191-193` `is_schema_delim`. -/
def isSchemaDelim (c : Char) : Bool :=
  c = ';' || c = '{' || c = '}' || c = '(' || c = ')' || c = '=' || c = ','

/-- `char::is_whitespace`, by which `split_whitespace` (`src/schema/io_message/from_message.rs:181`)
separates: the characters with Unicode's property `White_Space`. -/
def isWhitespace (c : Char) : Bool :=
  (9 ≤ c.toNat && c.toNat ≤ 13) || c.toNat = 0x20 || c.toNat = 0x85 || c.toNat = 0xA0 ||
  c.toNat = 0x1680 || (0x2000 ≤ c.toNat && c.toNat ≤ 0x200A) || c.toNat = 0x2028 ||
  c.toNat = 0x2029 || c.toNat = 0x202F || c.toNat = 0x205F || c.toNat = 0x3000

/-- `str::split_whitespace` (`src/schema/io_message/from_message.rs:181`): the maximal runs of characters
that are not white space; `piece` is the run being read. -/
def splitWhitespace (piece : List Char) : List Char → List (List Char)
  | [] => if piece.isEmpty then [] else [piece]
  | c :: cs =>
    if isWhitespace c then
      if piece.isEmpty then splitWhitespace [] cs else piece :: splitWhitespace [] cs
    else splitWhitespace (piece ++ [c]) cs

/-- `src/schema/io_message/from_message.rs:198-213` `split_token`. The search for the next delimiter is by
character; `head` is the part of `tail` already passed. (Delimiters are one byte long, so the slices of
lines 206 and 207 are at character boundaries.) -/
def splitToken (head : List Char) : List Char → List String
  | [] => if head.isEmpty then [] else [String.ofList head]
  | c :: cs =>
    if isSchemaDelim c then
      (if head.isEmpty then [] else [String.ofList head]) ++ String.ofList [c] :: splitToken [] cs
    else splitToken (head ++ [c]) cs

/-- `src/schema/io_message/from_message.rs:170-175` `Tokenizer`: the vector of tokens and the index into
it, represented as the tokens before the index (the last one first) and those from it on. -/
structure Tokenizer where
  before : List String
  rest : List String
  deriving DecidableEq, Repr

/-- `src/schema/io_message/from_message.rs:179-188` `Tokenizer::from_str`. -/
def Tokenizer.fromStr (s : String) : Tokenizer :=
  { before := [], rest := (splitWhitespace [] s.toList).flatMap (splitToken []) }

/-- What a method of the parser does: it reads from the tokenizer and returns a value or an error. After an
error the tokenizer is not looked at any more. -/
abbrev Parse (α : Type) := Tokenizer → Res (α × Tokenizer)

/-- `src/schema/io_message/from_message.rs:224-231` `Tokenizer::next`. -/
def next (t : Tokenizer) : Option String × Tokenizer :=
  match t.rest with
  | x :: r => (some x, { before := x :: t.before, rest := r })
  | [] => (none, t)

/-- `src/schema/io_message/from_message.rs:216-218` `backtrack`. At index 0 the subtraction overflows;
modelled as a panic. -/
def backtrack (t : Tokenizer) : Res Tokenizer :=
  match t.before with
  | x :: b => .ok { before := b, rest := x :: t.rest }
  | [] => .panic

/-- `src/schema/io_message/from_message.rs:242-254` `assert_token` applied to `self.tokenizer.next()`. -/
def assertToken (expected : String) : Parse Unit := fun t =>
  match next t with
  | (some value, t') => if value = expected then .ok ((), t') else .err .oos
  | (none, _) => .err .oos

/-- `if let Some(expected) = self.tokenizer.next() { yes } else { self.tokenizer.backtrack(); no }`, the
pattern of `src/schema/io_message/from_message.rs:350-361, 364-369, 408-446, 449-454` and others. -/
def optionally {α : Type} (expected : String) (yes : Parse α) (no : Tokenizer → Res (α × Tokenizer)) :
    Parse α := fun t =>
  match next t with
  | (some value, t') => if value = expected then yes t' else backtrack t' >>= no
  | (none, t') => backtrack t' >>= no

/-- `self.tokenizer.next().ok_or_else(…)?`, `src/schema/io_message/from_message.rs:297-300` and others. -/
def nextOrErr : Parse String := fun t =>
  match next t with
  | (some value, t') => .ok (value, t')
  | (none, _) => .err .oos

/-! ### parsing of tokens -/

/-- One decimal digit. -/
def digitValue (c : Char) : Option Nat :=
  if 48 ≤ c.toNat ∧ c.toNat ≤ 57 then some (c.toNat - 48) else none

/-- The value of a run of digits after those already read; `None` at a character that is no digit. -/
def digitsValue (acc : Nat) : List Char → Option Nat
  | [] => some acc
  | c :: cs =>
    match digitValue c with
    | some d => digitsValue (10 * acc + d) cs
    | none => none

/-- `str::parse::<i32>` of the standard library, used at `src/schema/io_message/from_message.rs:260, 365,
450`: an optional sign, at least one digit, the value within range. -/
def parseI32 (s : String) : Option I32 :=
  match s.toList with
  | [] => none
  | c :: cs =>
    if c = '-' then
      if cs.isEmpty then none
      else (digitsValue 0 cs).bind fun n => if n ≤ 2 ^ 31 then some (BitVec.ofInt 32 (-n)) else none
    else
      let ds := if c = '+' then cs else c :: cs
      if ds.isEmpty then none
      else (digitsValue 0 ds).bind fun n => if n < 2 ^ 31 then some (BitVec.ofNat 32 n) else none

/-- `src/schema/io_message/from_message.rs:257-261` `parse_i32` applied to the next token. -/
def nextI32 : Parse I32 := fun t =>
  match next t with
  | (some v, t') => (Res.ofOption .oos (parseI32 v)).map' fun n => (n, t')
  | (none, _) => .err .oos

/-- `src/schema/io_message/from_message.rs:265-273` `parse_bool` applied to the next token. -/
def nextBool (cm : CaseMaps) : Parse Bool := fun t =>
  match next t with
  | (some v, t') =>
    if cm.lower v = "true" then .ok (true, t')
    else if cm.lower v = "false" then .ok (false, t')
    else .err .oos
  | (none, _) => .err .oos

/-- `src/schema/io_message/from_message.rs:276-289` `parse_timeunit` applied to the next token. -/
def nextTimeUnit (cm : CaseMaps) : Parse TimeUnit := fun t =>
  match next t with
  | (some v, t') =>
    if cm.upper v = "MILLIS" then .ok (.milliseconds, t')
    else if cm.upper v = "MICROS" then .ok (.microseconds, t')
    else if cm.upper v = "NANOS" then .ok (.nanoseconds, t')
    else .err .oos
  | (none, _) => .err .oos

/-- Sequencing of parser methods (`?`). -/
def andThen {α β : Type} (p : Parse α) (f : α → Parse β) : Parse β := fun t =>
  p t >>= fun (a, t') => f a t'

/-- A parser that reads nothing. -/
def give {α : Type} (r : Res α) : Parse α := fun t => r.map' fun a => (a, t)

/-- `src/schema/io_message/from_message.rs:467-494` `parse_converted_decimal`. -/
def parseConvertedDecimal : Parse PrimitiveConvertedType :=
  andThen (assertToken "(") fun _ =>
  andThen nextI32 fun precision =>
  andThen (optionally "," nextI32 (give (.ok 0#32))) fun scale =>
  andThen (assertToken ")") fun _ =>
  give do
    let p ← toUsize precision
    let s ← toUsize scale
    .ok (.decimal p s)

/-- `src/schema/io_message/from_message.rs:500-524`: the parameters of DECIMAL. -/
def parseDecimal : Parse PrimitiveLogicalType :=
  andThen
    (optionally "("
      (andThen nextI32 fun precision =>
        andThen (optionally "," nextI32 (give (.ok 0#32))) fun scale =>
        andThen (assertToken ")") fun _ => give (.ok (precision, scale)))
      (give (.ok (0#32, 0#32))))
    fun ps => give do
      let p ← toUsize ps.1
      let s ← toUsize ps.2
      .ok (.decimal p s)

/-- `src/schema/io_message/from_message.rs:525-552` and `553-581`: the parameters of TIME and TIMESTAMP. -/
def parseUnitAndZone (cm : CaseMaps) : Parse (TimeUnit × Bool) :=
  optionally "("
    (andThen (nextTimeUnit cm) fun unit =>
      andThen (optionally "," (nextBool cm) (give (.ok false))) fun utc =>
      andThen (assertToken ")") fun _ => give (.ok (unit, utc)))
    (give (.ok (.milliseconds, false)))

/-- `src/schema/io_message/from_message.rs:582-608`: the parameters of INTEGER. -/
def parseInteger (cm : CaseMaps) : Parse PrimitiveLogicalType :=
  andThen
    (optionally "("
      (andThen nextI32 fun width =>
        andThen (optionally "," (nextBool cm) (give (.err .oos))) fun signed =>
        andThen (assertToken ")") fun _ => give (.ok (width, signed)))
      (give (.err .oos)))
    fun ws => give (.ok (.integer (IntegerType.ofThrift ws.1.toInt ws.2)))

/-- `src/schema/io_message/from_message.rs:496-617` `parse_logical_type`. `MAP` and `LIST` are logical types
by `is_logical_type` and reach the `unreachable!()` of line 615. -/
def parseLogicalType (cm : CaseMaps) (tpe : String) : Parse PrimitiveLogicalType :=
  if tpe = "ENUM" then give (.ok .enum)
  else if tpe = "DATE" then give (.ok .date)
  else if tpe = "DECIMAL" then parseDecimal
  else if tpe = "TIME" then andThen (parseUnitAndZone cm) fun u => give (.ok (.time u.1 u.2))
  else if tpe = "TIMESTAMP" then andThen (parseUnitAndZone cm) fun u => give (.ok (.timestamp u.1 u.2))
  else if tpe = "INTEGER" then parseInteger cm
  else if tpe = "STRING" then give (.ok .string)
  else if tpe = "JSON" then give (.ok .json)
  else if tpe = "BSON" then give (.ok .bson)
  else if tpe = "UUID" then give (.ok .uuid)
  else if tpe = "UNKNOWN" then give (.ok .unknown)
  else if tpe = "INTERVAL" then give (.err .oos)
  else give .panic

/-- `src/schema/io_message/from_message.rs:409-442`: the annotation of a primitive after its opening
parenthesis. -/
def parseAnnotation (cm : CaseMaps) : Parse (Option PrimitiveConvertedType × Option PrimitiveLogicalType) :=
  andThen nextOrErr fun v =>
  andThen
    (if isLogicalType (cm.upper v) then
      andThen (parseLogicalType cm (cm.upper v)) fun l => give (.ok (none, some l))
    else if isConvertedType (cm.upper v) then
      match convertedPrimitiveFromStr (cm.upper v) with
      | some (.decimal _ _) => andThen parseConvertedDecimal fun c => give (.ok (some c, none))
      | other => give (.ok (other, none))
    else give (.err .oos))
  fun r => andThen (assertToken ")") fun _ => give (.ok r)

/-- `src/schema/io_message/from_message.rs:364-369` and `449-454`: the optional id. A token after `=` that
is no number, or no token at all, is the same as no id. -/
def parseId : Parse (Option I32) :=
  optionally "="
    (fun t => match next t with
      | (some v, t') => .ok (parseI32 v, t')
      | (none, t') => .ok (none, t'))
    (give (.ok none))

/-- `src/schema/io_message/from_message.rs:388-399`: the length of a fixed-length byte array. -/
def parseLength (type : I32) : Parse (Option I32) :=
  if type = 7#32 then
    andThen (assertToken "(") fun _ =>
    andThen nextI32 fun length =>
    andThen (assertToken ")") fun _ => give (.ok (some length))
  else give (.ok none)

/-- `src/schema/io_message/from_message.rs:382-465` `add_primitive_type`. -/
def addPrimitiveType (cm : CaseMaps) (repetition : Repetition) (type : I32) : Parse ParquetType :=
  andThen (parseLength type) fun length =>
  andThen nextOrErr fun name =>
  andThen (optionally "(" (parseAnnotation cm) (give (.ok (none, none)))) fun annotation =>
  andThen parseId fun id =>
  andThen (assertToken ";") fun _ =>
  give do
    let physicalType ← PhysicalType.ofThrift type length
    ParquetType.tryFromPrimitive name physicalType repetition annotation.1 annotation.2 id

/-- `src/schema/io_message/from_message.rs:350-361`: the converted type of a group. -/
def parseGroupAnnotation (cm : CaseMaps) : Parse (Option GroupConvertedType) :=
  optionally "("
    (andThen nextOrErr fun v =>
      andThen (give (convertedGroupFromStr (cm.upper v))) fun c =>
      andThen (assertToken ")") fun _ => give (.ok (some c)))
    (give (.ok none))

/-! ### the recursive part -/

/-- What a recursive method does with at most so many steps: `none` when they do not suffice. -/
abbrev Steps (α : Type) := Tokenizer → Option (Res (α × Tokenizer))

/-- A step that is known to finish, followed by others. -/
def Steps.after {α β : Type} (p : Parse α) (f : α → Steps β) : Steps β := fun t =>
  match p t with
  | .ok (a, t') => f a t'
  | .err e => some (.err e)
  | .panic => some .panic

mutual
/-- `src/schema/io_message/from_message.rs:310-322` `parse_child_types`, with a bound on the number of
steps (the source has none, neither on the iterations nor on the depth of recursion). -/
def parseChildTypes (cm : CaseMaps) : Nat → Steps (List ParquetType)
  | 0, _ => none
  | fuel + 1, t => Steps.after (assertToken "{") (fun _ => childLoop cm fuel) t

/-- `src/schema/io_message/from_message.rs:313-320`: the loop over the children. -/
def childLoop (cm : CaseMaps) : Nat → Steps (List ParquetType)
  | 0, _ => none
  | fuel + 1, t =>
    match next t with
    | (none, t') => some (.ok ([], t'))
    | (some value, t') =>
      if value = "}" then some (.ok ([], t'))
      else
        match backtrack t' with
        | .err e => some (.err e)
        | .panic => some .panic
        | .ok t'' =>
          match addType cm fuel t'' with
          | none => none
          | some (.err e) => some (.err e)
          | some .panic => some .panic
          | some (.ok (f, t3)) =>
            match childLoop cm fuel t3 with
            | some (.ok (fs, t4)) => some (.ok (f :: fs, t4))
            | other => other

/-- `src/schema/io_message/from_message.rs:324-340` `add_type`. -/
def addType (cm : CaseMaps) : Nat → Steps ParquetType
  | 0, _ => none
  | fuel + 1, t =>
    Steps.after (andThen nextOrErr fun v => give (repetitionFromStr (cm.upper v)))
      (fun repetition => Steps.after nextOrErr fun type =>
        if cm.upper type = "GROUP" then addGroupType cm fuel repetition
        else Steps.after (andThen (give (typeFromStr (cm.upper type))) (addPrimitiveType cm repetition))
          fun p t => some (.ok (p, t))) t

/-- `src/schema/io_message/from_message.rs:342-380` `add_group_type`. -/
def addGroupType (cm : CaseMaps) : Nat → Repetition → Steps ParquetType
  | 0, _, _ => none
  | fuel + 1, repetition, t =>
    Steps.after nextOrErr (fun name =>
      Steps.after (parseGroupAnnotation cm) fun convertedType =>
      Steps.after parseId fun id t' =>
        match parseChildTypes cm fuel t' with
        | none => none
        | some (.err e) => some (.err e)
        | some .panic => some .panic
        | some (.ok (fields, t'')) =>
          some (.ok (.group { name, repetition, id } none convertedType fields, t''))) t
end

/-- `src/schema/io_message/from_message.rs:293-306` `parse_message_type`. -/
def parseMessageType (cm : CaseMaps) (fuel : Nat) (t : Tokenizer) : Option (Res ParquetType) :=
  match next t with
  | (some value, t') =>
    if value = "message" then
      match Steps.after nextOrErr (fun name t'' =>
          match parseChildTypes cm fuel t'' with
          | some (.ok (fields, t3)) => some (.ok (ParquetType.newRoot name fields, t3))
          | some (.err e) => some (.err e)
          | some .panic => some .panic
          | none => none) t' with
      | some r => some (r.map' (·.1))
      | none => none
    else some (.err .oos)
  | (none, _) => some (.err .oos)

/-- `from_message` with a bound on the number of steps. -/
def fromMessageSteps (cm : CaseMaps) (fuel : Nat) (s : String) : Option (Res ParquetType) :=
  parseMessageType cm fuel (Tokenizer.fromStr s)

/-- `src/schema/io_message/from_message.rs:159-164` `from_message`. The number of steps always suffices
(`C52_terminates`), so the last case does not occur. -/
def fromMessage (cm : CaseMaps) (s : String) : Res ParquetType :=
  match fromMessageSteps cm (2 * (Tokenizer.fromStr s).rest.length + 2) s with
  | some r => r
  | none => .panic

end Pq.Message
