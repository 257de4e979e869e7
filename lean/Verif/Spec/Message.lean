import Verif.Model.Message
import Verif.Spec.Schema
import Mathlib.Data.Nat.Digits.Defs
/-
Specification of the message syntax of schemas: how a text is divided into tokens, which sequences of
tokens denote which schema, and a text for every schema that can be written in the syntax.
-/
namespace Pq.Spec
open Pq.Message

/-! ### texts and tokens -/

/-- The ranges of code points that are white space in Unicode. -/
def whitespaceRanges : List (Nat × Nat) :=
  [(0x9, 0xD), (0x20, 0x20), (0x85, 0x85), (0xA0, 0xA0), (0x1680, 0x1680), (0x2000, 0x200A),
    (0x2028, 0x2029), (0x202F, 0x202F), (0x205F, 0x205F), (0x3000, 0x3000)]

/-- White space. -/
def IsSpace (c : Char) : Prop := ∃ r ∈ whitespaceRanges, r.1 ≤ c.toNat ∧ c.toNat ≤ r.2

/-- The characters that are tokens by themselves. -/
def IsDelimiter (c : Char) : Prop := c ∈ [';', '{', '}', '(', ')', '=', ',']

/-- The characters of which words consist. -/
def IsWordChar (c : Char) : Prop := ¬ IsSpace c ∧ ¬ IsDelimiter c

/-- The tokens of a text: delimiters, and words as long as possible; white space separates. -/
inductive Tokens : List Char → List String → Prop
  | nil : Tokens [] []
  | space {c cs ts} : IsSpace c → Tokens cs ts → Tokens (c :: cs) ts
  | delimiter {c cs ts} : IsDelimiter c → Tokens cs ts → Tokens (c :: cs) (String.ofList [c] :: ts)
  | word {w cs ts} : w ≠ [] → (∀ c ∈ w, IsWordChar c) → (∀ c ∈ cs.head?, ¬ IsWordChar c) →
      Tokens cs ts → Tokens (w ++ cs) (String.ofList w :: ts)

/-! ### words -/

/-- The case conversions act on ASCII text letter by letter. -/
structure LawfulCase (cm : CaseMaps) : Prop where
  upper : ∀ s : String, (∀ c ∈ s.toList, c.toNat < 128) → cm.upper s = s.map Char.toUpper
  lower : ∀ s : String, (∀ c ∈ s.toList, c.toNat < 128) → cm.lower s = s.map Char.toLower

/-- A decimal number: a sign or none, and digits. -/
inductive Numeral : String → Int → Prop
  | plain {ds : List Nat} : ds ≠ [] → (∀ d ∈ ds, d < 10) →
      Numeral (String.ofList (ds.map fun d => Char.ofNat (48 + d))) (Nat.ofDigits 10 ds.reverse : Nat)
  | plus {ds : List Nat} : ds ≠ [] → (∀ d ∈ ds, d < 10) →
      Numeral (String.ofList ('+' :: ds.map fun d => Char.ofNat (48 + d))) (Nat.ofDigits 10 ds.reverse : Nat)
  | minus {ds : List Nat} : ds ≠ [] → (∀ d ∈ ds, d < 10) →
      Numeral (String.ofList ('-' :: ds.map fun d => Char.ofNat (48 + d))) (-((Nat.ofDigits 10 ds.reverse : Nat) : Int))

/-- A number that fits 32 bits, as the word `n`. -/
def Number (s : String) (n : I32) : Prop := Numeral s n.toInt

/-- A natural number that fits 31 bits. -/
def Natural (s : String) (n : Nat) : Prop := n < 2 ^ 31 ∧ Numeral s n

/-- The words for repetitions (in any case). -/
def repetitionWords : List (String × Repetition) :=
  [("REQUIRED", .required), ("OPTIONAL", .optional), ("REPEATED", .repeated)]

/-- The words for physical types without a parameter. -/
def physicalWords : List (String × PhysicalType) :=
  [("BOOLEAN", .boolean), ("INT32", .int32), ("INT64", .int64), ("INT96", .int96), ("FLOAT", .float),
    ("DOUBLE", .double), ("BYTE_ARRAY", .byteArray), ("BINARY", .byteArray)]

/-- The words for annotations of groups. -/
def groupWords : List (String × GroupConvertedType) :=
  [("MAP", .map), ("MAP_KEY_VALUE", .mapKeyValue), ("LIST", .list)]

/-- The words for annotations of primitives that are logical types, with the meaning they have without
parameters. -/
def logicalWords : List (String × PrimitiveLogicalType) :=
  [("ENUM", .enum), ("DATE", .date), ("STRING", .string), ("JSON", .json), ("BSON", .bson),
    ("UUID", .uuid), ("UNKNOWN", .unknown), ("DECIMAL", .decimal 0 0), ("TIME", .time .milliseconds false),
    ("TIMESTAMP", .timestamp .milliseconds false)]

/-- The words for annotations of primitives that are converted types. -/
def convertedWords : List (String × PrimitiveConvertedType) :=
  [("UTF8", .utf8), ("TIME_MILLIS", .timeMillis), ("TIME_MICROS", .timeMicros),
    ("TIMESTAMP_MILLIS", .timestampMillis), ("TIMESTAMP_MICROS", .timestampMicros), ("UINT_8", .uint8),
    ("UINT_16", .uint16), ("UINT_32", .uint32), ("UINT_64", .uint64), ("INT_8", .int8), ("INT_16", .int16),
    ("INT_32", .int32), ("INT_64", .int64)]

/-- The words for units of time. -/
def unitWords : List (String × TimeUnit) :=
  [("MILLIS", .milliseconds), ("MICROS", .microseconds), ("NANOS", .nanoseconds)]

/-- The words for truth values (in any case). -/
def boolWords : List (String × Bool) := [("true", true), ("false", false)]

/-- The integer types by width and sign. -/
def integerTable : List (Int × Bool × IntegerType) :=
  [(8, true, .int8), (16, true, .int16), (32, true, .int32), (64, true, .int64),
    (8, false, .uint8), (16, false, .uint16), (32, false, .uint32), (64, false, .uint64)]

/-- The integer type of a width and sign. Widths that do not exist are taken as a signed 32-bit integer:
this is not in the syntax but the library accepts it. -/
def IntegerOf (width : Int) (signed : Bool) (t : IntegerType) : Prop :=
  (width, signed, t) ∈ integerTable ∨ ((∀ t, (width, signed, t) ∉ integerTable) ∧ t = .int32)

/-! ### sequences of tokens -/

/-- The optional parameter after a comma. -/
inductive Second {α : Type} (value : String → α → Prop) (default : α) : List String → α → Prop
  | absent : Second value default [] default
  | present {s a} : value s a → Second value default [",", s] a

/-- The tokens of an annotation of a primitive, without the parentheses around it. -/
inductive Annotation (cm : CaseMaps) :
    List String → Option PrimitiveConvertedType → Option PrimitiveLogicalType → Prop
  | logical {s l} : (cm.upper s, l) ∈ logicalWords → Annotation cm [s] none (some l)
  | converted {s c} : (cm.upper s, c) ∈ convertedWords → Annotation cm [s] (some c) none
  | decimal {s p precision more scale} : cm.upper s = "DECIMAL" → Natural p precision →
      Second Natural 0 more scale →
      Annotation cm ([s, "(", p] ++ more ++ [")"]) none (some (.decimal precision scale))
  | time {s u unit more utc} : cm.upper s = "TIME" → (cm.upper u, unit) ∈ unitWords →
      Second (fun b v => (cm.lower b, v) ∈ boolWords) false more utc →
      Annotation cm ([s, "(", u] ++ more ++ [")"]) none (some (.time unit utc))
  | timestamp {s u unit more utc} : cm.upper s = "TIMESTAMP" → (cm.upper u, unit) ∈ unitWords →
      Second (fun b v => (cm.lower b, v) ∈ boolWords) false more utc →
      Annotation cm ([s, "(", u] ++ more ++ [")"]) none (some (.timestamp unit utc))
  | integer {s w width b signed t} : cm.upper s = "INTEGER" → Number w width →
      (cm.lower b, signed) ∈ boolWords → IntegerOf width.toInt signed t →
      Annotation cm [s, "(", w, ",", b, ")"] none (some (.integer t))

/-- The annotation in parentheses, or none. -/
inductive Annotated (cm : CaseMaps) :
    List String → Option PrimitiveConvertedType → Option PrimitiveLogicalType → Prop
  | absent : Annotated cm [] none none
  | present {ts c l} : Annotation cm ts c l → Annotated cm (["("] ++ ts ++ [")"]) c l

/-- The annotation of a group in parentheses, or none. -/
inductive GroupAnnotated (cm : CaseMaps) : List String → Option GroupConvertedType → Prop
  | absent : GroupAnnotated cm [] none
  | present {s c} : (cm.upper s, c) ∈ groupWords → GroupAnnotated cm ["(", s, ")"] (some c)

/-- The id of a field, or none. That something else than a number stands for no id is not in the syntax
but accepted by the library. -/
inductive Ident : List String → Option I32 → Prop
  | absent : Ident [] none
  | present {s n} : Number s n → Ident ["=", s] (some n)
  | ignored {s} : (∀ n, ¬ Number s n) → Ident ["=", s] none

/-- The tokens of a physical type. -/
inductive Physical (cm : CaseMaps) : List String → PhysicalType → Prop
  | plain {s t} : (cm.upper s, t) ∈ physicalWords → Physical cm [s] t
  | fixed {s l n} : cm.upper s = "FIXED_LEN_BYTE_ARRAY" → Natural l n →
      Physical cm [s, "(", l, ")"] (.fixedLenByteArray n)

mutual
/-- The tokens of one field. -/
inductive FieldTokens (cm : CaseMaps) : List String → ParquetType → Prop
  | primitive {r ty name an idt repetition physicalType c l id} :
      (cm.upper r, repetition) ∈ repetitionWords → Physical cm ty physicalType →
      Annotated cm an c l → Ident idt id →
      ParquetType.tryFromPrimitive name physicalType repetition c l id =
        .ok (.primitive ⟨⟨name, repetition, id⟩, l, c, physicalType⟩) →
      FieldTokens cm ([r] ++ ty ++ [name] ++ an ++ idt ++ [";"])
        (.primitive ⟨⟨name, repetition, id⟩, l, c, physicalType⟩)
  | group {r g name an idt body repetition c id fields} :
      (cm.upper r, repetition) ∈ repetitionWords → cm.upper g = "GROUP" →
      GroupAnnotated cm an c → Ident idt id → FieldsTokens cm body fields →
      FieldTokens cm ([r, g, name] ++ an ++ idt ++ ["{"] ++ body ++ ["}"])
        (.group ⟨name, repetition, id⟩ none c fields)

/-- The tokens of several fields. -/
inductive FieldsTokens (cm : CaseMaps) : List String → List ParquetType → Prop
  | nil : FieldsTokens cm [] []
  | cons {ts f rest fs} : FieldTokens cm ts f → FieldsTokens cm rest fs → FieldsTokens cm (ts ++ rest) (f :: fs)
end

/-- The tokens of a message. -/
inductive MessageTokens (cm : CaseMaps) : List String → ParquetType → Prop
  | mk {name body fields} : FieldsTokens cm body fields →
      MessageTokens cm (["message", name, "{"] ++ body ++ ["}"]) (ParquetType.newRoot name fields)

/-- What may be missing at the end of a text for the library to accept it all the same: closing braces and,
before them, a token `;` or `{` that repeats the last one of the text. -/
def Missing (ts missing : List String) : Prop :=
  ∃ n, missing = List.replicate n "}" ∨
    ∃ x, (x = ";" ∨ x = "{") ∧ ts.getLast? = some x ∧ missing = x :: List.replicate n "}"

/-- A primitive field is annotated with `MAP` or `LIST`. -/
def MisplacedAnnotation (cm : CaseMaps) (ts : List String) : Prop :=
  ∃ before ty name word after, ts = before ++ ty ++ [name, "(", word] ++ after ∧
    ((∃ s t, ty = [s] ∧ (cm.upper s, t) ∈ physicalWords) ∨
      ∃ s l n, ty = [s, "(", l, ")"] ∧ cm.upper s = "FIXED_LEN_BYTE_ARRAY" ∧ Number l n) ∧
    (cm.upper word = "MAP" ∨ cm.upper word = "LIST")

/-! ### a text for every schema -/

/-- The digits of a number. -/
def natText (n : Nat) : String :=
  String.ofList ((if n = 0 then [0] else (Nat.digits 10 n).reverse).map fun d => Char.ofNat (48 + d))

/-- A number with its sign. -/
def intText (n : Int) : String :=
  if n < 0 then String.ofList ('-' :: (natText n.natAbs).toList) else natText n.natAbs

/-- The word of a table for a value. -/
def wordOf {α : Type} [DecidableEq α] (table : List (String × α)) (a : α) : Option String :=
  (table.find? fun e => e.2 = a).map (·.1)

/-- The tokens of a repetition. -/
def repetitionText : Repetition → String
  | .required => "REQUIRED" | .optional => "OPTIONAL" | .repeated => "REPEATED"

/-- The tokens of a physical type. -/
def physicalText : PhysicalType → List String
  | .boolean => ["BOOLEAN"] | .int32 => ["INT32"] | .int64 => ["INT64"] | .int96 => ["INT96"]
  | .float => ["FLOAT"] | .double => ["DOUBLE"] | .byteArray => ["BYTE_ARRAY"]
  | .fixedLenByteArray n => ["FIXED_LEN_BYTE_ARRAY", "(", natText n, ")"]

/-- The word of a unit of time. -/
def unitText : TimeUnit → String
  | .milliseconds => "MILLIS" | .microseconds => "MICROS" | .nanoseconds => "NANOS"

/-- Width and sign of an integer type. -/
def integerParams : IntegerType → Nat × Bool
  | .int8 => (8, true) | .int16 => (16, true) | .int32 => (32, true) | .int64 => (64, true)
  | .uint8 => (8, false) | .uint16 => (16, false) | .uint32 => (32, false) | .uint64 => (64, false)

/-- The word for a truth value. -/
def boolText (b : Bool) : String := if b then "true" else "false"

/-- The tokens of a logical type. -/
def logicalText : PrimitiveLogicalType → List String
  | .string => ["STRING"] | .enum => ["ENUM"] | .date => ["DATE"] | .unknown => ["UNKNOWN"]
  | .json => ["JSON"] | .bson => ["BSON"] | .uuid => ["UUID"]
  | .decimal p s => ["DECIMAL", "(", natText p, ",", natText s, ")"]
  | .time u utc => ["TIME", "(", unitText u, ",", boolText utc, ")"]
  | .timestamp u utc => ["TIMESTAMP", "(", unitText u, ",", boolText utc, ")"]
  | .integer t => ["INTEGER", "(", natText (integerParams t).1, ",", boolText (integerParams t).2, ")"]

/-- The annotation of a primitive; only one of a converted and a logical type can be written, and of the
converted types only those whose word is not that of a logical type. -/
def annotationText : Option PrimitiveConvertedType → Option PrimitiveLogicalType → Option (List String)
  | none, none => some []
  | none, some l => some (["("] ++ logicalText l ++ [")"])
  | some c, none => (wordOf convertedWords c).map fun w => ["(", w, ")"]
  | some _, some _ => none

/-- The annotation of a group. -/
def groupAnnotationText : Option GroupConvertedType → List String
  | none => []
  | some .map => ["(", "MAP", ")"]
  | some .mapKeyValue => ["(", "MAP_KEY_VALUE", ")"]
  | some .list => ["(", "LIST", ")"]

/-- The id of a field. -/
def idText : Option I32 → List String
  | none => []
  | some n => ["=", intText n.toInt]

mutual
/-- The tokens of a field; `none` if it cannot be written in the syntax. -/
def fieldText : ParquetType → Option (List String)
  | .primitive p =>
    (annotationText p.convertedType p.logicalType).map fun an =>
      [repetitionText p.fieldInfo.repetition] ++ physicalText p.physicalType ++ [p.fieldInfo.name] ++ an ++
        idText p.fieldInfo.id ++ [";"]
  | .group i logicalType c fields =>
    match logicalType with
    | some _ => none
    | none => (fieldsText fields).map fun body =>
      [repetitionText i.repetition, "GROUP", i.name] ++ groupAnnotationText c ++ idText i.id ++ ["{"] ++
        body ++ ["}"]
/-- The tokens of several fields. -/
def fieldsText : List ParquetType → Option (List String)
  | [] => some []
  | f :: fs =>
    match fieldText f, fieldsText fs with
    | some a, some b => some (a ++ b)
    | _, _ => none
end

/-- The text of a schema with the given name and fields: its tokens, each followed by a blank. -/
def messageText (name : String) (fields : List ParquetType) : Option String :=
  (fieldsText fields).map fun body =>
    String.ofList ((["message", name, "{"] ++ body ++ ["}"]).flatMap fun t => t.toList ++ [' '])

/-- A name that is one word. -/
def IsWord (s : String) : Prop := s ≠ "" ∧ ∀ c ∈ s.toList, IsWordChar c

mutual
/-- Every name is a word, and every primitive is accepted by the constructor of primitives and has
parameters that fit 31 bits. -/
def WellNamed : ParquetType → Prop
  | .primitive p => IsWord p.fieldInfo.name ∧ GoodPrimitive p
  | .group i _ _ fields => IsWord i.name ∧ WellNameds fields
def WellNameds : List ParquetType → Prop
  | [] => True
  | f :: fs => WellNamed f ∧ WellNameds fs
end

end Pq.Spec
