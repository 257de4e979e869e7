import Verif.Lemmas.Schema
import Verif.Lemmas.Util
import Mathlib.Data.Nat.Prime.Basic
/-
Property theorems C49, C50, C51, C55 (schemas and enumerations).
-/
namespace Pq.Props
open Pq Pq.Spec

/-! ### C51 enumerations survive thrift conversion -/

/-- Repetitions: the codes written are those of `parquet.thrift`, reading a code returns the
value, every other code is rejected. -/
theorem C51_repetition :
    (∀ x : Repetition, (x, x.toThrift.toNat) ∈ repetitionTable ∧ Repetition.ofThrift x.toThrift = .ok x) ∧
    (∀ (c : I32) (x : Repetition), Repetition.ofThrift c = .ok x → x.toThrift = c) ∧
    (∀ c : I32, c.toNat ∉ repetitionTable.map (·.2) → Repetition.ofThrift c = .err .oos) := by
  refine ⟨fun x => by cases x <;> exact ⟨by decide, rfl⟩, fun c x h => ?_, fun c h => ?_⟩
  · unfold Repetition.ofThrift at h
    repeat' split at h
    all_goals first | (simp at h; done) | (simp only [Res.ok.injEq] at h; subst h; simp_all [Repetition.toThrift])
  · unfold Repetition.ofThrift
    repeat' split
    all_goals first | rfl | (exfalso; apply h; subst_vars; decide)

/-- Compression codecs. -/
theorem C51_compression :
    (∀ x : Compression, (x, x.toThrift.toNat) ∈ compressionTable ∧ Compression.ofThrift x.toThrift = .ok x) ∧
    (∀ (c : I32) (x : Compression), Compression.ofThrift c = .ok x → x.toThrift = c) ∧
    (∀ c : I32, c.toNat ∉ compressionTable.map (·.2) → Compression.ofThrift c = .err .oos) ∧
    (∀ o : CompressionOptions, o.toThrift = o.codec.toThrift) := by
  refine ⟨fun x => by cases x <;> exact ⟨by decide, rfl⟩, fun c x h => ?_, fun c h => ?_,
    fun o => by cases o <;> rfl⟩
  · unfold Compression.ofThrift at h
    repeat' split at h
    all_goals first | (simp at h; done) | (simp only [Res.ok.injEq] at h; subst h; simp_all [Compression.toThrift])
  · unfold Compression.ofThrift
    repeat' split
    all_goals first | rfl | (exfalso; apply h; subst_vars; decide)

/-- **C51** compression levels: brotli takes 0 to 11, gzip 0 to 10, zstd 1 to 22; the level is kept;
any other is an invalid parameter. -/
theorem C51_levels (l : Int) :
    ((0 ≤ l ∧ l ≤ 11) → brotliLevel l = .ok ⟨l⟩) ∧ (¬ (0 ≤ l ∧ l ≤ 11) → brotliLevel l = .err .invalidParameter) ∧
    ((0 ≤ l ∧ l ≤ 10) → gzipLevel l = .ok ⟨l⟩) ∧ (¬ (0 ≤ l ∧ l ≤ 10) → gzipLevel l = .err .invalidParameter) ∧
    ((1 ≤ l ∧ l ≤ 22) → zstdLevel l = .ok ⟨l⟩) ∧ (¬ (1 ≤ l ∧ l ≤ 22) → zstdLevel l = .err .invalidParameter) := by
  unfold brotliLevel gzipLevel zstdLevel isValidLevel
  refine ⟨fun h => ?_, fun h => ?_, fun h => ?_, fun h => ?_, fun h => ?_, fun h => ?_⟩ <;>
    simp [h, Res.map']

example : zstdLevel 22 = .ok ⟨22⟩ ∧ zstdLevel 0 = .err .invalidParameter := ⟨rfl, rfl⟩

/-- Page types (index pages are rejected). -/
theorem C51_pageType :
    (∀ x : PageType, (x, x.toThrift.toNat) ∈ pageTypeTable ∧ PageType.ofThrift x.toThrift = .ok x) ∧
    (∀ (c : I32) (x : PageType), PageType.ofThrift c = .ok x → x.toThrift = c) ∧
    (∀ c : I32, c.toNat ∉ pageTypeTable.map (·.2) → PageType.ofThrift c = .err .oos) := by
  refine ⟨fun x => by cases x <;> exact ⟨by decide, rfl⟩, fun c x h => ?_, fun c h => ?_⟩
  · unfold PageType.ofThrift at h
    repeat' split at h
    all_goals first | (simp at h; done) | (simp only [Res.ok.injEq] at h; subst h; simp_all [PageType.toThrift])
  · unfold PageType.ofThrift
    repeat' split
    all_goals first | rfl | (exfalso; apply h; subst_vars; decide)

/-- Encodings. -/
theorem C51_encoding :
    (∀ x : Encoding, (x, x.toThrift.toNat) ∈ encodingTable ∧ Encoding.ofThrift x.toThrift = .ok x) ∧
    (∀ (c : I32) (x : Encoding), Encoding.ofThrift c = .ok x → x.toThrift = c) ∧
    (∀ c : I32, c.toNat ∉ encodingTable.map (·.2) → Encoding.ofThrift c = .err .oos) := by
  refine ⟨fun x => by cases x <;> exact ⟨by decide, rfl⟩, fun c x h => ?_, fun c h => ?_⟩
  · unfold Encoding.ofThrift at h
    repeat' split at h
    all_goals first | (simp at h; done) | (simp only [Res.ok.injEq] at h; subst h; simp_all [Encoding.toThrift])
  · unfold Encoding.ofThrift
    repeat' split
    all_goals first | rfl | (exfalso; apply h; subst_vars; decide)

/-- Boundary orders. -/
theorem C51_boundaryOrder :
    (∀ x : BoundaryOrder, (x, x.toThrift.toNat) ∈ boundaryTable ∧ BoundaryOrder.ofThrift x.toThrift = .ok x) ∧
    (∀ (c : I32) (x : BoundaryOrder), BoundaryOrder.ofThrift c = .ok x → x.toThrift = c) ∧
    (∀ c : I32, c.toNat ∉ boundaryTable.map (·.2) → BoundaryOrder.ofThrift c = .err .oos) := by
  refine ⟨fun x => by cases x <;> exact ⟨by decide, rfl⟩, fun c x h => ?_, fun c h => ?_⟩
  · unfold BoundaryOrder.ofThrift at h
    repeat' split at h
    all_goals first | (simp at h; done) | (simp only [Res.ok.injEq] at h; subst h; simp_all [BoundaryOrder.toThrift])
  · unfold BoundaryOrder.ofThrift
    repeat' split
    all_goals first | rfl | (exfalso; apply h; subst_vars; decide)

/-- Converted types of groups. -/
theorem C51_groupConverted :
    (∀ x : GroupConvertedType, (x, x.toThrift.toNat) ∈ groupConvertedTable ∧
      GroupConvertedType.ofThrift x.toThrift = .ok x) ∧
    (∀ (c : I32) (x : GroupConvertedType), GroupConvertedType.ofThrift c = .ok x → x.toThrift = c) ∧
    (∀ c : I32, c.toNat ∉ groupConvertedTable.map (·.2) → GroupConvertedType.ofThrift c = .err .oos) := by
  refine ⟨fun x => by cases x <;> exact ⟨by decide, rfl⟩, fun c x h => ?_, fun c h => ?_⟩
  · unfold GroupConvertedType.ofThrift at h
    repeat' split at h
    all_goals first | (simp at h; done) | (simp only [Res.ok.injEq] at h; subst h; simp_all [GroupConvertedType.toThrift])
  · unfold GroupConvertedType.ofThrift
    repeat' split
    all_goals first | rfl | (exfalso; apply h; subst_vars; decide)

/-- Converted types of primitives: round trip for parameters below 2^31; the code written is the
one of `parquet.thrift`; unknown codes are rejected whatever the decimal parameters. -/
theorem C51_converted :
    (∀ x : PrimitiveConvertedType, SmallConverted x →
      PrimitiveConvertedType.ofThrift x.toThrift.1 x.toThrift.2 = .ok x) ∧
    (∀ x : PrimitiveConvertedType, (x, x.toThrift.1.toNat) ∈ convertedTable ∨
      ∃ p s, x = .decimal p s ∧ x.toThrift.1.toNat = 5) ∧
    (∀ (c : I32) (d : Option (I32 × I32)), c.toNat ∉ convertedTable.map (·.2) → c.toNat ≠ 5 →
      PrimitiveConvertedType.ofThrift c d = .err .oos) := by
  refine ⟨fun x h => PrimitiveConvertedType.roundtrip x h, fun x => ?_, fun c d h h5 => ?_⟩
  · cases x with
    | decimal p s => exact .inr ⟨p, s, rfl, rfl⟩
    | _ => exact .inl (by decide)
  · have key : ∀ v : Nat, v < 2 ^ 32 → (c = BitVec.ofNat 32 v ↔ c.toNat = v) := by
      intro v hv
      constructor
      · intro hc; rw [hc]; simp; omega
      · intro hc; apply BitVec.eq_of_toNat_eq; rw [hc]; simp; omega
    simp only [convertedTable, List.map_cons, List.map_nil, List.mem_cons, List.not_mem_nil, or_false, not_or] at h
    unfold PrimitiveConvertedType.ofThrift
    simp only [key _ (by omega : 0 < 2 ^ 32), key _ (by omega : 4 < 2 ^ 32), key _ (by omega : 5 < 2 ^ 32),
      key _ (by omega : 6 < 2 ^ 32), key _ (by omega : 7 < 2 ^ 32), key _ (by omega : 8 < 2 ^ 32),
      key _ (by omega : 9 < 2 ^ 32), key _ (by omega : 10 < 2 ^ 32), key _ (by omega : 11 < 2 ^ 32),
      key _ (by omega : 12 < 2 ^ 32), key _ (by omega : 13 < 2 ^ 32), key _ (by omega : 14 < 2 ^ 32),
      key _ (by omega : 15 < 2 ^ 32), key _ (by omega : 16 < 2 ^ 32), key _ (by omega : 17 < 2 ^ 32),
      key _ (by omega : 18 < 2 ^ 32), key _ (by omega : 19 < 2 ^ 32), key _ (by omega : 20 < 2 ^ 32),
      key _ (by omega : 21 < 2 ^ 32), h, h5, if_false]

example : SmallConverted (.decimal 38 18) := by simp [SmallConverted]

/-- Physical types: round trip for lengths below 2^31, codes, and rejection of unknown codes and of
fixed-length types without a (non-negative) length. -/
theorem C51_physical :
    (∀ t : PhysicalType, SmallPhysical t → PhysicalType.ofThrift t.toThrift.1 t.toThrift.2 = .ok t) ∧
    (∀ t : PhysicalType, (t, t.toThrift.1.toNat) ∈ physicalTable ∨
      ∃ n, t = .fixedLenByteArray n ∧ t.toThrift.1.toNat = 7) ∧
    (∀ (c : I32) (l : Option I32), 7 < c.toNat → PhysicalType.ofThrift c l = .err .oos) ∧
    PhysicalType.ofThrift 7#32 none = .err .oos ∧
    (∀ l : I32, l.toInt < 0 → PhysicalType.ofThrift 7#32 (some l) = .err .oos) := by
  refine ⟨fun t h => PhysicalType.roundtrip t h, fun t => ?_, fun c l h => ?_, rfl, fun l h => ?_⟩
  · cases t with
    | fixedLenByteArray n => exact .inr ⟨n, rfl, rfl⟩
    | _ => exact .inl (by decide)
  · unfold PhysicalType.ofThrift
    repeat' split
    all_goals first | rfl | (exfalso; subst_vars; revert h; decide)
  · unfold PhysicalType.ofThrift
    simp only [show (7#32 = 0#32) = False from by simp, show (7#32 = 1#32) = False from by simp,
      show (7#32 = 2#32) = False from by simp, show (7#32 = 3#32) = False from by simp,
      show (7#32 = 4#32) = False from by simp, show (7#32 = 5#32) = False from by simp,
      show (7#32 = 6#32) = False from by simp, if_false, if_true, Res.ofOption, Res.ok_bind, toUsize]
    rw [if_neg (by omega)]
    rfl

example : SmallPhysical (.fixedLenByteArray 16) := by simp [SmallPhysical]

/-- Logical types: round trip for parameters below 2^31; the group annotations are rejected on
primitives and vice versa. -/
theorem C51_logical :
    (∀ l : PrimitiveLogicalType, SmallLogical l →
      PrimitiveLogicalType.ofThrift l.toThrift = .ok l ∧ GroupLogicalType.ofThrift l.toThrift = .err .oos) ∧
    (∀ g : GroupLogicalType,
      GroupLogicalType.ofThrift g.toThrift = .ok g ∧ PrimitiveLogicalType.ofThrift g.toThrift = .err .oos) := by
  refine ⟨fun l h => ⟨PrimitiveLogicalType.roundtrip l h, by cases l <;> rfl⟩,
    fun g => by cases g <;> exact ⟨rfl, rfl⟩⟩

example : SmallLogical (.decimal 9 2) := by simp [SmallLogical]

/-- The only bit widths of an INTEGER annotation that are read as themselves are 8, 16, 32 and 64;
any other width is silently read as a signed 32-bit integer. -/
theorem C51_integer_fallback (w : BitVec 8) (s : Bool)
    (h : w.toInt ≠ 8 ∧ w.toInt ≠ 16 ∧ w.toInt ≠ 32 ∧ w.toInt ≠ 64) :
    PrimitiveLogicalType.ofThrift (.integer w s) = .ok (.integer .int32) := by
  obtain ⟨h1, h2, h3, h4⟩ := h
  cases s <;> simp [PrimitiveLogicalType.ofThrift, IntegerType.ofThrift, h1, h2, h3, h4]

example : (24#8).toInt ≠ 8 ∧ (24#8).toInt ≠ 16 ∧ (24#8).toInt ≠ 32 ∧ (24#8).toInt ≠ 64 := by decide

/-! ### C49 schema thrift round trip -/

/-- The full claim (every schema tree survives the round trip through thrift) fails: a group
without children, and in particular an empty schema, is not read back. -/
theorem C49_violated :
    ParquetType.tryFromThrift (ParquetType.newRoot "schema" []).toThrift = .err .oos ∧
    ParquetType.tryFromThrift (ParquetType.newRoot "schema"
      [.group { name := "g", repetition := .optional, id := none } none none []]).toThrift = .err .oos := by
  constructor <;> rfl

/-- A nested schema meeting the hypotheses. -/
def exampleFields : List ParquetType :=
  [.primitive { fieldInfo := { name := "a", repetition := .required, id := some 7#32 }
                logicalType := some (.decimal 9 2), convertedType := some (.decimal 9 2)
                physicalType := .int32 },
   .group { name := "l", repetition := .optional, id := none } (some .list) (some .list)
     [.group { name := "list", repetition := .repeated, id := none } none none
       [.primitive { fieldInfo := { name := "element", repetition := .optional, id := none }
                     logicalType := some .string, convertedType := some .utf8
                     physicalType := .byteArray }]]]

/-- It meets the hypotheses. -/
theorem exampleFields_good : 0 < exampleFields.length ∧ exampleFields.length < 2 ^ 31 ∧ GoodTrees exampleFields := by
  refine ⟨by decide, by decide, ?_⟩
  simp only [exampleFields, GoodTrees, GoodTree, GoodPrimitive, SmallPhysical, and_true, true_and]
  refine ⟨⟨?_, ?_, rfl⟩, ⟨by decide, by decide, ⟨by decide, by decide, ⟨?_, ?_, rfl⟩⟩⟩⟩
  all_goals (intro c hc; simp only [Option.some.injEq] at hc; subst hc; simp [SmallConverted, SmallLogical])

/-- The round trip for every schema (any depth, width, names, ids, annotations) in which every
group, the root included, has a child, the annotations of the primitive fields are accepted by the
constructor and the numbers fit thrift's `i32`. Missing for the full claim: groups without children
(`C49_violated`). -/
theorem C49_schema_roundtrip_partial (name : String) (fields : List ParquetType)
    (h0 : 0 < fields.length) (h31 : fields.length < 2 ^ 31) (hg : GoodTrees fields) :
    ParquetType.tryFromThrift (ParquetType.newRoot name fields).toThrift =
      .ok (ParquetType.newRoot name fields) :=
  tryFromThrift_toThrift name fields h0 h31 hg

example := C49_schema_roundtrip_partial "s" exampleFields exampleFields_good.1 exampleFields_good.2.1 exampleFields_good.2.2

/-- The same for the schema descriptor stored in file metadata. -/
theorem C49_descriptor_roundtrip_partial (name : String) (fields : List ParquetType)
    (h0 : 0 < fields.length) (h31 : fields.length < 2 ^ 31) (hg : GoodTrees fields) :
    SchemaDescriptor.tryFromThrift (SchemaDescriptor.new name fields).intoThrift =
      .ok (SchemaDescriptor.new name fields) := by
  unfold SchemaDescriptor.tryFromThrift SchemaDescriptor.intoThrift
  have := tryFromThrift_toThrift name fields h0 h31 hg
  unfold ParquetType.newRoot at this
  simp only [SchemaDescriptor.new]
  rw [this]
  rfl

example := C49_descriptor_roundtrip_partial "s" exampleFields exampleFields_good.1 exampleFields_good.2.1
  exampleFields_good.2.2

/-- Converting arbitrary thrift elements terminates with a schema or an error, never a panic. -/
theorem C49_from_thrift_total (elements : List Thrift.SchemaElement) :
    ParquetType.tryFromThrift elements ≠ .panic := by
  unfold ParquetType.tryFromThrift
  have := topLevel_ne_panic elements (elements.length + 1) 0 (by omega)
  split <;> simp_all

/-! ### C50 leaf columns and levels -/

/-- The columns of a schema are the primitive leaves in depth-first order, with the names on the
path from the field as path and the field as base type. -/
theorem C50_columns (name : String) (fields : List ParquetType) :
    (SchemaDescriptor.new name fields).leaves.map
        (fun c => (c.pathInSchema, c.descriptor.primitiveType, c.baseType)) =
      fields.flatMap (fun f => (leafPaths f).map fun lp => (lp.1.map (·.name), lp.2, f)) := by
  have key : ∀ f : ParquetType, (buildTree f f 0#16 0#16 []) = (leafPaths f).map (leafColumn f []) := by
    intro f; exact buildTree_eq f f []
  simp only [SchemaDescriptor.new, List.map_flatMap]
  congr 1
  funext f
  rw [key, List.map_map]
  apply List.map_congr_left
  intro x _
  simp [leafColumn]

/-- The levels of the columns count the optional-or-repeated and the repeated nodes on the path,
as long as they fit an `i16`. Missing for the full claim: deeper schemas, whose levels wrap, or panic
with overflow checks (`C50_violated`). -/
theorem C50_levels_partial (name : String) (fields : List ParquetType)
    (hd : ∀ f ∈ fields, ∀ lp ∈ leafPaths f, defLevel lp.1 < 2 ^ 15) :
    (SchemaDescriptor.new name fields).leaves.map
        (fun c => (c.descriptor.maxDefLevel.toInt, c.descriptor.maxRepLevel.toInt)) =
      fields.flatMap (fun f => (leafPaths f).map fun lp =>
        ((defLevel lp.1 : Int), (repLevel lp.1 : Int))) := by
  have key : ∀ f : ParquetType, (buildTree f f 0#16 0#16 []) = (leafPaths f).map (leafColumn f []) := by
    intro f; exact buildTree_eq f f []
  have small : ∀ n : Nat, n < 2 ^ 15 → (BitVec.ofNat 16 n).toInt = n := by
    intro n hn
    rw [BitVec.toInt_eq_toNat_cond]
    simp only [BitVec.toNat_ofNat]
    rw [Nat.mod_eq_of_lt (by omega), if_pos (by omega)]
  simp only [SchemaDescriptor.new, List.map_flatMap]
  have : ∀ f ∈ fields, (buildTree f f 0#16 0#16 []).map
        (fun c => (c.descriptor.maxDefLevel.toInt, c.descriptor.maxRepLevel.toInt)) =
      (leafPaths f).map fun lp => ((defLevel lp.1 : Int), (repLevel lp.1 : Int)) := by
    intro f hf
    rw [key, List.map_map]
    apply List.map_congr_left
    intro x hx
    have h1 := hd f hf x hx
    have h3 : repLevel x.1 ≤ defLevel x.1 := repLevel_le_defLevel x.1
    simp [leafColumn, small _ h1, small _ (Nat.lt_of_le_of_lt h3 h1)]
  clear hd
  induction fields with
  | nil => rfl
  | cons f fs ih =>
    simp only [List.flatMap_cons]
    rw [this f (by simp), ih (fun g hg => this g (by simp [hg]))]

example : ∀ f ∈ exampleFields, ∀ lp ∈ leafPaths f, defLevel lp.1 < 2 ^ 15 := by
  intro f hf lp hlp
  simp only [exampleFields, List.mem_cons, List.not_mem_nil, or_false] at hf
  rcases hf with rfl | rfl <;> simp [leafPaths, leafPathsList] at hlp <;> subst hlp <;> simp [defLevel]

/-! ### C55 annotation checks -/

/-- The claim "accepted only if legal" fails for fixed-length byte arrays of more than 128 bytes:
the largest precision is computed in floating point and becomes infinite. -/
theorem C55_violated :
    checkDecimalInvariants (.fixedLenByteArray 129) 1000 2 = .ok () ∧
    ¬ LegalDecimal (.fixedLenByteArray 129) 1000 2 := by
  constructor
  · decide +kernel
  · intro h
    unfold LegalDecimal at h
    obtain ⟨-, -, -, h⟩ := h
    revert h
    decide +kernel

theorem decimal_iff (t : PhysicalType) (p s : Nat) (ht : ∀ n, t = .fixedLenByteArray n → n ≤ 128) :
    checkDecimalInvariants t p s = .ok () ↔ LegalDecimal t p s := by
  unfold checkDecimalInvariants LegalDecimal
  by_cases hp : p < 1
  · rw [if_pos hp]; simp; omega
  rw [if_neg hp]
  by_cases hs : s > p
  · rw [if_pos hs]; simp; omega
  rw [if_neg hs]
  have hpow : 0 < 10 ^ p := Nat.pos_of_ne_zero (by simp)
  have hbound : ∀ k : Nat, (10 ^ p - 1 ≤ 2 ^ k - 1) ↔ 10 ^ p ≤ 2 ^ k := by
    intro k
    have : 0 < 2 ^ k := Nat.pos_of_ne_zero (by simp)
    omega
  cases t with
  | int32 =>
    simp only [hbound]
    rw [pow10_log, show Nat.log 10 (2 ^ 31) = 9 from by decide +kernel]
    constructor
    · intro h
      split at h
      · exact ⟨by omega, by omega, by decide, by omega⟩
      · simp at h
    · rintro ⟨_, _, _, h⟩
      rw [if_pos (by omega)]
  | int64 =>
    simp only [hbound]
    rw [pow10_log, show Nat.log 10 (2 ^ 63) = 18 from by decide +kernel]
    constructor
    · intro h
      split at h
      · exact ⟨by omega, by omega, by decide, by omega⟩
      · simp at h
    · rintro ⟨_, _, _, h⟩
      rw [if_pos (by omega)]
  | fixedLenByteArray n =>
    simp only [maxPrecision_small n (ht n rfl)]
    by_cases h0 : n = 0
    · subst h0
      simp
      omega
    · rw [if_neg h0]
      have h2 : 2 ≤ 2 ^ (8 * n - 1) := by
        calc 2 = 2 ^ 1 := rfl
          _ ≤ 2 ^ (8 * n - 1) := Nat.pow_le_pow_right (by omega) (by omega)
      have hodd : 10 ^ p ≤ 2 ^ (8 * n - 1) - 1 ↔ 10 ^ p - 1 ≤ 2 ^ (8 * n - 1) - 1 := by
        constructor
        · omega
        · intro h
          by_contra hc
          have heq : 10 ^ p = 2 ^ (8 * n - 1) := by omega
          have h5 : (5 : Nat) ∣ 2 ^ (8 * n - 1) := by
            rw [← heq]
            exact Nat.dvd_trans (by decide : (5 : Nat) ∣ 10) (dvd_pow_self 10 (by omega))
          have := (Nat.Prime.dvd_of_dvd_pow (by decide : Nat.Prime 5) h5)
          omega
      rw [← hodd, pow10_log]
      constructor
      · intro h
        split at h
        · simp at h
        · exact ⟨by omega, by omega, by omega, by omega, by omega⟩
      · rintro ⟨_, _, _, _, h⟩
        rw [if_neg (by omega)]
  | byteArray => simp; omega
  | _ => simp

/-- Every converted-type annotation is accepted exactly when it is legal for the physical type.
Missing for the full claim: fixed-length byte arrays longer than 128 bytes (`C55_violated`). -/
theorem C55_converted_partial (t : PhysicalType) (c : PrimitiveConvertedType)
    (ht : ∀ n, t = .fixedLenByteArray n → n ≤ 128) :
    checkConvertedInvariants t (some c) = .ok () ↔ LegalConverted t c := by
  cases c with
  | decimal p s => exact decimal_iff t p s ht
  | _ => simp [checkConvertedInvariants, LegalConverted]

example : ∀ n, PhysicalType.fixedLenByteArray 16 = .fixedLenByteArray n → n ≤ 128 := by
  intro n h; cases h; decide

/-- Every logical-type annotation other than `UNKNOWN` is accepted exactly when it is legal;
`UNKNOWN` (legal everywhere) is accepted on INT32 only. -/
theorem C55_logical_partial (t : PhysicalType) (l : PrimitiveLogicalType)
    (ht : ∀ n, t = .fixedLenByteArray n → n ≤ 128) :
    (checkLogicalInvariants t (some l) = .ok () → LegalLogical t l) ∧
    (l ≠ .unknown → LegalLogical t l → checkLogicalInvariants t (some l) = .ok ()) ∧
    (checkLogicalInvariants t (some .unknown) = .ok () ↔ t = .int32) := by
  refine ⟨?_, ?_, by cases t <;> simp [checkLogicalInvariants]⟩
  · cases l with
    | decimal p s => exact (decimal_iff t p s ht).1
    | integer i => cases i <;> cases t <;> simp [checkLogicalInvariants, LegalLogical]
    | time u b => cases u <;> cases t <;> simp [checkLogicalInvariants, LegalLogical]
    | uuid => cases t <;> simp [checkLogicalInvariants, LegalLogical]
    | _ => cases t <;> simp [checkLogicalInvariants, LegalLogical]
  · intro hu
    cases l with
    | decimal p s => exact (decimal_iff t p s ht).2
    | integer i => cases i <;> cases t <;> simp [checkLogicalInvariants, LegalLogical]
    | time u b => cases u <;> cases t <;> simp [checkLogicalInvariants, LegalLogical]
    | uuid => cases t <;> simp [checkLogicalInvariants, LegalLogical]
    | unknown => exact absurd rfl hu
    | _ => cases t <;> simp [checkLogicalInvariants, LegalLogical]

example : ∀ n, PhysicalType.fixedLenByteArray 16 = .fixedLenByteArray n → n ≤ 128 := by
  intro n h; cases h; decide

/-- A primitive type accepted by the constructor is accepted again when read from its thrift form
(for parameters that fit thrift's `i32`). -/
theorem C55_reaccepted (p : PrimitiveType) (h1 : SmallPhysical p.physicalType)
    (h2 : ∀ c, p.convertedType = some c → SmallConverted c)
    (h3 : ∀ l, p.logicalType = some l → SmallLogical l)
    (h4 : checkConvertedInvariants p.physicalType p.convertedType = .ok ())
    (h5 : checkLogicalInvariants p.physicalType p.logicalType = .ok ()) :
    primitiveOfElement p.toElement = .ok (.primitive p) := by
  apply primitiveOfElement_toElement
  refine ⟨h1, h2, h3, ?_⟩
  unfold ParquetType.tryFromPrimitive
  rw [h4, h5]
  rfl

example : checkConvertedInvariants (.fixedLenByteArray 16) (some (.decimal 38 18)) = .ok () := by
  decide +kernel

end Pq.Props
