import Verif.Spec.ErrorKinds
import Verif.Model.FileMetadata
import Verif.Model.Indexes
import Verif.Model.Message
import Verif.Model.Bloom
import Verif.Model.ThriftCompact
import Verif.Model.Writer
import Verif.Model.DeltaBytes
/- Helper lemmas: which kinds of errors the functions return. -/
namespace Pq
open Spec

namespace Kinds

theorem ok {α : Type} {P : Err → Prop} (a : α) : Fails P (Res.ok a) := fun _ h => by cases h
theorem pure {α : Type} {P : Err → Prop} (a : α) : Fails P (Pure.pure a : Res α) := fun _ h => by cases h
theorem panic {α : Type} {P : Err → Prop} : Fails P (Res.panic : Res α) := fun _ h => by cases h
theorem err {α : Type} {P : Err → Prop} {e : Err} (h : P e) : Fails P (Res.err e : Res α) := fun _ h' => by
  cases h'; exact h
theorem oos {α : Type} : FailsOos (Res.err .oos : Res α) := err (P := (· = .oos)) rfl
theorem bind {α β : Type} {P : Err → Prop} {x : Res α} {f : α → Res β} (h : Fails P x)
    (hf : ∀ a, x = .ok a → Fails P (f a)) : Fails P (x >>= f) := by
  cases x with
  | ok a => exact hf a rfl
  | err e => exact err (h e rfl)
  | panic => exact panic
theorem map' {α β : Type} {P : Err → Prop} {x : Res α} {f : α → β} (h : Fails P x) : Fails P (x.map' f) := by
  cases x with
  | ok a => exact ok _
  | err e => exact err (h e rfl)
  | panic => exact panic
theorem of_eq {α β : Type} {P : Err → Prop} {x : Res α} {e : Err} (hx : x = .err e) (h : Fails P x) :
    Fails P (.err e : Res β) := err (h e hx)
theorem ite {α : Type} {P : Err → Prop} {c : Prop} [Decidable c] {x y : Res α} (hx : c → Fails P x)
    (hy : ¬ c → Fails P y) : Fails P (if c then x else y) := by
  by_cases h : c
  · rw [if_pos h]; exact hx h
  · rw [if_neg h]; exact hy h
theorem mono {α : Type} {P Q : Err → Prop} {x : Res α} (h : Fails P x) (hpq : ∀ e, P e → Q e) : Fails Q x :=
  fun e he => hpq e (h e he)

end Kinds

/-- The functions known to fail in a certain way. -/
syntax "known_kind" : tactic
macro_rules | `(tactic| known_kind) => `(tactic| assumption)

/-- Going through a function. -/
syntax "kinds" : tactic
macro_rules | `(tactic| kinds) => `(tactic| repeat' (first
  | exact Kinds.ok _ | exact Kinds.pure _ | exact Kinds.panic | exact Kinds.oos
  | (with_reducible known_kind)
  | (with_reducible refine Kinds.of_eq (by assumption) ?_)
  | (with_reducible refine Kinds.bind ?_ fun _ _ => ?_)
  | (with_reducible refine Kinds.map' ?_)
  | (with_reducible refine Kinds.ite (fun _ => ?_) (fun _ => ?_))
  | split
  | dsimp only))

theorem ofOption_kind {α : Type} {P : Err → Prop} {e : Err} (h : P e) (x : Option α) :
    Fails P (Res.ofOption e x) := by cases x <;> first | exact Kinds.ok _ | exact Kinds.err h
theorem ofOption_oos {α : Type} (x : Option α) : FailsOos (Res.ofOption .oos x) := ofOption_kind (P := (· = .oos)) rfl x
theorem unwrap_kind {α : Type} {P : Err → Prop} (x : Option α) : Fails P (Res.unwrap x) := by
  cases x <;> first | exact Kinds.ok _ | exact Kinds.panic
theorem guard_kind {P : Err → Prop} {e : Err} (h : P e) (c : Bool) : Fails P (Res.guard c e) := by
  cases c <;> first | exact Kinds.ok _ | exact Kinds.err h
theorem guard_oos (c : Bool) : FailsOos (Res.guard c .oos) := guard_kind (P := (· = .oos)) rfl c
theorem slice_kind {α : Type} {P : Err → Prop} (s : List α) (a b : Nat) : Fails P (slice s a b) := by
  unfold slice; kinds
theorem splitAt_kind {α : Type} {P : Err → Prop} (s : List α) (k : Nat) : Fails P (splitAt' s k) := by
  unfold splitAt'; kinds
macro_rules | `(tactic| known_kind) => `(tactic| exact ofOption_oos _)
macro_rules | `(tactic| known_kind) => `(tactic| exact unwrap_kind _)
macro_rules | `(tactic| known_kind) => `(tactic| exact guard_oos _)
macro_rules | `(tactic| known_kind) => `(tactic| exact slice_kind _ _ _)
macro_rules | `(tactic| known_kind) => `(tactic| exact splitAt_kind _ _)

theorem collectRes_kind {α : Type} {P : Err → Prop} : ∀ l : List (Res α), (∀ x ∈ l, Fails P x) →
    Fails P (collectRes l)
  | [], _ => Kinds.ok _
  | x :: xs, h => by
    have h1 := h x (List.mem_cons_self ..)
    have h2 := collectRes_kind xs fun y hy => h y (List.mem_cons_of_mem _ hy)
    unfold collectRes; kinds

theorem collectMap_kind {α β : Type} {P : Err → Prop} (f : α → Res β) (l : List α) (h : ∀ a, Fails P (f a)) :
    Fails P (collectRes (l.map f)) := by
  refine collectRes_kind _ fun x hx => ?_
  obtain ⟨a, -, rfl⟩ := List.mem_map.1 hx
  exact h a

theorem toUsize_kind {w : Nat} (x : BitVec w) : FailsOos (toUsize x) := by unfold toUsize; kinds
macro_rules | `(tactic| known_kind) => `(tactic| exact toUsize_kind _)
theorem repetition_kind (x : I32) : FailsOos (Repetition.ofThrift x) := by unfold Repetition.ofThrift; kinds
macro_rules | `(tactic| known_kind) => `(tactic| exact repetition_kind _)
theorem compression_kind (x : I32) : FailsOos (Compression.ofThrift x) := by unfold Compression.ofThrift; kinds
macro_rules | `(tactic| known_kind) => `(tactic| exact compression_kind _)
theorem pageType_kind (x : I32) : FailsOos (PageType.ofThrift x) := by unfold PageType.ofThrift; kinds
macro_rules | `(tactic| known_kind) => `(tactic| exact pageType_kind _)
theorem encoding_kind (x : I32) : FailsOos (Encoding.ofThrift x) := by unfold Encoding.ofThrift; kinds
macro_rules | `(tactic| known_kind) => `(tactic| exact encoding_kind _)
theorem boundary_kind (x : I32) : FailsOos (BoundaryOrder.ofThrift x) := by unfold BoundaryOrder.ofThrift; kinds
macro_rules | `(tactic| known_kind) => `(tactic| exact boundary_kind _)
theorem logical_kind (x : Thrift.LogicalType) : FailsOos (PrimitiveLogicalType.ofThrift x) := by
  unfold PrimitiveLogicalType.ofThrift; kinds
macro_rules | `(tactic| known_kind) => `(tactic| exact logical_kind _)
theorem groupLogical_kind (x : Thrift.LogicalType) : FailsOos (GroupLogicalType.ofThrift x) := by
  unfold GroupLogicalType.ofThrift; kinds
macro_rules | `(tactic| known_kind) => `(tactic| exact groupLogical_kind _)
theorem physical_kind (x : I32) (l : Option I32) : FailsOos (PhysicalType.ofThrift x l) := by
  unfold PhysicalType.ofThrift; kinds
macro_rules | `(tactic| known_kind) => `(tactic| exact physical_kind _ _)
theorem converted_kind (x : I32) (l : Option (I32 × I32)) : FailsOos (PrimitiveConvertedType.ofThrift x l) := by
  unfold PrimitiveConvertedType.ofThrift; kinds
macro_rules | `(tactic| known_kind) => `(tactic| exact converted_kind _ _)
theorem groupConverted_kind (x : I32) : FailsOos (GroupConvertedType.ofThrift x) := by
  unfold GroupConvertedType.ofThrift; kinds
macro_rules | `(tactic| known_kind) => `(tactic| exact groupConverted_kind _)

/-! ### schemas -/

theorem maxPrecision_kind (l : Nat) : FailsOos (maxPrecision l) := by unfold maxPrecision; simp only; kinds
macro_rules | `(tactic| known_kind) => `(tactic| exact maxPrecision_kind _)
theorem decimal_kind (t : PhysicalType) (p s : Nat) : FailsOos (checkDecimalInvariants t p s) := by
  unfold checkDecimalInvariants; kinds
macro_rules | `(tactic| known_kind) => `(tactic| exact decimal_kind _ _ _)
theorem checkConverted_kind (t : PhysicalType) (c) : FailsOos (checkConvertedInvariants t c) := by
  unfold checkConvertedInvariants; kinds
macro_rules | `(tactic| known_kind) => `(tactic| exact checkConverted_kind _ _)
theorem checkLogical_kind (t : PhysicalType) (c) : FailsOos (checkLogicalInvariants t c) := by
  unfold checkLogicalInvariants; kinds
macro_rules | `(tactic| known_kind) => `(tactic| exact checkLogical_kind _ _)
theorem tryFromPrimitive_kind (n t r c l i) : FailsOos (ParquetType.tryFromPrimitive n t r c l i) := by
  unfold ParquetType.tryFromPrimitive; kinds
macro_rules | `(tactic| known_kind) => `(tactic| exact tryFromPrimitive_kind _ _ _ _ _ _)
theorem transpose_kind {α β : Type} {P : Err → Prop} (f : α → Res β) (h : ∀ a, Fails P (f a)) (x : Option α) :
    Fails P (transposeMap f x) := by
  cases x with
  | none => exact Kinds.ok _
  | some a => exact Kinds.map' (h a)
theorem maybeDecimal_kind (a b) : FailsOos (maybeDecimal a b) := by
  cases a <;> cases b <;> first | exact Kinds.ok _ | exact Kinds.oos
macro_rules | `(tactic| known_kind) => `(tactic| exact maybeDecimal_kind _ _)
macro_rules | `(tactic| known_kind) => `(tactic| refine transpose_kind _ (fun _ => ?_) _)
theorem primitive_kind (e : Thrift.SchemaElement) : FailsOos (primitiveOfElement e) := by
  unfold primitiveOfElement; kinds
macro_rules | `(tactic| known_kind) => `(tactic| exact primitive_kind _)
theorem group_kind (e : Thrift.SchemaElement) (f) : FailsOos (groupOfElement e f) := by
  unfold groupOfElement; kinds
macro_rules | `(tactic| known_kind) => `(tactic| exact group_kind _ _)
theorem childrenLoop_kind {α : Type} {P : Err → Prop} (helper : Nat → Res (Nat × α))
    (h : ∀ i, Fails P (helper i)) : ∀ n next, Fails P (childrenLoop helper n next)
  | 0, _ => Kinds.ok _
  | n + 1, next => by
    have h1 := h next
    have h2 := childrenLoop_kind helper h n
    unfold childrenLoop
    refine Kinds.bind h1 fun a _ => ?_
    refine Kinds.bind (h2 _) fun b _ => ?_
    kinds
theorem helper_kind (es : List Thrift.SchemaElement) : ∀ fuel i, FailsOos (fromThriftHelper es fuel i)
  | 0, _ => Kinds.panic
  | fuel + 1, i => by
    have := fun n j => childrenLoop_kind (fromThriftHelper es fuel) (helper_kind es fuel) n j
    unfold fromThriftHelper
    split
    · exact Kinds.oos
    split
    · kinds
    refine Kinds.ite (fun _ => ?_) fun _ => ?_
    · kinds
    split
    · next h => exact Kinds.of_eq h (this _ _)
    · exact Kinds.panic
    · kinds
theorem topLevel_kind (es : List Thrift.SchemaElement) : ∀ fuel i, FailsOos (topLevel es fuel i)
  | 0, _ => Kinds.panic
  | fuel + 1, i => by
    have := topLevel_kind es fuel
    unfold topLevel
    split
    · refine Kinds.bind (helper_kind _ _ _) fun a _ => ?_
      refine Kinds.bind (this _) fun b _ => ?_
      kinds
    · kinds
macro_rules | `(tactic| known_kind) => `(tactic| exact topLevel_kind _ _ _)
theorem parquetType_kind (es) : FailsOos (ParquetType.tryFromThrift es) := by
  unfold ParquetType.tryFromThrift; kinds
macro_rules | `(tactic| known_kind) => `(tactic| exact parquetType_kind _)

/-! ### metadata -/

theorem tryFromType_kind (t) : FailsOos (SchemaDescriptor.tryFromType t) := by
  unfold SchemaDescriptor.tryFromType; kinds
macro_rules | `(tactic| known_kind) => `(tactic| exact tryFromType_kind _)
theorem schemaDescriptor_kind (es) : FailsOos (SchemaDescriptor.tryFromThrift es) := by
  unfold SchemaDescriptor.tryFromThrift; kinds
macro_rules | `(tactic| known_kind) => `(tactic| exact schemaDescriptor_kind _)
theorem chunk_kind (d) (c : Thrift.ColumnChunk) : FailsOos (ColumnChunkMetaData.tryFromThrift d c) := by
  unfold ColumnChunkMetaData.tryFromThrift; kinds
macro_rules | `(tactic| known_kind) => `(tactic| exact chunk_kind _ _)
macro_rules | `(tactic| known_kind) => `(tactic| refine collectMap_kind _ _ (fun _ => ?_))
theorem rowGroup_kind (d) (g : Thrift.RowGroup) : FailsOos (RowGroupMetaData.tryFromThrift d g) := by
  unfold RowGroupMetaData.tryFromThrift; kinds
macro_rules | `(tactic| known_kind) => `(tactic| exact rowGroup_kind _ _)
theorem fileMetaData_kind (m : Thrift.FileMetaData) : FailsOos (FileMetaData.tryFromThrift m) := by
  unfold FileMetaData.tryFromThrift; kinds
macro_rules | `(tactic| known_kind) => `(tactic| exact fileMetaData_kind _)
theorem lastBytes_kind (f k) : FailsOos (lastBytes f k) := by
  unfold lastBytes; kinds
macro_rules | `(tactic| known_kind) => `(tactic| exact lastBytes_kind _ _)
theorem metadataLen_kind (f k) : FailsOos (metadataLen f k) := by
  unfold metadataLen; kinds
macro_rules | `(tactic| known_kind) => `(tactic| exact metadataLen_kind _ _)
theorem footerBytes_kind (f k) : FailsOos (footerBytes f k) := by
  unfold footerBytes; kinds
macro_rules | `(tactic| known_kind) => `(tactic| exact footerBytes_kind _ _)

/-! ### statistics and indexes -/

theorem checkWidth_kind (v k) : FailsOos (checkWidth v k) := by
  unfold checkWidth; kinds
macro_rules | `(tactic| known_kind) => `(tactic| exact checkWidth_kind _ _)
theorem nativeDecode_kind (b c) : FailsOos (nativeDecode b c) := by
  unfold nativeDecode; kinds
macro_rules | `(tactic| known_kind) => `(tactic| exact nativeDecode_kind _ _)
theorem int96Decode_kind (c) : FailsOos (int96Decode c) := by
  unfold int96Decode; kinds
macro_rules | `(tactic| known_kind) => `(tactic| exact int96Decode_kind _)
theorem optionMap_kind {α β : Type} {P : Err → Prop} (f : α → Res β) (h : ∀ a, Fails P (f a)) (x : Option α) :
    Fails P (optionMapRes f x) := by
  cases x with
  | none => exact Kinds.ok _
  | some a => exact Kinds.map' (h a)
macro_rules | `(tactic| known_kind) => `(tactic| refine optionMap_kind _ (fun _ => ?_) _)
theorem primitiveRead_kind {α : Type} (n : Nat) (f : List Byte → Res α) (h : ∀ b, FailsOos (f b)) (v t) :
    FailsOos (primitiveRead n f v t) := by
  have h' := fun x => optionMap_kind f h x
  unfold primitiveRead
  refine Kinds.bind (by kinds) fun _ _ => Kinds.bind (h' _) fun _ _ => Kinds.bind (h' _) fun _ _ => Kinds.ok _
macro_rules | `(tactic| known_kind) => `(tactic| refine primitiveRead_kind _ _ (fun _ => ?_) _ _)
theorem booleanRead_kind (v) : FailsOos (booleanRead v) := by
  unfold booleanRead; kinds
macro_rules | `(tactic| known_kind) => `(tactic| exact booleanRead_kind _)
theorem fixedLenRead_kind (v n t) : FailsOos (fixedLenRead v n t) := by
  unfold fixedLenRead; kinds
macro_rules | `(tactic| known_kind) => `(tactic| exact fixedLenRead_kind _ _ _)
theorem deserializeStatistics_kind (v t) : FailsOos (deserializeStatistics v t) := by
  unfold deserializeStatistics; kinds
macro_rules | `(tactic| known_kind) => `(tactic| exact deserializeStatistics_kind _ _)
theorem pageIndex_kind {α : Type} (f : List Byte → Res α) (h : ∀ b, FailsOos (f b)) (row) :
    FailsOos (pageIndex f row) := by
  unfold pageIndex
  refine Kinds.ite (fun _ => Kinds.ok _) fun _ =>
    Kinds.bind (h _) fun _ _ => Kinds.bind (h _) fun _ _ => Kinds.ok _
theorem tryNewIndex_kind {α : Type} (f : List Byte → Res α) (h : ∀ b, FailsOos (f b)) (i make) :
    FailsOos (tryNewIndex f i make) := by
  unfold tryNewIndex
  refine Kinds.bind (collectMap_kind _ _ (pageIndex_kind f h)) fun _ _ => by kinds
theorem nativeBound_kind (b c) : FailsOos (nativeBound b c) := by
  unfold nativeBound; kinds
macro_rules | `(tactic| known_kind) => `(tactic| exact nativeBound_kind _ _)
theorem int96Bound_kind (c) : FailsOos (int96Bound c) := by
  unfold int96Bound; kinds
macro_rules | `(tactic| known_kind) => `(tactic| exact int96Bound_kind _)
theorem booleanBound_kind (c) : FailsOos (booleanBound c) := by
  unfold booleanBound; kinds
macro_rules | `(tactic| known_kind) => `(tactic| exact booleanBound_kind _)
macro_rules | `(tactic| known_kind) => `(tactic| refine tryNewIndex_kind _ (fun _ => ?_) _ _)
theorem indexOfThrift_kind (i t) : FailsOos (indexOfThrift i t) := by
  unfold indexOfThrift; kinds
macro_rules | `(tactic| known_kind) => `(tactic| exact indexOfThrift_kind _ _)
theorem prepareRead_kind (f g c) : FailsOos (prepareRead f g c) := by
  unfold prepareRead; kinds
macro_rules | `(tactic| known_kind) => `(tactic| exact prepareRead_kind _ _ _)
theorem prepareColumn_kind (c) : FailsOos (prepareColumnIndexRead c) := by
  unfold prepareColumnIndexRead; kinds
macro_rules | `(tactic| known_kind) => `(tactic| exact prepareColumn_kind _)
theorem prepareOffset_kind (c) : FailsOos (prepareOffsetIndexRead c) := by
  unfold prepareOffsetIndexRead; kinds
macro_rules | `(tactic| known_kind) => `(tactic| exact prepareOffset_kind _)
theorem uadd_kind (ck a b) : FailsOos (uadd ck a b) := by
  unfold uadd; kinds
macro_rules | `(tactic| known_kind) => `(tactic| exact uadd_kind _ _ _)
theorem usub_kind (ck a b) : FailsOos (Deser.usub ck a b) := by
  unfold Deser.usub; kinds
macro_rules | `(tactic| known_kind) => `(tactic| exact usub_kind _ _ _)
theorem sumUsize_kind (ck) : ∀ acc xs, FailsOos (sumUsize ck acc xs)
  | _, [] => Kinds.ok _
  | acc, x :: xs => by
    have := fun a => sumUsize_kind ck a xs
    unfold sumUsize
    exact Kinds.bind (by kinds) fun _ _ => this _
macro_rules | `(tactic| known_kind) => `(tactic| exact sumUsize_kind _ _ _)
theorem lastInterval_kind (l n) : FailsOos (lastInterval l n) := by
  unfold lastInterval; kinds
macro_rules | `(tactic| known_kind) => `(tactic| exact lastInterval_kind _ _)
theorem windowInterval_kind (x) : FailsOos (windowInterval x) := by
  unfold windowInterval; kinds
macro_rules | `(tactic| known_kind) => `(tactic| exact windowInterval_kind _)
theorem computePageRowIntervals_kind (l n) : FailsOos (computePageRowIntervals l n) := by
  unfold computePageRowIntervals
  split
  · kinds
  · refine collectRes_kind _ fun x hx => ?_
    rcases List.mem_append.1 hx with hx | hx
    · obtain ⟨a, -, rfl⟩ := List.mem_map.1 hx
      kinds
    · rw [List.mem_singleton.1 hx]
      kinds
macro_rules | `(tactic| known_kind) => `(tactic| exact computePageRowIntervals_kind _ _)
theorem computeRows_kind (s l n) : FailsOos (computeRows s l n) := by
  unfold computeRows; kinds
macro_rules | `(tactic| known_kind) => `(tactic| exact computeRows_kind _ _ _)
theorem isInOne_kind (ck p i) : FailsOos (isInOne ck p i) := by
  unfold isInOne; kinds
macro_rules | `(tactic| known_kind) => `(tactic| exact isInOne_kind _ _ _)
theorem isIn_kind (ck p) : ∀ l, FailsOos (isIn ck p l)
  | [] => Kinds.ok _
  | x :: xs => by
    have := isIn_kind ck p xs
    unfold isIn; kinds
macro_rules | `(tactic| known_kind) => `(tactic| exact isIn_kind _ _ _)
theorem selectPage_kind (ck i x) : FailsOos (selectPage ck i x) := by
  unfold selectPage; kinds
macro_rules | `(tactic| known_kind) => `(tactic| exact selectPage_kind _ _ _)
theorem selectPages_kind (ck i l n) : FailsOos (selectPages ck i l n) := by
  unfold selectPages; kinds
macro_rules | `(tactic| known_kind) => `(tactic| exact selectPages_kind _ _ _ _)

/-! ### pages -/

theorem finishPage_kind (h d c t s) : FailsOos (finishPage h d c t s) := by
  unfold finishPage; kinds
macro_rules | `(tactic| known_kind) => `(tactic| exact finishPage_kind _ _ _ _ _)
theorem getPageHeader_kind (h) : FailsOos (getPageHeader h) := by
  unfold getPageHeader; kinds
macro_rules | `(tactic| known_kind) => `(tactic| exact getPageHeader_kind _)
theorem addI64_kind (ck a b) : FailsOos (addI64 ck a b) := by
  unfold addI64; kinds
macro_rules | `(tactic| known_kind) => `(tactic| exact addI64_kind _ _ _)

/-! ### the compact protocol -/

theorem readByte_kind (b) : FailsOos (Compact.readByte b) := by
  unfold Compact.readByte; kinds
macro_rules | `(tactic| known_kind) => `(tactic| exact readByte_kind _)
theorem readN_kind (n b) : FailsOos (Compact.readN n b) := by
  unfold Compact.readN; kinds
macro_rules | `(tactic| known_kind) => `(tactic| exact readN_kind _ _)
theorem readUvar_kind : ∀ b, FailsOos (Compact.readUvar b)
  | [] => Kinds.oos
  | _ :: bs => by
    have := readUvar_kind bs
    unfold Compact.readUvar; kinds
macro_rules | `(tactic| known_kind) => `(tactic| exact readUvar_kind _)
theorem readZvar_kind (w b) : FailsOos (Compact.readZvar w b) := by
  unfold Compact.readZvar; kinds
macro_rules | `(tactic| known_kind) => `(tactic| exact readZvar_kind _ _)
theorem readListHeader_kind (b) : FailsOos (Compact.readListHeader b) := by
  unfold Compact.readListHeader; kinds
macro_rules | `(tactic| known_kind) => `(tactic| exact readListHeader_kind _)
theorem readId_kind (p d b) : FailsOos (Compact.readId p d b) := by
  unfold Compact.readId; kinds
macro_rules | `(tactic| known_kind) => `(tactic| exact readId_kind _ _ _)
theorem readBool_kind (b c) : FailsOos (Compact.readBool b c) := by
  unfold Compact.readBool; kinds
macro_rules | `(tactic| known_kind) => `(tactic| exact readBool_kind _ _)
theorem orBool_kind (c b o) (h : FailsOos o) : FailsOos (Compact.orBool c b o) := by
  unfold Compact.orBool; kinds
theorem dec_kind : ∀ fuel, (∀ c b, FailsOos (Compact.decVal fuel c b)) ∧
    (∀ c n b, FailsOos (Compact.decList fuel c n b)) ∧ (∀ p b, FailsOos (Compact.decFields fuel p b))
  | 0 => by
    refine ⟨fun c b => ?_, fun c n b => ?_, fun p b => ?_⟩
    · unfold Compact.decVal; exact Kinds.oos
    · unfold Compact.decList; exact Kinds.oos
    · unfold Compact.decFields; exact Kinds.oos
  | fuel + 1 => by
    obtain ⟨h1, h2, h3⟩ := dec_kind fuel
    refine ⟨fun c b => ?_, fun c n b => ?_, fun p b => ?_⟩
    · unfold Compact.decVal
      split
      all_goals first
        | kinds; done
        | exact Kinds.bind (readListHeader_kind _) fun _ _ => Kinds.bind (h2 _ _ _) fun _ _ => Kinds.ok _
        | exact Kinds.bind (h3 _ _) fun _ _ => Kinds.ok _
    · cases n with
      | zero => unfold Compact.decList; exact Kinds.ok _
      | succ n =>
        unfold Compact.decList
        exact Kinds.bind (h1 _ _) fun _ _ => Kinds.bind (h2 _ _ _) fun _ _ => Kinds.ok _
    · unfold Compact.decFields
      refine Kinds.bind (by kinds) fun _ _ => Kinds.ite (fun _ => Kinds.ok _) fun _ => ?_
      refine Kinds.bind (by kinds) fun _ _ => Kinds.bind (orBool_kind _ _ _ (h1 _ _)) fun _ _ => ?_
      exact Kinds.bind (h3 _ _) fun _ _ => Kinds.ok _
theorem readStruct_kind (m b) : FailsOos (Compact.readStruct m b).1 := by
  unfold Compact.readStruct
  split
  · exact Kinds.ite (fun _ => Kinds.ok _) fun _ => Kinds.oos
  · next h => exact Kinds.of_eq h ((dec_kind _).1 _ _)
  · exact Kinds.panic

/-- Values of the wrong shape are out of specification. -/
def ReprOos {T : Type} (r : Compact.Repr' T) : Prop := ∀ v, FailsOos (r.ofT v)

theorem codecOf_kind {T : Type} (r : Compact.Repr' T) (h : ReprOos r) : Spec.CodecOos (Compact.codecOf r) := by
  intro m b
  have hr := readStruct_kind m b
  unfold Compact.codecOf
  rcases h' : Compact.readStruct m b with ⟨x, rest⟩
  rw [h'] at hr
  simp only
  cases x with
  | ok v => simp only [h']; exact h v
  | err e => simp only [h']; exact Kinds.of_eq rfl hr
  | panic => simp only [h']; exact Kinds.panic

theorem ofList_kind {T : Type} (r : Compact.Repr' T) (h : ReprOos r) : ∀ l, FailsOos (Compact.ofList r l)
  | .nil => Kinds.ok _
  | .cons v vs => by
    unfold Compact.ofList
    exact Kinds.bind (h _) fun _ _ => Kinds.bind (ofList_kind r h vs) fun _ _ => Kinds.ok _
theorem rList_kind {T : Type} (r : Compact.Repr' T) (h : ReprOos r) : ReprOos (Compact.rList r) := by
  intro v
  cases v <;> first | exact Kinds.oos | exact ofList_kind r h _
theorem req_kind {T : Type} (r : Compact.Repr' T) (h : ReprOos r) (fs id) : FailsOos (Compact.req r fs id) := by
  unfold Compact.req
  split
  · exact Kinds.oos
  · exact h _
theorem opt_kind {T : Type} (r : Compact.Repr' T) (h : ReprOos r) (fs id) : FailsOos (Compact.opt r fs id) := by
  unfold Compact.opt
  split
  · exact Kinds.ok _
  · exact Kinds.map' (h _)
theorem rStruct_kind {T : Type} (f) (read : Compact.TFields → Res T) (h : ∀ fs, FailsOos (read fs)) :
    ReprOos (Compact.rStruct f read) := by
  intro v
  cases v <;> first | exact Kinds.oos | exact h _
theorem stringOfBytes_kind (b) : FailsOos (Compact.stringOfBytes b) := by
  unfold Compact.stringOfBytes; kinds
theorem rBool_kind : ReprOos Compact.rBool := fun v => by
  cases v <;> first | exact Kinds.ok _ | exact Kinds.oos
theorem rByte_kind : ReprOos Compact.rByte := fun v => by
  cases v <;> first | exact Kinds.ok _ | exact Kinds.oos
theorem rI16_kind : ReprOos Compact.rI16 := fun v => by
  cases v <;> first | exact Kinds.ok _ | exact Kinds.oos
theorem rI32_kind : ReprOos Compact.rI32 := fun v => by
  cases v <;> first | exact Kinds.ok _ | exact Kinds.oos
theorem rI64_kind : ReprOos Compact.rI64 := fun v => by
  cases v <;> first | exact Kinds.ok _ | exact Kinds.oos
theorem rBinary_kind : ReprOos Compact.rBinary := fun v => by
  cases v <;> first | exact Kinds.ok _ | exact Kinds.oos
theorem rString_kind : ReprOos Compact.rString := fun v => by
  cases v <;> first | exact Kinds.oos | exact stringOfBytes_kind _
/-- Going through a structure. -/
syntax "fields" : tactic
macro_rules | `(tactic| fields) => `(tactic| (
  refine rStruct_kind _ _ fun fs => ?_
  repeat' first
    | exact Kinds.ok _
    | exact Kinds.oos
    | (with_reducible refine Kinds.bind (req_kind _ ?_ _ _) fun _ _ => ?_)
    | (with_reducible refine Kinds.bind (opt_kind _ ?_ _ _) fun _ _ => ?_)
    | (with_reducible refine rList_kind _ ?_)
    | exact rBool_kind | exact rByte_kind | exact rI16_kind | exact rI32_kind | exact rI64_kind
    | exact rBinary_kind | exact rString_kind
    | assumption))
theorem rStatistics_kind : ReprOos Compact.rStatistics := by
  fields
theorem rDataPageHeader_kind : ReprOos Compact.rDataPageHeader := by
  have := rStatistics_kind
  fields
theorem rDataPageHeaderV2_kind : ReprOos Compact.rDataPageHeaderV2 := by
  have := rStatistics_kind
  fields
theorem rDictionaryPageHeader_kind : ReprOos Compact.rDictionaryPageHeader := by
  fields
theorem rPageHeader_kind : ReprOos Compact.rPageHeader := by
  have := rDataPageHeader_kind
  have := rDataPageHeaderV2_kind
  have := rDictionaryPageHeader_kind
  fields
theorem rTimeUnit_kind : ReprOos Compact.rTimeUnit := by
  refine rStruct_kind _ _ fun fs => ?_
  split <;> first | exact Kinds.ok _ | exact Kinds.oos
theorem rDecimal_kind : ReprOos Compact.rDecimal := by
  fields
theorem rTime_kind : ReprOos Compact.rTime := by
  have := rTimeUnit_kind
  fields
theorem rInt_kind : ReprOos Compact.rInt := by
  fields
theorem rLogicalType_kind : ReprOos Compact.rLogicalType := by
  have := rDecimal_kind
  have := rTime_kind
  have := rInt_kind
  refine rStruct_kind _ _ fun fs => ?_
  split <;> first | exact Kinds.ok _ | exact Kinds.oos | exact Kinds.map' (rDecimal_kind _) |
      exact Kinds.map' (rTime_kind _) | exact Kinds.map' (rInt_kind _)
theorem rSchemaElement_kind : ReprOos Compact.rSchemaElement := by
  have := rLogicalType_kind
  fields
theorem rPageLocation_kind : ReprOos Compact.rPageLocation := by
  fields
theorem rOffsetIndex_kind : ReprOos Compact.rOffsetIndex := by
  have := rPageLocation_kind
  fields
theorem rColumnIndex_kind : ReprOos Compact.rColumnIndex := by
  fields
theorem rPageEncodingStats_kind : ReprOos Compact.rPageEncodingStats := by
  fields
theorem rKeyValue_kind : ReprOos Compact.rKeyValue := by
  fields
theorem rColumnMetaData_kind : ReprOos Compact.rColumnMetaData := by
  have := rKeyValue_kind
  have := rStatistics_kind
  have := rPageEncodingStats_kind
  fields
theorem rColumnChunk_kind : ReprOos Compact.rColumnChunk := by
  have := rColumnMetaData_kind
  fields
theorem rSortingColumn_kind : ReprOos Compact.rSortingColumn := by
  fields
theorem rRowGroup_kind : ReprOos Compact.rRowGroup := by
  have := rColumnChunk_kind
  have := rSortingColumn_kind
  fields
theorem rColumnOrder_kind : ReprOos Compact.rColumnOrder := by
  refine rStruct_kind _ _ fun fs => ?_
  split <;> first | exact Kinds.ok _ | exact Kinds.oos
theorem rFileMetaData_kind : ReprOos Compact.rFileMetaData := by
  have := rSchemaElement_kind
  have := rRowGroup_kind
  have := rKeyValue_kind
  have := rColumnOrder_kind
  fields

/-! ### decoding -/

theorem assert_kind {P : Err → Prop} (c) : Fails P (Res.assert c) := by
  cases c <;> first | exact Kinds.ok _ | exact Kinds.panic
macro_rules | `(tactic| known_kind) => `(tactic| exact assert_kind _)
theorem lebLoop_kind : ∀ l a b c, FailsOos (Leb.decodeLoop l a b c)
  | [], _, _, _ => by unfold Leb.decodeLoop; kinds
  | x :: xs, a, b, c => by
    have := fun a b c => lebLoop_kind xs a b c
    unfold Leb.decodeLoop; kinds
    all_goals exact this _ _ _
macro_rules | `(tactic| known_kind) => `(tactic| exact lebLoop_kind _ _ _ _)
theorem lebDecode_kind (l) : FailsOos (Leb.decode l) := by
  unfold Leb.decode; kinds
macro_rules | `(tactic| known_kind) => `(tactic| exact lebDecode_kind _)
theorem zigzagDecode_kind (l) : FailsOos (Leb.zigzagDecode l) := by
  unfold Leb.zigzagDecode; kinds
macro_rules | `(tactic| known_kind) => `(tactic| exact zigzagDecode_kind _)
theorem unpack_kind (b l n) : FailsOos (Bitpack.unpack b l n) := by
  unfold Bitpack.unpack; kinds
macro_rules | `(tactic| known_kind) => `(tactic| exact unpack_kind _ _ _)
theorem decodePack_kind (b l n) : FailsOos (Bitpack.decodePack b l n) := by
  unfold Bitpack.decodePack; kinds
macro_rules | `(tactic| known_kind) => `(tactic| exact decodePack_kind _ _ _)
theorem bitTryNew_kind (b l n k) : FailsOos (Bitpack.Decoder.tryNew b l n k) := by
  unfold Bitpack.Decoder.tryNew; kinds
macro_rules | `(tactic| known_kind) => `(tactic| exact bitTryNew_kind _ _ _ _)
theorem bitNext_kind {b : Nat} (d : Bitpack.Decoder b) : FailsOos (Bitpack.Decoder.next d) := by
  unfold Bitpack.Decoder.next; kinds
macro_rules | `(tactic| known_kind) => `(tactic| exact bitNext_kind _)
theorem drain_kind {σ α : Type} (next : σ → Res (Option α × σ)) (h : ∀ s, FailsOos (next s)) :
    ∀ fuel s, FailsOos (drain next fuel s)
  | 0, _ => by unfold drain; kinds
  | fuel + 1, s => by
    have h1 := h s
    have h2 := fun t => drain_kind next h fuel t
    unfold drain
    kinds
    all_goals first | exact h2 _ | exact Kinds.of_eq (by assumption) (h2 _)
macro_rules | `(tactic| known_kind) => `(tactic| refine drain_kind _ (fun _ => ?_) _ _)
theorem bitDecode_kind (b l n k) : FailsOos (Bitpack.decode b l n k) := by
  unfold Bitpack.decode; kinds
macro_rules | `(tactic| known_kind) => `(tactic| exact bitDecode_kind _ _ _ _)
theorem runsNext_kind (d) : FailsOos (Rle.Runs.next d) := by
  unfold Rle.Runs.next; kinds
macro_rules | `(tactic| known_kind) => `(tactic| exact runsNext_kind _)
theorem readNext_kind (d k) : FailsOos (Rle.readNext d k) := by
  unfold Rle.readNext; kinds
macro_rules | `(tactic| known_kind) => `(tactic| exact readNext_kind _ _)
theorem decTryNew_kind (d n k) : FailsOos (Rle.Dec.tryNew d n k) := by
  unfold Rle.Dec.tryNew; kinds
macro_rules | `(tactic| known_kind) => `(tactic| exact decTryNew_kind _ _ _)
theorem stateNext_kind (d) : FailsOos (Rle.State.next d) := by
  unfold Rle.State.next; kinds
macro_rules | `(tactic| known_kind) => `(tactic| exact stateNext_kind _)
theorem decNextFuel_kind : ∀ fuel d, FailsOos (Rle.Dec.nextFuel fuel d)
  | 0, _ => Kinds.panic
  | fuel + 1, d => by
    have := fun d => decNextFuel_kind fuel d
    unfold Rle.Dec.nextFuel; kinds
    all_goals exact this _
macro_rules | `(tactic| known_kind) => `(tactic| exact decNextFuel_kind _ _)
theorem decNext_kind (d) : FailsOos (Rle.Dec.next d) := by
  unfold Rle.Dec.next; kinds
macro_rules | `(tactic| known_kind) => `(tactic| exact decNext_kind _)
theorem rleDecode_kind (d n k) : FailsOos (Rle.decode d n k) := by
  unfold Rle.decode; kinds
macro_rules | `(tactic| known_kind) => `(tactic| exact rleDecode_kind _ _ _)
theorem blockAdvance_kind (ck b) : FailsOos (Delta.Block.advance ck b) := by
  unfold Delta.Block.advance; kinds
macro_rules | `(tactic| known_kind) => `(tactic| exact blockAdvance_kind _ _)
theorem blockTryNew_kind (ck v n m l) : FailsOos (Delta.Block.tryNew ck v n m l) := by
  unfold Delta.Block.tryNew; kinds
macro_rules | `(tactic| known_kind) => `(tactic| exact blockTryNew_kind _ _ _ _ _)
theorem miniNext_kind (m) : FailsOos (Delta.miniNext m) := by
  unfold Delta.miniNext; kinds
macro_rules | `(tactic| known_kind) => `(tactic| exact miniNext_kind _)
theorem addI_kind (ck a b) : FailsOos (Delta.addI ck a b) := by
  unfold Delta.addI; kinds
macro_rules | `(tactic| known_kind) => `(tactic| exact addI_kind _ _ _)
theorem blockNext_kind (ck b) : FailsOos (Delta.Block.next ck b) := by
  unfold Delta.Block.next; kinds
macro_rules | `(tactic| known_kind) => `(tactic| exact blockNext_kind _ _)
theorem deltaTryNew_kind (ck v) : FailsOos (Delta.Decoder.tryNew ck v) := by
  unfold Delta.Decoder.tryNew; kinds
macro_rules | `(tactic| known_kind) => `(tactic| exact deltaTryNew_kind _ _)
theorem loadDelta_kind (ck v) : FailsOos (Delta.Decoder.loadDelta ck v) := by
  unfold Delta.Decoder.loadDelta; kinds
macro_rules | `(tactic| known_kind) => `(tactic| exact loadDelta_kind _ _)
theorem deltaNext_kind (ck v) : FailsOos (Delta.Decoder.next ck v) := by
  unfold Delta.Decoder.next; kinds
macro_rules | `(tactic| known_kind) => `(tactic| exact deltaNext_kind _ _)
theorem deltaDrain_kind (ck) : ∀ fuel d, FailsOos (Delta.Decoder.drain ck fuel d)
  | 0, _ => Kinds.panic
  | fuel + 1, d => by
    have := fun d => deltaDrain_kind ck fuel d
    unfold Delta.Decoder.drain; kinds
    all_goals exact this _
macro_rules | `(tactic| known_kind) => `(tactic| exact deltaDrain_kind _ _ _)
theorem deltaDecode_kind (ck v) : FailsOos (Delta.decode ck v) := by
  unfold Delta.decode; kinds
macro_rules | `(tactic| known_kind) => `(tactic| exact deltaDecode_kind _ _)
theorem dlTryNew_kind (ck v) : FailsOos (DeltaLength.Decoder.tryNew ck v) := by
  unfold DeltaLength.Decoder.tryNew; kinds
macro_rules | `(tactic| known_kind) => `(tactic| exact dlTryNew_kind _ _)
theorem dlNext_kind (ck v) : FailsOos (DeltaLength.Decoder.next ck v) := by
  unfold DeltaLength.Decoder.next; kinds
macro_rules | `(tactic| known_kind) => `(tactic| exact dlNext_kind _ _)
theorem dlInto_kind (v) : FailsOos (DeltaLength.Decoder.intoValues v) := by
  unfold DeltaLength.Decoder.intoValues; kinds
macro_rules | `(tactic| known_kind) => `(tactic| exact dlInto_kind _)
theorem dlDrain_kind (ck) : ∀ fuel d, FailsOos (DeltaLength.Decoder.drain ck fuel d)
  | 0, _ => Kinds.panic
  | fuel + 1, d => by
    have := fun d => dlDrain_kind ck fuel d
    unfold DeltaLength.Decoder.drain; kinds
    all_goals exact this _
macro_rules | `(tactic| known_kind) => `(tactic| exact dlDrain_kind _ _ _)
theorem dlDecode_kind (ck v) : FailsOos (DeltaLength.decode ck v) := by
  unfold DeltaLength.decode; kinds
macro_rules | `(tactic| known_kind) => `(tactic| exact dlDecode_kind _ _)
theorem dbaDecode_kind (ck v) : FailsOos (DeltaByteArray.decode ck v) := by
  unfold DeltaByteArray.decode; kinds
macro_rules | `(tactic| known_kind) => `(tactic| exact dbaDecode_kind _ _)

/-! ### pages -/

theorem splitLevels_kind (b h) : FailsOos (splitLevelsV1 b h) := by
  unfold splitLevelsV1; kinds
macro_rules | `(tactic| known_kind) => `(tactic| exact splitLevels_kind _ _)
theorem splitV1_kind (b h k) : FailsOos (splitBufferV1 b h k) := by
  unfold splitBufferV1; kinds
macro_rules | `(tactic| known_kind) => `(tactic| exact splitV1_kind _ _ _)
theorem splitV2_kind (b h k) : FailsOos (splitBufferV2 b h k) := by
  unfold splitBufferV2; kinds
macro_rules | `(tactic| known_kind) => `(tactic| exact splitV2_kind _ _ _)
theorem splitBuffer_kind (p) : FailsOos (splitBuffer p) := by
  unfold splitBuffer; kinds
macro_rules | `(tactic| known_kind) => `(tactic| exact splitBuffer_kind _)
theorem unwrapThrift_kind (p) : FailsOos (Encoding.unwrapThrift p) := by
  unfold Encoding.unwrapThrift; kinds
macro_rules | `(tactic| known_kind) => `(tactic| exact unwrapThrift_kind _)
theorem pageEncoding_kind (p) : FailsOos (DataPage.encoding p) := by
  unfold DataPage.encoding; kinds
macro_rules | `(tactic| known_kind) => `(tactic| exact pageEncoding_kind _)
theorem dictIndices_kind (p) : FailsOos (Deser.dictIndicesDecoder p) := by
  unfold Deser.dictIndicesDecoder; kinds
macro_rules | `(tactic| known_kind) => `(tactic| exact dictIndices_kind _)
theorem defLevels_kind (p) : FailsOos (Deser.DefLevels.tryNew p) := by
  unfold Deser.DefLevels.tryNew; kinds
macro_rules | `(tactic| known_kind) => `(tactic| exact defLevels_kind _)
theorem nativeCast_kind (b p) : FailsOos (Deser.nativeCast b p) := by
  unfold Deser.nativeCast; kinds
macro_rules | `(tactic| known_kind) => `(tactic| exact nativeCast_kind _ _)
theorem fixedIter_kind (b p) : FailsOos (Deser.fixedIter b p) := by
  unfold Deser.fixedIter; kinds
macro_rules | `(tactic| known_kind) => `(tactic| exact fixedIter_kind _ _)
theorem dictState_kind {ι π : Type} (p) (d : π) :
    FailsOos (Deser.dictionaryState p d : Res (Deser.PageState ι π)) := by
  unfold Deser.dictionaryState; kinds
theorem bitmapNew_kind (s o l) : FailsOos (Bitmap.Iter.new s o l) := by
  unfold Bitmap.Iter.new; kinds
macro_rules | `(tactic| known_kind) => `(tactic| exact bitmapNew_kind _ _ _)

/-! ### writing -/

theorem tryI32_kind (n) : FailsOos (tryI32 n) := by
  unfold tryI32; kinds
macro_rules | `(tactic| known_kind) => `(tactic| exact tryI32_kind _)
theorem tryI64_kind (n) : FailsOos (tryI64 n) := by
  unfold tryI64; kinds
macro_rules | `(tactic| known_kind) => `(tactic| exact tryI64_kind _)
theorem maybeBytes_kind (a b) : FailsOos (maybeBytes a b) := by
  unfold maybeBytes; kinds
macro_rules | `(tactic| known_kind) => `(tactic| exact maybeBytes_kind _ _)
theorem assembleData_kind (p) : FailsOos (assembleDataPageHeader p) := by
  unfold assembleDataPageHeader; kinds
macro_rules | `(tactic| known_kind) => `(tactic| exact assembleData_kind _)
theorem assembleDict_kind (p) : FailsOos (assembleDictPageHeader p) := by
  unfold assembleDictPageHeader; kinds
macro_rules | `(tactic| known_kind) => `(tactic| exact assembleDict_kind _)
theorem assemble_kind (p) : FailsOos (assembleHeader p) := by
  unfold assembleHeader; kinds
macro_rules | `(tactic| known_kind) => `(tactic| exact assemble_kind _)
theorem pageStatistics_kind (p) : FailsOos (pageStatistics p) := by
  unfold pageStatistics; kinds
macro_rules | `(tactic| known_kind) => `(tactic| exact pageStatistics_kind _)
theorem lastSelected_kind (p) : FailsOos (lastSelected p) := by
  unfold lastSelected; kinds
macro_rules | `(tactic| known_kind) => `(tactic| exact lastSelected_kind _)
theorem writePage_kind (c o p) : FailsOos (writePage c o p).1 := by
  unfold writePage
  split
  · next h => exact Kinds.of_eq h (assemble_kind p)
  · exact Kinds.panic
  · dsimp only; kinds
theorem writePages_kind {P : Err → Prop} (h0 : P .oos) (c) : ∀ o pages, (∀ p ∈ pages, Fails P p) →
    Fails P (writePages c o pages).1
  | _, [], _ => Kinds.ok _
  | _, .err e :: _, h => by
    unfold writePages
    exact Kinds.of_eq rfl (h (.err e) (List.mem_cons_self ..))
  | _, .panic :: _, _ => by unfold writePages; exact Kinds.panic
  | o, .ok page :: pages, h => by
    have h1 := writePage_kind c o page
    have h2 := fun o' => writePages_kind h0 c o' pages fun p hp => h p (List.mem_cons_of_mem _ hp)
    unfold writePages
    rcases hw : writePage c o page with ⟨r, b⟩
    rw [hw] at h1
    cases r with
    | err e => exact Kinds.err (by rw [h1 e rfl]; exact h0)
    | panic => exact Kinds.panic
    | ok spec => exact Kinds.map' (h2 _)
theorem sumI64_kind (ck) : ∀ acc xs, FailsOos (sumI64 ck acc xs)
  | _, [] => Kinds.ok _
  | acc, x :: xs => by
    have := fun a => sumI64_kind ck a xs
    unfold sumI64; kinds
    exact this _
macro_rules | `(tactic| known_kind) => `(tactic| exact sumI64_kind _ _ _)
theorem pageSize_kind (a b c) : FailsOos (pageSize a b c) := by
  unfold pageSize; kinds
macro_rules | `(tactic| known_kind) => `(tactic| exact pageSize_kind _ _ _)
theorem specValues_kind (a) : FailsOos (specValues a) := by
  unfold specValues; kinds
macro_rules | `(tactic| known_kind) => `(tactic| exact specValues_kind _)
theorem specEncodings_kind (a) : FailsOos (specEncodings a) := by
  unfold specEncodings; kinds
macro_rules | `(tactic| known_kind) => `(tactic| exact specEncodings_kind _)
theorem chunkCompression_kind (a) : FailsOos (chunkCompression a) := by
  unfold chunkCompression; kinds
macro_rules | `(tactic| known_kind) => `(tactic| exact chunkCompression_kind _)
theorem sumOf_kind (ck f specs) (h : ∀ s, FailsOos (f s)) : FailsOos (sumOf ck f specs) := by
  unfold sumOf
  exact Kinds.bind (collectMap_kind _ _ h) fun _ _ => sumI64_kind _ _ _
macro_rules | `(tactic| known_kind) => `(tactic| refine sumOf_kind _ _ _ (fun _ => ?_))
theorem reduceSingle_kind {α : Type} (a b : Option α) (op) (h : ∀ x y, FailsOos (op x y)) :
    FailsOos (reduceSingle a b op) := by
  have := h
  cases a <;> cases b <;> first | exact Kinds.ok _ | exact Kinds.map' (h _ _)
macro_rules | `(tactic| known_kind) => `(tactic| refine reduceSingle_kind _ _ _ (fun _ _ => ?_))
theorem foldlM_kind {α : Type} {P : Err → Prop} (f : α → α → Res α) (h : ∀ x y, Fails P (f x y)) :
    ∀ (l : List α) x, Fails P (l.foldlM f x)
  | [], _ => Kinds.pure _
  | y :: ys, x => by
    rw [List.foldlM_cons]
    exact Kinds.bind (h _ _) fun _ _ => foldlM_kind f h ys _
theorem reduceFold_kind {α : Type} (f : α → α → Res α) (l) (h : ∀ x y, FailsOos (f x y)) :
    FailsOos (reduceFold f l) := by
  unfold reduceFold
  split
  · exact Kinds.panic
  · exact foldlM_kind f h _ _
macro_rules | `(tactic| known_kind) => `(tactic| refine reduceFold_kind _ _ (fun _ _ => ?_))
theorem downcastAll_kind {α : Type} (f : Statistics → Option α) : ∀ l, FailsOos (downcastAll f l)
  | [] => Kinds.ok _
  | x :: xs => by
    have := downcastAll_kind f xs
    unfold downcastAll; kinds
macro_rules | `(tactic| known_kind) => `(tactic| exact downcastAll_kind _ _)
theorem reduceBinary_kind (a b) : FailsOos (reduceBinary a b) := by
  unfold reduceBinary; kinds
macro_rules | `(tactic| known_kind) => `(tactic| exact reduceBinary_kind _ _)
theorem reduceFixLen_kind (a b) : FailsOos (reduceFixLenBinary a b) := by
  unfold reduceFixLenBinary; kinds
macro_rules | `(tactic| known_kind) => `(tactic| exact reduceFixLen_kind _ _)
theorem reduceBoolean_kind (a b) : FailsOos (reduceBoolean a b) := by
  unfold reduceBoolean; kinds
macro_rules | `(tactic| known_kind) => `(tactic| exact reduceBoolean_kind _ _)
theorem reducePrimitive_kind {α : Type} (ck gt) (l : List (PrimitiveStatistics α)) :
    FailsOos (reducePrimitive ck gt l) := by
  unfold reducePrimitive; kinds
macro_rules | `(tactic| known_kind) => `(tactic| exact reducePrimitive_kind _ _ _)
theorem reduceStatistics_kind (a b) : FailsOos (reduceStatistics a b) := by
  unfold reduceStatistics; kinds
macro_rules | `(tactic| known_kind) => `(tactic| exact reduceStatistics_kind _ _)
theorem serializeStatistics_kind (a) : FailsOos (serializeStatistics a) := by
  unfold serializeStatistics; kinds
macro_rules | `(tactic| known_kind) => `(tactic| exact serializeStatistics_kind _)
theorem buildColumnChunk_kind (a b c) : FailsOos (buildColumnChunk a b c) := by
  unfold buildColumnChunk; kinds
macro_rules | `(tactic| known_kind) => `(tactic| exact buildColumnChunk_kind _ _ _)
theorem writeColumnChunk_kind {P : Err → Prop} (h0 : P .oos) (cs ck o d pages) (h : ∀ p ∈ pages, Fails P p) :
    Fails P (writeColumnChunk cs ck o d pages).1 := by
  have h1 := writePages_kind h0 cs.page o pages h
  unfold writeColumnChunk
  rcases hw : writePages cs.page o pages with ⟨r, b⟩
  rw [hw] at h1
  cases r with
  | err e => exact Kinds.of_eq rfl h1
  | panic => exact Kinds.panic
  | ok specs =>
    have h2 := buildColumnChunk_kind ck specs d
    dsimp only
    cases hb : buildColumnChunk ck specs d with
    | err e => exact Kinds.err (by rw [h2 e hb]; exact h0)
    | panic => exact Kinds.panic
    | ok chunk =>
      dsimp only
      split
      · exact Kinds.panic
      · exact Kinds.ok _
theorem writeColumns_kind {P : Err → Prop} (h0 : P .oos) (cs ck) : ∀ (ds : List ColumnDescriptor) o columns,
    (∀ c ∈ columns, Fails P c) → (∀ pages, Res.ok pages ∈ columns → ∀ p ∈ pages, Fails P p) →
    Fails P (writeColumns cs ck o ds columns).1
  | [], _, _, _, _ => by unfold writeColumns; exact Kinds.ok _
  | _ :: _, _, [], _, _ => by unfold writeColumns; exact Kinds.ok _
  | _ :: _, _, .err e :: _, h, _ => by
    unfold writeColumns
    exact Kinds.of_eq rfl (h (.err e) (List.mem_cons_self ..))
  | _ :: _, _, .panic :: _, _, _ => by unfold writeColumns; exact Kinds.panic
  | d :: ds, o, .ok pages :: columns, h, hp => by
    have h1 := writeColumnChunk_kind h0 cs ck o d pages (hp pages (List.mem_cons_self ..))
    have h2 := fun o' => writeColumns_kind h0 cs ck ds o' columns
      (fun c hc => h c (List.mem_cons_of_mem _ hc)) fun q hq => hp q (List.mem_cons_of_mem _ hq)
    unfold writeColumns
    rcases hw : writeColumnChunk cs ck o d pages with ⟨r, b⟩
    rw [hw] at h1
    cases r with
    | err e => exact Kinds.of_eq rfl h1
    | panic => exact Kinds.panic
    | ok x => exact Kinds.map' (h2 _)
theorem sumRows_kind (ck) : ∀ acc xs, FailsOos (sumRows ck acc xs)
  | _, [] => Kinds.ok _
  | acc, x :: xs => by
    have := fun a => sumRows_kind ck a xs
    unfold sumRows; kinds
    exact this _
macro_rules | `(tactic| known_kind) => `(tactic| exact sumRows_kind _ _ _)
theorem computeNumRows_kind (a b) : FailsOos (computeNumRows a b) := by
  unfold computeNumRows; kinds
macro_rules | `(tactic| known_kind) => `(tactic| exact computeNumRows_kind _ _)
theorem sumColumns_kind (a b c) : FailsOos (sumColumns a b c) := by
  unfold sumColumns; kinds
macro_rules | `(tactic| known_kind) => `(tactic| exact sumColumns_kind _ _ _)
theorem buildRowGroup_kind (a b c) : FailsOos (buildRowGroup a b c) := by
  unfold buildRowGroup; kinds
macro_rules | `(tactic| known_kind) => `(tactic| exact buildRowGroup_kind _ _ _)
theorem writeRowGroup_kind {P : Err → Prop} (h0 : P .oos) (cs ck o ds columns n)
    (h : ∀ c ∈ columns, Fails P c) (hp : ∀ pages, Res.ok pages ∈ columns → ∀ p ∈ pages, Fails P p) :
    Fails P (writeRowGroup cs ck o ds columns n).1 := by
  have h1 := writeColumns_kind h0 cs ck ds o columns h hp
  unfold writeRowGroup
  rcases hw : writeColumns cs ck o ds columns with ⟨r, b⟩
  rw [hw] at h1
  cases r with
  | err e => exact Kinds.of_eq rfl h1
  | panic => exact Kinds.panic
  | ok x => exact Kinds.map' (Kinds.mono (buildRowGroup_kind _ _ _) fun e he => by rw [he]; exact h0)
theorem columnIndexEntry_kind (a) : FailsOos (columnIndexEntry a) := by
  unfold columnIndexEntry; kinds
macro_rules | `(tactic| known_kind) => `(tactic| exact columnIndexEntry_kind _)
theorem serializeColumnIndex_kind (a) : FailsOos (serializeColumnIndex a) := by
  unfold serializeColumnIndex; kinds
macro_rules | `(tactic| known_kind) => `(tactic| exact serializeColumnIndex_kind _)
theorem pageLocations_kind (ck) : ∀ acc xs, FailsOos (pageLocations ck acc xs)
  | _, [] => Kinds.ok _
  | acc, x :: xs => by
    have := fun a => pageLocations_kind ck a xs
    unfold pageLocations; kinds
    exact this _
macro_rules | `(tactic| known_kind) => `(tactic| exact pageLocations_kind _ _ _)
theorem serializeOffsetIndex_kind (a b) : FailsOos (serializeOffsetIndex a b) := by
  unfold serializeOffsetIndex; kinds
macro_rules | `(tactic| known_kind) => `(tactic| exact serializeOffsetIndex_kind _ _)
theorem writeColumnIndex_kind (a b) : FailsOos (writeColumnIndex a b) := by
  unfold writeColumnIndex; kinds
macro_rules | `(tactic| known_kind) => `(tactic| exact writeColumnIndex_kind _ _)
theorem writeOffsetIndex_kind (a b c) : FailsOos (writeOffsetIndex a b c) := by
  unfold writeOffsetIndex; kinds
macro_rules | `(tactic| known_kind) => `(tactic| exact writeOffsetIndex_kind _ _ _)
theorem indexColumns_kind (index set) (h : ∀ p, FailsOos (index p)) : ∀ o cols specs,
    FailsOos (indexColumns index set o cols specs).1
  | _, [], _ => by unfold indexColumns; exact Kinds.ok _
  | _, _ :: _, [] => by unfold indexColumns; exact Kinds.ok _
  | o, c :: cols, pages :: specs => by
    have h1 := h pages
    have h2 := fun o' => indexColumns_kind index set h o' cols specs
    unfold indexColumns
    cases hi : index pages with
    | err e => exact Kinds.of_eq hi h1
    | panic => exact Kinds.panic
    | ok bytes => exact h2 _
theorem indexGroups_kind (index set) (h : ∀ p, FailsOos (index p)) : ∀ o groups specs,
    FailsOos (indexGroups index set o groups specs).1
  | _, [], _ => by unfold indexGroups; exact Kinds.ok _
  | _, _ :: _, [] => by unfold indexGroups; exact Kinds.ok _
  | o, g :: groups, pages :: specs => by
    have h1 := indexColumns_kind index set h o g.columns pages
    have h2 := fun o' => indexGroups_kind index set h o' groups specs
    unfold indexGroups
    dsimp only
    rcases hi : indexColumns index set o g.columns pages with ⟨r, l⟩
    rw [hi] at h1
    cases r with
    | err e => exact Kinds.of_eq rfl h1
    | panic => exact Kinds.panic
    | ok bytes => exact h2 _

end Pq
