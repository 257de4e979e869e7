import Verif.Spec.Profiles
import Verif.Model.Writer
import Verif.Model.Sidecar
/- Helper lemmas: builds with overflow checks against those without. -/
namespace Pq
open Spec

namespace Agrees

theorem refl {α : Type} (x : Res α) : Agrees x x := .inr rfl
theorem panic {α : Type} (x : Res α) : Agrees .panic x := .inl rfl
theorem bind {α β : Type} {x x' : Res α} {f f' : α → Res β} (h : Agrees x x') (hf : ∀ a, Agrees (f a) (f' a)) :
    Agrees (x >>= f) (x' >>= f') := by
  rcases h with rfl | rfl
  · exact .inl rfl
  · cases x with
    | ok a => exact hf a
    | err e => exact .inr rfl
    | panic => exact .inl rfl
theorem map' {α β : Type} {x x' : Res α} (f : α → β) (h : Agrees x x') : Agrees (x.map' f) (x'.map' f) := by
  rcases h with rfl | rfl
  · exact .inl rfl
  · exact .inr rfl
theorem ite {α : Type} {c : Prop} [Decidable c] {x y x' y' : Res α} (hx : c → Agrees x x')
    (hy : ¬ c → Agrees y y') : Agrees (if c then x else y) (if c then x' else y') := by
  by_cases h : c
  · rw [if_pos h, if_pos h]; exact hx h
  · rw [if_neg h, if_neg h]; exact hy h

end Agrees

theorem foldlM_agrees {α β : Type} (f g : β → α → Res β) (h : ∀ x y, Agrees (f x y) (g x y)) :
    ∀ (l : List α) x, Agrees (l.foldlM f x) (l.foldlM g x)
  | [], _ => .inr rfl
  | y :: ys, x => by
    rw [List.foldlM_cons, List.foldlM_cons]
    exact Agrees.bind (h _ _) fun _ => foldlM_agrees f g h ys _

theorem collectRes_agrees {α β : Type} (f g : α → Res β) (h : ∀ x, Agrees (f x) (g x)) :
    ∀ l : List α, Agrees (collectRes (l.map f)) (collectRes (l.map g))
  | [] => .inr rfl
  | x :: xs => by
    have ih := collectRes_agrees f g h xs
    simp only [List.map_cons, collectRes]
    rcases h x with hx | hx <;> rw [hx]
    · exact .inl rfl
    · rcases ih with ih | ih <;> rw [ih]
      · cases g x with
        | ok a => exact .inl rfl
        | err e => exact .inr rfl
        | panic => exact .inl rfl
      · exact .inr rfl

/-! ### Statistics and the writer -/

theorem addI64_agrees (a b : I64) : Agrees (addI64 true a b) (addI64 false a b) := by
  unfold addI64
  split
  · exact .inl rfl
  · exact .inr (by simp)

theorem reduceSingle_agrees {α : Type} (x y : Option α) (f g : α → α → Res α) (h : ∀ x y, Agrees (f x y) (g x y)) :
    Agrees (reduceSingle x y f) (reduceSingle x y g) := by
  unfold reduceSingle
  cases x <;> cases y <;> first | exact .inr rfl | exact Agrees.map' _ (h _ _)

theorem reduceFold_agrees {α : Type} (f g : α → α → Res α) (h : ∀ x y, Agrees (f x y) (g x y)) (l : List α) :
    Agrees (reduceFold f l) (reduceFold g l) := by
  unfold reduceFold
  cases l with
  | nil => exact .inl rfl
  | cons x xs => exact foldlM_agrees f g h xs x

theorem reduceStatistics_agrees (l : List (Option Statistics)) :
    Agrees (reduceStatistics true l) (reduceStatistics false l) := by
  unfold reduceStatistics
  refine Agrees.ite (fun _ => .inr rfl) fun _ => ?_
  simp only
  cases l.filterMap id with
  | nil => exact .inr rfl
  | cons first rest =>
    simp only
    refine Agrees.ite (fun _ => .inr rfl) fun _ => ?_
    cases first.physicalType <;> first
      | exact .inr rfl
      | (refine Agrees.bind (.inr rfl) fun _ => Agrees.map' _ (reduceFold_agrees _ _ (fun x y => ?_) _)
         try dsimp only
         repeat' (first
           | exact .inr rfl
           | exact reduceSingle_agrees _ _ _ _ fun _ _ => addI64_agrees _ _
           | refine Agrees.bind ?_ fun _ => ?_))

theorem sumI64_agrees : ∀ (l : List I64) acc, Agrees (sumI64 true acc l) (sumI64 false acc l)
  | [], _ => .inr rfl
  | x :: xs, acc => by
    rw [sumI64, sumI64]
    rcases addI64_agrees acc x with h | h <;> rw [h]
    · exact .inl rfl
    · cases addI64 false acc x with
      | ok a => exact sumI64_agrees xs a
      | err e => exact .inr rfl
      | panic => exact .inl rfl

theorem sumOf_agrees (f g : PageWriteSpec → Res I64) (h : ∀ x, Agrees (f x) (g x)) (l : List PageWriteSpec) :
    Agrees (sumOf true f l) (sumOf false g l) :=
  Agrees.bind (collectRes_agrees f g h l) fun _ => sumI64_agrees _ _

theorem buildColumnChunk_agrees (specs : List PageWriteSpec) (d : ColumnDescriptor) :
    Agrees (buildColumnChunk true specs d) (buildColumnChunk false specs d) := by
  unfold buildColumnChunk
  refine Agrees.bind (.inr rfl) fun _ => ?_
  refine Agrees.bind (sumOf_agrees _ _ (fun _ => addI64_agrees _ _) _) fun _ => ?_
  refine Agrees.bind (sumOf_agrees _ _ (fun _ => addI64_agrees _ _) _) fun _ => ?_
  refine Agrees.bind (sumOf_agrees _ _ (fun _ => .inr rfl) _) fun _ => ?_
  refine Agrees.bind (.inr rfl) fun _ => ?_
  refine Agrees.bind (reduceStatistics_agrees _) fun _ => ?_
  refine Agrees.bind (.inr rfl) fun _ => ?_
  exact Agrees.bind (addI64_agrees _ _) fun _ => .inr rfl

theorem writeColumnChunk_agrees (cs : ThriftCodecs) (o : Nat) (d : ColumnDescriptor) (pages : List (Res CompressedPage)) :
    AgreesAfter (writeColumnChunk cs true o d pages) (writeColumnChunk cs false o d pages) := by
  unfold writeColumnChunk
  rcases writePages cs.page o pages with ⟨r, bytes⟩
  cases r with
  | err e => exact .inr rfl
  | panic => exact .inl rfl
  | ok specs =>
    simp only
    rcases buildColumnChunk_agrees specs d with h | h <;> rw [h]
    · exact .inl rfl
    · exact .inr rfl

theorem writeColumns_agrees (cs : ThriftCodecs) : ∀ (columns : List (Res (List (Res CompressedPage))))
    (ds : List ColumnDescriptor) (o : Nat),
    AgreesAfter (writeColumns cs true o ds columns) (writeColumns cs false o ds columns)
  | [], [], _ => .inr rfl
  | _ :: _, [], _ => by unfold writeColumns; exact .inr rfl
  | [], _ :: _, _ => .inr rfl
  | .err e :: _, _ :: _, _ => .inr rfl
  | .panic :: _, _ :: _, _ => .inr rfl
  | .ok pages :: columns, d :: ds, o => by
    rw [writeColumns, writeColumns]
    rcases writeColumnChunk_agrees cs o d pages with h | h
    · rcases hw : writeColumnChunk cs true o d pages with ⟨r, b⟩
      rw [hw] at h
      subst h
      exact .inl rfl
    · rw [h]
      rcases writeColumnChunk cs false o d pages with ⟨r, b⟩
      cases r with
      | err e => exact .inr rfl
      | panic => exact .inl rfl
      | ok x =>
        obtain ⟨chunk, specs, size⟩ := x
        simp only
        rcases writeColumns_agrees cs columns ds (o + size) with h | h
        · left
          simp only [h, Res.map']
        · right
          rw [h]

theorem sumRows_agrees : ∀ (l : List PageWriteSpec) acc, Agrees (sumRows true acc l) (sumRows false acc l)
  | [], _ => .inr rfl
  | s :: ss, acc => by
    rw [sumRows, sumRows]
    cases s.numRows with
    | none => exact .inr rfl
    | some n =>
      simp only
      rcases addI64_agrees acc (asI64 n) with h | h <;> rw [h]
      · exact .inl rfl
      · cases addI64 false acc (asI64 n) with
        | ok a => exact sumRows_agrees ss a
        | err e => exact .inr rfl
        | panic => exact .inl rfl

theorem buildRowGroup_agrees (columns : List (Thrift.ColumnChunk × List PageWriteSpec)) (n : Nat) :
    Agrees (buildRowGroup true columns n) (buildRowGroup false columns n) := by
  unfold buildRowGroup
  refine Agrees.bind ?_ fun _ => ?_
  · cases columns with
    | nil => exact .inr rfl
    | cons c cs => exact sumRows_agrees _ _
  refine Agrees.bind (Agrees.bind (.inr rfl) fun _ => sumI64_agrees _ _) fun _ => ?_
  exact Agrees.bind (Agrees.bind (.inr rfl) fun _ => sumI64_agrees _ _) fun _ => .inr rfl

theorem writeRowGroup_agrees (cs : ThriftCodecs) (o : Nat) (ds : List ColumnDescriptor)
    (columns : List (Res (List (Res CompressedPage)))) (n : Nat) :
    AgreesAfter (writeRowGroup cs true o ds columns n) (writeRowGroup cs false o ds columns n) := by
  unfold writeRowGroup
  rcases writeColumns_agrees cs columns ds o with h | h
  · rcases hw : writeColumns cs true o ds columns with ⟨r, b⟩
    rw [hw] at h
    subst h
    exact .inl rfl
  · rw [h]
    rcases writeColumns cs false o ds columns with ⟨r, b⟩
    cases r with
    | err e => exact .inr rfl
    | panic => exact .inl rfl
    | ok x =>
      obtain ⟨columns, size⟩ := x
      rcases buildRowGroup_agrees columns n with h | h
      · left; simp only [h, Res.map']
      · right; simp only [h]

theorem write_agrees (cs : ThriftCodecs) (w : FileWriter) (rowGroup : List (Res (List (Res CompressedPage)))) :
    AgreesAfter (w.write cs true rowGroup) (w.write cs false rowGroup) := by
  unfold FileWriter.write
  simp only
  generalize w.autoStart = w
  rcases writeRowGroup_agrees cs w.offset w.schema.leaves rowGroup w.rowGroups.length with h | h
  · rcases hw : writeRowGroup cs true w.offset w.schema.leaves rowGroup w.rowGroups.length with ⟨r, b⟩
    rw [hw] at h
    subst h
    exact .inl rfl
  · rw [h]
    exact .inr rfl

theorem pageLocations_agrees : ∀ (l : List PageWriteSpec) first,
    Agrees (pageLocations true first l) (pageLocations false first l)
  | [], _ => .inr rfl
  | s :: ss, first => by
    rw [pageLocations, pageLocations]
    refine Agrees.bind (.inr rfl) fun _ => ?_
    refine Agrees.bind (.inr rfl) fun _ => ?_
    refine Agrees.bind (.inr rfl) fun _ => ?_
    refine Agrees.bind (addI64_agrees _ _) fun _ => ?_
    exact Agrees.bind (pageLocations_agrees ss _) fun _ => .inr rfl

theorem writeOffsetIndex_agrees (cs : ThriftCodecs) (pages : List PageWriteSpec) :
    Agrees (writeOffsetIndex cs true pages) (writeOffsetIndex cs false pages) :=
  Agrees.map' _ (Agrees.bind (pageLocations_agrees _ _) fun _ => .inr rfl)

theorem indexColumns_agrees (index index' : List PageWriteSpec → Res (List Byte))
    (h : ∀ p, Agrees (index p) (index' p)) (set : Thrift.ColumnChunk → I64 → Option I32 → Thrift.ColumnChunk) :
    ∀ (specs : List (List PageWriteSpec)) (columns : List Thrift.ColumnChunk) (o : Nat),
    AgreesAfter (indexColumns index set o columns specs) (indexColumns index' set o columns specs)
  | [], [], _ => .inr rfl
  | _ :: _, [], _ => by unfold indexColumns; exact .inr rfl
  | [], _ :: _, _ => .inr rfl
  | p :: specs, c :: columns, o => by
    rw [indexColumns, indexColumns]
    rcases h p with hp | hp <;> rw [hp]
    · exact .inl rfl
    · cases index' p with
      | err e => exact .inr rfl
      | panic => exact .inl rfl
      | ok b =>
        simp only
        rcases indexColumns_agrees index index' h set specs columns (o + b.length) with h | h
        · left; exact h
        · right; rw [h]

theorem indexGroups_agrees (index index' : List PageWriteSpec → Res (List Byte))
    (h : ∀ p, Agrees (index p) (index' p)) (set : Thrift.ColumnChunk → I64 → Option I32 → Thrift.ColumnChunk) :
    ∀ (specs : List (List (List PageWriteSpec))) (groups : List Thrift.RowGroup) (o : Nat),
    AgreesAfter (indexGroups index set o groups specs) (indexGroups index' set o groups specs)
  | [], [], _ => .inr rfl
  | _ :: _, [], _ => by unfold indexGroups; exact .inr rfl
  | [], _ :: _, _ => .inr rfl
  | p :: specs, g :: groups, o => by
    rw [indexGroups, indexGroups]
    rcases indexColumns_agrees index index' h set p g.columns o with hp | hp
    · rcases hw : indexColumns index set o g.columns p with ⟨r, b⟩
      rw [hw] at hp
      subst hp
      exact .inl rfl
    · rw [hp]
      rcases indexColumns index' set o g.columns p with ⟨r, l⟩
      cases r with
      | err e => exact .inr rfl
      | panic => exact .inl rfl
      | ok b =>
        simp only
        rcases indexGroups_agrees index index' h set specs groups l.offset with h | h
        · left; exact h
        · right; rw [h]

theorem endFile_agrees (cs : ThriftCodecs) (m : Thrift.FileMetaData) :
    AgreesAfter (endFile cs true m) (endFile cs false m) := by
  unfold endFile
  simp only [Bool.true_and, Bool.false_and, Bool.false_eq_true, if_false]
  by_cases h : 2 ^ 64 ≤ asUsize (asI32 (cs.file.ser m).length) + 8
  · left; simp only [h, decide_true, if_true]
  · right; simp only [h, decide_false, Bool.false_eq_true, if_false]

theorem endWith_agrees (finish : FileWriter → Thrift.FileMetaData → FileWriter) (cs : ThriftCodecs) (w : FileWriter)
    (kv : Option (List Thrift.KeyValue)) :
    AgreesAfter (FileWriter.endWith finish cs true w kv) (FileWriter.endWith finish cs false w kv) := by
  unfold FileWriter.endWith
  simp only
  generalize w.autoStart = w
  by_cases hs : w.state ≠ .started
  · rw [if_pos hs, if_pos hs]; exact .inr rfl
  rw [if_neg hs, if_neg hs]
  rcases sumI64_agrees (w.rowGroups.map (·.numRows)) 0 with h | h <;> rw [h]
  · exact .inl rfl
  cases sumI64 false 0 (w.rowGroups.map (·.numRows)) with
  | err e => exact .inr rfl
  | panic => exact .inl rfl
  | ok rows =>
  simp only
  rcases w.columnIndexes cs with ⟨r, w⟩
  cases r with
  | err e => exact .inr rfl
  | panic => exact .inl rfl
  | ok _ =>
  simp only
  have ho : AgreesAfter (w.offsetIndexes cs true) (w.offsetIndexes cs false) := by
    unfold FileWriter.offsetIndexes
    rcases indexGroups_agrees _ _ (writeOffsetIndex_agrees cs) setOffsetIndex w.pageSpecs w.rowGroups w.offset with h | h
    · left; exact h
    · right; rw [h]
  rcases ho with h | h
  · rcases hw : w.offsetIndexes cs true with ⟨r, b⟩
    rw [hw] at h
    subst h
    exact .inl rfl
  rw [h]
  rcases w.offsetIndexes cs false with ⟨r, w⟩
  cases r with
  | err e => exact .inr rfl
  | panic => exact .inl rfl
  | ok _ =>
  simp only
  rcases endFile_agrees cs (w.fileMetadata rows kv) with h | h
  · rcases hw : endFile cs true (w.fileMetadata rows kv) with ⟨r, b⟩
    rw [hw] at h
    subst h
    exact .inl rfl
  · rw [h]; exact .inr rfl

end Pq
