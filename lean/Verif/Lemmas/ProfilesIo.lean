import Verif.Model.Sink
import Verif.Model.PageSource
import Verif.Model.RangedStreamer
import Verif.Lemmas.Profiles
import Verif.Lemmas.ProfilesRead
/-
Overflow checks compared (`Spec/Profiles`), for functions that write to a sink or read from a reader.
-/
namespace Pq
open Spec

namespace AgreesIo

variable {σ α β : Type}

theorem bind {m m' : IoM σ α} {f f' : α → IoM σ β} (h : ∀ s, AgreesAfter (m s) (m' s))
    (hf : ∀ a s, AgreesAfter (f a s) (f' a s)) (s : σ) : AgreesAfter ((m >>= f) s) ((m' >>= f') s) := by
  show AgreesAfter (IoM.bind m f s) (IoM.bind m' f' s)
  unfold IoM.bind
  rcases h s with h | h
  · rcases hm : m s with ⟨r, t⟩
    rw [hm] at h
    subst h
    exact .inl rfl
  · rw [h]
    rcases m' s with ⟨r, t⟩
    cases r with
    | ok a => exact hf a t
    | err e => exact .inr rfl
    | panic => exact .inl rfl

theorem lift {r r' : Res α} (h : Agrees r r') (s : σ) : AgreesAfter (IoM.lift r s) (IoM.lift r' s) := by
  rcases h with h | h
  · exact .inl h
  · rw [h]; exact .inr rfl

theorem refl (m : IoM σ α) (s : σ) : AgreesAfter (m s) (m s) := .inr rfl

end AgreesIo

/-! ### Sinks -/

section
variable {σ : Type} (o : Output σ) (cs : ThriftCodecs)

theorem writeColumnChunkTo_agrees (offset : Nat) (d : ColumnDescriptor) (pages : List (Res CompressedPage)) :
    ∀ s, AgreesAfter (writeColumnChunkTo o cs true offset d pages s) (writeColumnChunkTo o cs false offset d pages s) :=
  AgreesIo.bind (AgreesIo.refl _) fun _ =>
    AgreesIo.bind (AgreesIo.lift (buildColumnChunk_agrees _ _)) fun _ => AgreesIo.refl _

theorem writeColumnsTo_agrees : ∀ (columns : List (Res (List (Res CompressedPage))))
    (ds : List ColumnDescriptor) (offset : Nat) (s : σ),
    AgreesAfter (writeColumnsTo o cs true offset ds columns s) (writeColumnsTo o cs false offset ds columns s)
  | [], [], _, _ => .inr rfl
  | _ :: _, [], _, _ => by unfold writeColumnsTo; exact .inr rfl
  | [], _ :: _, _, _ => .inr rfl
  | pages :: columns, d :: ds, offset, s => by
    rw [writeColumnsTo, writeColumnsTo]
    refine AgreesIo.bind (AgreesIo.refl _) (fun pages => ?_) s
    refine AgreesIo.bind (writeColumnChunkTo_agrees o cs offset d pages) fun x => ?_
    exact AgreesIo.bind (writeColumnsTo_agrees columns ds _) fun _ => AgreesIo.refl _

theorem writeRowGroupTo_agrees (offset : Nat) (ds : List ColumnDescriptor)
    (columns : List (Res (List (Res CompressedPage)))) (n : Nat) :
    ∀ s, AgreesAfter (writeRowGroupTo o cs true offset ds columns n s) (writeRowGroupTo o cs false offset ds columns n s) :=
  AgreesIo.bind (writeColumnsTo_agrees o cs columns ds offset) fun _ =>
    AgreesIo.bind (AgreesIo.lift (buildRowGroup_agrees _ _)) fun _ => AgreesIo.refl _

theorem writeOffsetIndexTo_agrees (pages : List PageWriteSpec) :
    ∀ s, AgreesAfter (writeOffsetIndexTo o cs true pages s) (writeOffsetIndexTo o cs false pages s) :=
  AgreesIo.bind (AgreesIo.lift (Agrees.bind (pageLocations_agrees _ _) fun _ => .inr rfl)) fun _ => AgreesIo.refl _

theorem endFileTo_agrees (m : Thrift.FileMetaData) :
    ∀ s, AgreesAfter (endFileTo o cs true m s) (endFileTo o cs false m s) := by
  refine AgreesIo.bind (AgreesIo.refl _) fun n => ?_
  refine AgreesIo.bind (AgreesIo.refl _) fun _ => ?_
  refine AgreesIo.bind (AgreesIo.refl _) fun _ => ?_
  refine AgreesIo.lift ?_
  simp only [Bool.true_and, Bool.false_and, Bool.false_eq_true, if_false]
  by_cases h : 2 ^ 64 ≤ asUsize (asI32 n) + 8
  · left; simp only [h, decide_true, if_true]
  · right; simp only [h, decide_false, Bool.false_eq_true, if_false]

theorem writeMetadataSidecarTo_agrees (m : Thrift.FileMetaData) :
    ∀ s, AgreesAfter (writeMetadataSidecarTo o cs true m s) (writeMetadataSidecarTo o cs false m s) :=
  AgreesIo.bind (AgreesIo.refl _) fun _ =>
    AgreesIo.bind (endFileTo_agrees o cs m) fun _ => AgreesIo.refl _

theorem sinkWrite_agrees (w : SinkWriter σ) (rowGroup : List (Res (List (Res CompressedPage)))) :
    AgreesAfter (w.write o cs true rowGroup) (w.write o cs false rowGroup) := by
  unfold SinkWriter.write
  rcases w.autoStart o with ⟨r, w⟩
  cases r with
  | err e => exact .inr rfl
  | panic => exact .inl rfl
  | ok _ =>
  simp only
  unfold SinkWriter.writeStarted
  rcases writeRowGroupTo_agrees o cs w.rest.offset w.rest.schema.leaves rowGroup w.rest.rowGroups.length w.sink with h | h
  · rcases hw : writeRowGroupTo o cs true w.rest.offset w.rest.schema.leaves rowGroup w.rest.rowGroups.length w.sink
      with ⟨r, b⟩
    rw [hw] at h
    subst h
    exact .inl rfl
  · rw [h]; exact .inr rfl

theorem indexColumnsTo_agrees (index index' : List PageWriteSpec → IoM σ Nat)
    (h : ∀ p s, AgreesAfter (index p s) (index' p s))
    (set : Thrift.ColumnChunk → I64 → Option I32 → Thrift.ColumnChunk) :
    ∀ (specs : List (List PageWriteSpec)) (columns : List Thrift.ColumnChunk) (o : Nat) (s : σ),
    (indexColumnsTo index set o columns specs s).1.1 = .panic ∨
      indexColumnsTo index set o columns specs s = indexColumnsTo index' set o columns specs s
  | [], [], _, _ => .inr rfl
  | _ :: _, [], _, _ => by unfold indexColumnsTo; exact .inr rfl
  | [], _ :: _, _, _ => .inr rfl
  | p :: specs, c :: columns, o, s => by
    rw [indexColumnsTo, indexColumnsTo]
    rcases h p s with hp | hp
    · rcases hw : index p s with ⟨r, t⟩
      rw [hw] at hp
      subst hp
      exact .inl rfl
    · rw [hp]
      rcases index' p s with ⟨r, t⟩
      cases r with
      | err e => exact .inr rfl
      | panic => exact .inl rfl
      | ok n =>
        simp only
        rcases indexColumnsTo_agrees index index' h set specs columns (o + n) t with h | h
        · left; exact h
        · right; rw [h]

theorem indexGroupsTo_agrees (index index' : List PageWriteSpec → IoM σ Nat)
    (h : ∀ p s, AgreesAfter (index p s) (index' p s))
    (set : Thrift.ColumnChunk → I64 → Option I32 → Thrift.ColumnChunk) :
    ∀ (specs : List (List (List PageWriteSpec))) (groups : List Thrift.RowGroup) (o : Nat) (s : σ),
    (indexGroupsTo index set o groups specs s).1.1 = .panic ∨
      indexGroupsTo index set o groups specs s = indexGroupsTo index' set o groups specs s
  | [], [], _, _ => .inr rfl
  | _ :: _, [], _, _ => by unfold indexGroupsTo; exact .inr rfl
  | [], _ :: _, _, _ => .inr rfl
  | p :: specs, g :: groups, o, s => by
    rw [indexGroupsTo, indexGroupsTo]
    rcases indexColumnsTo_agrees index index' h set p g.columns o s with hp | hp
    · rcases hw : indexColumnsTo index set o g.columns p s with ⟨⟨r, o', cols⟩, t⟩
      rw [hw] at hp
      subst hp
      exact .inl rfl
    · rw [hp]
      rcases indexColumnsTo index' set o g.columns p s with ⟨⟨r, o', cols⟩, t⟩
      cases r with
      | err e => exact .inr rfl
      | panic => exact .inl rfl
      | ok b =>
        simp only
        rcases indexGroupsTo_agrees index index' h set specs groups o' t with h | h
        · left; exact h
        · right; rw [h]

theorem sinkEndWith_agrees (finish : FileWriter → Thrift.FileMetaData → FileWriter) (w : SinkWriter σ)
    (kv : Option (List Thrift.KeyValue)) :
    AgreesAfter (w.endWith o finish cs true kv) (w.endWith o finish cs false kv) := by
  unfold SinkWriter.endWith
  rcases w.autoStart o with ⟨r, w⟩
  cases r with
  | err e => exact .inr rfl
  | panic => exact .inl rfl
  | ok _ =>
  simp only
  unfold SinkWriter.endStarted
  by_cases hs : w.rest.state ≠ .started
  · rw [if_pos hs, if_pos hs]; exact .inr rfl
  rw [if_neg hs, if_neg hs]
  rcases sumI64_agrees (w.rest.rowGroups.map (·.numRows)) 0 with h | h <;> rw [h]
  · exact .inl rfl
  cases sumI64 false 0 (w.rest.rowGroups.map (·.numRows)) with
  | err e => exact .inr rfl
  | panic => exact .inl rfl
  | ok rows =>
  simp only
  rcases w.columnIndexes o cs with ⟨r, w⟩
  cases r with
  | err e => exact .inr rfl
  | panic => exact .inl rfl
  | ok _ =>
  simp only
  have ho : AgreesAfter (w.offsetIndexes o cs true) (w.offsetIndexes o cs false) := by
    unfold SinkWriter.offsetIndexes
    rcases indexGroupsTo_agrees (writeOffsetIndexTo o cs true) (writeOffsetIndexTo o cs false)
      (writeOffsetIndexTo_agrees o cs) setOffsetIndex w.rest.pageSpecs w.rest.rowGroups w.rest.offset w.sink with h | h
    · left; exact h
    · right; rw [h]
  rcases ho with h | h
  · rcases hw : w.offsetIndexes o cs true with ⟨r, b⟩
    rw [hw] at h
    subst h
    exact .inl rfl
  rw [h]
  rcases w.offsetIndexes o cs false with ⟨r, w⟩
  cases r with
  | err e => exact .inr rfl
  | panic => exact .inl rfl
  | ok _ =>
  simp only
  unfold SinkWriter.endMetadata
  simp only
  rcases endFileTo_agrees o cs (w.rest.fileMetadata rows kv) w.sink with h | h
  · rcases hw : endFileTo o cs true (w.rest.fileMetadata rows kv) w.sink with ⟨r, b⟩
    rw [hw] at h
    subst h
    exact .inl rfl
  · rw [h]; exact .inr rfl

end

/-! ### Readers -/

section
variable {σ : Type} (i : Input σ) (p : Protocol Thrift.PageHeader) (calls : Nat)

theorem buildPageFrom_agrees (r : PageReader) (s : σ) :
    AgreesAfter (buildPageFrom i p true calls r s) (buildPageFrom i p false calls r s) := by
  unfold buildPageFrom
  rcases p.readFrom i r.maxPageSize calls [] s with ⟨x, s⟩
  cases x with
  | err e => exact .inr rfl
  | panic => exact .inl rfl
  | ok header =>
  simp only
  cases getPageHeader header with
  | err e => exact .inr rfl
  | panic => exact .inl rfl
  | ok dataHeader =>
  simp only
  rcases addI64_agrees r.seenNumValues (headerValues dataHeader) with h | h <;> rw [h]
  · exact .inl rfl
  · exact .inr rfl

theorem nextFuelFrom_agrees : ∀ (fuel : Nat) (x : PageReader × σ),
    AgreesItem (PageReader.nextFuelFrom i p true calls fuel x) (PageReader.nextFuelFrom i p false calls fuel x)
  | 0, _ => .inr rfl
  | fuel + 1, (r, s) => by
    unfold PageReader.nextFuelFrom
    by_cases hc : r.totalNumValues.toInt ≤ r.seenNumValues.toInt
    · rw [if_pos hc, if_pos hc]
      exact .inr rfl
    · rw [if_neg hc, if_neg hc]
      rcases buildPageFrom_agrees i p calls { r with scratch := [] } s with h | h
      · rcases hb : buildPageFrom i p true calls { r with scratch := [] } s with ⟨x, r', s'⟩
        rw [hb] at h
        subst h
        exact .inl rfl
      · rw [h]
        rcases buildPageFrom i p false calls { r with scratch := [] } s with ⟨x, r', s'⟩
        simp only
        by_cases hw : r'.wants x = true
        · rw [if_pos hw, if_pos hw]; exact .inr rfl
        · rw [if_neg hw, if_neg hw]; exact nextFuelFrom_agrees fuel _

theorem streamFuelFrom_agrees : ∀ (fuel : Nat) (x : PageReader × σ),
    AgreesItem (PageStream.nextFuelFrom i p true calls fuel x) (PageStream.nextFuelFrom i p false calls fuel x)
  | 0, _ => .inr rfl
  | fuel + 1, (r, s) => by
    unfold PageStream.nextFuelFrom
    by_cases hc : r.totalNumValues.toInt ≤ r.seenNumValues.toInt
    · rw [if_pos hc, if_pos hc]; exact .inr rfl
    rw [if_neg hc, if_neg hc]
    rcases p.readFrom i r.maxPageSize calls [] s with ⟨x, s⟩
    cases x with
    | err e => exact .inr rfl
    | panic => exact .inl rfl
    | ok header =>
    simp only
    cases getPageHeader header with
    | err e => exact .inr rfl
    | panic => exact .inl rfl
    | ok dataHeader =>
    simp only
    rcases addI64_agrees r.seenNumValues (headerValues dataHeader) with h | h <;> rw [h]
    · exact .inl rfl
    cases addI64 false r.seenNumValues (headerValues dataHeader) with
    | err e => exact .inr rfl
    | panic => exact .inl rfl
    | ok seen =>
    simp only
    cases toUsize header.compressedPageSize with
    | err e => exact .inr rfl
    | panic => exact .inl rfl
    | ok readSize =>
    simp only
    cases dataHeader with
    | none =>
      simp only [Bool.false_eq_true, if_false]
      exact .inr rfl
    | some dh =>
      simp only
      by_cases hs : (!r.pagesFilter r.descriptor dh) = true
      · rw [if_pos hs, if_pos hs]
        rcases i.takeToEnd readSize s with ⟨x, s⟩
        cases x with
        | err e => exact .inr rfl
        | panic => exact .inl rfl
        | ok b => exact streamFuelFrom_agrees fuel _
      · rw [if_neg hs, if_neg hs]; exact .inr rfl

theorem streamNextFrom_agrees (fuel : Nat) (x : PageStream × σ) :
    AgreesItem (PageStream.nextFrom i p true calls fuel x) (PageStream.nextFrom i p false calls fuel x) := by
  obtain ⟨st, s⟩ := x
  unfold PageStream.nextFrom
  by_cases hf : st.failed = true
  · simp only [if_pos hf]; exact .inr rfl
  · simp only [if_neg hf]; exact streamFuelFrom_agrees i p calls fuel _

theorem indexedNextFrom_agrees (codec : Codec Thrift.PageHeader) (x : IndexedReader × σ) :
    AgreesItem (IndexedReader.nextFrom i true codec x) (IndexedReader.nextFrom i false codec x) := by
  obtain ⟨r, s⟩ := x
  unfold IndexedReader.nextFrom
  by_cases hm : r.maybeDict = true
  · simp only [if_pos hm]
    unfold IndexedReader.readDictFrom
    cases r.pages.head? with
    | none => exact .inr rfl
    | some p =>
      simp only
      rcases usub_agrees p.start r.columnStart with h | h <;> rw [h]
      · exact .inl rfl
      · exact .inr rfl
  · simp only [if_neg hm]; exact .inr rfl

theorem readColumnsIndexesFrom_agrees (codec : Codec Thrift.ColumnIndex) (chunks : List ColumnChunkMetaData) :
    ∀ s, AgreesAfter (readColumnsIndexesFrom i true codec chunks s) (readColumnsIndexesFrom i false codec chunks s) :=
  AgreesIo.bind (AgreesIo.refl _) fun _ =>
    AgreesIo.bind (AgreesIo.lift (sumUsize_agrees _ _)) fun _ => AgreesIo.refl _

theorem readPagesLocationsFrom_agrees (codec : Codec Thrift.OffsetIndex) (chunks : List ColumnChunkMetaData) :
    ∀ s, AgreesAfter (readPagesLocationsFrom i true codec chunks s) (readPagesLocationsFrom i false codec chunks s) :=
  AgreesIo.bind (AgreesIo.refl _) fun _ =>
    AgreesIo.bind (AgreesIo.lift (sumUsize_agrees _ _)) fun _ => AgreesIo.refl _

end

/-! ### Ranges of a remote object -/

theorem rangeIncludes_agrees (a b : Nat × Nat) : Agrees (rangeIncludes true a b) (rangeIncludes false a b) :=
  Agrees.ite (fun _ => .inr rfl) fun _ =>
    Agrees.bind (uadd_agrees _ _) fun _ => Agrees.bind (uadd_agrees _ _) fun _ => .inr rfl

theorem rangedCopy_agrees (s : RangedStreamer) (output : SeekOutput) (n : Nat) :
    (s.copy true output n).1 = .panic ∨ s.copy true output n = s.copy false output n := by
  unfold RangedStreamer.copy
  simp only
  cases slice output.data (s.pos - output.start) (s.pos - output.start + n) with
  | err e => exact .inr rfl
  | panic => exact .inl rfl
  | ok b =>
    simp only
    rcases uadd_agrees s.pos n with h | h <;> rw [h]
    · exact .inl rfl
    · exact .inr rfl

theorem pollRead_agrees (get : RangeGet) : ∀ (depth : Nat) (s : RangedStreamer) (n : Nat),
    (s.pollRead true get depth n).1 = .panic ∨ s.pollRead true get depth n = s.pollRead false get depth n
  | 0, _, _ => .inr rfl
  | depth + 1, s, n => by
    rw [RangedStreamer.pollRead, RangedStreamer.pollRead]
    cases s.state with
    | hasChunk output =>
      simp only
      rcases rangeIncludes_agrees (output.start, output.data.length) (s.pos, n) with h | h <;> rw [h]
      · exact .inl rfl
      · rcases rangeIncludes false (output.start, output.data.length) (s.pos, n) with b | e | _
        · cases b
          · exact pollRead_agrees get depth _ n
          · exact rangedCopy_agrees s output n
        · exact .inr rfl
        · exact .inl rfl
    | seeking future =>
      simp only
      cases future.pending with
      | succ k => exact .inr rfl
      | zero =>
        cases future.result with
        | some output => exact pollRead_agrees get depth _ n
        | none => exact .inr rfl
    | completed => exact .inl rfl

theorem awaitRead_agrees (get : RangeGet) (depth : Nat) : ∀ (polls : Nat) (s : RangedStreamer) (n : Nat),
    (s.awaitRead true get depth polls n).1 = .panic ∨
      s.awaitRead true get depth polls n = s.awaitRead false get depth polls n
  | 0, _, _ => .inr rfl
  | polls + 1, s, n => by
    rw [RangedStreamer.awaitRead, RangedStreamer.awaitRead]
    rcases pollRead_agrees get depth s n with h | h
    · rcases hp : s.pollRead true get depth n with ⟨x, t⟩
      rw [hp] at h
      subst h
      exact .inl rfl
    · rw [h]
      rcases s.pollRead false get depth n with ⟨x, t⟩
      cases x with
      | pending => exact awaitRead_agrees get depth polls t n
      | _ => exact .inr rfl

end Pq
