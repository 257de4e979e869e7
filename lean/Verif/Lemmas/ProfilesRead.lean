import Verif.Lemmas.Profiles
import Verif.Lemmas.DeltaChecked
import Verif.Model.BasicDecompressor
import Verif.Model.FileMetadata
import Verif.Model.Indexes
import Verif.Model.Bloom
import Verif.Model.SchemaChecked
import Verif.Model.HybridRleChecked
import Verif.Spec.PageSource
/- Helper lemmas: builds with overflow checks against those without, reading and encodings. -/
namespace Pq
open Spec

theorem uadd_agrees (a b : Nat) : Agrees (uadd true a b) (uadd false a b) := by
  unfold uadd
  refine Agrees.ite (fun _ => .inr rfl) fun _ => ?_
  exact .inl rfl

theorem usub_agrees (a b : Nat) : Agrees (Deser.usub true a b) (Deser.usub false a b) := by
  unfold Deser.usub
  refine Agrees.ite (fun _ => .inr rfl) fun _ => ?_
  exact .inl rfl

theorem addI32_agrees (a b : I32) : Agrees (addI32 true a b) (addI32 false a b) := by
  unfold addI32
  split
  · exact .inl rfl
  · exact .inr (by simp)

/-! ### Compression -/

theorem compressData_agrees (cs : Codecs) (page : DataPage) (b : List Byte) (o : CompressionOptions) :
    Agrees (compressData cs true page b o) (compressData cs false page b o) := by
  unfold compressData
  simp only
  by_cases ho : o ≠ .uncompressed
  · rw [if_pos ho, if_pos ho]
    cases page.header with
    | v1 h => exact .inr rfl
    | v2 h =>
      exact Agrees.bind (addI32_agrees _ _) fun _ => .inr rfl
  · rw [if_neg ho, if_neg ho]; exact .inr rfl

theorem compressPage_agrees (cs : Codecs) (page : Page) (b : List Byte) (o : CompressionOptions) :
    Agrees (compressPage cs true page b o) (compressPage cs false page b o) := by
  cases page with
  | data p => exact Agrees.map' _ (compressData_agrees cs p b o)
  | dict p => exact .inr rfl

theorem compressorAdvance_agrees (cs : Codecs) (c : Compressor) :
    AgreesAfter (c.advance cs true) (c.advance cs false) := by
  unfold Compressor.advance
  have key : ∀ (taken : List Byte) (d : Compressor), AgreesAfter
      (match d.iter with
        | [] => (Res.ok (), { d with current := none })
        | item :: iter =>
          match item >>= fun page => compressPage cs true page taken d.compression with
          | .ok page => (.ok (), { d with iter, current := some page })
          | .err e => (.err e, { d with iter })
          | .panic => (.panic, { d with iter }))
      (match d.iter with
        | [] => (Res.ok (), { d with current := none })
        | item :: iter =>
          match item >>= fun page => compressPage cs false page taken d.compression with
          | .ok page => (.ok (), { d with iter, current := some page })
          | .err e => (.err e, { d with iter })
          | .panic => (.panic, { d with iter })) := by
    intro taken d
    cases d.iter with
    | nil => exact .inr rfl
    | cons item iter =>
      simp only
      cases item with
      | err e => exact .inr rfl
      | panic => exact .inl rfl
      | ok p =>
        simp only [Res.ok_bind]
        rcases compressPage_agrees cs p taken d.compression with h | h <;> rw [h]
        · exact .inl rfl
        · exact .inr rfl
  obtain ⟨iter, compression, buffer, current⟩ := c
  cases current with
  | none => exact key _ ⟨iter, compression, [], none⟩
  | some page => exact key _ ⟨iter, compression, buffer, some (page.setBuffer [])⟩

theorem decompressV2_agrees (cs : Codecs) (b : List Byte) (h : Thrift.DataPageHeaderV2) (c : Compression)
    (o : List Byte) : AgreesAfter (decompressV2 cs true b h c o) (decompressV2 cs false b h c o) := by
  unfold decompressV2
  rcases addI32_agrees h.definitionLevelsByteLength h.repetitionLevelsByteLength with h' | h' <;> rw [h']
  · exact .inl rfl
  · exact .inr rfl

theorem decompressBuffer_agrees (cs : Codecs) (page : CompressedPage) (cap : Nat) (b : List Byte) :
    AgreesAfter (decompressBuffer cs true page cap b) (decompressBuffer cs false page cap b) := by
  unfold decompressBuffer
  by_cases hc : page.compression ≠ .uncompressed
  · rw [if_pos hc, if_pos hc]
    simp only
    have : AgreesAfter (decompressInto cs true page (prepareBuffer cap b page.uncompressedSize))
        (decompressInto cs false page (prepareBuffer cap b page.uncompressedSize)) := by
      unfold decompressInto
      cases page with
      | dict p => exact .inr rfl
      | data p =>
        dsimp only
        cases p.header with
        | v1 h => exact .inr rfl
        | v2 h => exact decompressV2_agrees _ _ _ _ _
    rcases this with h | h
    · left; simp only [h, Res.map']
    · right; rw [h]
  · rw [if_neg hc, if_neg hc]
    exact .inr rfl

theorem decompressPage_agrees (cs : Codecs) (page : CompressedPage) (cap : Nat) (b : List Byte) :
    Agrees (decompressPage cs true page cap b) (decompressPage cs false page cap b) := by
  unfold decompressPage
  rcases decompressBuffer_agrees cs page cap b with h | h
  · rcases hw : decompressBuffer cs true page cap b with ⟨r, x⟩
    rw [hw] at h
    subst h
    exact .inl rfl
  · rw [h]; exact .inr rfl

/-! ### Page readers -/

theorem buildPage_agrees (codec : Codec Thrift.PageHeader) (r : PageReader) :
    AgreesAfter (buildPage codec true r) (buildPage codec false r) := by
  unfold buildPage
  rcases codec.parse r.maxPageSize r.reader with ⟨x, rest⟩
  cases x with
  | err e => exact .inr rfl
  | panic => exact .inl rfl
  | ok header =>
  simp only
  cases getPageHeader header with
  | err e => exact .inr rfl
  | panic => exact .inl rfl
  | ok dataHeader =>
  simp only
  rcases addI64_agrees r.seenNumValues (headerValues dataHeader) with h | h <;> rw [h]
  · exact .inl rfl
  · exact .inr rfl

theorem nextFuel_agrees (codec : Codec Thrift.PageHeader) : ∀ (fuel : Nat) (r : PageReader),
    AgreesItem (PageReader.nextFuel codec true fuel r) (PageReader.nextFuel codec false fuel r)
  | 0, _ => .inr rfl
  | fuel + 1, r => by
    unfold PageReader.nextFuel nextPage
    simp only
    by_cases hc : r.totalNumValues.toInt ≤ r.seenNumValues.toInt
    · simp only [if_pos hc]
      exact .inr rfl
    · simp only [if_neg hc]
      rcases buildPage_agrees codec { r with scratch := [] } with h | h
      · rcases hb : buildPage codec true { r with scratch := [] } with ⟨x, r'⟩
        rw [hb] at h
        subst h
        exact .inl rfl
      · rw [h]
        rcases buildPage codec false { r with scratch := [] } with ⟨x, r'⟩
        simp only
        by_cases hw : r'.wants x = true
        · rw [if_pos hw, if_pos hw]; exact .inr rfl
        · rw [if_neg hw, if_neg hw]; exact nextFuel_agrees codec fuel _

theorem streamFuel_agrees (codec : Codec Thrift.PageHeader) : ∀ (fuel : Nat) (r : PageReader),
    AgreesItem (PageStream.nextFuel codec true fuel r) (PageStream.nextFuel codec false fuel r)
  | 0, _ => .inr rfl
  | fuel + 1, r => by
    unfold PageStream.nextFuel
    by_cases hc : r.totalNumValues.toInt ≤ r.seenNumValues.toInt
    · rw [if_pos hc, if_pos hc]; exact .inr rfl
    rw [if_neg hc, if_neg hc]
    rcases codec.parse r.maxPageSize r.reader with ⟨x, rest⟩
    cases x with
    | err e => exact .inr rfl
    | panic => exact .inl rfl
    | ok header =>
    simp only
    cases getPageHeader header with
    | err e => exact .inr rfl
    | panic => exact .inl rfl
    | ok dataHeader =>
    simp only
    rcases addI64_agrees r.seenNumValues (headerValues dataHeader) with h | h <;> rw [h]
    · exact .inl rfl
    cases addI64 false r.seenNumValues (headerValues dataHeader) with
    | err e => exact .inr rfl
    | panic => exact .inl rfl
    | ok seen =>
    simp only
    cases toUsize header.compressedPageSize with
    | err e => exact .inr rfl
    | panic => exact .inl rfl
    | ok readSize =>
    simp only
    cases dataHeader with
    | none =>
      simp only [Bool.false_eq_true, if_false]
      exact .inr rfl
    | some dh =>
      simp only
      by_cases hs : (!r.pagesFilter r.descriptor dh) = true
      · rw [if_pos hs, if_pos hs]; exact streamFuel_agrees codec fuel _
      · rw [if_neg hs, if_neg hs]; exact .inr rfl

theorem indexedNext_agrees (codec : Codec Thrift.PageHeader) (r : IndexedReader) :
    AgreesItem (r.next codec true) (r.next codec false) := by
  unfold IndexedReader.next
  by_cases hm : r.maybeDict = true
  · rw [if_pos hm, if_pos hm]
    simp only
    unfold IndexedReader.readDict
    cases r.pages.head? with
    | none => exact .inr rfl
    | some p =>
      simp only
      rcases usub_agrees p.start r.columnStart with h | h <;> rw [h]
      · exact .inl rfl
      · exact .inr rfl
  · rw [if_neg hm, if_neg hm]; exact .inr rfl

theorem items_agrees {σ α : Type} (next next' : σ → Option (Res α) × σ) (h : ∀ s, AgreesItem (next s) (next' s)) :
    ∀ (n : Nat) (s : σ), some .panic ∈ (items next n s).1 ∨ items next n s = items next' n s
  | 0, _ => .inr rfl
  | n + 1, s => by
    rw [items, items]
    rcases h s with hs | hs
    · rcases hx : next s with ⟨x, s'⟩
      rw [hx] at hs
      subst hs
      left
      simp
    · rw [hs]
      rcases next' s with ⟨x, s'⟩
      rcases x with _ | a | e | _
      · exact .inr rfl
      · simp only
        rcases items_agrees next next' h n s' with hi | hi
        · left; exact List.mem_cons_of_mem _ hi
        · right; rw [hi]
      · exact .inr rfl
      · exact .inr rfl

/-- Decompressors over a page reader. -/
theorem decompressorAdvance_agrees {σ : Type} (cs : Codecs) (it it' : PageIter σ)
    (hn : ∀ s, AgreesItem (it.next s) (it'.next s)) (hs : it.swap = it'.swap) (cap : Nat) (d : Decompressor σ) :
    AgreesAfter (d.advance cs true it cap) (d.advance cs false it' cap) := by
  have hr : d.recycle it = d.recycle it' := by unfold Decompressor.recycle; rw [hs]
  unfold Decompressor.advance
  simp only [hr]
  generalize d.recycle it' = d
  rcases hn d.iter with h | h
  · rcases hb : it.next d.iter with ⟨x, r'⟩
    rw [hb] at h
    subst h
    exact .inl rfl
  · rw [h]
    rcases it'.next d.iter with ⟨x, iter⟩
    cases x with
    | none => exact .inr rfl
    | some x =>
    cases x with
    | err e => exact .inr rfl
    | panic => exact .inl rfl
    | ok page =>
      simp only
      have : AgreesAfter (decompressReuse cs true it page iter cap d.buffer)
          (decompressReuse cs false it' page iter cap d.buffer) := by
        unfold decompressReuse
        rcases decompressBuffer_agrees cs page cap d.buffer with h | h
        · rcases hw : decompressBuffer cs true page cap d.buffer with ⟨r, x⟩
          rw [hw] at h
          subst h
          exact .inl rfl
        · rw [h, hs]; exact .inr rfl
      rcases this with h | h
      · rcases hw : decompressReuse cs true it page iter cap d.buffer with ⟨r, x⟩
        rw [hw] at h
        subst h
        exact .inl rfl
      · rw [h]; exact .inr rfl

theorem basicAdvance_agrees {σ : Type} (cs : Codecs) (next next' : σ → Option (Res CompressedPage) × σ)
    (hn : ∀ s, AgreesItem (next s) (next' s)) (b : Nat × List Byte) (d : BasicDecompressor σ) :
    AgreesAfter (d.advance cs true next b) (d.advance cs false next' b) := by
  unfold BasicDecompressor.advance
  rcases hn d.iter with h | h
  · rcases hb : next d.iter with ⟨x, r'⟩
    rw [hb] at h
    subst h
    exact .inl rfl
  · rw [h]
    rcases next' d.iter with ⟨x, iter⟩
    cases x with
    | none => exact .inr rfl
    | some x =>
    cases x with
    | err e => exact .inr rfl
    | panic => exact .inl rfl
    | ok page =>
      simp only [Res.ok_bind]
      rcases decompressPage_agrees cs page b.1 b.2 with h | h <;> rw [h]
      · exact .inl rfl
      · exact .inr rfl

/-! ### Metadata and indexes -/

theorem sumUsize_agrees : ∀ (l : List Nat) (acc : Nat), Agrees (sumUsize true acc l) (sumUsize false acc l)
  | [], _ => .inr rfl
  | x :: xs, acc => by
    rw [sumUsize, sumUsize]
    exact Agrees.bind (uadd_agrees _ _) fun _ => sumUsize_agrees xs _

theorem fileIntoThrift_agrees (m : FileMetaData) : Agrees (m.intoThrift true) (m.intoThrift false) := by
  unfold FileMetaData.intoThrift
  refine Agrees.bind (collectRes_agrees _ _ (fun g => ?_) _) fun _ => .inr rfl
  unfold RowGroupMetaData.intoThrift
  have hs : Agrees (g.compressedSize true) (g.compressedSize false) :=
    Agrees.bind (.inr rfl) fun _ => sumUsize_agrees _ _
  cases g.columns <;> exact Agrees.bind (.inr rfl) fun _ => Agrees.bind hs fun _ => .inr rfl

theorem readColumnsIndexes_agrees (codec : Codec Thrift.ColumnIndex) (file : List Byte)
    (chunks : List ColumnChunkMetaData) :
    Agrees (readColumnsIndexes codec true file chunks) (readColumnsIndexes codec false file chunks) :=
  Agrees.bind (.inr rfl) fun _ => Agrees.bind (sumUsize_agrees _ _) fun _ => .inr rfl

theorem readPagesLocations_agrees (codec : Codec Thrift.OffsetIndex) (file : List Byte)
    (chunks : List ColumnChunkMetaData) :
    Agrees (readPagesLocations codec true file chunks) (readPagesLocations codec false file chunks) :=
  Agrees.bind (.inr rfl) fun _ => Agrees.bind (sumUsize_agrees _ _) fun _ => .inr rfl

theorem isInOne_agrees (p i : Interval) : Agrees (isInOne true p i) (isInOne false p i) := by
  unfold isInOne
  refine Agrees.bind (uadd_agrees _ _) fun _ => ?_
  refine Agrees.bind (uadd_agrees _ _) fun _ => ?_
  refine Agrees.ite (fun _ => ?_) fun _ => .inr rfl
  refine Agrees.bind (usub_agrees _ _) fun _ => ?_
  exact Agrees.bind (usub_agrees _ _) fun _ => .inr rfl

theorem isIn_agrees (p : Interval) : ∀ l, Agrees (isIn true p l) (isIn false p l)
  | [] => .inr rfl
  | i :: is => by
    rw [isIn, isIn]
    refine Agrees.bind (isInOne_agrees _ _) fun _ => ?_
    exact Agrees.bind (isIn_agrees p is) fun _ => .inr rfl

theorem selectPages_agrees (intervals : List Interval) (locations : List Thrift.PageLocation) (numRows : Nat) :
    Agrees (selectPages true intervals locations numRows) (selectPages false intervals locations numRows) := by
  unfold selectPages
  refine Agrees.bind (.inr rfl) fun _ => collectRes_agrees _ _ (fun x => ?_) _
  exact Agrees.bind (isIn_agrees _ _) fun _ => .inr rfl

/-! ### Schema -/

theorem incI16_agrees (x : BitVec 16) : Agrees (incI16 true x) (incI16 false x) := by
  unfold incI16
  split
  · exact .inl rfl
  · exact .inr (by simp)

theorem enterLevelsCk_agrees (r : Repetition) (x y : BitVec 16) :
    Agrees (enterLevelsCk true r x y) (enterLevelsCk false r x y) := by
  cases r with
  | required => exact .inr rfl
  | optional => exact Agrees.bind (incI16_agrees _) fun _ => .inr rfl
  | repeated => exact Agrees.bind (incI16_agrees _) fun _ => Agrees.bind (incI16_agrees _) fun _ => .inr rfl

mutual
theorem buildTreeCk_agrees : ∀ (t base : ParquetType) (x y : BitVec 16) (path : List String),
    Agrees (buildTreeCk true t base x y path) (buildTreeCk false t base x y path)
  | .primitive p, base, x, y, path => by
    rw [buildTreeCk, buildTreeCk]
    rcases enterLevelsCk_agrees p.fieldInfo.repetition x y with h | h <;> rw [h]
    · exact .inl rfl
    · exact .inr rfl
  | .group info _ _ fields, base, x, y, path => by
    rw [buildTreeCk, buildTreeCk]
    rcases enterLevelsCk_agrees info.repetition x y with h | h <;> rw [h]
    · exact .inl rfl
    · cases enterLevelsCk false info.repetition x y with
      | err e => exact .inr rfl
      | panic => exact .inl rfl
      | ok lv => exact buildTreesCk_agrees fields base lv.1 lv.2 _
theorem buildTreesCk_agrees : ∀ (ts : List ParquetType) (base : ParquetType) (x y : BitVec 16) (path : List String),
    Agrees (buildTreesCk true ts base x y path) (buildTreesCk false ts base x y path)
  | [], _, _, _, _ => .inr (by rw [buildTreesCk, buildTreesCk])
  | t :: ts, base, x, y, path => by
    rw [buildTreesCk, buildTreesCk]
    rcases buildTreeCk_agrees t base x y path with h | h <;> rw [h]
    · exact .inl rfl
    · cases buildTreeCk false t base x y path with
      | err e => exact .inr rfl
      | panic => exact .inl rfl
      | ok l => exact Agrees.map' _ (buildTreesCk_agrees ts base x y path)
end

theorem leavesCk_agrees : ∀ ts : List ParquetType, Agrees (leavesCk true ts) (leavesCk false ts)
  | [] => .inr rfl
  | t :: ts => by
    rw [leavesCk, leavesCk]
    rcases buildTreeCk_agrees t t 0#16 0#16 [] with h | h <;> rw [h]
    · exact .inl rfl
    · cases buildTreeCk false t t 0#16 0#16 [] with
      | err e => exact .inr rfl
      | panic => exact .inl rfl
      | ok l => exact Agrees.map' _ (leavesCk_agrees ts)

theorem tryFromThriftCk_agrees (elements : List Thrift.SchemaElement) :
    Agrees (SchemaDescriptor.tryFromThriftCk true elements) (SchemaDescriptor.tryFromThriftCk false elements) := by
  unfold SchemaDescriptor.tryFromThriftCk
  rcases ParquetType.tryFromThrift elements with t | e | _
  · cases t with
    | primitive p => exact .inr rfl
    | group info a b fields => exact Agrees.map' _ (leavesCk_agrees fields)
  · exact .inr rfl
  · exact .inr rfl

/-! ### Bloom filters -/

theorem hashToBlockIndex_agrees (h : BitVec 64) (n : Nat) :
    Agrees (Bloom.hashToBlockIndex true h n) (Bloom.hashToBlockIndex false h n) := by
  unfold Bloom.hashToBlockIndex
  simp only
  split
  · exact .inl rfl
  · exact .inr (by simp)

theorem isInSet_agrees (b : List Byte) (h : BitVec 64) : Agrees (Bloom.isInSet true b h) (Bloom.isInSet false b h) :=
  Agrees.bind (hashToBlockIndex_agrees _ _) fun _ => .inr rfl

theorem bloomInsert_agrees (b : List Byte) (h : BitVec 64) : Agrees (Bloom.insert true b h) (Bloom.insert false b h) :=
  Agrees.bind (hashToBlockIndex_agrees _ _) fun _ => .inr rfl

/-! ### Encoders -/

theorem subI_agrees (a b : I64) : Agrees (Delta.subI true a b) (Delta.subI false a b) := by
  unfold Delta.subI
  cases BitVec.ssubOverflow a b
  · exact .inr rfl
  · exact .inl rfl

theorem scan_agrees : ∀ (l : List I64) (p a b : I64) (n : Nat), Agrees (Delta.scan true l p a b n) (Delta.scan false l p a b n)
  | [], _, _, _, _ => .inr rfl
  | x :: xs, p, a, b, n => by
    rw [Delta.scan, Delta.scan]
    refine Agrees.bind (subI_agrees _ _) fun _ => ?_
    refine Agrees.bind (subI_agrees _ _) fun _ => ?_
    exact Agrees.bind (scan_agrees xs _ _ _ _) fun _ => .inr rfl

theorem relative_agrees (m : I64) : ∀ l : List I64, Agrees (Delta.relative true m l) (Delta.relative false m l)
  | [] => .inr rfl
  | x :: xs => by
    rw [Delta.relative, Delta.relative]
    refine Agrees.bind (subI_agrees _ _) fun _ => ?_
    exact Agrees.bind (relative_agrees m xs) fun _ => .inr rfl

theorem blocks_agrees : ∀ (n : Nat) (l : List I64) (p : I64) (ds : List I64),
    Agrees (Delta.blocks true n l p ds) (Delta.blocks false n l p ds)
  | 0, [], _, _ => .inr rfl
  | 0, _ :: _, _, _ => .inr rfl
  | n + 1, l, p, ds => by
    rw [Delta.blocks, Delta.blocks]
    refine Agrees.ite (fun _ => .inr rfl) fun _ => ?_
    refine Agrees.bind (scan_agrees _ _ _ _ _) fun _ => ?_
    refine Agrees.bind (relative_agrees _ _) fun _ => ?_
    refine Agrees.bind (.inr rfl) fun _ => ?_
    refine Agrees.bind (.inr rfl) fun _ => ?_
    exact Agrees.bind (blocks_agrees n _ _ _) fun _ => .inr rfl

theorem deltaEncode_agrees (l : List I64) : Agrees (Delta.encode true l) (Delta.encode false l) := by
  unfold Delta.encode
  refine Agrees.bind (.inr rfl) fun _ => ?_
  refine Agrees.bind (.inr rfl) fun _ => ?_
  refine Agrees.bind (.inr rfl) fun _ => ?_
  refine Agrees.bind (.inr rfl) fun _ => ?_
  exact Agrees.bind (blocks_agrees _ _ _ _) fun _ => .inr rfl

theorem lengthEncode_agrees (l : List (List Byte)) : Agrees (DeltaLength.encode true l) (DeltaLength.encode false l) :=
  Agrees.bind (deltaEncode_agrees _) fun _ => .inr rfl

theorem prefixes_agrees : ∀ (l : List (List Byte)) (p : List Byte),
    Agrees (DeltaByteArray.prefixes true p l) (DeltaByteArray.prefixes false p l)
  | [], _ => .inr rfl
  | x :: xs, p => by
    rw [DeltaByteArray.prefixes, DeltaByteArray.prefixes]
    simp only [Bool.true_and, Bool.false_and, Bool.false_eq_true, if_false]
    split
    · exact .inl rfl
    · exact Agrees.map' _ (prefixes_agrees xs x)

theorem byteArrayEncode_agrees (l : List (List Byte)) :
    Agrees (DeltaByteArray.encode true l) (DeltaByteArray.encode false l) := by
  unfold DeltaByteArray.encode
  refine Agrees.bind (prefixes_agrees _ _) fun _ => ?_
  refine Agrees.bind (deltaEncode_agrees _) fun _ => ?_
  refine Agrees.bind (.inr rfl) fun _ => ?_
  exact Agrees.bind (lengthEncode_agrees _) fun _ => .inr rfl

/-! ### Selections of rows -/

theorem filteredAdvance_agrees {σ : Type} (it : Deser.FilteredIter σ) (n : Nat) :
    Agrees (it.advance true n) (it.advance false n) := by
  unfold Deser.FilteredIter.advance
  cases it.currentInterval with
  | none => exact .inr rfl
  | some i => exact Agrees.bind (usub_agrees _ _) fun _ => Agrees.bind (usub_agrees _ _) fun _ => .inr rfl

theorem filteredStep_agrees {σ : Type} (it : Deser.FilteredIter σ) (i : Interval) (run : Deser.Encoded) (o : Nat) :
    Agrees (it.step true i run o) (it.step false i run o) := by
  unfold Deser.FilteredIter.step
  refine Agrees.bind (usub_agrees _ _) fun _ => ?_
  refine Agrees.bind (usub_agrees _ _) fun _ => ?_
  refine Agrees.ite (fun _ => .inr rfl) fun _ => ?_
  refine Agrees.ite (fun _ => ?_) fun _ => ?_
  · refine Agrees.bind (.inr rfl) fun _ => ?_
    exact Agrees.bind (filteredAdvance_agrees _ _) fun _ => .inr rfl
  refine Agrees.ite (fun _ => ?_) fun _ => ?_
  · exact Agrees.bind (usub_agrees _ _) fun _ => .inr rfl
  · refine Agrees.bind (usub_agrees _ _) fun _ => ?_
    exact Agrees.bind (filteredAdvance_agrees _ _) fun _ => .inr rfl

theorem filteredNext_agrees {σ : Type} (next : σ → Res (Option Deser.Encoded × σ)) (it : Deser.FilteredIter σ) :
    Agrees (it.next true next) (it.next false next) := by
  have hw : ∀ (it : Deser.FilteredIter σ) i, Agrees (it.withRun true next i) (it.withRun false next i) := by
    intro it i
    unfold Deser.FilteredIter.withRun
    cases it.current with
    | some x => exact filteredStep_agrees _ _ _ _
    | none =>
      simp only
      rcases next it.iter with x | e | _
      · obtain ⟨x, iter⟩ := x
        cases x with
        | none => exact .inr rfl
        | some run => exact filteredStep_agrees _ _ _ _
      · exact .inr rfl
      · exact .inl rfl
  unfold Deser.FilteredIter.next
  cases it.currentInterval with
  | some i => exact hw _ _
  | none =>
    simp only
    cases it.selectedRows with
    | nil => exact .inr rfl
    | cons i rest => exact hw _ _

theorem sliceNext_agrees {σ α : Type} (next : σ → Res (Option α × σ)) (it : Deser.SliceIter σ) :
    Agrees (it.next true next) (it.next false next) := by
  unfold Deser.SliceIter.next
  refine Agrees.ite (fun _ => ?_) fun _ => ?_
  · cases it.selectedRows with
    | nil => exact .inr rfl
    | cons i rest =>
      refine Agrees.bind (usub_agrees _ _) fun _ => ?_
      refine Agrees.bind (usub_agrees _ _) fun _ => ?_
      exact Agrees.bind (usub_agrees _ _) fun _ => .inr rfl
  · exact Agrees.bind (usub_agrees _ _) fun _ => .inr rfl

end Pq
