import Verif.Lemmas.WriterOutcome2
/-
Lemmas on how the calls of a writer end: the file.
-/
namespace Pq
open Spec

/-- What is known of a writer on which calls were made, some of them in vain. -/
structure Kept (cs : ThriftCodecs) (ck : Bool) (schema : SchemaDescriptor) (options : WriteOptions)
    (groups : List (List (List CompressedPage))) (w : FileWriter) : Prop where
  schema' : w.schema = schema
  options' : w.options = options
  state : w.state = .started
  ne : w.offset ≠ 0
  offset : w.offset ≤ w.out.length
  built : ∃ gb : List BuiltGroup, w.rowGroups = gb.map (·.1) ∧ w.pageSpecs = gb.map (·.2.map (·.2)) ∧
    List.Forall₂ (fun g b => ∃ off bytes ordinal, ColumnsBuilt cs ck off (schema.leaves.zip g) b.2 bytes ∧
      off + bytes.length ≤ w.out.length ∧ buildRowGroup ck b.2 ordinal = .ok b.1) groups gb

theorem tried_kept {cs : ThriftCodecs} {ck : Bool} {schema : SchemaDescriptor} {options : WriteOptions}
    {createdBy : Option String} {groups : List (List (List CompressedPage))} {w : FileWriter}
    (h : Tried cs ck schema options createdBy groups w) : Kept cs ck schema options groups w.autoStart := by
  induction h with
  | new => exact ⟨rfl, rfl, rfl, (by simp [FileWriter.autoStart, FileWriter.new, FileWriter.start] : _ ≠ _), Nat.le_refl 4, [], rfl, rfl, .nil⟩
  | @start groups w w' r _ hs ih =>
    rw [FileWriter.start] at hs
    split at hs
    · rename_i h0
      rw [FileWriter.autoStart, if_pos h0, FileWriter.start, if_pos h0] at ih
      obtain ⟨-, rfl⟩ := Prod.mk.inj hs
      rw [autoStart_of_ne (by simp)]
      exact ih
    · obtain ⟨-, rfl⟩ := Prod.mk.inj hs
      exact ih
  | @accepted groups g w w' _ hs ih =>
    rw [FileWriter.write] at hs
    split at hs
    · simp at hs
    · simp at hs
    · rename_i rg specs size bytes hr
      obtain ⟨built, h1, rfl, rfl, h2⟩ := writeRowGroup_ok hr
      simp only [Prod.mk.injEq, true_and] at hs
      subst hs
      obtain ⟨gb, hr1, hr2, hg⟩ := ih.built
      have ho := ih.offset
      rw [autoStart_of_ne (by have := ih.ne; simp only; omega)]
      refine ⟨ih.schema', ih.options', ih.state, by have := ih.ne; simp only; omega,
        by simp only [List.length_append]; omega, gb ++ [(rg, built)], by simp [hr1], by simp [hr2], ?_⟩
      refine forall₂_append' (hg.imp fun g b ⟨off, bs, o, k1, k2, k3⟩ =>
        ⟨off, bs, o, k1, by simp only [List.length_append]; omega, k3⟩) (.cons ?_ .nil)
      refine ⟨_, bytes, _, by rw [← ih.schema']; exact h1, ?_, h2⟩
      simp only [List.length_append]
      omega
  | @refused groups columns w w' e _ hs ih =>
    have hx : ∃ bytes, w' = { w.autoStart with out := w.autoStart.out ++ bytes } := by
      rw [FileWriter.write] at hs
      split at hs
      · simp only [Prod.mk.injEq] at hs
        exact ⟨_, hs.2.symm⟩
      · simp at hs
      · simp at hs
    obtain ⟨bytes, rfl⟩ := hx
    obtain ⟨gb, hr1, hr2, hg⟩ := ih.built
    rw [autoStart_of_ne (by exact ih.ne)]
    refine ⟨ih.schema', ih.options', ih.state, ih.ne, ?_, gb, hr1, hr2, hg.imp fun g b ⟨off, bs, o, k1, k2, k3⟩ =>
        ⟨off, bs, o, k1, by simp only [List.length_append]; omega, k3⟩⟩
    have := ih.offset
    simp only [List.length_append]
    omega

/-- How `write` ends. -/
theorem write_outcome {cs : ThriftCodecs} {ck : Bool} {schema : SchemaDescriptor} {options : WriteOptions}
    {createdBy : Option String} {groups : List (List (List CompressedPage))} {w : FileWriter}
    (h : Tried cs ck schema options createdBy groups w) (columns : List (Res (List (Res CompressedPage))))
    (hm : Moderate cs schema.leaves.length columns)
    (hlen : (w.write cs ck columns).2.out.length < 2 ^ 63) :
    outcome (w.write cs ck columns).1 = groupOutcome ck schema.leaves.length columns := by
  have hk := tried_kept h
  have ho := hk.offset
  have hs := hk.schema'
  rw [FileWriter.write] at hlen ⊢
  have hg := writeRowGroup_outcome cs ck w.autoStart.offset w.autoStart.schema.leaves columns
    w.autoStart.rowGroups.length (by rw [hs]; exact hm)
  rw [hs] at hg
  simp only [hs] at hlen ⊢
  generalize hr : writeRowGroup cs ck w.autoStart.offset schema.leaves columns
    w.autoStart.rowGroups.length = r at hlen hg
  obtain ⟨r, b⟩ := r
  cases r with
  | err e =>
    simp only [List.length_append] at hlen
    rw [← hg (by simp only; omega)]
    rfl
  | panic =>
    simp only [List.length_append] at hlen
    rw [← hg (by simp only; omega)]
    rfl
  | ok t =>
    simp only [List.length_append] at hlen
    rw [← hg (by simp only; omega)]
    rfl

/-! ### Indexes -/

theorem inTurn_requires {α : Type} (P : α → Prop) [DecidablePred P] (xs : List α) :
    inTurn (xs.map fun x => requires (P x)) = requires (∀ x ∈ xs, P x) := by
  induction xs with
  | nil => rw [requires_pos (by simp)]; rfl
  | cons x xs ih =>
    rw [List.map_cons, inTurn_cons, ih, requires_and]
    exact requires_congr (by simp)

theorem indexColumns_outcome (index : List PageWriteSpec → Res (List Byte))
    (set : Thrift.ColumnChunk → I64 → Option I32 → Thrift.ColumnChunk) (off : Nat)
    (columns : List Thrift.ColumnChunk) (specs : List (List PageWriteSpec))
    (hl : columns.length = specs.length) :
    outcome (indexColumns index set off columns specs).1 = inTurn (specs.map fun s => outcome (index s)) ∧
      (indexColumns index set off columns specs).2.done.length = columns.length := by
  induction columns generalizing off specs with
  | nil =>
    cases specs with
    | nil => exact ⟨rfl, rfl⟩
    | cons s specs => simp at hl
  | cons c columns ih =>
    cases specs with
    | nil => simp at hl
    | cons s specs =>
      rw [indexColumns, List.map_cons, inTurn_cons]
      cases hx : index s with
      | err e => exact ⟨rfl, rfl⟩
      | panic => exact ⟨rfl, rfl⟩
      | ok bytes =>
        obtain ⟨h1, h2⟩ := ih (off + bytes.length) specs (by simpa using hl)
        exact ⟨h1, by simp [h2]⟩

theorem indexGroups_outcome (index : List PageWriteSpec → Res (List Byte))
    (set : Thrift.ColumnChunk → I64 → Option I32 → Thrift.ColumnChunk) (off : Nat)
    (groups : List Thrift.RowGroup) (specs : List (List (List PageWriteSpec)))
    (hl : List.Forall₂ (fun g s => g.columns.length = s.length) groups specs) :
    outcome (indexGroups index set off groups specs).1 =
        inTurn (specs.flatten.map fun s => outcome (index s)) ∧
      List.Forall₂ (fun g s => g.columns.length = s.length) (indexGroups index set off groups specs).2.done
        specs := by
  induction hl generalizing off with
  | nil => exact ⟨rfl, .nil⟩
  | @cons g s groups specs h1 h2 ih =>
    obtain ⟨c1, c2⟩ := indexColumns_outcome index set off g.columns s h1
    rw [List.flatten_cons, List.map_append, inTurn_append, ← c1]
    have hd : ∀ d : Thrift.RowGroup, d.columns = (indexColumns index set off g.columns s).2.done →
        d.columns.length = s.length := fun d hd => by rw [hd, c2, h1]
    rw [indexGroups]
    generalize indexColumns index set off g.columns s = r at c1 hd
    obtain ⟨r, l⟩ := r
    cases r with
    | err e => exact ⟨rfl, .cons (hd _ rfl) h2⟩
    | panic => exact ⟨rfl, .cons (hd _ rfl) h2⟩
    | ok u =>
      obtain ⟨i1, i2⟩ := ih l.offset
      exact ⟨i1, .cons (hd _ rfl) i2⟩

theorem columnIndexEntry_outcome {codec : Codec Thrift.PageHeader} {off : Nat} {s : PageWriteSpec}
    {p : CompressedPage} (h : SpecOf codec off s p) :
    columnIndexEntry s ≠ .panic ∧ ((∃ e, columnIndexEntry s = .ok e) ↔ Indexable p) := by
  constructor
  · rw [columnIndexEntry]
    split
    · simp
    · rename_i stats hs
      rcases pageStatistics_known h.statistics with ⟨h1, -⟩ | ⟨x, v, t, h1, h2, ⟨pt, h3⟩, h4, h5⟩
      · rw [hs] at h1; cases h1
      · rw [hs] at h1
        injection h1 with h1
        subst h1
        obtain ⟨w, hw⟩ := serialize_typed (s := stats) (by
          rintro y rfl
          obtain ⟨e1, n, e2, -⟩ := h3
          exact ⟨n, by rw [e1, e2]⟩)
        rw [hw, Res.ok_bind]
        cases hn : w.nullCount with
        | none => simp [Res.ofOption]
        | some c =>
          simp only [Res.ofOption, Res.ok_bind]
          split
          · rename_i m hm
            cases w.maxValue <;> simp [Res.ofOption]
          · simp
  · constructor
    · rintro ⟨e, he⟩
      obtain ⟨v, t, h1, -, h3, h4⟩ := (columnIndexEntry_ok h).1 he
      refine ⟨(v, t), by simp [h1], by simp [h3], ?_⟩
      rcases h4 with ⟨x, y, h4, h5, -⟩ | ⟨h4, -⟩
      · simp [h5]
      · simp [h4]
    · rintro ⟨⟨v, t⟩, h1, h2, h3⟩
      simp only [Option.mem_toList, Option.mem_def] at h1
      have hw : WidthsOk v t := by
        have := (pageStatistics_outcome p).1
        rw [h.statistics] at this
        exact requires_done.1 this.symm (v, t) (by simp [h1])
      obtain ⟨c, hc⟩ := Option.isSome_iff_exists.1 h2
      cases hm : v.minValue with
      | none => exact ⟨(c, [0#8], [0#8], true), (columnIndexEntry_ok h).2
          ⟨v, t, h1, hw, hc, .inr ⟨hm, rfl⟩⟩⟩
      | some x =>
        obtain ⟨y, hy⟩ := Option.isSome_iff_exists.1 (h3 (by simp [hm]))
        exact ⟨(c, boundOf t x, boundOf t y, false), (columnIndexEntry_ok h).2
          ⟨v, t, h1, hw, hc, .inl ⟨x, y, hm, hy, rfl⟩⟩⟩

theorem Specs.each {codec : Codec Thrift.PageHeader} {off : Nat} {ss : List PageWriteSpec}
    {ps : List CompressedPage} (h : Specs codec off ss ps) :
    List.Forall₂ (fun s p => ∃ o, o ≤ off + (chunkBytes codec ps).length ∧ SpecOf codec o s p) ss ps := by
  induction ss generalizing off ps with
  | nil => cases ps with
    | nil => exact .nil
    | cons p ps => exact h.elim
  | cons s ss ih => cases ps with
    | nil => exact h.elim
    | cons p ps =>
      have e : (chunkBytes codec (p :: ps)).length =
          (pageBytes codec p).length + (chunkBytes codec ps).length := by
        simp [chunkBytes]
      refine .cons ⟨off, by omega, h.1⟩ ((ih h.2).imp ?_)
      rintro s p ⟨o, h1, h2⟩
      exact ⟨o, by omega, h2⟩

theorem Specs.data {codec : Codec Thrift.PageHeader} {off : Nat} {ss : List PageWriteSpec}
    {ps : List CompressedPage} (h : Specs codec off ss ps) :
    List.Forall₂ (fun s p => ∃ o, o ≤ off + (chunkBytes codec ps).length ∧ SpecOf codec o s p)
      (ss.filter isDataPage) (ps.filter isData) := by
  have := h.each
  generalize off + (chunkBytes codec ps).length = n at this
  clear h
  induction this with
  | nil => exact .nil
  | @cons s p ss ps h1 _ ih =>
    obtain ⟨o, h2, h3⟩ := h1
    rw [List.filter_cons, List.filter_cons, h3.isData]
    split
    · exact .cons ⟨o, h2, h3⟩ ih
    · exact ih

theorem serializeColumnIndex_outcome {codec : Codec Thrift.PageHeader} {off : Nat}
    {ss : List PageWriteSpec} {ps : List CompressedPage} (h : Specs codec off ss ps) :
    outcome (serializeColumnIndex ss) = requires (∀ p ∈ ps, isData p = true → Indexable p) := by
  have hd := h.data
  rw [serializeColumnIndex, outcome_bind_ok (o := .done) (fun _ _ => rfl), andThen_done,
    requires_congr (q := ∀ p ∈ ps.filter isData, Indexable p) (by simp only [List.mem_filter]; tauto)]
  generalize ss.filter isDataPage = ss at hd
  generalize ps.filter isData = ps at hd
  induction hd with
  | nil => rw [requires_pos (by simp)]; rfl
  | @cons s p ss ps h1 _ ih =>
    obtain ⟨o, -, h1⟩ := h1
    obtain ⟨h2, h3⟩ := columnIndexEntry_outcome h1
    rw [requires_congr (q := Indexable p ∧ ∀ q ∈ ps, Indexable q) (by simp), ← requires_and, ← ih,
      List.map_cons, collectRes]
    have e : outcome (columnIndexEntry s) = requires (Indexable p) := by
      by_cases hp : Indexable p
      · obtain ⟨x, hx⟩ := h3.2 hp
        rw [requires_pos hp, hx]
        rfl
      · rw [requires_neg hp]
        cases hx : columnIndexEntry s with
        | ok x => exact absurd (h3.1 ⟨x, hx⟩) hp
        | err x => rfl
        | panic => exact absurd hx h2
    rw [← e]
    refine outcome_bind_ok fun a _ => ?_
    rw [outcome_bind_ok (o := .done) (fun _ _ => rfl), andThen_done]

theorem serializeOffsetIndex_outcome {codec : Codec Thrift.PageHeader} (ck : Bool) {off : Nat}
    {ss : List PageWriteSpec} {ps : List CompressedPage} (h : Specs codec off ss ps)
    (hlen : off + (chunkBytes codec ps).length < 2 ^ 63) :
    outcome (serializeOffsetIndex ck ss) =
      countRows ck (fun p => decide ((pageBytes codec p).length < 2 ^ 31)) 0 (ps.filter isData) := by
  have hd := h.data
  rw [serializeOffsetIndex, outcome_bind_ok (o := .done) (fun _ _ => rfl), andThen_done]
  have key : ∀ (acc : I64) (a : Int), (ck = true → acc.toInt = a) →
      outcome (pageLocations ck acc (ss.filter isDataPage)) =
        countRows ck (fun p => decide ((pageBytes codec p).length < 2 ^ 31)) a (ps.filter isData) := by
    generalize ss.filter isDataPage = ss at hd
    generalize ps.filter isData = qs at hd
    induction hd with
    | nil => intro acc a _; rfl
    | @cons s p ss qs h1 _ ih =>
      intro acc a ha
      obtain ⟨o, ho, h1⟩ := h1
      rw [pageLocations, countRows, lastRows_eq h1.numRows, h1.offset, tryI64, if_pos (by omega),
        Res.ok_bind, h1.bytesWritten, tryI32]
      by_cases hb : (pageBytes codec p).length < 2 ^ 31
      · rw [if_pos hb, Res.ok_bind]
        cases s.numRows with
        | none => rfl
        | some n =>
          simp only [Res.ofOption, Res.ok_bind]
          rw [requires_pos (by simpa using hb), done_andThen]
          have hx := outcome_addI64 ck acc (asI64 n)
          rw [expects_congr (q := ck = true → Fits64 (a + signed n)) (imp_congr_right fun hc => by
            rw [ha hc, asI64_toInt]; exact Iff.rfl)] at hx
          rw [← hx]
          refine outcome_bind_ok fun c hc => ?_
          rw [outcome_bind_ok (o := .done) (fun _ _ => rfl), andThen_done]
          refine ih _ _ fun hk => ?_
          rw [hc] at hx
          have hf := expects_done.1 hx.symm hk
          rw [addI64_exact hc (by rw [ha hk, asI64_toInt]; exact hf), ha hk, asI64_toInt]
          rfl
      · rw [if_neg hb]
        cases s.numRows with
        | none => rfl
        | some n =>
          simp only
          rw [requires_neg (by simpa using hb)]
          rfl
  exact key 0 0 fun _ => rfl

/-! ### The end -/

theorem ColumnsBuilt.specs {cs : ThriftCodecs} {ck : Bool} {off : Nat}
    {columns : List (ColumnDescriptor × List CompressedPage)}
    {built : List (Thrift.ColumnChunk × List PageWriteSpec)} {bytes : List Byte}
    (h : ColumnsBuilt cs ck off columns built bytes) :
    List.Forall₂ (fun c s => ∃ o, Specs cs.page o s c ∧
      o + (chunkBytes cs.page c).length ≤ off + bytes.length) (columns.map (·.2)) (built.map (·.2)) := by
  induction h with
  | nil => exact .nil
  | cons h1 h2 h3 _ ih =>
    simp only [List.length_append] at ih ⊢
    refine .cons ⟨_, h1, by simp only; omega⟩ (ih.imp ?_)
    rintro c s ⟨o, k1, k2⟩
    exact ⟨o, k1, by omega⟩

theorem zip_snd_take {α β : Type} (as : List α) (bs : List β) :
    (as.zip bs).map (·.2) = bs.take as.length := by
  induction as generalizing bs with
  | nil => rfl
  | cons a as ih => cases bs with
    | nil => rfl
    | cons b bs => simp [ih]

theorem buildRowGroup_fields {ck : Bool} {built : List (Thrift.ColumnChunk × List PageWriteSpec)}
    {ordinal : Nat} {rg : Thrift.RowGroup} (h : buildRowGroup ck built ordinal = .ok rg) :
    rg.columns = built.map (·.1) ∧ computeNumRows ck built = .ok rg.numRows := by
  rw [buildRowGroup] at h
  obtain ⟨rows, h1, h⟩ := Res.bind_eq_ok.1 h
  obtain ⟨tu, -, h⟩ := Res.bind_eq_ok.1 h
  obtain ⟨tc, -, h⟩ := Res.bind_eq_ok.1 h
  injection h with h
  subst h
  exact ⟨rfl, h1⟩

theorem sumRows_recorded {codec : Codec Thrift.PageHeader} {ck : Bool} {off : Nat}
    {ss : List PageWriteSpec} {ps : List CompressedPage} {n : I64} (h : Specs codec off ss ps)
    (hn : sumRows ck 0 (ss.filter isDataPage) = .ok n) :
    n.toInt = signed ((ps.filter isData).map fun p => (lastRows p).getD 0).sum := by
  obtain ⟨ns, e1, e2⟩ := sumRows_ok hn
  have hd := h.data
  generalize List.filter isDataPage _ = ss at hd e1
  generalize List.filter isData _ = ps at hd
  have e : ps.map (fun p => (lastRows p).getD 0) = ns := by
    clear hn e2
    induction hd generalizing ns with
    | nil => cases ns with
      | nil => rfl
      | cons n ns => simp at e1
    | cons k1 _ ih =>
      obtain ⟨o, -, k1⟩ := k1
      cases ns with
      | nil => simp at e1
      | cons n ns =>
        simp only [List.map_cons, List.cons.injEq] at e1 ⊢
        rw [lastRows_eq k1.numRows, e1.1]
        exact ⟨rfl, ih _ e1.2⟩
  have es : (ns.map fun n : Nat => (n : Int)).sum = (ns.sum : Nat) := by
    clear e e1 e2
    induction ns with
    | nil => rfl
    | cons n ns ih => simp [ih]
  have e0 : (0 : I64).toInt = 0 := by decide
  rw [e0, Int.zero_add, es] at e2
  rw [e]
  exact e2

theorem numRows_recorded {cs : ThriftCodecs} {ck : Bool} {off : Nat} {ds : List ColumnDescriptor}
    {g : List (List CompressedPage)} {built : List (Thrift.ColumnChunk × List PageWriteSpec)}
    {bytes : List Byte} {n : I64} (h : ColumnsBuilt cs ck off (ds.zip g) built bytes)
    (hn : computeNumRows ck built = .ok n) : n.toInt = recordedRows (g.take ds.length) := by
  rw [← zip_snd_take ds g]
  generalize ds.zip g = columns at h
  cases h with
  | nil =>
    injection hn with hn
    subst hn
    rfl
  | cons h1 _ _ _ => exact sumRows_recorded h1 hn

theorem indexGroups_bytes_le (w : FileWriter) (l : IndexLoop Thrift.RowGroup) :
    w.out.length ≤ (w.after l).out.length := by
  simp [FileWriter.after]

theorem endFile_outcome (cs : ThriftCodecs) (ck : Bool) (md : Thrift.FileMetaData)
    (h : (endFile cs ck md).2.length < 2 ^ 31) : outcome (endFile cs ck md).1 = .done := by
  rw [endFile] at h ⊢
  simp only [List.length_append] at h
  have e : asUsize (asI32 (cs.file.ser md).length) = (cs.file.ser md).length := asUsize_asI32 (by omega)
  simp only [e]
  rw [if_neg]
  · rfl
  · simp only [Bool.and_eq_true, decide_eq_true_eq, not_and, not_le]
    intro _
    omega

theorem endWith_outcome {cs : ThriftCodecs} {ck : Bool} {schema : SchemaDescriptor}
    {options : WriteOptions} {createdBy : Option String} {w : FileWriter}
    {groups : List (List (List CompressedPage))} (h : Tried cs ck schema options createdBy groups w)
    {finish : FileWriter → Thrift.FileMetaData → FileWriter}
    (kv : Option (List Thrift.KeyValue)) (hout : w.autoStart.out.length < 2 ^ 63)
    (hend : (FileWriter.endWith finish cs ck w kv).2.out.length < w.autoStart.out.length + 2 ^ 31) :
    outcome (FileWriter.endWith finish cs ck w kv).1 =
      endOutcome cs ck options.writeStatistics (groups.map (·.take schema.leaves.length)) := by
  have hk := tried_kept h
  obtain ⟨gb, hrg, hps, hgb⟩ := hk.built
  rw [FileWriter.endWith] at hend ⊢
  simp only [hk.state, ne_eq, not_true_eq_false, if_false] at hend ⊢
  generalize w.autoStart = w at hk hrg hps hgb hout hend
  rw [endOutcome]
  -- the rows
  have hrows : (w.rowGroups.map (·.numRows)).map BitVec.toInt =
      (groups.map (·.take schema.leaves.length)).map recordedRows := by
    rw [hrg]
    clear hrg hps hend hk h
    induction hgb with
    | nil => rfl
    | cons h1 _ ih =>
      obtain ⟨off, bytes, o, k1, -, k3⟩ := h1
      simp only [List.map_cons]
      rw [ih, numRows_recorded k1 (buildRowGroup_fields k3).2]
  have hsum := outcome_sumI64_zero ck (w.rowGroups.map (·.numRows))
  rw [hrows] at hsum
  rw [← hsum]
  -- the shape
  have hshape : List.Forall₂ (fun (g : Thrift.RowGroup) (s : List (List PageWriteSpec)) =>
      g.columns.length = s.length) w.rowGroups w.pageSpecs := by
    rw [hrg, hps]
    clear hrg hps hend hrows hsum hk h
    induction hgb with
    | nil => exact .nil
    | cons h1 _ ih =>
      obtain ⟨off, bytes, o, k1, -, k3⟩ := h1
      exact .cons (by rw [(buildRowGroup_fields k3).1]; simp) ih
  -- the pages
  have hspecs : List.Forall₂ (fun s c => ∃ o, Specs cs.page o s c ∧
      o + (chunkBytes cs.page c).length < 2 ^ 63) w.pageSpecs.flatten
      (groups.map (·.take schema.leaves.length)).flatten := by
    rw [hps]
    clear hrg hps hend hrows hsum hshape hk h
    induction hgb with
    | nil => exact .nil
    | cons h1 _ ih =>
      obtain ⟨off, bytes, o, k1, k2, k3⟩ := h1
      simp only [List.map_cons, List.flatten_cons]
      refine forall₂_append' ?_ ih
      rw [← zip_snd_take]
      refine (k1.specs.imp ?_).flip
      rintro c s ⟨o, j1, j2⟩
      exact ⟨o, j1, by omega⟩
  have hcol : inTurn (w.pageSpecs.flatten.map fun s => outcome (writeColumnIndex cs s)) =
      requires (∀ g ∈ groups.map (·.take schema.leaves.length), ∀ c ∈ g, ∀ p ∈ c, isData p = true →
        Indexable p) := by
    rw [requires_congr (q := ∀ c ∈ (groups.map (·.take schema.leaves.length)).flatten, ∀ p ∈ c,
      isData p = true → Indexable p) (by
        simp only [List.mem_flatten]
        constructor
        · rintro k c ⟨g, hg, hc⟩
          exact k g hg c hc
        · intro k g hg c hc
          exact k c ⟨g, hg, hc⟩), ← inTurn_requires]
    congr 1
    clear hend
    generalize w.pageSpecs.flatten = ss at hspecs
    generalize (groups.map (·.take schema.leaves.length)).flatten = cc at hspecs
    induction hspecs with
    | nil => rfl
    | cons h1 _ ih =>
      obtain ⟨o, k1, -⟩ := h1
      simp only [List.map_cons]
      rw [ih, writeColumnIndex, outcome_map', serializeColumnIndex_outcome k1]
  have hoff : (w.pageSpecs.flatten.map fun s => outcome (writeOffsetIndex cs ck s)) =
      (groups.map (·.take schema.leaves.length)).flatten.map fun c =>
        countRows ck (fun p => decide ((pageBytes cs.page p).length < 2 ^ 31)) 0 (c.filter isData) := by
    clear hend hcol
    generalize w.pageSpecs.flatten = ss at hspecs
    generalize (groups.map (·.take schema.leaves.length)).flatten = cc at hspecs
    induction hspecs with
    | nil => rfl
    | cons h1 _ ih =>
      obtain ⟨o, k1, k2⟩ := h1
      simp only [List.map_cons]
      rw [ih, writeOffsetIndex, outcome_map', serializeOffsetIndex_outcome ck k1 k2]
  rw [← hoff]
  have hc : outcome (w.columnIndexes cs).1 = requires (options.writeStatistics = true →
        ∀ g ∈ groups.map (·.take schema.leaves.length), ∀ c ∈ g, ∀ p ∈ c, isData p = true →
        Indexable p) ∧ (w.columnIndexes cs).2.pageSpecs = w.pageSpecs ∧
      w.out.length ≤ (w.columnIndexes cs).2.out.length ∧
      List.Forall₂ (fun (g : Thrift.RowGroup) (s : List (List PageWriteSpec)) =>
        g.columns.length = s.length) (w.columnIndexes cs).2.rowGroups w.pageSpecs := by
    rw [FileWriter.columnIndexes, hk.options']
    by_cases hs : options.writeStatistics = true
    · rw [if_pos hs]
      obtain ⟨i1, i2⟩ := indexGroups_outcome (writeColumnIndex cs) setColumnIndex w.offset w.rowGroups
        w.pageSpecs hshape
      refine ⟨?_, rfl, indexGroups_bytes_le w _, i2⟩
      show outcome (indexGroups _ _ _ _ _).1 = _
      rw [i1, hcol]
      exact requires_congr (by simp [hs])
    · rw [if_neg hs]
      exact ⟨by rw [requires_pos (fun h => absurd h hs)]; rfl, rfl, Nat.le_refl _, hshape⟩
  rw [← hc.1]
  obtain ⟨-, hc2, hc3, hc4⟩ := hc
  generalize sumI64 ck 0 (w.rowGroups.map (·.numRows)) = sum at hend
  cases sum with
  | err e => rfl
  | panic => rfl
  | ok numRows =>
    simp only at hend ⊢
    generalize w.columnIndexes cs = r at hend hc2 hc3 hc4
    obtain ⟨r, w1⟩ := r
    cases r with
    | err e => rfl
    | panic => rfl
    | ok u =>
      simp only at hend hc2 hc3 hc4 ⊢
      rw [← hc2] at hc4
      obtain ⟨i1, -⟩ := indexGroups_outcome (writeOffsetIndex cs ck) setOffsetIndex w1.offset
        w1.rowGroups w1.pageSpecs hc4
      have ho : outcome (w1.offsetIndexes cs ck).1 =
          inTurn (w.pageSpecs.flatten.map fun s => outcome (writeOffsetIndex cs ck s)) := by
        rw [← hc2]
        exact i1
      have hl : w1.out.length ≤ (w1.offsetIndexes cs ck).2.out.length := indexGroups_bytes_le w1 _
      rw [← ho]
      generalize w1.offsetIndexes cs ck = r at hend hl
      obtain ⟨r, w2⟩ := r
      cases r with
      | err e => rfl
      | panic => rfl
      | ok u =>
        simp only at hend hl ⊢
        have hf := endFile_outcome cs ck (w2.fileMetadata numRows kv)
        generalize endFile cs ck (w2.fileMetadata numRows kv) = r at hend hf
        obtain ⟨r, b⟩ := r
        simp only at hf hend
        cases r with
        | err e =>
          simp only [List.length_append] at hend
          exact hf (by omega)
        | panic =>
          simp only [List.length_append] at hend
          exact hf (by omega)
        | ok n => rfl

end Pq
