import Verif.Lemmas.Source
import Verif.Props.WholeFile
/-
Property theorems about reading from a reader: C67, C68.
-/
namespace Pq.Props

open Spec

variable {σ : Type} {i : Input σ} {v : SourceView σ} {file : List Byte}

/-! ### C67 -/

/-- A reader of the file, with buffers growing with what was read. -/
def tapeInput (file : List Byte) : Input Tape := { source := Tape.source file, buffer := fun n => n + 32 }

theorem tapeInput_lawful (file : List Byte) : LawfulInput (tapeInput file) Tape.view file :=
  ⟨tape_lawful file, fun n => by show 0 < n + 32; omega⟩

/-- A file whose bytes count, with the row group of `Props/FileMetadata.lean`. -/
def countFile : List Byte := (List.range 16).map (BitVec.ofNat 8)

/-- **C67** for every reader of a file that does not change, delivering pieces of any sizes and standing
anywhere at the start: the metadata read, with or without known file size, is that of the bytes of the
file; if the reader fails on the way, the result is the error. (`Spec.Delivers`) -/
theorem C67_metadata (h : LawfulInput i v file) (codec : Codec Thrift.FileMetaData) :
    Delivers v (readMetadataFrom i codec) (readMetadata codec file) ∧
    ∀ size, Delivers v (readMetadataWithSizeFrom i codec size) (readMetadataWithSize codec file size) :=
  ⟨Delivers.metadata h codec, Delivers.withSize h codec⟩

/-- The file of `Props/Writer.lean`, read from its middle on in pieces; with a failure, the error. -/
example :
    ((readMetadataFrom (tapeInput writerEnd.2.out) fileCodec { pos := 100, sizes := [3, 5, 70, 400, 600] }).1.map'
      fun m => m.rowGroups.length) = .ok 2 := by
  decide +kernel
example :
    ((readMetadataFrom (tapeInput writerEnd.2.out) fileCodec
      { pos := 100, sizes := [3, 5, 70, 400, 600], faults := [6] }).1.isOk) = false := by
  decide +kernel

/-- **C67** the length of the file is found without moving the reader. -/
theorem C67_length (h : LawfulInput i v file) (s : σ) :
    ((streamLenFrom i s).1 = .ok file.length ∧ v.failed (streamLenFrom i s).2 = v.failed s ∧
      v.pos (streamLenFrom i s).2 = v.pos s) ∨
    ((streamLenFrom i s).1 = .err .oos ∧ v.failed (streamLenFrom i s).2 = true) :=
  streamLen_spec h s

example : LawfulInput (tapeInput countFile) Tape.view countFile ∧
    (streamLenFrom (tapeInput countFile) { pos := 5, sizes := [3] }).1 = .ok 16 :=
  ⟨tapeInput_lawful _, by decide +kernel⟩

/-- **C67** for column chunks read into memory. -/
theorem C67_columns (h : LawfulInput i v file) :
    (∀ c, Delivers v (readColumnFrom i c) (readColumn file c)) ∧
    ∀ field cs, Delivers v (readColumnsFrom i field cs) (readColumns file field cs) :=
  ⟨Delivers.column h, Delivers.columns h⟩

example : LawfulInput (tapeInput countFile) Tape.view countFile ∧
    ((readColumnsFrom (tapeInput countFile) "a" exampleGroup.columns { pos := 5, sizes := [2, 1] }).1.map'
      fun l => l.map (·.2)) = .ok [[4#8, 5#8, 6#8], [10#8, 11#8, 12#8]] :=
  ⟨tapeInput_lawful _, by decide +kernel⟩

/-- **C67** for column chunks read concurrently, in whatever order the tasks are run: a success is that of
reading them one after the other; an error means that the factory or a reader failed, or that a column
is too long; a panic, that a column has no path or no metadata. -/
theorem C67_async (h : LawfulInput i v file) (columns : List ColumnChunkMetaData) (field : String)
    (factory : Nat → Option σ) (schedule : List Nat)
    (r : Res (List (ColumnChunkMetaData × List Byte)))
    (hr : readColumnsAsync i columns field factory schedule = some r) :
    match r with
    | .ok out => readColumns file field columns = .ok out
    | .err e => e = .oos ∧ (¬ Reliable i.source ∨ (∃ k, factory k = none) ∨
        ∃ c ∈ columns, fieldOf c = some field ∧ readColumn file c = .err .oos)
    | .panic => ∃ c ∈ columns, c.columnDescr.pathInSchema = [] ∨
        (fieldOf c = some field ∧ readColumn file c = .panic) := by
  rw [readColumnsAsync] at hr
  cases hf : getFieldColumns field columns with
  | err e =>
    have := (getFieldColumns_panic (field := field) (cs := columns) (by rw [hf]; rfl)).1
    rw [hf] at this
    cases this
  | panic =>
    rw [hf] at hr
    obtain rfl := Option.some.inj hr
    obtain ⟨-, c, hc, hp⟩ := getFieldColumns_panic (field := field) (cs := columns) (by rw [hf]; rfl)
    exact ⟨c, hc, .inl hp⟩
  | ok fields =>
    rw [hf] at hr
    simp only at hr
    have hmem := getFieldColumns_mem hf
    generalize htasks : (fields.mapIdx fun k c =>
      ({ column := c, opened := factory k, state := .opening } : ColumnTask σ)) = tasks at hr
    have hcol : tasks.map (·.column) = fields := by
      rw [← htasks]
      apply List.ext_getElem?
      intro k
      simp only [List.getElem?_map, List.getElem?_mapIdx]
      cases fields[k]? <;> rfl
    cases hj : tryJoinAll i schedule tasks with
    | none => rw [hj] at hr; cases hr
    | some j =>
      rw [hj] at hr
      obtain rfl := Option.some.inj hr
      have hok := tryJoinAll_ok (F := ¬ Reliable i.source ∨ ∃ k, factory k = none) h
        (fun s n hn => .inl fun hrel => hrel.seek s n hn) (fun s n hn => .inl fun hrel => hrel.read s n hn)
        schedule tasks (fun t ht => by
          rw [← htasks] at ht
          obtain ⟨k, hk, rfl⟩ := List.mem_mapIdx.1 ht
          exact ⟨trivial, fun hn => .inr ⟨k, hn⟩⟩) j hj
      rw [hcol] at hok
      cases j with
      | ok bs => exact readColumns_of_fields hf hok
      | err e =>
        refine ⟨hok.1, ?_⟩
        rcases hok.2 with (h | h) | ⟨c, hc, h⟩
        · exact .inl h
        · exact .inr (.inl h)
        · exact .inr (.inr ⟨c, (hmem c hc).1, (hmem c hc).2, h⟩)
      | panic =>
        obtain ⟨c, hc, h⟩ := hok
        exact ⟨c, (hmem c hc).1, .inr ⟨(hmem c hc).2, h⟩⟩

/-- Two columns read concurrently, with readers that deliver pieces of different sizes. -/
example :
    ((readColumnsAsync (tapeInput countFile) exampleGroup.columns "a" (fun k => some { sizes := [k + 1] })
      [0, 1, 1, 1, 0, 0, 1, 0, 1, 0, 0]).map fun r => r.map' fun l => l.map (·.2)) =
      some (.ok [[4#8, 5#8, 6#8], [10#8, 11#8, 12#8]]) ∧
    ((readColumns countFile "a" exampleGroup.columns).map' fun l => l.map (·.2)) =
      .ok [[4#8, 5#8, 6#8], [10#8, 11#8, 12#8]] ∧
    ((readColumnsAsync (tapeInput countFile) exampleGroup.columns "a"
      (fun k => some { sizes := [k + 1], faults := if k = 1 then [2] else [] })
      [0, 1, 1, 1, 1, 0, 0, 1, 0, 1, 0]).map fun r => r.isOk) = some false := by
  decide +kernel

/-- **C67** it comes to an end if every task is run often enough: three more times than its column has
bytes. -/
theorem C67_async_ends (columns : List ColumnChunkMetaData) (field : String) (factory : Nat → Option σ)
    (schedule : List Nat)
    (hs : ∀ fields, getFieldColumns field columns = .ok fields → ∀ k c start length, fields[k]? = some c →
      c.byteRange = .ok (start, length) → length + 3 ≤ schedule.count k)
    (hm : ∀ c ∈ columns, ∃ x, c.byteRange = .ok x) :
    (readColumnsAsync i columns field factory schedule).isSome = true := by
  rw [readColumnsAsync]
  cases hf : getFieldColumns field columns with
  | err e => rfl
  | panic => rfl
  | ok fields =>
    simp only [Option.isSome_map]
    rw [Option.isSome_iff_ne_none]
    refine tryJoinAll_ends schedule _ fun k t ht => ?_
    rw [List.getElem?_mapIdx] at ht
    cases hk : fields[k]? with
    | none => rw [hk] at ht; cases ht
    | some c =>
      rw [hk] at ht
      obtain rfl := Option.some.inj ht
      obtain ⟨⟨start, length⟩, hx⟩ :=
        hm c (getFieldColumns_mem hf c (List.mem_iff_getElem?.2 ⟨k, hk⟩)).1
      have := hs fields hf k c start length hk hx
      simp only [ColumnTask.todo, hx]
      exact this

/-- Two columns of three bytes each, whose tasks are run six times. -/
example :
    (∃ fields, getFieldColumns "a" exampleGroup.columns = .ok fields ∧
      (fields.map fun c => c.byteRange) = [.ok (4, 3), .ok (10, 3)]) ∧
    (∀ k < 2, 3 + 3 ≤ [0, 1, 1, 1, 0, 0, 1, 0, 1, 0, 0, 1].count k) ∧
    (∀ c ∈ exampleGroup.columns, c.byteRange.isOk = true) :=
  ⟨⟨_, rfl, by decide +kernel⟩, by decide +kernel, by decide +kernel⟩

/-- **C67 is violated** if the file is cut by somebody else after its length was determined: when the
reader then ends early, reading the metadata panics instead of reporting an error. -/
theorem C67_violated :
    ((readMetadataFrom { source := Tape.shrinking writerEnd.2.out 4 100, buffer := fun n => n + 32 } fileCodec
      { sizes := [1000] }).1.map' fun m => m.rowGroups.length) = .panic ∧
    (readMetadata fileCodec writerEnd.2.out).isOk = true :=
  ⟨by decide +kernel, by decide +kernel⟩

/-! ### C68 -/

/-- **C68 (partial)** for files as in `C59_whole_file_partial`, and with the same parts missing: for
every row group and every name, the chunks of the columns of the fields of that name are read into memory
in the order of the schema, each with exactly the bytes of its pages; and a page reader on the bytes of
any chunk delivers its pages (`Spec.ColumnReads`). -/
theorem C68_in_memory_partial (cs : ThriftCodecs) (limit : Thrift.PageHeader → Nat)
    (hl : LawfulCodec cs.page limit) (hs : SaneCodec cs.page) (fileLimit : Thrift.FileMetaData → Nat)
    (hfile : LawfulCodec cs.file fileLimit) (ck : Bool) (name : String) (fields : List ParquetType)
    (h0 : 0 < fields.length) (h31 : fields.length < 2 ^ 31) (hg : GoodTrees fields)
    (options : WriteOptions) (createdBy : Option String) (kv : Option (List Thrift.KeyValue))
    (groups : List (List (List CompressedPage))) (n : Nat) (w : FileWriter)
    (h : Finished cs ck (SchemaDescriptor.new name fields) options createdBy kv groups n w)
    (hf : ∀ g ∈ groups, GroupFits cs ((SchemaDescriptor.new name fields).leaves.zip g))
    (hlen : w.out.length < 2 ^ 63)
    (hcols : ∀ g ∈ groups, (SchemaDescriptor.new name fields).leaves.length ≤ g.length)
    (hread : ∀ g ∈ groups, ∀ c ∈ (SchemaDescriptor.new name fields).leaves.zip g, Readable c)
    (hrows : ∀ g ∈ groups, GroupRowsKnown ((SchemaDescriptor.new name fields).leaves.zip g))
    (htotal : (groups.map fun g =>
      groupRows ((SchemaDescriptor.new name fields).leaves.zip g)).sum < 2 ^ 63) :
    ∃ md pre, w.out = pre ++ cs.file.ser md ++ tail8 (cs.file.ser md) ∧
      ((cs.file.ser md).length < 2 ^ 31 → fileLimit md ≤ 2 * (cs.file.ser md).length + 1040 →
        ∃ fm, readMetadata cs.file w.out = .ok fm ∧
          List.Forall₂ (fun g (group : RowGroupMetaData) =>
            let columns := (SchemaDescriptor.new name fields).leaves.zip g
            (∀ field, readColumns w.out field group.columns =
              .ok (((columns.zip group.columns).filter fun x =>
                x.1.1.pathInSchema.head? == some field).map fun x => (x.2, chunkBytes cs.page x.1.2))) ∧
            List.Forall₂ (fun c (chunk : ColumnChunkMetaData) => ∃ meta', chunk.pageMetaData = .ok meta' ∧
              ∀ (ck : Bool) (filter : PageFilter) (scratch : List Byte) (max : Nat),
              (∀ p ∈ c.2, p.buffer.length ≤ max ∧ limit (headerOf p) ≤ max) →
              ∃ last, Pulls (PageReader.next cs.page ck)
                (PageReader.new (chunkBytes cs.page c.2) meta' filter scratch max)
                ((c.2.filter (passes filter c.1.descriptor)).map fun p => .ok (readBack p)) last)
              columns group.columns)
            groups fm.rowGroups) := by
  obtain ⟨md, pre, he, hr⟩ := C59_whole_file_partial cs limit hl hs fileLimit hfile ck name fields h0 h31 hg
    options createdBy kv groups n w h hf hlen hcols hread hrows htotal
  refine ⟨md, pre, he, fun hmd hlim => ?_⟩
  obtain ⟨fm, h1, -, -, -, -, -, -, h2⟩ := hr hmd hlim
  refine ⟨fm, h1, h2.imp fun g group hgr => ⟨fun field => ?_, hgr.chunks.imp fun c chunk hc => hc.inMemory⟩⟩
  refine readColumns_reads hgr.chunks (fun c hc => leaves_path name fields c.1 ?_) field
  exact (List.of_mem_zip hc).1

/-- The hypotheses of `C68_in_memory_partial` are those of `C59_whole_file_partial`, see the example
there. On that file: -/
example :
    (match readMetadata fileCodec writerEnd.2.out with
      | .ok fm => fm.rowGroups.map fun g =>
        match readColumns writerEnd.2.out "a" g.columns with
        | .ok l => l.map fun x => (x.1.columnDescr.pathInSchema, decide (x.2.length ≠ 0))
        | _ => []
      | _ => []) = [[(["a"], true)], [(["a"], true)]] := by
  decide +kernel

/-- **C68 (partial)** for any bytes: what is read of a chunk are the bytes of its range, all of them if
the file has them. Missing: an error if the file does not have them (`C68_violated`). -/
theorem C68_range_partial (file : List Byte) (c : ColumnChunkMetaData) (start length : Nat)
    (hr : c.byteRange = .ok (start, length)) :
    (start + length ≤ file.length → length < 2 ^ 63 →
      ∃ b, readColumn file c = .ok b ∧ b.length = length ∧ b = region file start length) ∧
    (2 ^ 63 ≤ length → readColumn file c = .err .oos) := by
  simp only [readColumn, hr, Res.ok_bind]
  refine ⟨fun h1 h2 => ?_, fun h1 => by rw [if_pos h1]⟩
  rw [if_neg (by omega)]
  exact ⟨_, rfl, by simp only [List.length_take, List.length_drop]; omega, rfl⟩

example : (exampleChunk ["a", "x"] 4#64).byteRange = .ok (4, 3) := by decide +kernel

/-- **C68 is violated** if the file ends within the chunk: what is there is returned, without an error,
as the bytes of the chunk. -/
theorem C68_violated :
    (exampleChunk ["a", "x"] 4#64).byteRange = .ok (4, 3) ∧
    readColumn [0#8, 0#8, 0#8, 0#8, 9#8] (exampleChunk ["a", "x"] 4#64) = .ok [9#8] ∧
    readColumn [] (exampleChunk ["a", "x"] 4#64) = .ok [] := by
  decide +kernel

end Pq.Props
