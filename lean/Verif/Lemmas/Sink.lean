import Verif.Lemmas.Writer
import Verif.Spec.Sink
/-
Lemmas relating the writers on a sink that may fail (`Model/Sink.lean`) to those on one that does not
(`Model/Writer.lean`).
-/
namespace Pq

open Spec

variable {σ α β : Type}

/-- The function on the sink does what the pure one does, or the sink fails on the way. -/
def Sim (v : SinkView σ) (m : IoM σ α) (p : Written α) : Prop := ∀ s,
  ((m s).1 = p.1 ∧ v.held (m s).2 = v.held s ++ p.2 ∧ v.failed (m s).2 = v.failed s) ∨
  ((m s).1 = .err .oos ∧ v.failed (m s).2 = true ∧ ∃ q, q <+: p.2 ∧ v.held (m s).2 = v.held s ++ q)

/-- First one, then the other. -/
def Written.bind (p : Written α) (f : α → Written β) : Written β :=
  match p with
  | (.ok a, bytes) => ((f a).1, bytes ++ (f a).2)
  | (.err e, bytes) => (.err e, bytes)
  | (.panic, bytes) => (.panic, bytes)

theorem IoM.bind_def (m : IoM σ α) (f : α → IoM σ β) : (m >>= f) = IoM.bind m f := rfl

theorem Sim.bind {v : SinkView σ} {m : IoM σ α} {p : Written α} {f : α → IoM σ β}
    {g : α → Written β} (h : Sim v m p) (hf : ∀ a, p.1 = .ok a → Sim v (f a) (g a)) :
    Sim v (m >>= f) (p.bind g) := by
  intro s
  rw [IoM.bind_def]
  rcases h s with ⟨h1, h2, h3⟩ | ⟨h1, h2, q, hq, h3⟩
  · obtain ⟨r, b⟩ := p
    simp only [IoM.bind]
    generalize m s = ms at h1 h2 h3
    obtain ⟨r', s'⟩ := ms
    simp only at h1 h2 h3
    subst h1
    cases r' with
    | ok a =>
      simp only [Written.bind]
      rcases hf a rfl s' with ⟨k1, k2, k3⟩ | ⟨k1, k2, q, hq, k3⟩
      · exact .inl ⟨k1, by rw [k2, h2, List.append_assoc], k3.trans h3⟩
      · exact .inr ⟨k1, k2, b ++ q, (List.prefix_append_right_inj b).2 hq, by rw [k3, h2, List.append_assoc]⟩
    | err e => exact .inl ⟨rfl, h2, h3⟩
    | panic => exact .inl ⟨rfl, h2, h3⟩
  · refine .inr ?_
    simp only [IoM.bind]
    generalize m s = ms at h1 h2 h3
    obtain ⟨r', s'⟩ := ms
    simp only at h1 h2 h3
    subst h1
    refine ⟨rfl, h2, q, ?_, h3⟩
    obtain ⟨r, b⟩ := p
    cases r with
    | ok a => exact hq.trans (List.prefix_append _ _)
    | err e => exact hq
    | panic => exact hq

theorem Sim.lift (v : SinkView σ) (r : Res α) : Sim v (IoM.lift r) (r, []) :=
  fun s => .inl ⟨rfl, by simp [IoM.lift], rfl⟩

theorem Sim.pure (v : SinkView σ) (a : α) : Sim v (Pure.pure a : IoM σ α) (.ok a, []) :=
  fun s => .inl ⟨rfl, by simp [Pure.pure, IoM.pure], rfl⟩

theorem Sim.all {v : SinkView σ} {sink : Sink σ} (h : LawfulSink sink v) (bytes : List Byte) :
    Sim v (sink.all bytes) (.ok (), bytes) := by
  intro s
  rw [Sink.all]
  cases hw : sink.writeAll s bytes with
  | mk b s' =>
    cases b with
    | true => exact .inl ⟨rfl, (h.write_ok s s' bytes hw).1, (h.write_ok s s' bytes hw).2⟩
    | false =>
      obtain ⟨⟨q, hq, h1⟩, h2⟩ := h.write_err s s' bytes hw
      exact .inr ⟨rfl, h2, q, hq, h1⟩

theorem Sim.flushed {v : SinkView σ} {sink : Sink σ} (h : LawfulSink sink v) :
    Sim v sink.flushed (.ok (), []) := by
  intro s
  rw [Sink.flushed]
  cases hw : sink.flush s with
  | mk b s' =>
    cases b with
    | true => exact .inl ⟨rfl, by simp [(h.flush_ok s s' hw).1], (h.flush_ok s s' hw).2.1⟩
    | false =>
      obtain ⟨h1, h2⟩ := h.flush_err s s' hw
      exact .inr ⟨rfl, h2, [], List.prefix_refl _, by simp [h1]⟩

theorem Sim.pieces {v : SinkView σ} {sink : Sink σ} (h : LawfulSink sink v) (bs : List (List Byte)) :
    Sim v (sink.pieces bs) (.ok (), bs.flatten) := by
  induction bs with
  | nil => exact Sim.pure v ()
  | cons b bs ih =>
    have := (Sim.all h b).bind (f := fun _ => sink.pieces bs) (g := fun _ => (.ok (), bs.flatten))
      fun _ _ => ih
    exact this

theorem Sim.struct {v : SinkView σ} {o : Output σ} (h : LawfulOutput o v) (bytes : List Byte) :
    Sim v (o.struct bytes) (.ok bytes.length, bytes) := by
  have h1 := Sim.pieces h.sink (o.cut bytes)
  rw [h.cut] at h1
  have := h1.bind (f := fun _ => (Pure.pure bytes.length : IoM σ Nat))
    (g := fun _ => (.ok bytes.length, [])) fun _ _ => Sim.pure v _
  rw [Output.struct]
  simpa [Written.bind] using this

theorem Sim.congr {v : SinkView σ} {m : IoM σ α} {p p' : Written α} (h : Sim v m p) (e : p = p') :
    Sim v m p' := e ▸ h

variable {v : SinkView σ} {o : Output σ}

theorem Sim.writePage (h : LawfulOutput o v) (codec : Codec Thrift.PageHeader) (offset : Nat)
    (page : CompressedPage) : Sim v (writePageTo o codec offset page) (writePage codec offset page) := by
  refine Sim.congr (Sim.bind (Sim.lift v _) fun header _ => Sim.bind (Sim.struct h _) fun n _ =>
    Sim.bind (Sim.all h.sink _) fun _ _ => Sim.bind (Sim.lift v _) fun st _ =>
    Sim.bind (Sim.lift v _) fun rows _ => Sim.pure v _) ?_
  rw [Pq.writePage]
  cases assembleHeader page with
  | err e => rfl
  | panic => rfl
  | ok header =>
    simp only [Written.bind, List.nil_append]
    cases pageStatistics page with
    | err e => simp [Bind.bind, Res.bind]
    | panic => simp [Bind.bind, Res.bind]
    | ok st =>
      cases lastSelected page.selectedRows with
      | err e => simp [Bind.bind, Res.bind]
      | panic => simp [Bind.bind, Res.bind]
      | ok rows => simp [Bind.bind, Res.bind]

theorem Sim.writePages (h : LawfulOutput o v) (codec : Codec Thrift.PageHeader)
    (pages : List (Res CompressedPage)) (offset : Nat) :
    Sim v (writePagesTo o codec offset pages) (writePages codec offset pages) := by
  induction pages generalizing offset with
  | nil => exact Sim.pure v _
  | cons page pages ih =>
    refine Sim.congr (Sim.bind (Sim.lift v _) fun page _ => Sim.bind (Sim.writePage h codec offset page)
      fun spec _ => Sim.bind (ih _) fun specs _ => Sim.pure v _) ?_
    cases page with
    | err e => rfl
    | panic => rfl
    | ok page =>
      rw [Pq.writePages]
      simp only [Written.bind, List.nil_append]
      generalize Pq.writePage codec offset page = r
      obtain ⟨r, b⟩ := r
      cases r with
      | err e => rfl
      | panic => rfl
      | ok spec =>
        simp only
        generalize Pq.writePages codec (offset + spec.bytesWritten) pages = r
        obtain ⟨r, b⟩ := r
        cases r <;> simp [Res.map']

theorem Sim.writeColumnChunk (h : LawfulOutput o v) (cs : ThriftCodecs) (ck : Bool) (offset : Nat)
    (d : ColumnDescriptor) (pages : List (Res CompressedPage)) :
    Sim v (writeColumnChunkTo o cs ck offset d pages) (writeColumnChunk cs ck offset d pages) := by
  refine Sim.congr (Sim.bind (Sim.writePages h _ _ _) fun specs _ => Sim.bind (Sim.lift v _)
    fun chunk _ => Sim.bind (Sim.lift v _) fun m _ => Sim.bind (Sim.struct h _) fun n _ =>
    Sim.pure v _) ?_
  rw [Pq.writeColumnChunk]
  generalize Pq.writePages cs.page offset pages = r
  obtain ⟨r, b⟩ := r
  cases r with
  | err e => rfl
  | panic => rfl
  | ok specs =>
    simp only [Written.bind]
    cases buildColumnChunk ck specs d with
    | err e => simp
    | panic => simp
    | ok chunk =>
      simp only
      cases chunk.metaData <;> simp [Res.unwrap]

theorem Sim.writeColumns (h : LawfulOutput o v) (cs : ThriftCodecs) (ck : Bool)
    (ds : List ColumnDescriptor) (columns : List (Res (List (Res CompressedPage)))) (offset : Nat) :
    Sim v (writeColumnsTo o cs ck offset ds columns) (writeColumns cs ck offset ds columns) := by
  induction ds generalizing offset columns with
  | nil => exact Sim.pure v _
  | cons d ds ih =>
    cases columns with
    | nil => exact Sim.pure v _
    | cons pages columns =>
      refine Sim.congr (Sim.bind (Sim.lift v _) fun pages _ => Sim.bind
        (Sim.writeColumnChunk h cs ck offset d pages) fun x _ => Sim.bind
        (ih columns (offset + x.2.2)) fun y _ =>
        Sim.pure v ((x.1, x.2.1) :: y.1, x.2.2 + y.2)) ?_
      cases pages with
      | err e => rfl
      | panic => rfl
      | ok pages =>
        rw [Pq.writeColumns]
        simp only [Written.bind, List.nil_append]
        generalize Pq.writeColumnChunk cs ck offset d pages = r
        obtain ⟨r, b⟩ := r
        cases r with
        | err e => rfl
        | panic => rfl
        | ok x =>
          obtain ⟨chunk, specs, size⟩ := x
          simp only
          generalize Pq.writeColumns cs ck (offset + size) ds columns = r
          obtain ⟨r, b⟩ := r
          cases r <;> simp [Res.map']

theorem Sim.writeRowGroup (h : LawfulOutput o v) (cs : ThriftCodecs) (ck : Bool) (offset : Nat)
    (ds : List ColumnDescriptor) (columns : List (Res (List (Res CompressedPage)))) (ordinal : Nat) :
    Sim v (writeRowGroupTo o cs ck offset ds columns ordinal)
      (writeRowGroup cs ck offset ds columns ordinal) := by
  refine Sim.congr (Sim.bind (Sim.writeColumns h cs ck ds columns offset) fun x _ => Sim.bind
    (Sim.lift v (buildRowGroup ck x.1 ordinal)) fun group _ => Sim.pure v (group, x.1.map (·.2), x.2)) ?_
  rw [Pq.writeRowGroup]
  generalize Pq.writeColumns cs ck offset ds columns = r
  obtain ⟨r, b⟩ := r
  cases r with
  | err e => rfl
  | panic => rfl
  | ok x =>
    simp only [Written.bind]
    cases buildRowGroup ck x.1 ordinal <;> simp [Res.map']

/-- The index written by a function, as bytes. -/
def indexWritten (index : List PageWriteSpec → Res (List Byte)) (pages : List PageWriteSpec) :
    Written Nat :=
  match index pages with
  | .ok bytes => (.ok bytes.length, bytes)
  | .err e => (.err e, [])
  | .panic => (.panic, [])

theorem Sim.writeColumnIndex (h : LawfulOutput o v) (cs : ThriftCodecs) (pages : List PageWriteSpec) :
    Sim v (writeColumnIndexTo o cs pages) (indexWritten (writeColumnIndex cs) pages) := by
  refine Sim.congr (Sim.bind (Sim.lift v _) fun index _ => Sim.struct h _) ?_
  rw [indexWritten, Pq.writeColumnIndex]
  cases serializeColumnIndex pages <;> simp [Res.map', Written.bind]

theorem Sim.writeOffsetIndex (h : LawfulOutput o v) (cs : ThriftCodecs) (ck : Bool)
    (pages : List PageWriteSpec) :
    Sim v (writeOffsetIndexTo o cs ck pages) (indexWritten (writeOffsetIndex cs ck) pages) := by
  refine Sim.congr (Sim.bind (Sim.lift v _) fun index _ => Sim.struct h _) ?_
  rw [indexWritten, Pq.writeOffsetIndex]
  cases serializeOffsetIndex ck pages <;> simp [Res.map', Written.bind]

theorem Sim.startFile (h : LawfulOutput o v) : Sim v (startFileTo o) (.ok 4, magic) := by
  refine Sim.congr (Sim.bind (Sim.all h.sink _) fun _ _ => Sim.pure v _) ?_
  simp [Written.bind]

theorem Sim.endFile (h : LawfulOutput o v) (cs : ThriftCodecs) (ck : Bool)
    (metadata : Thrift.FileMetaData) : Sim v (endFileTo o cs ck metadata) (endFile cs ck metadata) := by
  refine Sim.congr (Sim.bind (Sim.struct h _) fun n _ => Sim.bind (Sim.all h.sink _) fun _ _ =>
    Sim.bind (Sim.flushed h.sink) fun _ _ => Sim.lift v _) ?_
  simp [Written.bind, Pq.endFile]

theorem Sim.sidecar (h : LawfulOutput o v) (cs : ThriftCodecs) (ck : Bool)
    (metadata : Thrift.FileMetaData) :
    Sim v (writeMetadataSidecarTo o cs ck metadata) (writeMetadataSidecar cs ck metadata) := by
  refine Sim.congr (Sim.bind (Sim.startFile h) fun len _ => Sim.bind (Sim.endFile h cs ck metadata)
    fun n _ => Sim.pure v _) ?_
  rw [Pq.writeMetadataSidecar]
  generalize Pq.endFile cs ck metadata = r
  obtain ⟨r, b⟩ := r
  cases r <;> simp [Written.bind, Res.map']

/-! ### The loops over the indexes -/

/-- As `Sim`, for a loop that also returns the offset and what was done. -/
def SimLoop {γ : Type} (v : SinkView σ) (m : σ → (Res Unit × Nat × List γ) × σ)
    (p : Res Unit × IndexLoop γ) : Prop := ∀ s,
  ((m s).1 = (p.1, p.2.offset, p.2.done) ∧ v.held (m s).2 = v.held s ++ p.2.bytes ∧
      v.failed (m s).2 = v.failed s) ∨
  ((m s).1.1 = .err .oos ∧ v.failed (m s).2 = true ∧
      ∃ q, q <+: p.2.bytes ∧ v.held (m s).2 = v.held s ++ q)

theorem SimLoop.columns {indexTo : List PageWriteSpec → IoM σ Nat}
    {index : List PageWriteSpec → Res (List Byte)}
    (hi : ∀ pages, Sim v (indexTo pages) (indexWritten index pages))
    (set : Thrift.ColumnChunk → I64 → Option I32 → Thrift.ColumnChunk)
    (columns : List Thrift.ColumnChunk) (specs : List (List PageWriteSpec)) (offset : Nat) :
    SimLoop v (indexColumnsTo indexTo set offset columns specs)
      (indexColumns index set offset columns specs) := by
  induction columns generalizing offset specs with
  | nil => exact fun s => .inl ⟨rfl, by simp [indexColumnsTo, indexColumns], rfl⟩
  | cons c columns ih =>
    cases specs with
    | nil => exact fun s => .inl ⟨rfl, by simp [indexColumnsTo, indexColumns], rfl⟩
    | cons pages specs =>
      intro s
      have h := hi pages s
      rw [indexColumnsTo, indexColumns]
      rw [indexWritten] at h
      generalize indexTo pages s = ms at h
      obtain ⟨r, s'⟩ := ms
      cases hx : index pages with
      | err e =>
        rw [hx] at h
        rcases h with ⟨h1, h2, h3⟩ | ⟨h1, h2, q, hq, h3⟩
        · simp only at h1 h2 h3
          subst h1
          exact .inl ⟨rfl, h2, h3⟩
        · simp only at h1 h2 h3
          subst h1
          exact .inr ⟨rfl, h2, q, hq, h3⟩
      | panic =>
        rw [hx] at h
        rcases h with ⟨h1, h2, h3⟩ | ⟨h1, h2, q, hq, h3⟩
        · simp only at h1 h2 h3
          subst h1
          exact .inl ⟨rfl, h2, h3⟩
        · simp only at h1 h2 h3
          subst h1
          exact .inr ⟨rfl, h2, q, hq, h3⟩
      | ok bytes =>
        rw [hx] at h
        rcases h with ⟨h1, h2, h3⟩ | ⟨h1, h2, q, hq, h3⟩
        · simp only at h1 h2 h3
          subst h1
          simp only
          rcases ih specs (offset + bytes.length) s' with ⟨k1, k2, k3⟩ | ⟨k1, k2, q, hq, k3⟩
          · refine .inl ⟨?_, ?_, k3.trans h3⟩
            · simp only [k1]
            · rw [k2, h2, List.append_assoc]
          · exact .inr ⟨k1, k2, bytes ++ q, (List.prefix_append_right_inj bytes).2 hq, by
              rw [k3, h2, List.append_assoc]⟩
        · simp only at h1 h2 h3
          subst h1
          exact .inr ⟨rfl, h2, q, hq.trans (List.prefix_append _ _), h3⟩

theorem SimLoop.groups {indexTo : List PageWriteSpec → IoM σ Nat}
    {index : List PageWriteSpec → Res (List Byte)}
    (hi : ∀ pages, Sim v (indexTo pages) (indexWritten index pages))
    (set : Thrift.ColumnChunk → I64 → Option I32 → Thrift.ColumnChunk)
    (groups : List Thrift.RowGroup) (specs : List (List (List PageWriteSpec))) (offset : Nat) :
    SimLoop v (indexGroupsTo indexTo set offset groups specs)
      (indexGroups index set offset groups specs) := by
  induction groups generalizing offset specs with
  | nil => exact fun s => .inl ⟨rfl, by simp [indexGroupsTo, indexGroups], rfl⟩
  | cons g groups ih =>
    cases specs with
    | nil => exact fun s => .inl ⟨rfl, by simp [indexGroupsTo, indexGroups], rfl⟩
    | cons pages specs =>
      intro s
      have h := SimLoop.columns hi set g.columns pages offset s
      rw [indexGroupsTo, indexGroups]
      generalize indexColumnsTo indexTo set offset g.columns pages s = ms at h
      generalize indexColumns index set offset g.columns pages = p at h
      obtain ⟨⟨r, off, done⟩, s'⟩ := ms
      obtain ⟨r', l⟩ := p
      rcases h with ⟨h1, h2, h3⟩ | ⟨h1, h2, q, hq, h3⟩
      · simp only [Prod.mk.injEq] at h1 h2 h3
        obtain ⟨rfl, rfl, rfl⟩ := h1
        cases r with
        | err e => exact .inl ⟨rfl, h2, h3⟩
        | panic => exact .inl ⟨rfl, h2, h3⟩
        | ok u =>
          simp only
          rcases ih specs l.offset s' with ⟨k1, k2, k3⟩ | ⟨k1, k2, q, hq, k3⟩
          · refine .inl ⟨?_, ?_, k3.trans h3⟩
            · simp only [k1]
            · rw [k2, h2, List.append_assoc]
          · exact .inr ⟨k1, k2, l.bytes ++ q, (List.prefix_append_right_inj _).2 hq, by
              rw [k3, h2, List.append_assoc]⟩
      · simp only at h1 h2 h3
        subst h1
        refine .inr ⟨rfl, h2, q, ?_, h3⟩
        cases r' with
        | err e => exact hq
        | panic => exact hq
        | ok u => exact hq.trans (List.prefix_append _ _)

/-! ### Calls -/

/-- A call does what it does without failures, or the sink fails on the way and the call with it. -/
def SimCall (v : SinkView σ) (w : SinkWriter σ) (m : Res α × SinkWriter σ) (p : Res α × FileWriter) :
    Prop :=
  (m.1 = p.1 ∧ v.writer m.2 = p.2 ∧ v.failed m.2.sink = v.failed w.sink) ∨
  (m.1 = .err .oos ∧ v.failed m.2.sink = true ∧
    v.held w.sink <+: v.held m.2.sink ∧ v.held m.2.sink <+: p.2.out)

theorem SimCall.start (h : LawfulOutput o v) (w : SinkWriter σ) :
    SimCall v w (w.start o) (v.writer w).start := by
  rw [SinkWriter.start, FileWriter.start]
  have e : (v.writer w).offset = w.rest.offset := rfl
  rw [e]
  by_cases h0 : w.rest.offset = 0
  · rw [if_pos h0, if_pos h0]
    have hs := Sim.startFile h w.sink
    generalize startFileTo o w.sink = ms at hs
    obtain ⟨r, s⟩ := ms
    rcases hs with ⟨h1, h2, h3⟩ | ⟨h1, h2, q, hq, h3⟩
    · simp only at h1 h2 h3
      subst h1
      refine .inl ⟨rfl, ?_, h3⟩
      simp only [SinkView.writer, h2]
    · simp only at h1 h2 h3
      subst h1
      refine .inr ⟨rfl, h2, by rw [h3]; exact List.prefix_append _ _, ?_⟩
      rw [h3]
      exact (List.prefix_append_right_inj _).2 hq
  · rw [if_neg h0, if_neg h0]
    exact .inl ⟨rfl, rfl, rfl⟩

theorem SimCall.autoStart (h : LawfulOutput o v) (w : SinkWriter σ) :
    SimCall v w (w.autoStart o) (.ok (), (v.writer w).autoStart) := by
  rw [SinkWriter.autoStart, FileWriter.autoStart]
  have e : (v.writer w).offset = w.rest.offset := rfl
  rw [e]
  by_cases h0 : w.rest.offset = 0
  · rw [if_pos h0, if_pos h0]
    have := SimCall.start h w
    rwa [show (v.writer w).start = (.ok (), (v.writer w).start.2) by
      rw [FileWriter.start, if_pos (e.trans h0)]] at this
  · rw [if_neg h0, if_neg h0]
    exact .inl ⟨rfl, rfl, rfl⟩

/-- First a part of a call, then the rest. -/
theorem SimCall.trans {w w1 : SinkWriter σ} {p1 : FileWriter} {m : Res α × SinkWriter σ}
    {p : Res α × FileWriter} (h1 : v.writer w1 = p1 ∧ v.failed w1.sink = v.failed w.sink)
    (hp : (v.writer w).out <+: p1.out) (h2 : SimCall v w1 m p) : SimCall v w m p := by
  obtain ⟨rfl, hf⟩ := h1
  rcases h2 with ⟨k1, k2, k3⟩ | ⟨k1, k2, k3, k4⟩
  · exact .inl ⟨k1, k2, k3.trans hf⟩
  · exact .inr ⟨k1, k2, List.IsPrefix.trans hp k3, k4⟩

theorem SimCall.writeStarted (h : LawfulOutput o v) (cs : ThriftCodecs) (ck : Bool) (w : SinkWriter σ)
    (rowGroup : List (Res (List (Res CompressedPage)))) :
    SimCall v w (w.writeStarted o cs ck rowGroup)
      (match writeRowGroup cs ck (v.writer w).offset (v.writer w).schema.leaves rowGroup
          (v.writer w).rowGroups.length with
        | (.err e, bytes) => (.err e, { v.writer w with out := (v.writer w).out ++ bytes })
        | (.panic, bytes) => (.panic, { v.writer w with out := (v.writer w).out ++ bytes })
        | (.ok (group, specs, size), bytes) =>
          (.ok (), { v.writer w with
            out := (v.writer w).out ++ bytes, offset := (v.writer w).offset + size
            rowGroups := (v.writer w).rowGroups ++ [group]
            pageSpecs := (v.writer w).pageSpecs ++ [specs] })) := by
  rw [SinkWriter.writeStarted]
  have hs := Sim.writeRowGroup h cs ck w.rest.offset w.rest.schema.leaves rowGroup
    w.rest.rowGroups.length w.sink
  change SimCall v w _ (match writeRowGroup cs ck w.rest.offset w.rest.schema.leaves rowGroup
          w.rest.rowGroups.length with
        | (.err e, bytes) => (.err e, { w.rest with out := v.held w.sink ++ bytes })
        | (.panic, bytes) => (.panic, { w.rest with out := v.held w.sink ++ bytes })
        | (.ok (group, specs, size), bytes) =>
          (.ok (), { w.rest with
            out := v.held w.sink ++ bytes, offset := w.rest.offset + size
            rowGroups := w.rest.rowGroups ++ [group]
            pageSpecs := w.rest.pageSpecs ++ [specs] }))
  generalize writeRowGroupTo o cs ck w.rest.offset w.rest.schema.leaves rowGroup
    w.rest.rowGroups.length w.sink = ms at hs
  generalize Pq.writeRowGroup cs ck w.rest.offset w.rest.schema.leaves rowGroup
    w.rest.rowGroups.length = p at hs
  obtain ⟨r, s⟩ := ms
  obtain ⟨r', b⟩ := p
  rcases hs with ⟨h1, h2, h3⟩ | ⟨h1, h2, q, hq, h3⟩
  · simp only at h1 h2 h3
    subst h1
    cases r with
    | err e => exact .inl ⟨rfl, by simp only [SinkView.writer, h2], h3⟩
    | panic => exact .inl ⟨rfl, by simp only [SinkView.writer, h2], h3⟩
    | ok x =>
      obtain ⟨group, specs, size⟩ := x
      exact .inl ⟨rfl, by simp only [SinkView.writer, h2], h3⟩
  · simp only at h1 h2 h3
    subst h1
    refine .inr ⟨rfl, h2, by rw [h3]; exact List.prefix_append _ _, ?_⟩
    simp only
    rw [h3]
    cases r' with
    | err e => exact (List.prefix_append_right_inj _).2 hq
    | panic => exact (List.prefix_append_right_inj _).2 hq
    | ok x => exact (List.prefix_append_right_inj _).2 hq

/-- What a call on the pure writer adds. -/
theorem write_out_prefix (cs : ThriftCodecs) (ck : Bool) (w : FileWriter)
    (rowGroup : List (Res (List (Res CompressedPage)))) :
    w.autoStart.out <+: (w.write cs ck rowGroup).2.out := by
  rw [FileWriter.write]
  split <;> exact List.prefix_append _ _

theorem autoStart_out_prefix (w : FileWriter) : w.out <+: w.autoStart.out := by
  rw [FileWriter.autoStart]
  split
  · rename_i h0
    rw [FileWriter.start, if_pos h0]
    exact List.prefix_append _ _
  · exact List.prefix_refl _

theorem SimCall.write (h : LawfulOutput o v) (cs : ThriftCodecs) (ck : Bool) (w : SinkWriter σ)
    (rowGroup : List (Res (List (Res CompressedPage)))) :
    SimCall v w (w.write o cs ck rowGroup) ((v.writer w).write cs ck rowGroup) := by
  rw [SinkWriter.write]
  have hs := SimCall.autoStart h w
  generalize w.autoStart o = m at hs
  obtain ⟨r, w1⟩ := m
  rcases hs with ⟨h1, h2, h3⟩ | ⟨h1, h2, h3, h4⟩
  · simp only at h1 h2 h3
    subst h1
    refine SimCall.trans ⟨h2, h3⟩ (autoStart_out_prefix _) ?_
    have := SimCall.writeStarted h cs ck w1 rowGroup
    rw [h2] at this
    exact this
  · simp only at h1 h2 h3 h4
    subst h1
    exact .inr ⟨rfl, h2, h3, h4.trans (write_out_prefix cs ck _ rowGroup)⟩

theorem SimCall.columnIndexes (h : LawfulOutput o v) (cs : ThriftCodecs) (w : SinkWriter σ) :
    SimCall v w (w.columnIndexes o cs) ((v.writer w).columnIndexes cs) := by
  rw [SinkWriter.columnIndexes, FileWriter.columnIndexes]
  change SimCall v w _ (if w.rest.options.writeStatistics = true then _ else _)
  by_cases ho : w.rest.options.writeStatistics = true
  · rw [if_pos ho, if_pos ho]
    have hs := SimLoop.groups (Sim.writeColumnIndex h cs) setColumnIndex w.rest.rowGroups
      w.rest.pageSpecs w.rest.offset w.sink
    change SimCall v w _ (match indexGroups (Pq.writeColumnIndex cs) setColumnIndex w.rest.offset
      w.rest.rowGroups w.rest.pageSpecs with
      | (r, l) => (r, (v.writer w).after l))
    generalize indexGroupsTo (writeColumnIndexTo o cs) setColumnIndex w.rest.offset w.rest.rowGroups
      w.rest.pageSpecs w.sink = ms at hs
    generalize indexGroups (Pq.writeColumnIndex cs) setColumnIndex w.rest.offset w.rest.rowGroups
      w.rest.pageSpecs = p at hs
    obtain ⟨⟨r, off, done⟩, s⟩ := ms
    obtain ⟨r', l⟩ := p
    rcases hs with ⟨h1, h2, h3⟩ | ⟨h1, h2, q, hq, h3⟩
    · simp only [Prod.mk.injEq] at h1 h2 h3
      obtain ⟨rfl, rfl, rfl⟩ := h1
      exact .inl ⟨rfl, by simp only [SinkView.writer, SinkWriter.after, FileWriter.after, h2], h3⟩
    · simp only at h1 h2 h3
      subst h1
      refine .inr ⟨rfl, h2, ?_, ?_⟩
      · simp only [SinkWriter.after, h3]
        exact List.prefix_append _ _
      · simp only [SinkWriter.after, FileWriter.after, h3]
        exact (List.prefix_append_right_inj _).2 hq
  · rw [if_neg ho, if_neg ho]
    exact .inl ⟨rfl, rfl, rfl⟩

theorem SimCall.offsetIndexes (h : LawfulOutput o v) (cs : ThriftCodecs) (ck : Bool) (w : SinkWriter σ) :
    SimCall v w (w.offsetIndexes o cs ck) ((v.writer w).offsetIndexes cs ck) := by
  rw [SinkWriter.offsetIndexes, FileWriter.offsetIndexes]
  have hs := SimLoop.groups (Sim.writeOffsetIndex h cs ck) setOffsetIndex w.rest.rowGroups
    w.rest.pageSpecs w.rest.offset w.sink
  change SimCall v w _ (match indexGroups (Pq.writeOffsetIndex cs ck) setOffsetIndex w.rest.offset
    w.rest.rowGroups w.rest.pageSpecs with
      | (r, l) => (r, (v.writer w).after l))
  generalize indexGroupsTo (writeOffsetIndexTo o cs ck) setOffsetIndex w.rest.offset w.rest.rowGroups
    w.rest.pageSpecs w.sink = ms at hs
  generalize indexGroups (Pq.writeOffsetIndex cs ck) setOffsetIndex w.rest.offset w.rest.rowGroups
    w.rest.pageSpecs = p at hs
  obtain ⟨⟨r, off, done⟩, s⟩ := ms
  obtain ⟨r', l⟩ := p
  rcases hs with ⟨h1, h2, h3⟩ | ⟨h1, h2, q, hq, h3⟩
  · simp only [Prod.mk.injEq] at h1 h2 h3
    obtain ⟨rfl, rfl, rfl⟩ := h1
    exact .inl ⟨rfl, by simp only [SinkView.writer, SinkWriter.after, FileWriter.after, h2], h3⟩
  · simp only at h1 h2 h3
    subst h1
    refine .inr ⟨rfl, h2, ?_, ?_⟩
    · simp only [SinkWriter.after, h3]
      exact List.prefix_append _ _
    · simp only [SinkWriter.after, FileWriter.after, h3]
      exact (List.prefix_append_right_inj _).2 hq

/-- `end`, once the indexes are written, without failures. -/
def endMetadataOn (finish : FileWriter → Thrift.FileMetaData → FileWriter) (cs : ThriftCodecs) (ck : Bool)
    (w : FileWriter) (numRows : I64) (kv : Option (List Thrift.KeyValue)) : Res Nat × FileWriter :=
  let metadata := w.fileMetadata numRows kv
  match endFile cs ck metadata with
  | (.err e, bytes) => (.err e, { w with out := w.out ++ bytes })
  | (.panic, bytes) => (.panic, { w with out := w.out ++ bytes })
  | (.ok len, bytes) => (.ok (w.offset + len), finish { w with out := w.out ++ bytes } metadata)

/-- `finish` does not touch what was written, nor depends on it. -/
structure Finishes (finish : FileWriter → Thrift.FileMetaData → FileWriter) : Prop where
  out : ∀ w md, (finish w md).out = w.out
  with_out : ∀ w md b, finish { w with out := b } md = { finish w md with out := b }

theorem SimCall.endMetadata (h : LawfulOutput o v)
    {finish : FileWriter → Thrift.FileMetaData → FileWriter} (hfin : Finishes finish) (cs : ThriftCodecs)
    (ck : Bool) (w : SinkWriter σ) (numRows : I64) (kv : Option (List Thrift.KeyValue)) :
    SimCall v w (w.endMetadata o finish cs ck numRows kv)
      (endMetadataOn finish cs ck (v.writer w) numRows kv) := by
  rw [SinkWriter.endMetadata, endMetadataOn]
  have hs := Sim.endFile h cs ck (w.rest.fileMetadata numRows kv) w.sink
  have e : (v.writer w).fileMetadata numRows kv = w.rest.fileMetadata numRows kv := rfl
  rw [e]
  generalize w.rest.fileMetadata numRows kv = md at hs
  generalize endFileTo o cs ck md w.sink = ms at hs
  generalize Pq.endFile cs ck md = p at hs
  obtain ⟨r, s⟩ := ms
  obtain ⟨r', b⟩ := p
  rcases hs with ⟨h1, h2, h3⟩ | ⟨h1, h2, q, hq, h3⟩
  · simp only at h1 h2 h3
    subst h1
    cases r with
    | err e => exact .inl ⟨rfl, by simp only [SinkView.writer, h2], h3⟩
    | panic => exact .inl ⟨rfl, by simp only [SinkView.writer, h2], h3⟩
    | ok n =>
      refine .inl ⟨rfl, ?_, h3⟩
      have := hfin.with_out w.rest md (v.held w.sink ++ b)
      simp only [SinkView.writer, h2]
      exact this.symm
  · simp only at h1 h2 h3
    subst h1
    refine .inr ⟨rfl, h2, by rw [h3]; exact List.prefix_append _ _, ?_⟩
    rw [h3]
    cases r' with
    | err e => exact (List.prefix_append_right_inj _).2 hq
    | panic => exact (List.prefix_append_right_inj _).2 hq
    | ok n =>
      simp only [hfin.out]
      exact (List.prefix_append_right_inj _).2 hq

theorem endWith_eq (finish : FileWriter → Thrift.FileMetaData → FileWriter) (cs : ThriftCodecs) (ck : Bool)
    (w : FileWriter) (kv : Option (List Thrift.KeyValue)) :
    w.endWith finish cs ck kv =
      if w.autoStart.state ≠ .started then (.err .invalidParameter, w.autoStart)
      else
        match sumI64 ck 0 (w.autoStart.rowGroups.map (·.numRows)) with
        | .err e => (.err e, w.autoStart)
        | .panic => (.panic, w.autoStart)
        | .ok numRows =>
          match w.autoStart.columnIndexes cs with
          | (.err e, w) => (.err e, w)
          | (.panic, w) => (.panic, w)
          | (.ok (), w) =>
            match w.offsetIndexes cs ck with
            | (.err e, w) => (.err e, w)
            | (.panic, w) => (.panic, w)
            | (.ok (), w) => endMetadataOn finish cs ck w numRows kv := rfl

/-- What `end` writes is added. -/
theorem columnIndexes_out (cs : ThriftCodecs) (w : FileWriter) : w.out <+: (w.columnIndexes cs).2.out := by
  rw [FileWriter.columnIndexes]
  split
  · exact List.prefix_append _ _
  · exact List.prefix_refl _

theorem offsetIndexes_out (cs : ThriftCodecs) (ck : Bool) (w : FileWriter) :
    w.out <+: (w.offsetIndexes cs ck).2.out := List.prefix_append _ _

theorem endMetadataOn_out {finish : FileWriter → Thrift.FileMetaData → FileWriter} (hfin : Finishes finish)
    (cs : ThriftCodecs) (ck : Bool) (w : FileWriter) (numRows : I64)
    (kv : Option (List Thrift.KeyValue)) : w.out <+: (endMetadataOn finish cs ck w numRows kv).2.out := by
  rw [endMetadataOn]
  split
  · exact List.prefix_append _ _
  · exact List.prefix_append _ _
  · simp only [hfin.out]
    exact List.prefix_append _ _

theorem SimCall.endWith (h : LawfulOutput o v)
    {finish : FileWriter → Thrift.FileMetaData → FileWriter} (hfin : Finishes finish) (cs : ThriftCodecs)
    (ck : Bool) (w : SinkWriter σ) (kv : Option (List Thrift.KeyValue)) :
    SimCall v w (w.endWith o finish cs ck kv) ((v.writer w).endWith finish cs ck kv) := by
  rw [SinkWriter.endWith, endWith_eq]
  have hs := SimCall.autoStart h w
  have hauto := autoStart_out_prefix (v.writer w)
  generalize w.autoStart o = m at hs
  generalize (v.writer w).autoStart = p1 at hs hauto
  obtain ⟨r, w1⟩ := m
  have hmono : p1.out <+: (if p1.state ≠ .started then (Res.err .invalidParameter, p1)
      else
        match sumI64 ck 0 (p1.rowGroups.map (·.numRows)) with
        | .err e => (.err e, p1)
        | .panic => (.panic, p1)
        | .ok numRows =>
          match p1.columnIndexes cs with
          | (.err e, w) => (.err e, w)
          | (.panic, w) => (.panic, w)
          | (.ok (), w) =>
            match w.offsetIndexes cs ck with
            | (.err e, w) => (.err e, w)
            | (.panic, w) => (.panic, w)
            | (.ok (), w) => endMetadataOn finish cs ck w numRows kv).2.out := by
    split
    · exact List.prefix_refl _
    split
    · exact List.prefix_refl _
    · exact List.prefix_refl _
    have hc := columnIndexes_out cs p1
    generalize p1.columnIndexes cs = c at hc
    obtain ⟨rc, wc⟩ := c
    cases rc with
    | err e => exact hc
    | panic => exact hc
    | ok u =>
      have hd := hc.trans (offsetIndexes_out cs ck wc)
      simp only
      generalize wc.offsetIndexes cs ck = c at hd
      obtain ⟨rc, wd⟩ := c
      cases rc with
      | err e => exact hd
      | panic => exact hd
      | ok u => exact hd.trans (endMetadataOn_out hfin cs ck wd _ kv)
  rcases hs with ⟨h1, h2, h3⟩ | ⟨h1, h2, h3, h4⟩
  · simp only at h1 h2 h3
    subst h1
    subst h2
    refine SimCall.trans ⟨rfl, h3⟩ hauto ?_
    simp only
    rw [SinkWriter.endStarted]
    change SimCall v w1 _ (if w1.rest.state ≠ .started then _ else _)
    by_cases hst : w1.rest.state ≠ .started
    · rw [if_pos hst, if_pos hst]
      exact .inl ⟨rfl, rfl, rfl⟩
    rw [if_neg hst, if_neg hst]
    have e : (v.writer w1).rowGroups = w1.rest.rowGroups := rfl
    rw [e]
    cases sumI64 ck 0 (w1.rest.rowGroups.map (·.numRows)) with
    | err e => exact .inl ⟨rfl, rfl, rfl⟩
    | panic => exact .inl ⟨rfl, rfl, rfl⟩
    | ok numRows =>
      simp only
      have hc := SimCall.columnIndexes h cs w1
      have hpre := columnIndexes_out cs (v.writer w1)
      generalize w1.columnIndexes o cs = m at hc
      generalize (v.writer w1).columnIndexes cs = p at hc hpre
      obtain ⟨rm, wm⟩ := m
      obtain ⟨rp, wp⟩ := p
      rcases hc with ⟨k1, k2, k3⟩ | ⟨k1, k2, k3, k4⟩
      · simp only at k1 k2 k3 hpre
        subst k1
        subst k2
        cases rm with
        | err e => exact .inl ⟨rfl, rfl, k3⟩
        | panic => exact .inl ⟨rfl, rfl, k3⟩
        | ok u =>
          simp only
          refine SimCall.trans ⟨rfl, k3⟩ hpre ?_
          have ho := SimCall.offsetIndexes h cs ck wm
          have hpre := offsetIndexes_out cs ck (v.writer wm)
          generalize wm.offsetIndexes o cs ck = m at ho
          generalize (v.writer wm).offsetIndexes cs ck = p at ho hpre
          obtain ⟨rm, wo⟩ := m
          obtain ⟨rp, wp⟩ := p
          rcases ho with ⟨l1, l2, l3⟩ | ⟨l1, l2, l3, l4⟩
          · simp only at l1 l2 l3 hpre
            subst l1
            subst l2
            cases rm with
            | err e => exact .inl ⟨rfl, rfl, l3⟩
            | panic => exact .inl ⟨rfl, rfl, l3⟩
            | ok u => exact SimCall.trans ⟨rfl, l3⟩ hpre (SimCall.endMetadata h hfin cs ck wo numRows kv)
          · simp only at l1 l2 l3 l4 hpre
            subst l1
            refine .inr ⟨rfl, l2, l3, ?_⟩
            simp only
            cases rp with
            | err e => exact l4
            | panic => exact l4
            | ok u => exact l4.trans (endMetadataOn_out hfin cs ck wp _ kv)
      · simp only at k1 k2 k3 k4 hpre
        subst k1
        refine .inr ⟨rfl, k2, k3, ?_⟩
        simp only
        cases rp with
        | err e => exact k4
        | panic => exact k4
        | ok u =>
          simp only
          have hd := k4.trans (offsetIndexes_out cs ck wp)
          generalize wp.offsetIndexes cs ck = c at hd
          obtain ⟨rc, wd⟩ := c
          cases rc with
          | err e => exact hd
          | panic => exact hd
          | ok u => exact hd.trans (endMetadataOn_out hfin cs ck wd _ kv)
  · simp only at h1 h2 h3 h4
    subst h1
    exact .inr ⟨rfl, h2, h3, h4.trans hmono⟩

theorem finishes_end : Finishes fun w metadata => { w with state := .finished, metadata := some metadata } :=
  ⟨fun _ _ => rfl, fun _ _ _ => rfl⟩

theorem finishes_stream : Finishes fun w _ => w := ⟨fun _ _ => rfl, fun _ _ _ => rfl⟩

theorem SimCall.map {w : SinkWriter σ} {m : Res α × SinkWriter σ} {p : Res α × FileWriter}
    (h : SimCall v w m p) (f : α → β) : SimCall v w (m.1.map' f, m.2) (p.1.map' f, p.2) := by
  rcases h with ⟨h1, h2, h3⟩ | ⟨h1, h2, h3⟩
  · exact .inl ⟨by simp only [h1], h2, h3⟩
  · exact .inr ⟨by simp only [h1, Res.map'], h2, h3⟩

theorem SimCall.call (h : LawfulOutput o v) (cs : ThriftCodecs) (ck async : Bool) (w : SinkWriter σ)
    (c : WriterCall) : SimCall v w (callTo o cs ck async w c) (callOn cs ck async (v.writer w) c) := by
  cases c with
  | start => exact (SimCall.start h w).map _
  | write rowGroup => exact (SimCall.write h cs ck w rowGroup).map _
  | end_ kv =>
    cases async with
    | true => exact (SimCall.endWith h finishes_stream cs ck w kv).map _
    | false => exact (SimCall.endWith h finishes_end cs ck w kv).map _

/-! ### Failures stay -/

theorem SimCall.failed {w : SinkWriter σ} {m : Res α × SinkWriter σ} {p : Res α × FileWriter}
    (h : SimCall v w m p) (hw : v.failed w.sink = true) : v.failed m.2.sink = true := by
  rcases h with ⟨-, -, h⟩ | ⟨-, h, -⟩
  · exact h.trans hw
  · exact h

theorem callsTo_failed (h : LawfulOutput o v) (cs : ThriftCodecs) (ck async : Bool)
    (calls : List WriterCall) (w : SinkWriter σ) (hw : v.failed w.sink = true) :
    v.failed (callsTo o cs ck async w calls).2.sink = true := by
  induction calls generalizing w with
  | nil => exact hw
  | cons c calls ih => exact ih _ ((SimCall.call h cs ck async w c).failed hw)

/-! ### Success of `end` -/

theorem IoM.bind_ok {m : IoM σ α} {f : α → IoM σ β} {s s' : σ} {b : β}
    (h : (m >>= f) s = (.ok b, s')) : ∃ a s1, m s = (.ok a, s1) ∧ f a s1 = (.ok b, s') := by
  rw [IoM.bind_def, IoM.bind] at h
  split at h
  · exact ⟨_, _, by assumption, h⟩
  · cases h
  · cases h

theorem endFileTo_safe (h : LawfulOutput o v) {cs : ThriftCodecs} {ck : Bool}
    {metadata : Thrift.FileMetaData} {s s' : σ} {n : Nat}
    (he : endFileTo o cs ck metadata s = (.ok n, s')) : v.safe s' = v.held s' := by
  obtain ⟨a, s1, -, he⟩ := IoM.bind_ok he
  obtain ⟨_, s2, -, he⟩ := IoM.bind_ok he
  obtain ⟨_, s3, hf, he⟩ := IoM.bind_ok he
  rw [IoM.lift, Prod.mk.injEq] at he
  obtain ⟨-, rfl⟩ := he
  rw [Sink.flushed] at hf
  split at hf
  · rename_i hx
    cases hf
    exact (h.sink.flush_ok _ _ hx).2.2
  · cases hf

theorem endWith_safe (h : LawfulOutput o v) {finish : FileWriter → Thrift.FileMetaData → FileWriter}
    {cs : ThriftCodecs} {ck : Bool} {w w' : SinkWriter σ} {kv : Option (List Thrift.KeyValue)} {n : Nat}
    (he : w.endWith o finish cs ck kv = (.ok n, w')) : v.safe w'.sink = v.held w'.sink := by
  rw [SinkWriter.endWith] at he
  split at he
  · rw [SinkWriter.endStarted] at he
    split at he
    · cases he
    split at he
    · cases he
    · cases he
    split at he
    · cases he
    · cases he
    split at he
    · cases he
    · cases he
    rw [SinkWriter.endMetadata] at he
    split at he
    · cases he
    · cases he
    · rename_i hx
      cases he
      exact endFileTo_safe h hx
  · cases he
  · cases he

/-- Writing row groups and ending the file, all with success. -/
theorem callsOn_finished {cs : ThriftCodecs} {ck async : Bool} {w0 w : FileWriter}
    {before groups : List (List (List CompressedPage))} {kv : Option (List Thrift.KeyValue)}
    (hw : Wrote cs ck w0 before w)
    (h : ∀ r ∈ (callsOn cs ck async w (fileCalls groups kv)).1, r.isOk = true) :
    ∃ w1 n, Wrote cs ck w0 (before ++ groups) w1 ∧
      (callsOn cs ck async w (fileCalls groups kv)).1.getLast? = some (.ok (some n)) ∧
      (if async then FileStreamer.end_ cs ck w1 kv else w1.end_ cs ck kv) =
        (.ok n, (callsOn cs ck async w (fileCalls groups kv)).2) := by
  induction groups generalizing before w with
  | nil =>
    have h1 := h _ (List.mem_cons_self ..)
    simp only [callOn] at h1
    generalize hr : (if async then FileStreamer.end_ cs ck w kv else w.end_ cs ck kv) = r at h1
    obtain ⟨r, w'⟩ := r
    cases r with
    | ok n =>
      refine ⟨w, n, by simpa using hw, ?_, ?_⟩
      · simp only [fileCalls, List.map_nil, List.nil_append, callsOn, callOn, hr]
        rfl
      · simp only [fileCalls, List.map_nil, List.nil_append, callsOn, callOn, hr]
    | err e => cases h1
    | panic => cases h1
  | cons g groups ih =>
    have h1 := h _ (List.mem_cons_self ..)
    simp only [callOn] at h1
    have h2 : Wrote cs ck w0 (before ++ [g])
        (w.write cs ck (g.map fun pages => .ok (pages.map .ok))).2 := by
      refine .snoc hw ?_
      generalize w.write cs ck (g.map fun pages => .ok (pages.map .ok)) = r at h1
      obtain ⟨r, w'⟩ := r
      cases r with
      | ok n => rfl
      | err e => cases h1
      | panic => cases h1
    obtain ⟨w1, n, k1, k2, k3⟩ := ih h2 fun r hr => h r (List.mem_cons_of_mem _ hr)
    refine ⟨w1, n, by simpa using k1, ?_, k3⟩
    have : (callsOn cs ck async w (fileCalls (g :: groups) kv)).1 = (callOn cs ck async w
      (.write (g.map fun pages => .ok (pages.map .ok)))).1 :: (callsOn cs ck async
        (w.write cs ck (g.map fun pages => .ok (pages.map .ok))).2 (fileCalls groups kv)).1 := rfl
    rw [this, List.getLast?_cons, k2]
    rfl

/-- The last of some calls. -/
theorem callsTo_append (cs : ThriftCodecs) (ck async : Bool) (w : SinkWriter σ)
    (xs ys : List WriterCall) :
    callsTo o cs ck async w (xs ++ ys) =
      ((callsTo o cs ck async w xs).1 ++ (callsTo o cs ck async (callsTo o cs ck async w xs).2 ys).1,
        (callsTo o cs ck async (callsTo o cs ck async w xs).2 ys).2) := by
  induction xs generalizing w with
  | nil => rfl
  | cons x xs ih => simp only [List.cons_append, callsTo, ih]

theorem callsOn_append (cs : ThriftCodecs) (ck async : Bool) (w : FileWriter)
    (xs ys : List WriterCall) :
    callsOn cs ck async w (xs ++ ys) =
      ((callsOn cs ck async w xs).1 ++ (callsOn cs ck async (callsOn cs ck async w xs).2 ys).1,
        (callsOn cs ck async (callsOn cs ck async w xs).2 ys).2) := by
  induction xs generalizing w with
  | nil => rfl
  | cons x xs ih => simp only [List.cons_append, callsOn, ih]

theorem callsTo_length (cs : ThriftCodecs) (ck async : Bool) (w : SinkWriter σ) (calls : List WriterCall) :
    (callsTo o cs ck async w calls).1.length = calls.length := by
  induction calls generalizing w with
  | nil => rfl
  | cons x xs ih => simp only [callsTo, List.length_cons, ih]

/-! ### The disk -/

theorem disk_lawful : LawfulSink Disk.sink Disk.view where
  write_ok d d' b h := by
    simp only [Disk.sink] at h
    split at h
    · split at h
      · split at h
        · cases h
          exact ⟨rfl, rfl⟩
        · cases h
      · cases h
    · split at h
      · cases h
        exact ⟨rfl, rfl⟩
      · cases h
  write_err d d' b h := by
    simp only [Disk.sink] at h
    split at h
    · split at h
      · split at h
        · cases h
        · cases h
          exact ⟨⟨_, List.take_prefix _ _, rfl⟩, rfl⟩
      · cases h
        exact ⟨⟨_, List.take_prefix _ _, rfl⟩, rfl⟩
    · split at h
      · cases h
      · cases h
        exact ⟨⟨_, List.take_prefix _ _, rfl⟩, rfl⟩
  flush_ok d d' h := by
    cases h
    exact ⟨rfl, rfl, rfl⟩
  flush_err d d' h := by cases h

end Pq
