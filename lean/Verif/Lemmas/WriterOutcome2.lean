import Verif.Lemmas.WriterOutcome
/-
Lemmas on how the calls of a writer end: columns and row groups.
-/
namespace Pq
open Spec

theorem given_map_ok {α : Type} (xs : List α) : given (xs.map .ok) = xs := by
  induction xs with
  | nil => rfl
  | cons x xs ih =>
    exact congrArg (x :: ·) ih

theorem given_cons_ok {α : Type} (x : α) (xs : List (Res α)) : given (.ok x :: xs) = x :: given xs := rfl

/-- How writing a column chunk ends. -/
theorem writeColumnChunk_outcome (cs : ThriftCodecs) (ck : Bool) (off : Nat) (d : ColumnDescriptor)
    (items : List (Res CompressedPage)) (hu : chunkUncompressed cs.page (given items) < 2 ^ 63)
    (hn : (given items).length < 2 ^ 31)
    (hlen : off + (writeColumnChunk cs ck off d items).2.length < 2 ^ 63) :
    outcome (writeColumnChunk cs ck off d items).1 = columnOutcome ck (.ok items) := by
  have ho := writePages_outcome cs.page off items
  rw [columnOutcome, ← ho]
  rw [writeColumnChunk] at hlen ⊢
  generalize hw : writePages cs.page off items = r at hlen
  obtain ⟨r, b⟩ := r
  cases r with
  | err e => rfl
  | panic => rfl
  | ok specs =>
    obtain ⟨pages, e1, e2, e3⟩ := writePages_specs hw
    subst e1
    rw [given_map_ok] at hu hn ⊢
    rw [show outcome (Res.ok specs) = .done from rfl, done_andThen]
    have hl : off + (chunkBytes cs.page pages).length < 2 ^ 63 := by
      simp only at hlen
      split at hlen
      · simp only [e2] at hlen; exact hlen
      · simp only [e2] at hlen; exact hlen
      · split at hlen
        · simp only [e2] at hlen; exact hlen
        · simp only [e2, List.length_append] at hlen; omega
    have hb := buildColumnChunk_outcome ck d e3 hu hn hl
    rw [← hb]
    clear hlen hb
    simp only
    generalize hc : buildColumnChunk ck specs d = r
    cases r with
    | err e => rfl
    | panic => rfl
    | ok chunk =>
      have hm : chunk.metaData ≠ none := by
        rw [buildColumnChunk] at hc
        obtain ⟨_, -, hc⟩ := Res.bind_eq_ok.1 hc
        obtain ⟨_, -, hc⟩ := Res.bind_eq_ok.1 hc
        obtain ⟨_, -, hc⟩ := Res.bind_eq_ok.1 hc
        obtain ⟨_, -, hc⟩ := Res.bind_eq_ok.1 hc
        obtain ⟨_, -, hc⟩ := Res.bind_eq_ok.1 hc
        obtain ⟨_, -, hc⟩ := Res.bind_eq_ok.1 hc
        obtain ⟨_, -, hc⟩ := Res.bind_eq_ok.1 hc
        obtain ⟨_, -, hc⟩ := Res.bind_eq_ok.1 hc
        injection hc with hc
        rw [← hc]
        simp
      cases hcm : chunk.metaData with
      | none => exact absurd hcm hm
      | some m => simp only [hcm]; rfl

theorem itemOutcome_done {x : Res CompressedPage} (h : itemOutcome x = .done) : ∃ p, x = .ok p := by
  cases x with
  | ok p => exact ⟨p, rfl⟩
  | err e => cases h
  | panic => cases h

theorem columnOutcome_done {ck : Bool} {x : Res (List (Res CompressedPage))}
    (h : columnOutcome ck x = .done) : ∃ pages : List CompressedPage, x = .ok (pages.map .ok) := by
  cases x with
  | err e => cases h
  | panic => cases h
  | ok items =>
    rw [columnOutcome, andThen_eq_done, inTurn_done] at h
    replace h := h.1
    suffices hs : ∃ pages : List CompressedPage, items = pages.map .ok by
      obtain ⟨pages, rfl⟩ := hs
      exact ⟨pages, rfl⟩
    induction items with
    | nil => exact ⟨[], rfl⟩
    | cons x items ih =>
      obtain ⟨p, rfl⟩ := itemOutcome_done (h (itemOutcome x) (by simp))
      obtain ⟨ps, rfl⟩ := ih fun o ho => h o (by rw [List.map_cons]; exact List.mem_cons_of_mem _ ho)
      exact ⟨p :: ps, rfl⟩

theorem columns_done {ck : Bool} {columns : List (Res (List (Res CompressedPage)))}
    (h : inTurn (columns.map (columnOutcome ck)) = .done) :
    ∃ cols : List (List CompressedPage), columns = cols.map fun pages => .ok (pages.map .ok) := by
  rw [inTurn_done] at h
  induction columns with
  | nil => exact ⟨[], rfl⟩
  | cons x columns ih =>
    obtain ⟨pages, rfl⟩ := columnOutcome_done (h (columnOutcome ck x) (by simp))
    obtain ⟨cols, rfl⟩ := ih fun o ho => h o (by rw [List.map_cons]; exact List.mem_cons_of_mem _ ho)
    exact ⟨pages :: cols, rfl⟩

theorem writeColumns_take (cs : ThriftCodecs) (ck : Bool) (off : Nat) (ds : List ColumnDescriptor)
    (columns : List (Res (List (Res CompressedPage)))) :
    writeColumns cs ck off ds columns = writeColumns cs ck off ds (columns.take ds.length) := by
  induction ds generalizing off columns with
  | nil => simp only [writeColumns]
  | cons d ds ih =>
    cases columns with
    | nil => rfl
    | cons x columns =>
      rw [List.length_cons, List.take_succ_cons]
      cases x with
      | err e => rfl
      | panic => rfl
      | ok pages =>
        rw [writeColumns, writeColumns]
        split
        · rfl
        · rfl
        · rw [ih]

/-- How writing the columns of a row group ends. -/
theorem writeColumns_outcome (cs : ThriftCodecs) (ck : Bool) (off : Nat) (ds : List ColumnDescriptor)
    (columns : List (Res (List (Res CompressedPage))))
    (hm : ∀ c ∈ given (columns.take ds.length),
      (given c).length < 2 ^ 31 ∧ chunkUncompressed cs.page (given c) < 2 ^ 63)
    (hlen : off + (writeColumns cs ck off ds columns).2.length < 2 ^ 63) :
    outcome (writeColumns cs ck off ds columns).1 =
      inTurn ((columns.take ds.length).map (columnOutcome ck)) := by
  induction ds generalizing off columns with
  | nil => simp only [writeColumns, List.length_nil, List.take_zero]; rfl
  | cons d ds ih =>
    cases columns with
    | nil => rfl
    | cons x columns =>
      rw [List.length_cons, List.take_succ_cons] at hm ⊢
      rw [List.map_cons, inTurn_cons]
      cases x with
      | err e => rfl
      | panic => rfl
      | ok items =>
        rw [given_cons_ok] at hm
        obtain ⟨m1, m2⟩ := hm items List.mem_cons_self
        rw [writeColumns] at hlen ⊢
        have hc := writeColumnChunk_outcome cs ck off d items m2 m1
        rw [columnOutcome] at hc ⊢
        generalize hw : writeColumnChunk cs ck off d items = r at hlen hc
        obtain ⟨r, b⟩ := r
        cases r with
        | err e => rw [← hc (by simpa using hlen)]; rfl
        | panic => rw [← hc (by simpa using hlen)]; rfl
        | ok t =>
          obtain ⟨chunk, specs, size⟩ := t
          simp only [List.length_append] at hlen
          have hc := hc (by simp only; omega)
          obtain ⟨pages, hp⟩ := columnOutcome_done (ck := ck) (x := .ok items) hc.symm
          injection hp with hp
          subst hp
          obtain ⟨-, -, m, -, -, hsize⟩ := writeColumnChunk_ok hw
          subst hsize
          rw [← hc, show outcome (Res.ok (chunk, specs, b.length)) = .done from rfl, done_andThen]
          have := ih (off + b.length) columns (fun c hc => hm c (List.mem_cons_of_mem _ hc)) (by omega)
          rw [← this]
          exact outcome_map' _ _

/-! ### Rows -/

theorem lastRows_eq {p : CompressedPage} {o : Option Nat} (h : lastSelected p.selectedRows = .ok o) :
    lastRows p = o := by
  rw [lastRows]
  cases hs : p.selectedRows with
  | none =>
    rw [hs] at h
    injection h
  | some x =>
    rw [hs] at h
    simp only [lastSelected] at h
    simp only [Option.bind_some]
    cases hl : x.getLast? with
    | none => rw [hl] at h; simp [Res.unwrap, Res.map'] at h
    | some i =>
      rw [hl] at h
      injection h

theorem sumRows_outcome {codec : Codec Thrift.PageHeader} (ck : Bool) {off : Nat}
    {ss : List PageWriteSpec} {ps : List CompressedPage} (h : Specs codec off ss ps) (acc : I64) (a : Int)
    (ha : ck = true → acc.toInt = a) :
    outcome (sumRows ck acc (ss.filter isDataPage)) = countRows ck (fun _ => true) a (ps.filter isData) := by
  induction ss generalizing off ps acc a with
  | nil => cases ps with
    | nil => rfl
    | cons p ps => exact h.elim
  | cons s ss ih => cases ps with
    | nil => exact h.elim
    | cons p ps =>
      rw [List.filter_cons, List.filter_cons, h.1.isData]
      split
      · rw [sumRows, countRows, lastRows_eq h.1.numRows]
        cases s.numRows with
        | none => rfl
        | some n =>
          simp only
          rw [requires_pos trivial, done_andThen]
          have ho := outcome_addI64 ck acc (asI64 n)
          rw [expects_congr (q := ck = true → Fits64 (a + signed n)) (imp_congr_right fun hc => by
            rw [ha hc, asI64_toInt]; exact Iff.rfl)] at ho
          rw [← ho]
          cases hx : addI64 ck acc (asI64 n) with
          | err e => rfl
          | panic => rfl
          | ok c =>
            rw [show outcome (Res.ok c) = .done from rfl, done_andThen]
            refine ih h.2 _ _ fun hc => ?_
            rw [hx] at ho
            have hf := expects_done.1 ho.symm hc
            rw [addI64_exact hx (by rw [ha hc, asI64_toInt]; exact hf), ha hc, asI64_toInt]
            rfl
      · exact ih h.2 _ _ ha

theorem sumColumns_done {ck : Bool} {size : Thrift.ColumnMetaData → I64}
    {built : List (Thrift.ColumnChunk × List PageWriteSpec)} {ms : List Thrift.ColumnMetaData}
    (hm : built.map (·.1.metaData) = ms.map some) (hn : ∀ m ∈ ms, 0 ≤ (size m).toInt)
    (ht : (ms.map fun m => (size m).toInt).sum < 2 ^ 63) : ∃ r, sumColumns ck size built = .ok r := by
  have e : (built.map fun c => (Res.unwrap c.1.metaData).map' size) = (ms.map size).map .ok := by
    rw [show (fun c : Thrift.ColumnChunk × List PageWriteSpec => (Res.unwrap c.1.metaData).map' size) =
      (fun o => (Res.unwrap o).map' size) ∘ (·.1.metaData) from rfl, ← List.map_map, hm]
    simp [Res.unwrap, Res.map']
  have hf : SumsFit ((ms.map size).map BitVec.toInt) := by
    refine SumsFit.of_nonneg ?_ ?_
    · intro x hx
      simp only [List.map_map, List.mem_map] at hx
      obtain ⟨m, h, rfl⟩ := hx
      exact hn m h
    · rw [List.map_map]
      exact ht
  obtain ⟨r, hr, -⟩ := sumI64_value (ck := ck) hf
  refine ⟨r, ?_⟩
  rw [sumColumns, (collectRes_ok_iff _ _).2 e, Res.ok_bind, hr]

theorem Chunks.nonneg {cs : ThriftCodecs} {off : Nat}
    {columns : List (ColumnDescriptor × List CompressedPage)} {ms : List Thrift.ColumnMetaData}
    {bytes : List Byte} (h : Chunks cs off columns ms bytes) :
    ∀ m ∈ ms, 0 ≤ m.totalUncompressedSize.toInt ∧ 0 ≤ m.totalCompressedSize.toInt := by
  induction h with
  | nil => simp
  | cons h1 _ ih =>
    intro m hm
    rcases List.mem_cons.1 hm with rfl | hm
    · rw [h1.uncompressed, h1.compressed]
      constructor <;> omega
    · exact ih m hm

/-- How putting together the metadata of a row group ends. -/
theorem buildRowGroup_outcome {cs : ThriftCodecs} {ck : Bool} {off : Nat}
    {columns : List (ColumnDescriptor × List CompressedPage)}
    {built : List (Thrift.ColumnChunk × List PageWriteSpec)} {bytes : List Byte}
    (hb : ColumnsBuilt cs ck off columns built bytes) (hf : GroupFits cs columns)
    (hlen : off + bytes.length < 2 ^ 63) (ordinal : Nat) :
    outcome (buildRowGroup ck built ordinal) = countRows ck (fun _ => true) 0
      (((columns.head?.map (·.2)).getD []).filter isData) := by
  obtain ⟨ms, e, hc⟩ := hb.chunks hf.chunks hlen
  obtain ⟨c1, c2, c3⟩ := chunks_totals hc
  have hn := Chunks.nonneg hc
  obtain ⟨tu, h2⟩ := sumColumns_done (ck := ck) (size := (·.totalUncompressedSize)) e
    (fun m hm => (hn m hm).1) (by rw [c1]; exact_mod_cast hf.total)
  obtain ⟨tc, h3⟩ := sumColumns_done (ck := ck) (size := (·.totalCompressedSize)) e
    (fun m hm => (hn m hm).2) (by rw [c2]; exact_mod_cast (by omega))
  have hr : outcome (computeNumRows ck built) = countRows ck (fun _ => true) 0
      (((columns.head?.map (·.2)).getD []).filter isData) := by
    cases hb with
    | nil => rfl
    | cons b1 b2 b3 b4 =>
      rw [computeNumRows]
      exact sumRows_outcome ck b1 0 0 (fun _ => rfl)
  rw [buildRowGroup, ← hr, ← andThen_done (outcome (computeNumRows ck built))]
  refine outcome_bind_ok fun n _ => ?_
  simp only [h2, h3, Res.ok_bind]
  rfl

theorem zip_map_snd {α β : Type} : ∀ (as : List α) (bs : List β), bs.length ≤ as.length →
    (as.zip bs).map (·.2) = bs := by
  intro as bs h
  exact List.map_snd_zip h

theorem groupFits_of {cs : ThriftCodecs} {ds : List ColumnDescriptor} {cols : List (List CompressedPage)}
    (hl : cols.length ≤ ds.length) (hp : ∀ c ∈ cols, c.length < 2 ^ 31)
    (ht : (cols.map (chunkUncompressed cs.page)).sum < 2 ^ 63) : GroupFits cs (ds.zip cols) := by
  refine ⟨fun c hc => ?_, ?_⟩
  · have hm : c.2 ∈ cols := (List.of_mem_zip (by exact hc : (c.1, c.2) ∈ ds.zip cols)).2
    have hle := mem_length_le (chunkUncompressed cs.page) hm
    refine ⟨by omega, ?_⟩
    have hs : SumsFit (c.2.map valuesOf) := SumsFit.of_small (by
      intro x hx
      obtain ⟨p, -, rfl⟩ := List.mem_map.1 hx
      exact valuesOf_small p) (by simpa using hp _ hm)
    exact hs _ (by rw [List.mem_inits])
  · rw [show (fun c : ColumnDescriptor × List CompressedPage => chunkUncompressed cs.page c.2) =
      chunkUncompressed cs.page ∘ (·.2) from rfl, ← List.map_map, zip_map_snd _ _ hl]
    exact ht

/-- How writing a row group ends. -/
theorem writeRowGroup_outcome (cs : ThriftCodecs) (ck : Bool) (off : Nat) (ds : List ColumnDescriptor)
    (columns : List (Res (List (Res CompressedPage)))) (ordinal : Nat)
    (hm : Moderate cs ds.length columns)
    (hlen : off + (writeRowGroup cs ck off ds columns ordinal).2.length < 2 ^ 63) :
    outcome (writeRowGroup cs ck off ds columns ordinal).1 = groupOutcome ck ds.length columns := by
  have hc := writeColumns_outcome cs ck off ds columns (fun c hc => by
    have hle := mem_length_le (fun c => chunkUncompressed cs.page (given c)) hc
    have := hm.total
    exact ⟨hm.pages c hc, by omega⟩)
  rw [groupOutcome]
  rw [writeRowGroup] at hlen ⊢
  generalize hw : writeColumns cs ck off ds columns = r at hlen hc
  obtain ⟨r, b⟩ := r
  cases r with
  | err e => rw [← hc hlen]; rfl
  | panic => rw [← hc hlen]; rfl
  | ok t =>
    obtain ⟨built, size⟩ := t
    simp only at hlen
    have hc := hc hlen
    rw [← hc, show outcome (Res.ok (built, size)) = .done from rfl, done_andThen]
    obtain ⟨cols, he⟩ := columns_done hc.symm
    rw [writeColumns_take, he] at hw
    obtain ⟨hb, -⟩ := writeColumns_ok hw
    have hl : cols.length ≤ ds.length := by
      have := congrArg List.length he
      simp only [List.length_take, List.length_map] at this
      omega
    have hg : given (columns.take ds.length) = cols.map fun pages => pages.map .ok := by
      rw [he, show (cols.map fun pages => Res.ok (pages.map Res.ok)) =
        (cols.map fun pages => pages.map Res.ok).map .ok by rw [List.map_map]; rfl, given_map_ok]
    have hfit : GroupFits cs (ds.zip cols) := by
      refine groupFits_of hl (fun c hcm => ?_) ?_
      · have := hm.pages (c.map .ok) (by rw [hg]; exact List.mem_map.2 ⟨c, hcm, rfl⟩)
        rwa [given_map_ok] at this
      · have := hm.total
        rw [hg, List.map_map] at this
        simpa only [Function.comp_def, given_map_ok] using this
    have ho := buildRowGroup_outcome hb hfit hlen ordinal
    simp only [outcome_map']
    rw [ho]
    congr 2
    rw [firstPages, hg]
    cases cols with
    | nil => simp
    | cons c cols =>
      cases ds with
      | nil => simp at hl
      | cons d ds => simp [given_map_ok]

end Pq
