import Verif.Lemmas.Writer
import Verif.Props.Statistics
/-
Lemmas about the end of a file: the page indexes and the metadata.
-/
namespace Pq

open Spec

/-! ### The loops -/

/-- Indexes of consecutive columns written from `pos` on. -/
inductive Indexed (index : List PageWriteSpec → Res (List Byte))
    (set : Thrift.ColumnChunk → I64 → Option I32 → Thrift.ColumnChunk) : Nat →
    List (Thrift.ColumnChunk × List PageWriteSpec) → List (Thrift.ColumnChunk × List PageWriteSpec) →
    List (List Byte) → Prop where
  | nil (pos : Nat) : Indexed index set pos [] [] []
  | cons {pos : Nat} {c : Thrift.ColumnChunk} {specs : List PageWriteSpec} {b : List Byte}
      {bs bs' : List (Thrift.ColumnChunk × List PageWriteSpec)} {ls : List (List Byte)} :
      index specs = .ok b → Indexed index set (pos + b.length) bs bs' ls →
      Indexed index set pos ((c, specs) :: bs)
        ((set c (asI64 pos) (some (asI32 b.length)), specs) :: bs') (b :: ls)

theorem indexColumns_ok {index : List PageWriteSpec → Res (List Byte)}
    {set : Thrift.ColumnChunk → I64 → Option I32 → Thrift.ColumnChunk} {off : Nat}
    {built : List (Thrift.ColumnChunk × List PageWriteSpec)} {l : IndexLoop Thrift.ColumnChunk}
    (h : indexColumns index set off (built.map (·.1)) (built.map (·.2)) = (.ok (), l)) :
    ∃ built' ls, Indexed index set off built built' ls ∧ l.done = built'.map (·.1) ∧
      built'.map (·.2) = built.map (·.2) ∧ l.bytes = ls.flatten ∧ l.offset = off + l.bytes.length := by
  induction built generalizing off l with
  | nil =>
    simp only [List.map_nil, indexColumns, Prod.mk.injEq, true_and] at h
    subst h
    exact ⟨[], [], .nil off, rfl, rfl, rfl, rfl⟩
  | cons b built ih =>
    obtain ⟨c, specs⟩ := b
    simp only [List.map_cons] at h
    rw [indexColumns] at h
    split at h
    · simp at h
    · simp at h
    · rename_i bytes hi
      generalize hr : indexColumns index set _ _ _ = r at h
      obtain ⟨r, l'⟩ := r
      simp only [Prod.mk.injEq] at h
      obtain ⟨rfl, rfl⟩ := h
      obtain ⟨built', ls, h1, h2, h3, h4, h5⟩ := ih hr
      exact ⟨_, _, .cons hi h1, by simp [h2], by simp [h3], by simp [h4], by simp [h5]; omega⟩

/-- Indexes of consecutive row groups written from `pos` on. -/
inductive IndexedGroups (index : List PageWriteSpec → Res (List Byte))
    (set : Thrift.ColumnChunk → I64 → Option I32 → Thrift.ColumnChunk) : Nat →
    List BuiltGroup → List BuiltGroup → List Byte → Prop where
  | nil (pos : Nat) : IndexedGroups index set pos [] [] []
  | cons {pos : Nat} {rg : Thrift.RowGroup} {bs bs' : List (Thrift.ColumnChunk × List PageWriteSpec)}
      {ls : List (List Byte)} {gs gs' : List BuiltGroup} {bytes : List Byte} :
      Indexed index set pos bs bs' ls →
      IndexedGroups index set (pos + ls.flatten.length) gs gs' bytes →
      IndexedGroups index set pos ((rg, bs) :: gs)
        (({ rg with columns := bs'.map (·.1) }, bs') :: gs') (ls.flatten ++ bytes)

theorem indexGroups_ok {index : List PageWriteSpec → Res (List Byte)}
    {set : Thrift.ColumnChunk → I64 → Option I32 → Thrift.ColumnChunk} {off : Nat}
    {gb : List BuiltGroup} {l : IndexLoop Thrift.RowGroup}
    (hc : ∀ g ∈ gb, g.1.columns = g.2.map (·.1))
    (h : indexGroups index set off (gb.map (·.1)) (gb.map (·.2.map (·.2))) = (.ok (), l)) :
    ∃ gb', IndexedGroups index set off gb gb' l.bytes ∧ l.done = gb'.map (·.1) ∧
      gb'.map (·.2.map (·.2)) = gb.map (·.2.map (·.2)) ∧ l.offset = off + l.bytes.length ∧
      ∀ g ∈ gb', g.1.columns = g.2.map (·.1) := by
  induction gb generalizing off l with
  | nil =>
    simp only [List.map_nil, indexGroups, Prod.mk.injEq, true_and] at h
    subst h
    exact ⟨[], .nil off, rfl, rfl, rfl, by simp⟩
  | cons g gb ih =>
    obtain ⟨rg, bs⟩ := g
    simp only [List.map_cons] at h
    rw [indexGroups, hc _ List.mem_cons_self] at h
    generalize hr : indexColumns index set _ _ _ = r at h
    obtain ⟨r, l'⟩ := r
    simp only at h
    split at h
    · simp at h
    · simp at h
    · obtain ⟨bs', ls, h1, h2, h3, h4, h5⟩ := indexColumns_ok hr
      generalize hr : indexGroups index set _ _ _ = r at h
      obtain ⟨r, l''⟩ := r
      simp only [Prod.mk.injEq] at h
      obtain ⟨rfl, rfl⟩ := h
      obtain ⟨gb', i1, i2, i3, i4, i5⟩ := ih (fun g hg => hc g (List.mem_cons_of_mem _ hg)) hr
      rw [h5, h4] at i1
      refine ⟨_, by simp only [h4]; exact .cons h1 i1, by simp [h2, i2], by simp [h3, i3],
        by simp [h4, h5, i4]; omega, ?_⟩
      intro g hg
      rcases List.mem_cons.1 hg with rfl | hg
      · rfl
      · exact i5 g hg

theorem region_middle (pre mid post : List Byte) :
    region (pre ++ mid ++ post) pre.length mid.length = mid := by
  simp [region]

theorem Indexed.sections {index : List PageWriteSpec → Res (List Byte)}
    {set : Thrift.ColumnChunk → I64 → Option I32 → Thrift.ColumnChunk} {pos : Nat}
    {bs bs' : List (Thrift.ColumnChunk × List PageWriteSpec)} {ls : List (List Byte)}
    (h : Indexed index set pos bs bs' ls) {ref : Thrift.ColumnChunk → Option I64 × Option I32}
    (href : ∀ c o l, ref (set c o (some l)) = (some o, some l)) {file pre post : List Byte}
    (hf : file = pre ++ ls.flatten ++ post) (hp : pre.length = pos) :
    Sections ref file pos (bs'.map (·.1)) ls := by
  induction h generalizing pre with
  | nil pos => exact .nil _
  | @cons pos c specs b bs bs' ls h1 h2 ih =>
    refine .cons (href _ _ _) ?_ (ih (pre := pre ++ b) (by simp [hf]) (by simp [hp]))
    rw [hf, ← hp]
    have := region_middle pre b (ls.flatten ++ post)
    simpa using this

theorem sections_congr {ref : Thrift.ColumnChunk → Option I64 × Option I32} {file : List Byte}
    {pos : Nat} {cs cs' : List Thrift.ColumnChunk} {ls : List (List Byte)}
    (h : Sections ref file pos cs ls) (he : cs'.map ref = cs.map ref) :
    Sections ref file pos cs' ls := by
  induction h generalizing cs' with
  | nil =>
    obtain rfl : cs' = [] := by simpa using he
    exact .nil _
  | cons h1 h2 h3 ih =>
    cases cs' with
    | nil => simp at he
    | cons c' cs' =>
      simp only [List.map_cons, List.cons.injEq] at he
      exact .cons (he.1.trans h1) h2 (ih he.2)

theorem Indexed.keeps {index : List PageWriteSpec → Res (List Byte)}
    {set : Thrift.ColumnChunk → I64 → Option I32 → Thrift.ColumnChunk} {pos : Nat}
    {bs bs' : List (Thrift.ColumnChunk × List PageWriteSpec)} {ls : List (List Byte)}
    (h : Indexed index set pos bs bs' ls) {α : Type} {f : Thrift.ColumnChunk → α}
    (hf : ∀ c o l, f (set c o l) = f c) :
    bs'.map (fun b => (f b.1, b.2)) = bs.map (fun b => (f b.1, b.2)) := by
  induction h with
  | nil => rfl
  | cons h1 h2 ih => simp [hf, ih]

theorem Indexed.results {index : List PageWriteSpec → Res (List Byte)}
    {set : Thrift.ColumnChunk → I64 → Option I32 → Thrift.ColumnChunk} {pos : Nat}
    {bs bs' : List (Thrift.ColumnChunk × List PageWriteSpec)} {ls : List (List Byte)}
    (h : Indexed index set pos bs bs' ls) :
    List.Forall₂ (fun b l => index b.2 = .ok l) bs ls := by
  induction h with
  | nil => exact .nil
  | cons h1 h2 ih => exact .cons h1 ih

/-! ### The contents of the indexes -/

theorem pageLocations_ok {codec : Codec Thrift.PageHeader} {ck : Bool} {off : Nat}
    {ss : List PageWriteSpec} {ps : List CompressedPage} (h : Specs codec off ss ps)
    (hk : RowsKnown ps) {row : I64} {r : Nat} (hr : row.toInt = r) (hlt : r + chunkRows ps < 2 ^ 63)
    {ls : List Thrift.PageLocation} (hl : pageLocations ck row (ss.filter isDataPage) = .ok ls) :
    ls.map (fun l => (l.offset.toInt, l.compressedPageSize.toInt, l.firstRowIndex.toInt)) =
      locationsOf codec off r ps := by
  induction ss generalizing off ps row r ls with
  | nil => cases ps with
    | nil =>
      injection hl with hl
      subst hl
      rfl
    | cons p ps => exact h.elim
  | cons s ss ih => cases ps with
    | nil => exact h.elim
    | cons p ps =>
      have hk' : RowsKnown ps := fun q hq => hk q (List.mem_cons_of_mem _ hq)
      rw [locationsOf]
      by_cases hd : isData p = true
      · have hdf : (s :: ss).filter isDataPage = s :: ss.filter isDataPage := by
          simp [h.1.isData, hd]
        rw [hdf, pageLocations] at hl
        obtain ⟨o, h1, hl⟩ := Res.bind_eq_ok.1 hl
        obtain ⟨cps, h2, hl⟩ := Res.bind_eq_ok.1 hl
        obtain ⟨n, h3, hl⟩ := Res.bind_eq_ok.1 hl
        obtain ⟨nx, h4, hl⟩ := Res.bind_eq_ok.1 hl
        obtain ⟨rest, h5, hl⟩ := Res.bind_eq_ok.1 hl
        injection hl with hl
        subst hl
        have hn : s.numRows = some n := by
          cases hs : s.numRows with
          | none => rw [hs] at h3; cases h3
          | some m => rw [hs] at h3; injection h3 with h3; rw [h3]
        have e := h.1.numRows
        rw [hn] at e
        have e := lastSelected_rows e (hk p (by simp) hd)
        have hc : chunkRows (p :: ps) = n + chunkRows ps := by
          simp [chunkRows, hd, e]
        rw [hc] at hlt
        rw [tryI64] at h1
        split at h1
        · rename_i ho
          injection h1 with h1
          rw [tryI32] at h2
          split at h2
          · rename_i hb
            injection h2 with h2
            subst h1 h2
            have hnx : nx.toInt = (r + n : Nat) := by
              rw [addI64_eq h4, BitVec.toInt_add, asI64_toInt, hr, Int.add_bmod_bmod,
                Int.bmod_eq_of_le] <;> omega
            rw [if_pos hd, List.map_cons, ih h.2 hk' hnx (by omega) h5, e, hr]
            rw [h.1.offset] at ho ⊢
            rw [h.1.bytesWritten] at hb ⊢
            have e1 : (BitVec.ofNat 64 off).toInt = off := by
              rw [BitVec.toInt_ofNat', Int.bmod_eq_of_le] <;> omega
            have e2 : (BitVec.ofNat 32 (pageBytes codec p).length).toInt = (pageBytes codec p).length := by
              rw [BitVec.toInt_ofNat', Int.bmod_eq_of_le] <;> omega
            simp only [e1, e2]
            push_cast
            rfl
          · cases h2
        · cases h1
      · have hdf : (s :: ss).filter isDataPage = ss.filter isDataPage := by
          simp [h.1.isData, hd]
        rw [hdf] at hl
        have hc : chunkRows (p :: ps) = chunkRows ps := by
          simp [chunkRows, hd]
        rw [hc] at hlt
        rw [if_neg hd, ih h.2 hk' hr hlt hl]
        push_cast
        rfl

theorem lastSelected_given {p : CompressedPage} {n : Nat}
    (h : lastSelected p.selectedRows = .ok (some n)) : rowsGiven p = true := by
  cases p with
  | dict p => simp [CompressedPage.selectedRows, lastSelected] at h
  | data p =>
    simp only [CompressedPage.selectedRows, rowsGiven] at h ⊢
    cases hs : p.selectedRows with
    | none => simp [hs, lastSelected] at h
    | some l => cases l with
      | nil => simp [hs, lastSelected, Res.unwrap, Res.map'] at h
      | cons i l => rfl

theorem pageLocations_given {codec : Codec Thrift.PageHeader} {ck : Bool} {off : Nat}
    {ss : List PageWriteSpec} {ps : List CompressedPage} (h : Specs codec off ss ps) {row : I64}
    {ls : List Thrift.PageLocation} (hl : pageLocations ck row (ss.filter isDataPage) = .ok ls) :
    (∀ p ∈ ps, isData p = true → rowsGiven p = true) ∧ ls.length = (ps.filter isData).length := by
  induction ss generalizing off ps row ls with
  | nil => cases ps with
    | nil =>
      injection hl with hl
      subst hl
      simp
    | cons p ps => exact h.elim
  | cons s ss ih => cases ps with
    | nil => exact h.elim
    | cons p ps =>
      by_cases hd : isData p = true
      · have hdf : (s :: ss).filter isDataPage = s :: ss.filter isDataPage := by
          simp [h.1.isData, hd]
        rw [hdf, pageLocations] at hl
        obtain ⟨o, h1, hl⟩ := Res.bind_eq_ok.1 hl
        obtain ⟨cps, h2, hl⟩ := Res.bind_eq_ok.1 hl
        obtain ⟨n, h3, hl⟩ := Res.bind_eq_ok.1 hl
        obtain ⟨nx, h4, hl⟩ := Res.bind_eq_ok.1 hl
        obtain ⟨rest, h5, hl⟩ := Res.bind_eq_ok.1 hl
        injection hl with hl
        subst hl
        have hn : s.numRows = some n := by
          cases hs : s.numRows with
          | none => rw [hs] at h3; cases h3
          | some m => rw [hs] at h3; injection h3 with h3; rw [h3]
        have e := h.1.numRows
        rw [hn] at e
        obtain ⟨i1, i2⟩ := ih h.2 h5
        refine ⟨?_, by simp [hd, i2]⟩
        intro q hq hqd
        rcases List.mem_cons.1 hq with rfl | hq
        · exact lastSelected_given e
        · exact i1 q hq hqd
      · have hdf : (s :: ss).filter isDataPage = ss.filter isDataPage := by
          simp [h.1.isData, hd]
        rw [hdf] at hl
        obtain ⟨i1, i2⟩ := ih h.2 hl
        refine ⟨?_, by simp [hd, i2]⟩
        intro q hq hqd
        rcases List.mem_cons.1 hq with rfl | hq
        · exact absurd hqd hd
        · exact i1 q hq hqd

theorem locationsOf_nil (codec : Codec Thrift.PageHeader) (pos : Int) (r : Nat) :
    locationsOf codec pos r [] = [] := rfl

theorem serializeOffsetIndex_ok {codec : Codec Thrift.PageHeader} {ck : Bool} {off : Nat}
    {ss : List PageWriteSpec} {ps : List CompressedPage} (h : Specs codec off ss ps)
    {oi : Thrift.OffsetIndex} (ho : serializeOffsetIndex ck ss = .ok oi) :
    OffsetIndexOf codec ps off oi := by
  rw [serializeOffsetIndex] at ho
  obtain ⟨ls, h1, ho⟩ := Res.bind_eq_ok.1 ho
  injection ho with ho
  subst ho
  obtain ⟨h2, h3⟩ := pageLocations_given h h1
  refine ⟨h2, h3, fun hk hlt => ?_⟩
  exact pageLocations_ok h hk (by rfl) (by omega) h1

theorem checkWidth_of_ok {v : Thrift.Statistics} {n : Nat} (h : checkWidth v n = .ok ()) :
    (∀ x, v.maxValue = some x → x.length = n) ∧ (∀ x, v.minValue = some x → x.length = n) := by
  unfold checkWidth at h
  constructor
  · intro x hx
    rw [hx] at h
    by_contra hc
    simp [hc] at h
  · intro x hx
    by_contra hc
    cases hm : v.maxValue with
    | none => rw [hm, hx] at h; simp [hc] at h
    | some y =>
      rw [hm, hx] at h
      by_cases hy : y.length = n <;> simp [hc, hy] at h

/-- Reading header statistics and writing them again. -/
theorem statistics_rewritten {v : Thrift.Statistics} {pt : PrimitiveType} {s : Statistics}
    (h : deserializeStatistics v pt = .ok s) :
    serializeStatistics s = .ok
      { nullCount := v.nullCount, distinctCount := v.distinctCount
        minValue := v.minValue.map (boundOf pt.physicalType)
        maxValue := v.maxValue.map (boundOf pt.physicalType), min := none, max := none } ∧
      WidthsOk v pt.physicalType := by
  have hw : WidthsOk v pt.physicalType := by
    by_contra hc
    rw [(Props.C48_read v pt).2 hc] at h
    cases h
  refine ⟨?_, hw⟩
  by_cases hb : pt.physicalType = .boolean
  · simp only [deserializeStatistics, hb] at h
    obtain ⟨bs, h1, rfl⟩ := map'_ok _ _ _ h
    rw [booleanRead] at h1
    obtain ⟨⟨⟩, h2, h1⟩ := Res.bind_eq_ok.1 h1
    obtain ⟨hx, hn⟩ := checkWidth_of_ok h2
    injection h1 with h1
    subst h1
    have key : ∀ o : Option (List Byte), (∀ x, o = some x → x.length = 1) →
        ((o.bind fun x => x.head?).map fun x => decide (x ≠ 0#8)).map
          (fun x => [if x then 1#8 else 0#8]) = o.map (boundOf .boolean) := by
      intro o ho
      cases o with
      | none => rfl
      | some x =>
        have := ho x rfl
        match x, this with
        | [b], _ =>
          by_cases hb0 : b = 0#8 <;> simp [boundOf, hb0]
    simp only [serializeStatistics, booleanWrite, hb]
    rw [← key _ hx, ← key _ hn]
  · obtain ⟨s', h1, h2, h3, h4, h5⟩ := (Props.C48_read v pt).1 hw
    rw [h] at h1
    injection h1 with h1
    subst h1
    obtain ⟨h5, h6⟩ := h5 hb
    rw [Props.C48_write s pt h2, h3, h4, h5, h6]
    have e : ∀ o : Option (List Byte), o.map (boundOf pt.physicalType) = o := by
      intro o
      cases o <;> simp [boundOf, hb]
    rw [e, e]

/-- What the statistics of a page must have for the column index to be written. -/
theorem columnIndexEntry_ok {codec : Codec Thrift.PageHeader} {off : Nat} {s : PageWriteSpec}
    {p : CompressedPage} (h : SpecOf codec off s p) {e : I64 × List Byte × List Byte × Bool} :
    columnIndexEntry s = .ok e ↔ IndexEntry p e := by
  have hs := h.statistics
  have key : (∀ v t, statisticsOf p = some (v, t) → ∃ st, s.statistics = some st ∧
        serializeStatistics st = .ok
          { nullCount := v.nullCount, distinctCount := v.distinctCount
            minValue := v.minValue.map (boundOf t)
            maxValue := v.maxValue.map (boundOf t), min := none, max := none } ∧ WidthsOk v t) ∧
      (statisticsOf p = none → s.statistics = none) := by
    cases p with
    | dict p =>
      refine ⟨fun v t hv => by simp [statisticsOf] at hv, fun _ => ?_⟩
      injection hs with hs
      exact hs.symm
    | data p =>
      have hs' : (match (statisticsOf (.data p)) with
          | none => Res.ok none
          | some vt => (deserializeStatistics vt.1 p.descriptor.primitiveType).map' some) =
          .ok s.statistics := by
        rw [← hs]
        simp only [pageStatistics, statisticsOf]
        cases p.header with
        | v1 h => simp only; cases h.statistics <;> rfl
        | v2 h => simp only; cases h.statistics <;> rfl
      cases hv : statisticsOf (.data p) with
      | none =>
        rw [hv] at hs'
        injection hs' with hs'
        exact ⟨fun v t hv => by simp at hv, fun _ => hs'.symm⟩
      | some vt =>
        rw [hv] at hs'
        obtain ⟨st, h1, h2⟩ := map'_ok _ _ _ hs'
        refine ⟨fun v' t hv' => ?_, fun hn => by simp at hn⟩
        simp only [Option.some.injEq] at hv'
        subst hv'
        have ht : t = p.descriptor.primitiveType.physicalType := by
          simp only [statisticsOf, Option.map_eq_some_iff, Prod.mk.injEq] at hv
          obtain ⟨_, -, -, h⟩ := hv
          exact h.symm
        subst ht
        exact ⟨st, h2.symm, statistics_rewritten h1⟩
  rw [columnIndexEntry]
  cases hv : statisticsOf p with
  | none =>
    rw [key.2 hv]
    constructor
    · intro h; cases h
    · rintro ⟨v, t, h, -⟩
      rw [hv] at h
      cases h
  | some vt =>
    obtain ⟨v, t⟩ := vt
    obtain ⟨st, h1, h2, hw⟩ := key.1 v t hv
    simp only [h1, h2, Res.ok_bind]
    obtain ⟨nc, mn, mx, isn⟩ := e
    simp only [IndexEntry, hv, Option.some.injEq, Prod.mk.injEq]
    constructor
    · intro he
      obtain ⟨n, h3, he⟩ := Res.bind_eq_ok.1 he
      have h3 : v.nullCount = some n := by
        cases hc : v.nullCount with
        | none => rw [hc] at h3; cases h3
        | some m => rw [hc] at h3; injection h3 with h3; rw [h3]
      refine ⟨v, t, ⟨rfl, rfl⟩, ?_⟩
      cases hm : v.minValue with
      | none =>
        simp only [hm, Option.map_none, Res.ok.injEq, Prod.mk.injEq] at he
        obtain ⟨rfl, rfl, rfl, rfl⟩ := he
        exact ⟨hw, h3, .inr ⟨rfl, rfl, rfl, rfl⟩⟩
      | some x =>
        simp only [hm, Option.map_some] at he
        cases hx : v.maxValue with
        | none => simp [hx, Res.ofOption] at he
        | some y =>
          simp only [hx, Option.map_some, Res.ofOption, Res.ok_bind, Res.ok.injEq, Prod.mk.injEq] at he
          obtain ⟨rfl, rfl, rfl, rfl⟩ := he
          exact ⟨hw, h3, .inl ⟨x, y, rfl, rfl, rfl, rfl, rfl⟩⟩
    · rintro ⟨v', t', ⟨rfl, rfl⟩, -, hn, ⟨x, y, hx, hy, rfl, rfl, rfl⟩ | ⟨hx, rfl, rfl, rfl⟩⟩
      · simp [hn, hx, hy, Res.ofOption]
      · simp [hn, hx, Res.ofOption]

theorem serializeColumnIndex_ok {codec : Codec Thrift.PageHeader} {off : Nat}
    {ss : List PageWriteSpec} {ps : List CompressedPage} (h : Specs codec off ss ps)
    {ci : Thrift.ColumnIndex} (hc : serializeColumnIndex ss = .ok ci) : ColumnIndexOf ps ci := by
  rw [serializeColumnIndex] at hc
  obtain ⟨es, h1, he⟩ := Res.bind_eq_ok.1 hc
  injection he with he
  refine ⟨es, ?_, he.symm⟩
  clear he hc
  rw [collectRes_ok_iff] at h1
  induction ss generalizing off ps es with
  | nil => cases ps with
    | nil =>
      obtain rfl : es = [] := by simpa using h1.symm
      exact .nil
    | cons p ps => exact h.elim
  | cons s ss ih => cases ps with
    | nil => exact h.elim
    | cons p ps =>
      by_cases hd : isData p = true
      · have hdf : (s :: ss).filter isDataPage = s :: ss.filter isDataPage := by
          simp [h.1.isData, hd]
        rw [hdf] at h1
        cases es with
        | nil => simp at h1
        | cons e es =>
          simp only [List.map_cons, List.cons.injEq] at h1
          rw [List.filter_cons_of_pos hd]
          exact .cons ((columnIndexEntry_ok h.1).1 h1.1) (ih h.2 es h1.2)
      · have hdf : (s :: ss).filter isDataPage = ss.filter isDataPage := by
          simp [h.1.isData, hd]
        rw [hdf] at h1
        rw [List.filter_cons_of_neg hd]
        exact ih h.2 es h1

/-! ### Row groups -/

/-- `mid` is in `file` at `pos`. -/
def Located (file : List Byte) (pos : Nat) (mid : List Byte) : Prop :=
  ∃ pre post, file = pre ++ mid ++ post ∧ pre.length = pos

theorem Located.region {file : List Byte} {pos : Nat} {mid : List Byte} (h : Located file pos mid) :
    region file pos mid.length = mid := by
  obtain ⟨pre, post, rfl, rfl⟩ := h
  exact region_middle _ _ _

theorem Located.left {file : List Byte} {pos : Nat} {a b : List Byte} (h : Located file pos (a ++ b)) :
    Located file pos a := by
  obtain ⟨pre, post, rfl, rfl⟩ := h
  exact ⟨pre, b ++ post, by simp, rfl⟩

theorem Located.right {file : List Byte} {pos : Nat} {a b : List Byte} (h : Located file pos (a ++ b)) :
    Located file (pos + a.length) b := by
  obtain ⟨pre, post, rfl, rfl⟩ := h
  exact ⟨pre ++ a, post, by simp, by simp⟩

/-- What is known of a chunk and its page descriptions. -/
structure ChunkBuilt (cs : ThriftCodecs) (file : List Byte) (c : ColumnDescriptor × List CompressedPage)
    (b : Thrift.ColumnChunk × List PageWriteSpec) : Prop where
  written : ColumnWritten cs file c b.1
  offsetIndex : ∀ ck oi, serializeOffsetIndex ck b.2 = .ok oi → OffsetIndexOf cs.page c.2 (startOf b.1) oi
  columnIndex : ∀ ci, serializeColumnIndex b.2 = .ok ci → ColumnIndexOf c.2 ci
  plain : b.1 = { fileOffset := b.1.fileOffset, metaData := b.1.metaData }

theorem ColumnsBuilt.each {cs : ThriftCodecs} {ck : Bool} {off : Nat}
    {columns : List (ColumnDescriptor × List CompressedPage)}
    {built : List (Thrift.ColumnChunk × List PageWriteSpec)} {bytes file : List Byte}
    (h : ColumnsBuilt cs ck off columns built bytes) (hf : ∀ c ∈ columns, Fits cs.page c.2)
    (hlen : off + bytes.length < 2 ^ 63) (hat : Located file off bytes) (h4 : 4 ≤ off) :
    List.Forall₂ (ChunkBuilt cs file) columns built := by
  induction h with
  | nil => exact .nil
  | @cons off d pages columns chunk specs built m bytes h1 h2 h3 h5 ih =>
    simp only [List.length_append] at hlen
    obtain ⟨m', e, h6, h8, h7, -⟩ := buildColumnChunk_ok h1 (hf _ List.mem_cons_self) (by omega) h2
    have e' : chunk.metaData = some m' := by rw [e]
    refine .cons ⟨⟨off, m', e', h6, h4, ?_, h1.sizes, by rw [e], ?_, h8⟩, ?_, ?_, ?_⟩
      (ih ?_ ?_ ?_ ?_)
    · exact hat.left.left.region
    · rw [e'] at h3
      obtain rfl := Option.some.inj h3
      exact hat.left.right.region
    · intro ck oi ho
      have := serializeOffsetIndex_ok h1 ho
      simp only [startOf, e', Option.map_some, Option.getD_some]
      cases pages with
      | nil => exact ⟨this.1, this.2.1, fun h1 h2 => this.2.2 h1 h2⟩
      | cons p ps => rw [h6.start (by simp)]; exact this
    · intro ci hc
      exact serializeColumnIndex_ok h1 hc
    · rw [e]
    · exact fun c hc => hf c (List.mem_cons_of_mem _ hc)
    · simp; omega
    · exact hat.right
    · omega

/-- What is known of a row group. -/
def GroupBuilt (cs : ThriftCodecs) (file : List Byte)
    (columns : List (ColumnDescriptor × List CompressedPage)) (g : BuiltGroup) : Prop :=
  g.1.columns = g.2.map (·.1) ∧ DescribesGroup cs columns g.1 ∧
    List.Forall₂ (ChunkBuilt cs file) columns g.2

theorem forall₂_append' {α β : Type} {R : α → β → Prop} {l₁ l₂ : List α} {u₁ u₂ : List β}
    (h : List.Forall₂ R l₁ u₁) (h' : List.Forall₂ R l₂ u₂) : List.Forall₂ R (l₁ ++ l₂) (u₁ ++ u₂) := by
  induction h with
  | nil => exact h'
  | cons a b ih => exact .cons a ih

theorem GroupsBuilt.each {cs : ThriftCodecs} {ck : Bool} {pos : Nat}
    {groups : List (List (ColumnDescriptor × List CompressedPage))} {gb : List BuiltGroup}
    {bytes file : List Byte}
    (h : GroupsBuilt cs ck pos groups gb bytes) (hf : ∀ g ∈ groups, GroupFits cs g)
    (hlen : pos + bytes.length < 2 ^ 63) (hat : Located file pos bytes) (h4 : 4 ≤ pos) :
    List.Forall₂ (GroupBuilt cs file) groups gb := by
  induction h with
  | nil => exact .nil
  | snoc h1 h2 h3 ih =>
    simp only [List.length_append] at hlen
    have hfc := hf _ (List.mem_append_right _ List.mem_cons_self)
    obtain ⟨e, hd, -⟩ := buildRowGroup_ok h2 hfc (by omega) h3
    refine forall₂_append' (ih (fun g hg => hf g (by simp [hg])) (by omega) hat.left) (.cons ?_ .nil)
    exact ⟨e, hd, h2.each hfc.chunks (by omega) hat.right (by omega)⟩

/-- What happens to a row group in a loop over the indexes. -/
def GroupIndexed (index : List PageWriteSpec → Res (List Byte))
    (set : Thrift.ColumnChunk → I64 → Option I32 → Thrift.ColumnChunk) (file : List Byte)
    (g g' : BuiltGroup) : Prop :=
  ∃ pos ls, Indexed index set pos g.2 g'.2 ls ∧ Located file pos ls.flatten ∧
    g'.1 = { g.1 with columns := g'.2.map (·.1) }

theorem IndexedGroups.each {index : List PageWriteSpec → Res (List Byte)}
    {set : Thrift.ColumnChunk → I64 → Option I32 → Thrift.ColumnChunk} {pos : Nat}
    {gb gb' : List BuiltGroup} {bytes file : List Byte} (h : IndexedGroups index set pos gb gb' bytes)
    (hat : Located file pos bytes) : List.Forall₂ (GroupIndexed index set file) gb gb' := by
  induction h with
  | nil => exact .nil
  | cons h1 h2 ih => exact .cons ⟨_, _, h1, hat.left, rfl⟩ (ih hat.right)

theorem forall₂_ser {T : Type} {ser : T → List Byte} {f : List PageWriteSpec → Res T}
    {bs : List (Thrift.ColumnChunk × List PageWriteSpec)} {ls : List (List Byte)}
    (h : List.Forall₂ (fun b l => (f b.2).map' ser = .ok l) bs ls) :
    ∃ ts, ls = ts.map ser ∧ List.Forall₂ (fun b t => f b.2 = .ok t) bs ts := by
  induction h with
  | nil => exact ⟨[], rfl, .nil⟩
  | cons h1 h2 ih =>
    obtain ⟨ts, rfl, h3⟩ := ih
    obtain ⟨t, h4, rfl⟩ := map'_ok _ _ _ h1
    exact ⟨t :: ts, rfl, .cons h4 h3⟩

theorem forall₂_trans {α β γ : Type} {R : α → β → Prop} {S : β → γ → Prop} {T : α → γ → Prop}
    (hT : ∀ a b c, R a b → S b c → T a c) {as : List α} {bs : List β} {cs : List γ}
    (h1 : List.Forall₂ R as bs) (h2 : List.Forall₂ S bs cs) : List.Forall₂ T as cs := by
  induction h1 generalizing cs with
  | nil => cases h2; exact .nil
  | cons a b ih =>
    cases h2 with
    | cons c d => exact .cons (hT _ _ _ a c) (ih d)

/-- Chunks that agree in what the loops keep. -/
theorem chunkBuilt_congr {cs : ThriftCodecs} {file : List Byte}
    {columns : List (ColumnDescriptor × List CompressedPage)}
    {bs bs' : List (Thrift.ColumnChunk × List PageWriteSpec)}
    (h : List.Forall₂ (ChunkBuilt cs file) columns bs)
    (he : bs'.map (fun b => ((b.1.metaData, b.1.fileOffset, b.1.filePath), b.2)) =
      bs.map (fun b => ((b.1.metaData, b.1.fileOffset, b.1.filePath), b.2))) :
    List.Forall₂ (ColumnWritten cs file) columns (bs'.map (·.1)) ∧
    List.Forall₂ (fun (x : (ColumnDescriptor × List CompressedPage) × Thrift.ColumnChunk)
        (b : Thrift.ColumnChunk × List PageWriteSpec) => ∀ ck oi, serializeOffsetIndex ck b.2 = .ok oi →
        OffsetIndexOf cs.page x.1.2 (startOf x.2) oi) (columns.zip (bs'.map (·.1))) bs' ∧
    bs'.map (·.1.metaData) = bs.map (·.1.metaData) := by
  induction h generalizing bs' with
  | nil =>
    obtain rfl : bs' = [] := by simpa using he
    exact ⟨.nil, .nil, rfl⟩
  | cons h1 h2 ih =>
    cases bs' with
    | nil => simp at he
    | cons b' bs' =>
      simp only [List.map_cons, List.cons.injEq, Prod.mk.injEq] at he
      obtain ⟨i1, i2, i3⟩ := ih he.2
      obtain ⟨⟨⟨e1, e3, e4⟩, e2⟩, -⟩ := he
      refine ⟨.cons ?_ i1, .cons ?_ i2, by simp only [List.map_cons, e1, i3]⟩
      · obtain ⟨pos, m, h3, h4, h5, h6, h7, h8, h9, h10⟩ := h1.written
        exact ⟨pos, m, e1.trans h3, h4, h5, h6, h7, e4.trans h8, h9, fun h => by rw [e3]; exact h10 h⟩
      · intro ck oi ho
        have := h1.offsetIndex ck oi (e2 ▸ ho)
        simpa only [startOf, e1] using this

/-- The effect of the two loops on a row group: first the column indexes, if asked for. -/
def FirstLoop (cs : ThriftCodecs) (stats : Bool) (file : List Byte) (g g' : BuiltGroup) : Prop :=
  (stats = true → GroupIndexed (writeColumnIndex cs) setColumnIndex file g g') ∧ (stats = false → g' = g)

theorem groupWritten {cs : ThriftCodecs} {ck stats : Bool} {file : List Byte}
    {columns : List (ColumnDescriptor × List CompressedPage)} {g g1 g2 : BuiltGroup}
    (h : GroupBuilt cs file columns g) (h1 : FirstLoop cs stats file g g1)
    (h2 : GroupIndexed (writeOffsetIndex cs ck) setOffsetIndex file g1 g2) :
    GroupWritten cs stats file columns g2.1 ∧
      g2.1.columns.map (·.metaData) = g.1.columns.map (·.metaData) ∧
      g2.1 = { g.1 with columns := g2.1.columns } := by
  obtain ⟨hc, hd, hb⟩ := h
  obtain ⟨pos2, ls2, i2, ⟨pre, post, hfile, hpre⟩, e2⟩ := h2
  have k2 := i2.keeps (f := fun c =>
      ((c.metaData, c.fileOffset, c.filePath), c.columnIndexOffset, c.columnIndexLength))
    (fun _ _ _ => rfl)
  -- what the first loop keeps
  have k1 : g1.2.map (fun b => ((b.1.metaData, b.1.fileOffset, b.1.filePath), b.2)) =
      g.2.map (fun b => ((b.1.metaData, b.1.fileOffset, b.1.filePath), b.2)) ∧
      g1.1 = { g.1 with columns := g1.2.map (·.1) } := by
    cases stats with
    | true =>
      obtain ⟨pos, ls, i1, -, e1⟩ := h1.1 rfl
      exact ⟨i1.keeps (f := fun c => (c.metaData, c.fileOffset, c.filePath)) (fun _ _ _ => rfl), e1⟩
    | false =>
      rw [h1.2 rfl]
      exact ⟨rfl, by rw [← hc]⟩
  have k2' : g2.2.map (fun b => ((b.1.metaData, b.1.fileOffset, b.1.filePath), b.2)) =
      g1.2.map (fun b => ((b.1.metaData, b.1.fileOffset, b.1.filePath), b.2)) := by
    have := congrArg (List.map fun x => (x.1.1, x.2)) k2
    simp only [List.map_map] at this
    exact this
  obtain ⟨c1, c2, c3⟩ := chunkBuilt_congr hb (k2'.trans k1.1)
  have e : g2.1 = { g.1 with columns := g2.2.map (·.1) } := by rw [e2, k1.2]
  have ec : g2.1.columns = g2.2.map (·.1) := by rw [e2]
  refine ⟨⟨?_, ?_, ?_, ?_, ?_⟩, ?_, ?_⟩
  · rw [e]
    refine ⟨hd.uncompressed, hd.compressed, hd.rows, hd.noColumns, ?_, hd.sorting⟩
    have e3 : ((g2.2.map (·.1)).map (·.metaData)).head? = (g.1.columns.map (·.metaData)).head? := by
      rw [hc, List.map_map, List.map_map]
      exact congrArg List.head? c3
    have e4 : ∀ l : List Thrift.ColumnChunk,
        (l.head?.bind fun c => c.metaData.map (·.dataPageOffset)) =
          (l.map (·.metaData)).head?.bind fun m => m.map (·.dataPageOffset) := by
      intro l
      cases l <;> rfl
    simp only
    rw [hd.fileOffset, e4, e4, e3]
  · obtain ⟨ois, rfl, h3⟩ := forall₂_ser (f := serializeOffsetIndex ck) (ser := cs.offsetIndex.ser) i2.results
    refine ⟨pos2, ois, by rw [hfile, ← hpre]; simp, ?_, ?_⟩
    · rw [ec]
      exact i2.sections (fun _ _ _ => rfl) hfile hpre
    · rw [ec]
      have h4 : List.Forall₂ (fun (b : Thrift.ColumnChunk × List PageWriteSpec) oi =>
          serializeOffsetIndex ck b.2 = .ok oi) g2.2 ois := by
        have : g2.2.map (·.2) = g1.2.map (·.2) := by
          have := congrArg (List.map Prod.snd) k2'
          simp only [List.map_map] at this
          exact this
        rw [← List.forall₂_map_left_iff (f := fun b : Thrift.ColumnChunk × List PageWriteSpec => b.2)
          (R := fun s oi => serializeOffsetIndex ck s = .ok oi)] at h3 ⊢
        rw [this]
        exact h3
      exact forall₂_trans (fun a b c h5 h6 => h5 ck c h6) c2 h4
  · intro hs
    obtain ⟨pos, ls, i1, ⟨pre1, post1, hfile1, hpre1⟩, e1⟩ := h1.1 hs
    obtain ⟨cis, rfl, h3⟩ := forall₂_ser (f := serializeColumnIndex) (ser := cs.columnIndex.ser) i1.results
    refine ⟨pos, cis, by rw [hfile1, ← hpre1]; simp, ?_, forall₂_trans (fun a b c h5 h6 => h5.columnIndex c h6) hb h3⟩
    refine sections_congr (i1.sections (ref := fun c => (c.columnIndexOffset, c.columnIndexLength))
      (fun _ _ _ => rfl) hfile1 hpre1) ?_
    rw [ec]
    have := congrArg (List.map fun x => x.1.2) k2
    simp only [List.map_map] at this ⊢
    exact this
  · intro hs c hcm
    rw [ec] at hcm
    have hp : g.2.map (fun b => (b.1.columnIndexOffset, b.1.columnIndexLength)) =
        g.2.map fun _ => (none, none) := by
      refine List.map_congr_left fun b hbm => ?_
      have : ∀ {cols bs}, List.Forall₂ (ChunkBuilt cs file) cols bs → b ∈ bs →
          b.1 = { fileOffset := b.1.fileOffset, metaData := b.1.metaData } := by
        intro cols bs hh hm
        induction hh with
        | nil => simp at hm
        | cons h1 h2 ih =>
          rcases List.mem_cons.1 hm with rfl | hm
          · exact h1.plain
          · exact ih hm
      rw [this hb hbm]
    have k3 : g2.2.map (fun b => (b.1.columnIndexOffset, b.1.columnIndexLength)) =
        g.2.map fun _ => (none, none) := by
      rw [← hp, ← h1.2 hs]
      have := congrArg (List.map fun x => x.1.2) k2
      simp only [List.map_map] at this
      exact this
    obtain ⟨b, hbm, rfl⟩ := List.mem_map.1 hcm
    have : (b.1.columnIndexOffset, b.1.columnIndexLength) ∈
        g.2.map fun _ => ((none, none) : Option I64 × Option I32) := by
      rw [← k3]
      exact List.mem_map.2 ⟨b, hbm, rfl⟩
    obtain ⟨_, -, h6⟩ := List.mem_map.1 this
    exact ⟨(congrArg Prod.fst h6).symm, (congrArg Prod.snd h6).symm⟩
  · rw [ec]
    exact c1
  · rw [ec, hc, List.map_map, List.map_map]
    exact c3
  · rw [ec]
    exact e

theorem groups_final {cs : ThriftCodecs} {ck stats : Bool} {file : List Byte}
    {groups : List (List (ColumnDescriptor × List CompressedPage))} {gb gb1 gb2 : List BuiltGroup}
    (f0 : List.Forall₂ (GroupBuilt cs file) groups gb)
    (f1 : List.Forall₂ (FirstLoop cs stats file) gb gb1)
    (f2 : List.Forall₂ (GroupIndexed (writeOffsetIndex cs ck) setOffsetIndex file) gb1 gb2) {pos : Nat}
    {bytes : List Byte} (hg : Groups cs pos groups (gb.map (·.1)) bytes) :
    Groups cs pos groups (gb2.map (·.1)) bytes ∧
      List.Forall₂ (GroupWritten cs stats file) groups (gb2.map (·.1)) ∧
      gb2.map (·.1.numRows) = gb.map (·.1.numRows) ∧
      gb2.map (·.1.ordinal) = gb.map (·.1.ordinal) := by
  induction f0 generalizing gb1 gb2 pos bytes with
  | nil =>
    cases f1
    cases f2
    exact ⟨hg, .nil, rfl, rfl⟩
  | cons h0 t0 ih =>
    cases f1 with
    | cons h1 t1 =>
      cases f2 with
      | cons h2 t2 =>
        obtain ⟨w1, w2, w3⟩ := groupWritten h0 h1 h2
        cases hg with
        | cons g1 g2 g3 g4 =>
          obtain ⟨i1, i2, i3, i4⟩ := ih t1 t2 g4
          refine ⟨.cons g1 (w2.trans g2) w1.totals i1, .cons w1 i2, ?_, ?_⟩
          · simp only [List.map_cons, i3]
            rw [w3]
          · simp only [List.map_cons, i4]
            rw [w3]

/-- A successful end of a file. -/
theorem endWith_ok {cs : ThriftCodecs} {ck : Bool} {schema : SchemaDescriptor}
    {options : WriteOptions} {createdBy : Option String} {w0 w w' : FileWriter}
    {groups : List (List (List CompressedPage))} {kv : Option (List Thrift.KeyValue)} {n : Nat}
    {finish : FileWriter → Thrift.FileMetaData → FileWriter}
    (hfin : ∀ w m, (finish w m).out = w.out)
    (h0 : Fresh schema options createdBy w0) (hw : Wrote cs ck w0 groups w)
    (hf : ∀ g ∈ groups, GroupFits cs (schema.leaves.zip g))
    (he : FileWriter.endWith finish cs ck w kv = (.ok n, w')) (hlen : w'.out.length < 2 ^ 63) :
    ∃ md w'', w' = finish w'' md ∧ FileWritten cs schema options createdBy kv groups w'.out md ∧
      ((cs.file.ser md).length < 2 ^ 31 → n = w'.out.length) := by
  have ha := wrote_after h0 hw
  obtain ⟨gb, bytes, hout, hrg, hps, hgb⟩ := ha.built
  rw [ha.schema] at hgb
  rw [FileWriter.endWith] at he
  simp only [ha.state, ne_eq, not_true_eq_false, if_false] at he
  split at he
  · simp at he
  · simp at he
  rename_i numRows hn
  have hcols : ∀ g ∈ gb, g.1.columns = g.2.map (·.1) := by
    clear hrg hps hout
    generalize 4 = pos at hgb
    generalize groups.map _ = gs at hgb
    induction hgb with
    | nil => simp
    | snoc h1 h2 h3 ih =>
      intro g hg
      rcases List.mem_append.1 hg with hg | hg
      · exact ih g hg
      · obtain rfl := List.mem_singleton.1 hg
        rw [buildRowGroup] at h3
        obtain ⟨rows, -, h⟩ := Res.bind_eq_ok.1 h3
        obtain ⟨tu, -, h⟩ := Res.bind_eq_ok.1 h
        obtain ⟨tc, -, h⟩ := Res.bind_eq_ok.1 h
        injection h with h
        subst h
        rfl
  -- the column indexes
  have first : ∀ r w1, w.autoStart.columnIndexes cs = (r, w1) → r = .ok () →
      ∃ gb1 b1, w1 = { w.autoStart with out := w.autoStart.out ++ b1, offset := (w.autoStart.out ++ b1).length
                                        rowGroups := gb1.map (·.1) } ∧
        gb1.map (·.2.map (·.2)) = gb.map (·.2.map (·.2)) ∧ (∀ g ∈ gb1, g.1.columns = g.2.map (·.1)) ∧
        ∀ file, Located file w.autoStart.out.length b1 →
          List.Forall₂ (FirstLoop cs options.writeStatistics file) gb gb1 := by
    intro r w1 h1 hr
    subst hr
    rw [FileWriter.columnIndexes, ha.options] at h1
    cases hs : options.writeStatistics with
    | true =>
      simp only [hs, if_true] at h1
      generalize hl : indexGroups _ _ _ _ _ = l at h1
      obtain ⟨r, l⟩ := l
      simp only [Prod.mk.injEq] at h1
      obtain ⟨rfl, rfl⟩ := h1
      rw [hrg, hps] at hl
      obtain ⟨gb1, i1, i2, i3, i4, i5⟩ := indexGroups_ok hcols hl
      refine ⟨gb1, l.bytes, ?_, i3, i5, fun file hat => ?_⟩
      · simp only [FileWriter.after, i2, i4, ha.offset, List.length_append]
      · rw [ha.offset] at i1
        exact (i1.each hat).imp fun a b hab => ⟨fun _ => hab, fun h => by simp at h⟩
    | false =>
      simp only [hs, Bool.false_eq_true, if_false, Prod.mk.injEq, true_and] at h1
      subst h1
      refine ⟨gb, [], ?_, rfl, hcols, fun file _ => ?_⟩
      · rw [← hrg, List.append_nil, ← ha.offset]
      · exact List.forall₂_same.2 fun g _ => ⟨fun h => by simp at h, fun _ => rfl⟩
  split at he
  · simp at he
  · simp at he
  rename_i w1 hw1
  obtain ⟨gb1, b1, hw1', hps1, hcols1, hfirst⟩ := first _ _ hw1 rfl
  -- the offset indexes
  have second : ∀ r w2, w1.offsetIndexes cs ck = (r, w2) → r = .ok () →
      ∃ gb2 b2, w2 = { w1 with out := w1.out ++ b2, offset := (w1.out ++ b2).length
                               rowGroups := gb2.map (·.1) } ∧
        ∀ file, Located file w1.out.length b2 →
          List.Forall₂ (GroupIndexed (writeOffsetIndex cs ck) setOffsetIndex file) gb1 gb2 := by
    intro r w2 h2 hr
    subst hr
    rw [FileWriter.offsetIndexes] at h2
    generalize hl : indexGroups _ _ _ _ _ = l at h2
    obtain ⟨r, l⟩ := l
    simp only [Prod.mk.injEq] at h2
    obtain ⟨rfl, rfl⟩ := h2
    have e1 : w1.rowGroups = gb1.map (·.1) := by rw [hw1']
    have e2 : w1.pageSpecs = gb1.map (·.2.map (·.2)) := by rw [hps1, ← hps, hw1']
    have e3 : w1.offset = w1.out.length := by rw [hw1']
    rw [e1, e2, e3] at hl
    obtain ⟨gb2, i1, i2, i3, i4, i5⟩ := indexGroups_ok hcols1 hl
    refine ⟨gb2, l.bytes, ?_, fun file hat => i1.each hat⟩
    simp only [FileWriter.after, i2, i4, List.length_append]
  split at he
  · simp at he
  · simp at he
  rename_i w2 hw2
  obtain ⟨gb2, b2, hw2', hsecond⟩ := second _ _ hw2 rfl
  rw [endFile] at he
  generalize hmd : w2.fileMetadata numRows kv = md at he
  split at he
  · simp at he
  · simp at he
  rename_i len last hend
  simp only [Prod.mk.injEq, Res.ok.injEq] at he hend
  obtain ⟨he1, rfl⟩ := he
  obtain ⟨hend, rfl⟩ := hend
  rw [hfin] at hlen ⊢
  have ew2 : w2.out = par1 ++ bytes ++ b1 ++ b2 := by rw [hw2', hw1']; simp [hout]
  have ew1 : w1.out = par1 ++ bytes ++ b1 := by rw [hw1']; simp [hout]
  have hfile : w2.out ++ (cs.file.ser md ++ footer (asI32 (cs.file.ser md).length)) =
      par1 ++ bytes ++ (b1 ++ b2) ++ cs.file.ser md ++ tail8 (cs.file.ser md) := by
    rw [ew2, footer_eq]
    simp [tail8]
  have hlen' := hlen
  rw [hfile] at hlen'
  simp only [List.length_append, show par1.length = 4 from rfl] at hlen'
  generalize hF : w2.out ++ (cs.file.ser md ++ footer (asI32 (cs.file.ser md).length)) = file at *
  have hfit : ∀ g ∈ groups.map (schema.leaves.zip ·), GroupFits cs g := by
    intro g hg
    obtain ⟨g', hg', rfl⟩ := List.mem_map.1 hg
    exact hf g' hg'
  have hat0 : Located file 4 bytes := ⟨par1, b1 ++ b2 ++ cs.file.ser md ++ tail8 (cs.file.ser md),
    by simp [hfile], rfl⟩
  have f0 := hgb.each hfit (by omega) hat0 (by omega)
  have f1 := hfirst file ⟨par1 ++ bytes, b2 ++ cs.file.ser md ++ tail8 (cs.file.ser md),
    by simp [hfile], by rw [hout]⟩
  have f2 := hsecond file ⟨par1 ++ bytes ++ b1, cs.file.ser md ++ tail8 (cs.file.ser md),
    by simp [hfile], by rw [ew1]⟩
  have emd : md = { version := options.version, schema := schema.intoThrift, numRows
                    rowGroups := gb2.map (·.1), keyValueMetadata := kv, createdBy := createdBy } := by
    rw [← hmd, FileWriter.fileMetadata, hw2', hw1']
    simp only [ha.options, ha.schema, ha.createdBy]
  obtain ⟨g1, g2, g3, g4⟩ := groups_final f0 f1 f2 (hgb.groups hfit (by omega))
  have erg : md.rowGroups = gb2.map (·.1) := by rw [emd]
  refine ⟨md, _, rfl, ⟨⟨bytes, b1 ++ b2, hfile, by rw [erg]; exact g1⟩, by rw [emd], by rw [emd],
    by rw [emd], by rw [emd], by rw [erg]; exact g2, ?_, by rw [emd],
    by rw [erg, List.map_map]; exact g4.trans (by simpa using hgb.ordinals.2)⟩, ?_⟩
  · have := sumI64_eq hn
    rw [hrg] at this
    rw [erg, emd, List.map_map]
    simp only
    rw [this, show (0 : I64).toInt = 0 from rfl, Int.zero_add, List.map_map, List.map_map]
    have e := congrArg (List.map BitVec.toInt) g3
    simp only [List.map_map] at e
    exact congrArg (fun l : List Int => l.sum.bmod (2 ^ 64)) e.symm
  · intro hml
    rw [← he1]
    have e1 : asUsize (asI32 (cs.file.ser md).length) = (cs.file.ser md).length := asUsize_asI32 hml
    rw [e1] at hend
    split at hend
    · cases hend
    · injection hend with hend
      rw [← hend, hfile]
      have e2 : w2.offset = w2.out.length := by rw [hw2']
      rw [e2, ew2]
      simp only [List.length_append, tail8, le32, par1, List.length_cons, List.length_nil]
      omega

end Pq
