import Verif.Lemmas.WholeFile
import Verif.Spec.Indexes
/-
Lemmas about reading the page indexes.
-/
namespace Pq

open Spec

/-! ### Sections -/

theorem region_add (file : List Byte) (pos a b : Nat) :
    region file pos (a + b) = region file pos a ++ region file (pos + a) b := by
  simp only [region, List.take_add, List.drop_drop]

theorem Spec.Sections.region {ref : Thrift.ColumnChunk → Option I64 × Option I32} {file : List Byte}
    {pos : Nat} {cs : List Thrift.ColumnChunk} {bs : List (List Byte)}
    (h : Sections ref file pos cs bs) :
    Spec.region file pos (bs.map List.length).sum = bs.flatten := by
  induction h with
  | nil => simp [Spec.region]
  | cons h1 h2 h3 ih => rw [List.map_cons, List.sum_cons, region_add, h2, ih, List.flatten_cons]

theorem Spec.Sections.total {ref : Thrift.ColumnChunk → Option I64 × Option I32} {file : List Byte}
    {pos : Nat} {cs : List Thrift.ColumnChunk} {bs : List (List Byte)}
    (h : Sections ref file pos cs bs) : (bs.map List.length).sum ≤ file.length := by
  have := congrArg List.length h.region
  simp only [Spec.region, List.length_take, List.length_drop, List.length_flatten] at this
  omega

theorem Spec.Sections.le {ref : Thrift.ColumnChunk → Option I64 × Option I32} {file : List Byte}
    {pos : Nat} {cs : List Thrift.ColumnChunk} {bs : List (List Byte)}
    (h : Sections ref file pos cs bs) {b : List Byte} (hb : b ∈ bs) : b.length ≤ file.length := by
  have h1 := h.total
  have h2 := (List.sublist_flatten_of_mem hb).length_le
  rw [List.length_flatten] at h2
  omega

theorem Spec.Sections.length_eq {ref : Thrift.ColumnChunk → Option I64 × Option I32} {file : List Byte}
    {pos : Nat} {cs : List Thrift.ColumnChunk} {bs : List (List Byte)}
    (h : Sections ref file pos cs bs) : cs.length = bs.length := by
  induction h with
  | nil => rfl
  | cons h1 h2 h3 ih => simp [ih]

theorem sumUsize_ok (ck : Bool) (acc : Nat) (xs : List Nat) (h : acc + xs.sum < 2 ^ 64) :
    sumUsize ck acc xs = .ok (acc + xs.sum) := by
  induction xs generalizing acc with
  | nil => simp [sumUsize]
  | cons x xs ih =>
    rw [List.sum_cons] at h
    rw [sumUsize, uadd, if_pos (by omega), Res.ok_bind, ih _ (by omega), List.sum_cons, Nat.add_assoc]

theorem toUsize_nat {w n : Nat} (hw : 0 < w) (h : n < 2 ^ (w - 1)) : toUsize (BitVec.ofNat w n) = .ok n := by
  have h2 : 2 ^ w = 2 * 2 ^ (w - 1) := by
    rw [← Nat.pow_succ']
    congr 1
    omega
  have e : (BitVec.ofNat w n).toInt = n := by
    rw [BitVec.toInt_eq_toNat_of_lt]
    · rw [BitVec.toNat_ofNat, Nat.mod_eq_of_lt (by omega)]
    · rw [BitVec.toNat_ofNat, Nat.mod_eq_of_lt (by omega)]
      omega
  rw [toUsize_ok _ (by omega), e, Int.toNat_natCast]

theorem Spec.Sections.lengths {getOffset : Thrift.ColumnChunk → Option I64}
    {getLength : Thrift.ColumnChunk → Option I32} {file : List Byte} {pos : Nat}
    {chunks : List ColumnChunkMetaData} {bs : List (List Byte)}
    (h : Sections (fun c => (getOffset c, getLength c)) file pos (chunks.map (·.columnChunk)) bs)
    (hb : ∀ b ∈ bs, b.length < 2 ^ 31) :
    collectRes (chunks.map fun x => do
        let length ← Res.ofOption .oos (getLength x.columnChunk)
        toUsize length) = .ok (bs.map List.length) := by
  rw [collectRes_ok_iff]
  generalize hcs : chunks.map (·.columnChunk) = cs at h
  induction h generalizing chunks with
  | nil => cases chunks with
    | nil => rfl
    | cons c chunks => simp at hcs
  | cons h1 h2 h3 ih => cases chunks with
    | nil => simp at hcs
    | cons c chunks =>
      simp only [List.map_cons, List.cons.injEq] at hcs
      obtain ⟨rfl, hcs⟩ := hcs
      rw [List.map_cons, ih (fun b hm => hb b (List.mem_cons_of_mem _ hm)) hcs]
      simp only [Prod.mk.injEq] at h1
      rw [h1.2, Res.ofOption, Res.ok_bind, toUsize_nat (by omega) (by simpa using hb _ (by simp))]
      rfl

theorem prepareRead_ok {getOffset : Thrift.ColumnChunk → Option I64}
    {getLength : Thrift.ColumnChunk → Option I32} {file : List Byte} {pos : Nat}
    {chunks : List ColumnChunkMetaData} {bs : List (List Byte)}
    (h : Sections (fun c => (getOffset c, getLength c)) file pos (chunks.map (·.columnChunk)) bs)
    (hb : ∀ b ∈ bs, b.length < 2 ^ 31) (hpos : pos < 2 ^ 63) (hc : chunks ≠ []) :
    prepareRead getOffset getLength chunks = .ok (pos, bs.map List.length) := by
  have hl := h.lengths hb
  cases chunks with
  | nil => exact absurd rfl hc
  | cons c chunks =>
    cases h with
    | cons h1 h2 h3 =>
      simp only [Prod.mk.injEq] at h1
      simp only [prepareRead, h1.1]
      rw [toUsize_nat (by omega) (by simpa using hpos), Res.ok_bind, hl, Res.ok_bind]

/-! ### Column indexes -/

theorem deserializeColumnIndexes_ok {codec : Codec Thrift.ColumnIndex} {data pre post : List Byte}
    {chunks : List ColumnChunkMetaData} {bs : List (List Byte)} {out : List Index}
    (hd : data = pre ++ bs.flatten ++ post)
    (h : List.Forall₂ (fun (x : ColumnChunkMetaData × List Byte) index =>
      deserializeIndex codec x.2 x.1.columnDescr.descriptor.primitiveType = .ok index)
      (chunks.zip bs) out) (hl : chunks.length = bs.length) :
    deserializeColumnIndexes codec data pre.length chunks (bs.map List.length) = .ok out := by
  induction chunks generalizing bs out pre with
  | nil =>
    cases h
    rfl
  | cons c chunks ih => cases bs with
    | nil => simp at hl
    | cons b bs =>
      cases h with
      | cons h1 h2 =>
        have e : slice data pre.length (pre.length + b.length) = .ok b := by
          rw [slice, if_pos (by rw [hd]; simp)]
          rw [hd]
          simp
        rw [List.map_cons, deserializeColumnIndexes, e, Res.ok_bind, h1, Res.ok_bind]
        have := ih (pre := pre ++ b) (by rw [hd]; simp) h2 (by simpa using hl)
        rw [List.length_append] at this
        rw [this]
        rfl

theorem readColumnsIndexes_ok {codec : Codec Thrift.ColumnIndex} (ck : Bool) {file : List Byte} {pos : Nat}
    {chunks : List ColumnChunkMetaData} {bs : List (List Byte)} {out : List Index}
    (h : Sections (fun c => (c.columnIndexOffset, c.columnIndexLength)) file pos
      (chunks.map (·.columnChunk)) bs)
    (hb : ∀ b ∈ bs, b.length < 2 ^ 31) (hpos : pos < 2 ^ 63) (hlen : file.length < 2 ^ 63)
    (ho : List.Forall₂ (fun (x : ColumnChunkMetaData × List Byte) index =>
      deserializeIndex codec x.2 x.1.columnDescr.descriptor.primitiveType = .ok index)
      (chunks.zip bs) out) :
    readColumnsIndexes codec ck file chunks = .ok out := by
  have hl := h.length_eq
  rw [List.length_map] at hl
  cases hc : chunks with
  | nil =>
    rw [hc] at ho
    cases ho
    rfl
  | cons c cs =>
    rw [← hc]
    have hne : chunks ≠ [] := by rw [hc]; simp
    have ht := h.total
    rw [readColumnsIndexes, prepareColumnIndexRead, prepareRead_ok h hb hpos hne, Res.ok_bind]
    simp only
    rw [sumUsize_ok ck 0 _ (by omega), Res.ok_bind, Nat.zero_add]
    have hr := h.region
    rw [Spec.region] at hr
    exact deserializeColumnIndexes_ok (pre := []) (post := []) (by rw [hr]; simp) ho hl

/-! ### Decoding -/

/-- Reading a column index whose bounds can be decoded. -/
theorem tryNewIndex_ok {α : Type} {decode : List Byte → Res α} {plain : α → List Byte}
    {make : List (PageIndex α) → BoundaryOrder → Index} {pages : List CompressedPage}
    {ci : Thrift.ColumnIndex} (hci : ColumnIndexOf pages ci) {ty : PhysicalType}
    (ht : ∀ p ∈ pages, ∀ vt ∈ statisticsOf p, vt.2 = ty)
    (hd : ∀ x v, WidthsOk v ty → (v.minValue = some x ∨ v.maxValue = some x) →
      ∃ y, decode (boundOf ty x) = .ok y ∧ plain y = boundOf ty x) :
    ∃ out, tryNewIndex decode ci make = .ok (make out .unordered) ∧
      List.Forall₂ PageBounds (pages.filter isData) (out.map (plainEntry plain)) := by
  obtain ⟨entries, h1, rfl⟩ := hci
  have ht' : ∀ p ∈ pages.filter isData, ∀ vt ∈ statisticsOf p, vt.2 = ty :=
    fun p hp => ht p (List.mem_filter.1 hp).1
  suffices ∃ out : List (PageIndex α), (indexRows
        { nullPages := entries.map (·.2.2.2), minValues := entries.map (·.2.1)
          maxValues := entries.map (·.2.2.1), boundaryOrder := 0#32
          nullCounts := some (entries.map (·.1)) }).map (pageIndex decode) =
        out.map .ok ∧
      List.Forall₂ PageBounds (pages.filter isData) (out.map (plainEntry plain)) by
    obtain ⟨out, h2, h3⟩ := this
    refine ⟨out, ?_, h3⟩
    rw [tryNewIndex, (collectRes_ok_iff _ _).2 h2, Res.ok_bind]
    rfl
  simp only [indexRows]
  generalize pages.filter isData = ps at *
  clear ht
  induction h1 with
  | nil => exact ⟨[], rfl, .nil⟩
  | @cons p e ps es h1 h2 ih =>
    obtain ⟨out, i1, i2⟩ := ih fun q hq => ht' q (List.mem_cons_of_mem _ hq)
    obtain ⟨v, t, h3, h4, h5, h6⟩ := h1
    obtain rfl : t = ty := ht' p (by simp) (v, t) h3
    rcases h6 with ⟨x, y, hx, hy, he⟩ | ⟨hx, he⟩
    · obtain ⟨x', hx1, hx2⟩ := hd x v h4 (.inl hx)
      obtain ⟨y', hy1, hy2⟩ := hd y v h4 (.inr hy)
      refine ⟨⟨some x', some y', some e.1⟩ :: out, ?_, .cons ?_ i2⟩
      · simp only [List.map_cons, List.zip_cons_cons, i1, he]
        congr 1
        simp [pageIndex, hx1, hy1]
      · refine ⟨v, t, h3, by simp [h5], by simp [plainEntry, h5], .inl ⟨x, y, hx, hy, ?_, ?_⟩⟩
        · simp [plainEntry, hx2]
        · simp [plainEntry, hy2]
    · refine ⟨⟨none, none, some e.1⟩ :: out, ?_, .cons ?_ i2⟩
      · simp only [List.map_cons, List.zip_cons_cons, i1, he]
        congr 1
      · exact ⟨v, t, h3, by simp [h5], by simp [plainEntry, h5], .inr ⟨hx, rfl, rfl⟩⟩

theorem boundOf_other {t : PhysicalType} (h : t ≠ .boolean) (x : List Byte) : boundOf t x = x := by
  rw [boundOf, if_neg h]

/-- The index of a column is read. -/
theorem indexOfThrift_ok {c : ColumnDescriptor × List CompressedPage} {ci : Thrift.ColumnIndex}
    (hci : ColumnIndexOf c.2 ci) (ht : Typed c) :
    ∃ index, indexOfThrift ci c.1.descriptor.primitiveType = .ok index ∧ ColumnIndexReads c index := by
  generalize hty : c.1.descriptor.primitiveType = pt
  unfold Typed at ht
  rw [hty] at ht
  have width : ∀ {n : Nat} {x v}, plainWidth pt.physicalType = some n → WidthsOk v pt.physicalType →
      (v.minValue = some x ∨ v.maxValue = some x) → x.length = n := by
    intro n x v hp hw hx
    rcases hx with hx | hx
    · exact (hw n hp).2 x hx
    · exact (hw n hp).1 x hx
  have native : ∀ (n : Nat) (x : List Byte), x.length = n →
      ∃ y, nativeBound n x = .ok y ∧ leBytes n y.toNat = x := by
    intro n x hx
    obtain ⟨y, h1, h2⟩ := (Props.C29_native n 0).2.2 x hx
    refine ⟨y, ?_, by rw [← (Props.C29_native n y).1, h2]⟩
    rw [nativeDecode, if_pos hx] at h1
    rw [nativeBound, if_pos hx]
    exact h1
  cases hp : pt.physicalType with
  | boolean =>
    rw [hp] at ht width
    obtain ⟨out, h1, h2⟩ := tryNewIndex_ok (decode := booleanBound) (make := .boolean)
      (plain := fun b => [if b then 1 else 0]) hci ht (by
        intro x v hw hx
        have := width rfl hw hx
        match x, this with
        | [b], _ => by_cases hb : b = 0#8 <;> simp [boundOf, hb, booleanBound, Res.unwrap, Res.map'])
    exact ⟨.boolean out .unordered, by simp only [indexOfThrift, hp]; exact h1, by rw [hty, hp]; rfl, by simp [indexTypeOf], rfl, h2, by simp⟩
  | int32 =>
    rw [hp] at ht width
    obtain ⟨out, h1, h2⟩ := tryNewIndex_ok (decode := nativeBound 4) (make := .int32 pt)
      (plain := fun x => leBytes 4 x.toNat) hci ht (by
        intro x v hw hx
        rw [boundOf_other (by simp)]
        exact native 4 x (width rfl hw hx))
    exact ⟨.int32 pt out .unordered, by simp only [indexOfThrift, hp]; exact h1, by rw [hty, hp]; rfl, by simp [indexTypeOf, hty], rfl, h2, by simp⟩
  | int64 =>
    rw [hp] at ht width
    obtain ⟨out, h1, h2⟩ := tryNewIndex_ok (decode := nativeBound 8) (make := .int64 pt)
      (plain := fun x => leBytes 8 x.toNat) hci ht (by
        intro x v hw hx
        rw [boundOf_other (by simp)]
        exact native 8 x (width rfl hw hx))
    exact ⟨.int64 pt out .unordered, by simp only [indexOfThrift, hp]; exact h1, by rw [hty, hp]; rfl, by simp [indexTypeOf, hty], rfl, h2, by simp⟩
  | int96 =>
    rw [hp] at ht width
    obtain ⟨out, h1, h2⟩ := tryNewIndex_ok (decode := int96Bound) (make := .int96 pt)
      (plain := int96Bytes) hci ht (by
        intro x v hw hx
        rw [boundOf_other (by simp)]
        have hl := width rfl hw hx
        obtain ⟨y, h1, h2⟩ := (Props.C29_int96 ⟨0, 0, 0⟩).2.2 x hl
        refine ⟨y, ?_, by rw [int96Bytes, ← (Props.C29_int96 y).1, h2]⟩
        rw [int96Decode, if_pos hl] at h1
        rw [int96Bound, if_pos hl]
        exact h1)
    exact ⟨.int96 pt out .unordered, by simp only [indexOfThrift, hp]; exact h1, by rw [hty, hp]; rfl, by simp [indexTypeOf, hty], rfl, h2, by simp⟩
  | float =>
    rw [hp] at ht width
    obtain ⟨out, h1, h2⟩ := tryNewIndex_ok (decode := nativeBound 4) (make := .float pt)
      (plain := fun x => leBytes 4 x.toNat) hci ht (by
        intro x v hw hx
        rw [boundOf_other (by simp)]
        exact native 4 x (width rfl hw hx))
    exact ⟨.float pt out .unordered, by simp only [indexOfThrift, hp]; exact h1, by rw [hty, hp]; rfl, by simp [indexTypeOf, hty], rfl, h2, by simp⟩
  | double =>
    rw [hp] at ht width
    obtain ⟨out, h1, h2⟩ := tryNewIndex_ok (decode := nativeBound 8) (make := .double pt)
      (plain := fun x => leBytes 8 x.toNat) hci ht (by
        intro x v hw hx
        rw [boundOf_other (by simp)]
        exact native 8 x (width rfl hw hx))
    exact ⟨.double pt out .unordered, by simp only [indexOfThrift, hp]; exact h1, by rw [hty, hp]; rfl, by simp [indexTypeOf, hty], rfl, h2, by simp⟩
  | byteArray =>
    rw [hp] at ht
    obtain ⟨out, h1, h2⟩ := tryNewIndex_ok (decode := .ok) (make := .byteArray pt)
      (plain := id) hci ht (fun x v _ _ => ⟨_, rfl, rfl⟩)
    exact ⟨.byteArray pt out .unordered, by simp only [indexOfThrift, hp]; exact h1, by rw [hty, hp]; rfl, by simp [indexTypeOf, hty], rfl, h2, by simp⟩
  | fixedLenByteArray n =>
    rw [hp] at ht
    obtain ⟨out, h1, h2⟩ := tryNewIndex_ok (decode := .ok) (make := .fixedLen pt)
      (plain := id) hci ht (fun x v _ _ => ⟨_, rfl, rfl⟩)
    exact ⟨.fixedLen pt out .unordered, by simp only [indexOfThrift, hp]; exact h1, by rw [hty]; rfl, by simp [indexTypeOf, hty], rfl, h2, by rintro _ _ _ ⟨⟩; exact ⟨n, hp⟩⟩

theorem deserializeIndexes_ok {codec : Codec Thrift.ColumnIndex} {limit : Thrift.ColumnIndex → Nat}
    (hc : LawfulCodec codec limit) {columns : List (ColumnDescriptor × List CompressedPage)}
    {cis : List Thrift.ColumnIndex} (h : List.Forall₂ (fun c ci => ColumnIndexOf c.2 ci) columns cis)
    (hlim : ∀ ci ∈ cis, limit ci ≤ (codec.ser ci).length * 2 + 1024)
    (ht : ∀ c ∈ columns, Typed c) {chunks : List ColumnChunkMetaData}
    (hd : chunks.map (·.columnDescr) = columns.map (·.1)) :
    ∃ out, List.Forall₂ (fun (x : ColumnChunkMetaData × List Byte) index =>
        deserializeIndex codec x.2 x.1.columnDescr.descriptor.primitiveType = .ok index)
        (chunks.zip (cis.map codec.ser)) out ∧
      List.Forall₂ ColumnIndexReads columns out := by
  induction h generalizing chunks with
  | nil =>
    obtain rfl : chunks = [] := by simpa using hd
    exact ⟨[], .nil, .nil⟩
  | @cons c ci columns cis h1 h2 ih => cases chunks with
    | nil => simp at hd
    | cons ch chunks =>
      simp only [List.map_cons, List.cons.injEq] at hd
      obtain ⟨out, i1, i2⟩ := ih (fun x hx => hlim x (List.mem_cons_of_mem _ hx))
        (fun x hx => ht x (List.mem_cons_of_mem _ hx)) hd.2
      obtain ⟨index, j1, j2⟩ := indexOfThrift_ok h1 (ht c (by simp))
      refine ⟨index :: out, .cons ?_ i1, .cons j2 i2⟩
      have := hc.roundtrip ci [] _ (hlim ci (by simp))
      rw [List.append_nil] at this
      simp only [deserializeIndex, this, hd.1]
      exact j1

/-! ### Offset indexes -/

theorem pageLocationsLoop_ok {codec : Codec Thrift.OffsetIndex} {limit : Thrift.OffsetIndex → Nat}
    (hc : LawfulCodec codec limit) {len : Nat} {ois : List Thrift.OffsetIndex}
    (hlim : ∀ oi ∈ ois, limit oi ≤ len) (post : List Byte) :
    pageLocationsLoop codec len ois.length ((ois.map codec.ser).flatten ++ post) =
      .ok (ois.map (·.pageLocations)) := by
  induction ois with
  | nil => rfl
  | cons oi ois ih =>
    rw [List.length_cons, pageLocationsLoop, List.map_cons, List.flatten_cons, List.append_assoc,
      hc.roundtrip oi _ _ (hlim oi (by simp))]
    simp only [ih fun x hx => hlim x (List.mem_cons_of_mem _ hx)]
    rfl

theorem readPagesLocations_ok {codec : Codec Thrift.OffsetIndex} {limit : Thrift.OffsetIndex → Nat}
    (hc : LawfulCodec codec limit) (ck : Bool) {file : List Byte} {pos : Nat}
    {chunks : List ColumnChunkMetaData} {ois : List Thrift.OffsetIndex}
    (h : Sections (fun c => (c.offsetIndexOffset, c.offsetIndexLength)) file pos
      (chunks.map (·.columnChunk)) (ois.map codec.ser))
    (hb : ∀ oi ∈ ois, (codec.ser oi).length < 2 ^ 31) (hpos : pos < 2 ^ 63) (hlen : file.length < 2 ^ 63)
    (hlim : ∀ oi ∈ ois, limit oi ≤ (codec.ser oi).length * 2 + 1024) :
    readPagesLocations codec ck file chunks = .ok (ois.map (·.pageLocations)) := by
  have hl := h.length_eq
  rw [List.length_map, List.length_map] at hl
  cases hch : chunks with
  | nil =>
    rw [hch] at hl
    obtain rfl : ois = [] := List.length_eq_zero_iff.1 hl.symm
    rfl
  | cons c cs =>
    rw [← hch]
    have hne : chunks ≠ [] := by rw [hch]; simp
    have ht := h.total
    rw [readPagesLocations, prepareOffsetIndexRead, prepareRead_ok h (by simpa using hb) hpos hne,
      Res.ok_bind]
    simp only
    rw [sumUsize_ok ck 0 _ (by omega), Res.ok_bind, Nat.zero_add]
    have hr := h.region
    rw [Spec.region] at hr
    rw [hr, deserializePageLocations, hl]
    have := pageLocationsLoop_ok hc (len := (ois.map codec.ser).flatten.length * 2 + 1024) (ois := ois)
      (fun oi ho => Nat.le_trans (hlim oi ho) (by
        have : (codec.ser oi).length ≤ (ois.map codec.ser).flatten.length := by
          exact (List.sublist_flatten_of_mem (List.mem_map.2 ⟨oi, ho, rfl⟩)).length_le
        omega)) []
    rwa [List.append_nil] at this

theorem locationsOf_nonneg {codec : Codec Thrift.PageHeader} {pages : List CompressedPage} {pos : Int}
    {row : Nat} (h : 0 ≤ pos) : ∀ l ∈ locationsOf codec pos row pages, 0 ≤ l.1 ∧ 0 ≤ l.2.1 := by
  induction pages generalizing pos row with
  | nil => simp [locationsOf]
  | cons p ps ih =>
    intro l hl
    rw [locationsOf] at hl
    by_cases hd : isData p = true
    · simp only [hd, if_true, List.mem_cons] at hl
      rcases hl with rfl | hl
      · exact ⟨h, Int.natCast_nonneg _⟩
      · exact ih (by omega) l hl
    · simp only [hd, Bool.false_eq_true, if_false] at hl
      exact ih (by omega) l hl

/-- The locations in an offset index. -/
theorem locates {cs : ThriftCodecs} {file : List Byte} {c : ColumnDescriptor × List CompressedPage}
    {chunk : Thrift.ColumnChunk} (hw : ColumnWritten cs file c chunk) {oi : Thrift.OffsetIndex}
    (h : OffsetIndexOf cs.page c.2 (startOf chunk) oi) (hk : RowsKnown c.2) (hr : chunkRows c.2 < 2 ^ 63) :
    Locates cs.page file c.2 oi.pageLocations := by
  obtain ⟨-, h2, h3⟩ := h
  have h3 := h3 hk hr
  refine ⟨h2, fun i l p hl hp => ?_⟩
  have hne : c.2 ≠ [] := by
    rintro he
    simp [he] at hp
  obtain ⟨pos, m, w1, w2, -, w3, -⟩ := hw
  have e : startOf chunk = pos := by
    rw [startOf, w1]
    exact w2.start hne
  rw [e] at h3
  have hg : (locationsOf cs.page pos 0 c.2)[i]? =
      some (l.offset.toInt, l.compressedPageSize.toInt, l.firstRowIndex.toInt) := by
    rw [← h3, List.getElem?_map, hl]
    rfl
  obtain ⟨n1, n2⟩ := locationsOf_nonneg (Int.natCast_nonneg pos) _ (List.mem_of_getElem? hg)
  obtain ⟨q, h4, h5, h6⟩ := locationsOf_get w3 hg
  rw [hp] at h4
  injection h4 with h4
  subst h4
  refine ⟨n1, n2, h5, ?_⟩
  rw [chunkRows, List.filter_eq_self.2 (fun x hx => (List.mem_filter.1 (List.mem_of_mem_take hx)).2)]
  simpa using h6

/-! ### Row groups -/

theorem columnChunk_ofThrift {d : ColumnDescriptor} {chunk : Thrift.ColumnChunk} {cm : ColumnChunkMetaData}
    (h : ColumnChunkMetaData.tryFromThrift d chunk = .ok cm) : cm = ⟨chunk, d⟩ := by
  rw [ColumnChunkMetaData.tryFromThrift] at h
  obtain ⟨_, -, h⟩ := Res.bind_eq_ok.1 h
  obtain ⟨_, -, h⟩ := Res.bind_eq_ok.1 h
  obtain ⟨_, -, h⟩ := Res.bind_eq_ok.1 h
  obtain ⟨_, -, h⟩ := Res.bind_eq_ok.1 h
  obtain ⟨_, -, h⟩ := Res.bind_eq_ok.1 h
  injection h with h
  exact h.symm

/-- The columns of a row group that is read are those in its metadata. -/
theorem rowGroup_ofThrift {schema : SchemaDescriptor} {rg : Thrift.RowGroup} {gm : RowGroupMetaData}
    (h : RowGroupMetaData.tryFromThrift schema rg = .ok gm) :
    gm.columns.map (·.columnChunk) = rg.columns ∧ gm.columns.map (·.columnDescr) = schema.leaves := by
  rw [RowGroupMetaData.tryFromThrift] at h
  by_cases hl : schema.leaves.length = rg.columns.length
  · rw [if_neg (by omega)] at h
    obtain ⟨_, -, h⟩ := Res.bind_eq_ok.1 h
    obtain ⟨_, -, h⟩ := Res.bind_eq_ok.1 h
    obtain ⟨cms, hc, h⟩ := Res.bind_eq_ok.1 h
    injection h with h
    subst h
    rw [collectRes_ok_iff] at hc
    simp only
    generalize schema.leaves = ds at *
    generalize rg.columns = chunks at *
    clear * - hc hl
    induction ds generalizing chunks cms with
    | nil =>
      obtain rfl : chunks = [] := List.length_eq_zero_iff.1 hl.symm
      obtain rfl : cms = [] := by simpa using hc.symm
      exact ⟨rfl, rfl⟩
    | cons d ds ih => cases chunks with
      | nil => simp at hl
      | cons chunk chunks => cases cms with
        | nil => simp at hc
        | cons cm cms =>
          simp only [List.zip_cons_cons, List.map_cons, List.cons.injEq] at hc
          obtain ⟨i1, i2⟩ := ih cms chunks (by simpa using hl) hc.2
          obtain rfl := columnChunk_ofThrift hc.1
          exact ⟨by simp [i1], by simp [i2]⟩
  · rw [if_pos hl] at h
    cases h

theorem rowGroups_ofThrift {md : Thrift.FileMetaData} {fm : FileMetaData}
    (h : FileMetaData.tryFromThrift md = .ok fm) :
    List.Forall₂ (fun rg gm => RowGroupMetaData.tryFromThrift fm.schemaDescr rg = .ok gm)
      md.rowGroups fm.rowGroups := by
  rw [FileMetaData.tryFromThrift] at h
  split at h
  · cases h
  · cases h
  · obtain ⟨gs, hg, h⟩ := Res.bind_eq_ok.1 h
    obtain ⟨_, -, h⟩ := Res.bind_eq_ok.1 h
    injection h with h
    subst h
    rw [collectRes_ok_iff] at hg
    simp only
    generalize md.rowGroups = rgs at *
    clear * - hg
    induction rgs generalizing gs with
    | nil =>
      obtain rfl : gs = [] := by simpa using hg.symm
      exact .nil
    | cons rg rgs ih => cases gs with
      | nil => simp at hg
      | cons g gs =>
        simp only [List.map_cons, List.cons.injEq] at hg
        exact .cons hg.1 (ih gs hg.2)

theorem forall₂_zip_map {α β γ : Type} {R : α × β → γ → Prop} {S : α → γ → Prop} {T : α → β → Prop}
    (hS : ∀ a b c, T a b → R (a, b) c → S a c) {as : List α} {bs : List β} {cs : List γ}
    (h1 : List.Forall₂ T as bs) (h2 : List.Forall₂ R (as.zip bs) cs) : List.Forall₂ S as cs := by
  induction h1 generalizing cs with
  | nil => cases h2; exact .nil
  | cons a b ih =>
    cases h2 with
    | cons c d => exact .cons (hS _ _ _ a c) (ih d)

/-- The indexes of a row group in the file are read. -/
theorem indexes_read {cs : ThriftCodecs} {offsetLimit : Thrift.OffsetIndex → Nat}
    {columnLimit : Thrift.ColumnIndex → Nat} (ho : LawfulCodec cs.offsetIndex offsetLimit)
    (hc : LawfulCodec cs.columnIndex columnLimit) {stats : Bool} {file : List Byte}
    (hlen : file.length < 2 ^ 63) {columns : List (ColumnDescriptor × List CompressedPage)}
    {rg : Thrift.RowGroup} (h : GroupWritten cs stats file columns rg) (ht : ∀ c ∈ columns, Typed c)
    {gm : RowGroupMetaData} (h1 : gm.columns.map (·.columnChunk) = rg.columns)
    (h2 : gm.columns.map (·.columnDescr) = columns.map (·.1)) :
    IndexesRead cs offsetLimit columnLimit stats file columns gm := by
  refine ⟨?_, ?_, ?_⟩
  · obtain ⟨pos, ois, hp, h3, h4⟩ := h.offsetIndexes
    refine ⟨ois, forall₂_zip_map (fun c chunk oi hw hoi hk hr => locates hw hoi hk hr) h.chunks h4,
      fun oi hm => h3.le (List.mem_map.2 ⟨oi, hm, rfl⟩), ?_⟩
    intro hs ck
    rw [← h1] at h3
    exact readPagesLocations_ok ho ck h3 (fun oi hm => (hs oi hm).1) (by omega) hlen
      fun oi hm => (hs oi hm).2
  · intro hst
    obtain ⟨pos, cis, hp, h3, h4⟩ := h.columnIndexes hst
    have hle := fun ci (hm : ci ∈ cis) => h3.le (List.mem_map.2 ⟨ci, hm, rfl⟩)
    rw [← h1] at h3
    by_cases hlim : ∀ ci ∈ cis, columnLimit ci ≤ (cs.columnIndex.ser ci).length * 2 + 1024
    · obtain ⟨out, h5, h6⟩ := deserializeIndexes_ok hc h4 hlim ht h2
      refine ⟨cis, out, h4, h6, hle, fun hs ck => ?_⟩
      refine readColumnsIndexes_ok ck h3 ?_ (by omega) hlen h5
      intro b hb
      obtain ⟨ci, hm, rfl⟩ := List.mem_map.1 hb
      exact (hs ci hm).1
    · have : ∃ out, List.Forall₂ ColumnIndexReads columns out := by
        clear hlim h3 h2 h hle
        induction h4 with
        | nil => exact ⟨[], .nil⟩
        | cons h1 h2 ih =>
          obtain ⟨out, i⟩ := ih fun c hc => ht c (List.mem_cons_of_mem _ hc)
          obtain ⟨index, -, j⟩ := indexOfThrift_ok h1 (ht _ (by simp))
          exact ⟨index :: out, .cons j i⟩
      obtain ⟨out, h6⟩ := this
      exact ⟨cis, out, h4, h6, hle, fun hs => absurd (fun ci hm => (hs ci hm).2) hlim⟩
  · intro hst ck
    have h3 := h.noColumnIndexes hst
    cases hcm : gm.columns with
    | nil => rfl
    | cons c rest =>
      rw [← h1, hcm] at h3
      have := (h3 c.columnChunk (by simp)).1
      simp only [readColumnsIndexes, prepareColumnIndexRead, prepareRead, this, Res.ok_bind, sumUsize,
        deserializeColumnIndexes]

end Pq
