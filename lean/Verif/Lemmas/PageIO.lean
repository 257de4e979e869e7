import Verif.Model.Writer
import Verif.Spec.PageIO
import Verif.Lemmas.Statistics
import Verif.Lemmas.Intervals
/-
Lemmas about the page writer and reader.
-/
namespace Pq
open Spec

/-! ### Writing -/

theorem tryI32_ok {n : Nat} {x : I32} (h : tryI32 n = .ok x) : n < 2 ^ 31 ∧ x = BitVec.ofNat 32 n := by
  rw [tryI32] at h
  split at h
  · rename_i hn; injection h with h; exact ⟨hn, h.symm⟩
  · cases h

theorem toUsize_ofNat {n : Nat} (h : n < 2 ^ 31) : toUsize (BitVec.ofNat 32 n) = .ok n := by
  have h1 : (BitVec.ofNat 32 n).toInt = n := by
    rw [BitVec.toInt_eq_toNat_of_lt] <;> rw [BitVec.toNat_ofNat] <;> omega
  rw [toUsize, h1, if_pos (by omega)]
  rfl

theorem maybeBytes_ok {u c : Nat} {p : I32 × I32} (h : maybeBytes u c = .ok p) :
    u < 2 ^ 31 ∧ c < 2 ^ 31 ∧ p = (BitVec.ofNat 32 u, BitVec.ofNat 32 c) := by
  rw [maybeBytes] at h
  obtain ⟨a, ha, h⟩ := Res.bind_eq_ok.1 h
  obtain ⟨b, hb, h⟩ := Res.bind_eq_ok.1 h
  injection h with h
  obtain ⟨h1, rfl⟩ := tryI32_ok ha
  obtain ⟨h2, rfl⟩ := tryI32_ok hb
  exact ⟨h1, h2, h.symm⟩

theorem assembleHeader_ok {page : CompressedPage} {h : Thrift.PageHeader}
    (hh : assembleHeader page = .ok h) : h = headerOf page ∧ SizesOk page := by
  cases page with
  | data p =>
    simp only [assembleHeader, assembleDataPageHeader] at hh
    obtain ⟨q, hq, hh⟩ := Res.bind_eq_ok.1 hh
    obtain ⟨h1, h2, rfl⟩ := maybeBytes_ok hq
    refine ⟨?_, h1, h2, fun _ e => by cases e⟩
    simp only [headerOf]
    cases hp : p.header <;> simp only [hp] at hh ⊢ <;> injection hh with hh <;> exact hh.symm
  | dict p =>
    simp only [assembleHeader, assembleDictPageHeader] at hh
    obtain ⟨q, hq, hh⟩ := Res.bind_eq_ok.1 hh
    obtain ⟨h1, h2, rfl⟩ := maybeBytes_ok hq
    obtain ⟨n, hn, hh⟩ := Res.bind_eq_ok.1 hh
    obtain ⟨h3, rfl⟩ := tryI32_ok hn
    injection hh with hh
    exact ⟨hh.symm, h1, h2, fun p' e => by injection e with e; subst e; exact h3⟩

theorem writePage_ok {codec : Codec Thrift.PageHeader} {off : Nat} {page : CompressedPage}
    {spec : PageWriteSpec} {bytes : List Byte} (h : writePage codec off page = (.ok spec, bytes)) :
    SizesOk page ∧ bytes = pageBytes codec page ∧ spec.header = headerOf page ∧
      spec.headerSize = (codec.ser (headerOf page)).length ∧ spec.offset = off ∧
      spec.bytesWritten = (pageBytes codec page).length ∧ spec.compression = page.compression ∧
      spec.numValues = page.numValues ∧ pageStatistics page = .ok spec.statistics ∧
      lastSelected page.selectedRows = .ok spec.numRows := by
  rw [writePage] at h
  split at h
  · simp at h
  · simp at h
  · rename_i hd hh
    obtain ⟨rfl, hs⟩ := assembleHeader_ok hh
    simp only [Prod.mk.injEq] at h
    obtain ⟨h, rfl⟩ := h
    obtain ⟨st, h1, h⟩ := Res.bind_eq_ok.1 h
    obtain ⟨nr, h2, h⟩ := Res.bind_eq_ok.1 h
    injection h with h
    subst h
    exact ⟨hs, rfl, rfl, rfl, rfl, rfl, rfl, rfl, h1, h2⟩

/-- What `writePages` writes. -/
theorem writePages_ok {codec : Codec Thrift.PageHeader} {off : Nat}
    {items : List (Res CompressedPage)} {specs : List PageWriteSpec} {bytes : List Byte}
    (h : writePages codec off items = (.ok specs, bytes)) :
    ∃ pages : List CompressedPage, items = pages.map .ok ∧
      bytes = (pages.map (pageBytes codec)).flatten ∧ (∀ p ∈ pages, SizesOk p) ∧
      specs.length = pages.length ∧ (specs.map (·.bytesWritten)).sum = bytes.length := by
  induction items generalizing off specs bytes with
  | nil =>
    simp only [writePages, Prod.mk.injEq, Res.ok.injEq] at h
    obtain ⟨rfl, rfl⟩ := h
    exact ⟨[], rfl, rfl, by simp, rfl, rfl⟩
  | cons x items ih =>
    cases x with
    | err e => simp [writePages] at h
    | panic => simp [writePages] at h
    | ok page =>
      rw [writePages] at h
      split at h
      · simp at h
      · simp at h
      · rename_i spec b hw
        obtain ⟨h1, rfl, -, -, -, h6, -⟩ := writePage_ok hw
        generalize hr : writePages codec (off + spec.bytesWritten) items = r at h
        obtain ⟨rs, rb⟩ := r
        simp only [Prod.mk.injEq] at h
        obtain ⟨h, rfl⟩ := h
        cases rs with
        | err e => simp [Res.map'] at h
        | panic => simp [Res.map'] at h
        | ok ss =>
          simp only [Res.map', Res.ok.injEq] at h
          subst h
          obtain ⟨pages, e1, e2, e3, e4, e5⟩ := ih hr
          refine ⟨page :: pages, by simp [e1], by simp [e2], ?_, by simp [e4], ?_⟩
          · intro p hp
            rcases List.mem_cons.1 hp with rfl | hp
            · exact h1
            · exact e3 p hp
          · simp only [List.map_cons, List.sum_cons, e5, h6, List.length_append]

/-! ### Reading what was written -/

theorem ofThrift_known {x : I32} (h : knownEncoding x) : ∃ e, Encoding.ofThrift x = .ok e := by
  simp only [knownEncoding, List.mem_cons, List.not_mem_nil, or_false] at h
  have hx : ∀ n, x.toNat = n → x = BitVec.ofNat 32 n := by
    intro n hn; rw [← hn, BitVec.ofNat_toNat]; simp
  rcases h with h | h | h | h | h | h | h | h | h <;> rw [hx _ h] <;> exact ⟨_, rfl⟩

/-- A page with the given selection. -/
def withRows (rows : Option (List Interval)) : CompressedPage → CompressedPage
  | .data p => .data { p with selectedRows := rows }
  | .dict p => .dict { p with isSorted := false }

theorem finishPage_headerOf' {page : CompressedPage} {c : Compression} {d : Descriptor}
    (rows : Option (List Interval)) (hs : SizesOk page) (hc : page.compression = c)
    (hd : ∀ p, page = .data p → p.descriptor = d) :
    finishPage (headerOf page) page.buffer c d rows = .ok (withRows rows page) := by
  obtain ⟨h1, h2, h3⟩ := hs
  subst hc
  cases page with
  | data p =>
    obtain rfl := hd p rfl
    have hu := toUsize_ofNat h1
    simp only [CompressedPage.uncompressedSize] at hu
    cases hh : p.header with
    | v1 h =>
      simp only [headerOf, hh, finishPage, PageType.ofThrift, if_true, Res.ok_bind, hu,
        Res.ofOption, withRows, CompressedPage.buffer, CompressedPage.compression]
    | v2 h =>
      simp only [headerOf, hh, finishPage, PageType.ofThrift]
      simp only [show (3#32 : I32) = 0#32 ↔ False by decide, if_false, if_true, Res.ok_bind, hu,
        Res.ofOption, withRows, CompressedPage.buffer, CompressedPage.compression]
      rw [← hh]
  | dict p =>
    have hu := toUsize_ofNat h1
    have hn := toUsize_ofNat (h3 p rfl)
    simp only [CompressedPage.uncompressedSize] at hu
    simp only [headerOf, finishPage, PageType.ofThrift]
    simp only [show (2#32 : I32) = 0#32 ↔ False by decide, show (2#32 : I32) = 3#32 ↔ False by decide,
      if_false, if_true, Res.ok_bind, hu, hn, Res.ofOption, withRows, CompressedPage.buffer,
      CompressedPage.compression, Option.getD_none]

theorem finishPage_headerOf {page : CompressedPage} {c : Compression} {d : Descriptor}
    (hs : SizesOk page) (hp : PageOk c d page) :
    finishPage (headerOf page) page.buffer c d none = .ok (readBack page) := by
  rw [finishPage_headerOf' none hs]
  · cases page <;> rfl
  · cases page with
    | data p => exact hp.1
    | dict p => exact hp
  · rintro p rfl
    exact hp.2.1

/-- The data page header of a page. -/
def dataHeaderOf : CompressedPage → Option DataPageHeader
  | .data p => some p.header
  | .dict _ => none

theorem getPageHeader_headerOf {page : CompressedPage} {c : Compression} {d : Descriptor}
    (hp : PageOk c d page) :
    getPageHeader (headerOf page) = .ok (dataHeaderOf page) := by
  cases page with
  | data p =>
    obtain ⟨-, -, hp⟩ := hp
    cases hh : p.header with
    | v1 h =>
      simp only [hh] at hp
      obtain ⟨_, ⟨_, e1⟩, ⟨_, e2⟩, ⟨_, e3⟩⟩ :=
        And.imp_right (And.imp ofThrift_known (And.imp ofThrift_known ofThrift_known)) hp
      simp only [headerOf, hh, dataHeaderOf, getPageHeader, PageType.ofThrift, if_true, Res.ok_bind,
        Res.ofOption, e1, e2, e3]
    | v2 h =>
      simp only [hh] at hp
      obtain ⟨_, ⟨_, e1⟩⟩ := And.imp_right ofThrift_known hp
      simp only [headerOf, hh, dataHeaderOf, getPageHeader, PageType.ofThrift]
      simp only [show (3#32 : I32) = 0#32 ↔ False by decide, if_false, if_true, Res.ok_bind,
        Res.ofOption, e1]
  | dict p =>
    simp only [headerOf, dataHeaderOf, getPageHeader, PageType.ofThrift]
    simp only [show (2#32 : I32) = 0#32 ↔ False by decide, show (2#32 : I32) = 3#32 ↔ False by decide,
      if_false, if_true, Res.ok_bind]

theorem toInt_asI64_asUsize {x : I32} (h : 0 ≤ x.toInt) : (asI64 (asUsize x)).toInt = x.toInt := by
  rw [asI64, asUsize, BitVec.ofNat_toNat, BitVec.setWidth_eq, BitVec.toInt_signExtend_of_le (by omega)]

theorem headerValues_toInt {page : CompressedPage} {c : Compression} {d : Descriptor}
    (hp : PageOk c d page) :
    (headerValues (dataHeaderOf page)).toInt = valuesOf page ∧ 0 ≤ valuesOf page := by
  cases page with
  | data p =>
    obtain ⟨-, -, hp⟩ := hp
    cases hh : p.header with
    | v1 h =>
      simp only [hh] at hp
      simp only [headerValues, dataHeaderOf, DataPageHeader.numValues, valuesOf, hh]
      exact ⟨toInt_asI64_asUsize hp.1, hp.1⟩
    | v2 h =>
      simp only [hh] at hp
      simp only [headerValues, dataHeaderOf, DataPageHeader.numValues, valuesOf, hh]
      exact ⟨toInt_asI64_asUsize hp.1, hp.1⟩
  | dict p => exact ⟨rfl, Int.le_refl _⟩

theorem addI64_toInt (ck : Bool) {a b : I64} (h : -(2 ^ 63) ≤ a.toInt + b.toInt)
    (h' : a.toInt + b.toInt < 2 ^ 63) :
    ∃ c, addI64 ck a b = .ok c ∧ c.toInt = a.toInt + b.toInt := by
  refine ⟨a + b, ?_, ?_⟩
  · rw [addI64, if_neg (fun e => e.2 ⟨h, h'⟩)]
  · rw [BitVec.toInt_add, Int.bmod_eq_of_le] <;> omega

theorem bufferLen_toUsize {page : CompressedPage} (hs : SizesOk page) :
    toUsize (headerOf page).compressedPageSize = .ok page.buffer.length := by
  have h := toUsize_ofNat hs.2.1
  cases page with
  | data p => cases hh : p.header <;> simp only [headerOf, hh] <;> exact h
  | dict p => exact h

/-- Values still to come. -/
def valuesSum (pages : List CompressedPage) : Int := (pages.map valuesOf).sum

theorem valuesSum_cons (p : CompressedPage) (ps : List CompressedPage) :
    valuesSum (p :: ps) = valuesOf p + valuesSum ps := by simp [valuesSum]

theorem valuesSum_nonneg {c : Compression} {d : Descriptor} {ps : List CompressedPage}
    (h : ∀ p ∈ ps, PageOk c d p) : 0 ≤ valuesSum ps := by
  induction ps with
  | nil => simp [valuesSum]
  | cons p ps ih =>
    rw [valuesSum_cons]
    have h1 := (headerValues_toInt (h p List.mem_cons_self)).2
    have h2 := ih fun q hq => h q (List.mem_cons_of_mem _ hq)
    omega

theorem valuesSum_pos {c : Compression} {d : Descriptor} {ps : List CompressedPage}
    (h : ∀ p ∈ ps, PageOk c d p) (hne : ps ≠ []) (hl : ∀ p, ps.getLast? = some p → 0 < valuesOf p) :
    0 < valuesSum ps := by
  induction ps with
  | nil => exact absurd rfl hne
  | cons p ps ih =>
    rw [valuesSum_cons]
    have h1 := (headerValues_toInt (h p List.mem_cons_self)).2
    have h2 := valuesSum_nonneg fun q hq => h q (List.mem_cons_of_mem p hq)
    cases ps with
    | nil => have := hl p rfl; omega
    | cons q qs =>
      have h3 := ih (fun q hq => h q (List.mem_cons_of_mem p hq)) (by simp)
        (fun r hr => hl r (by simpa [List.getLast?_cons_cons] using hr))
      omega

/-- The reader is before `pages`, followed by `rest`. -/
structure Before (codec : Codec Thrift.PageHeader) (limit : Thrift.PageHeader → Nat)
    (c : Compression) (d : Descriptor) (filter : PageFilter) (max : Nat) (rest : List Byte)
    (r : PageReader) (pages : List CompressedPage) : Prop where
  reader : r.reader = (pages.map (pageBytes codec)).flatten ++ rest
  compression : r.compression = c
  descriptor : r.descriptor = d
  filter : r.pagesFilter = filter
  maxSize : r.maxPageSize = max
  seen : 0 ≤ r.seenNumValues.toInt
  total : r.seenNumValues.toInt + valuesSum pages = r.totalNumValues.toInt
  ok : ∀ p ∈ pages, PageOk c d p ∧ SizesOk p ∧ p.buffer.length ≤ max ∧ limit (headerOf p) ≤ max
  last : ∀ p, pages.getLast? = some p → 0 < valuesOf p

variable {codec : Codec Thrift.PageHeader} {limit : Thrift.PageHeader → Nat} {c : Compression}
  {d : Descriptor} {filter : PageFilter} {max : Nat} {rest : List Byte} {r : PageReader}

theorem Before.buildPage (hl : LawfulCodec codec limit) (ck : Bool) {page : CompressedPage}
    {pages : List CompressedPage} (h : Before codec limit c d filter max rest r (page :: pages)) :
    ∃ r', buildPage codec ck r = (.ok (readBack page), r') ∧ r'.scratch = r.scratch ∧
      Before codec limit c d filter max rest r' pages := by
  obtain ⟨hp, hs, hb, hlim⟩ := h.ok page List.mem_cons_self
  have hread : r.reader = codec.ser (headerOf page) ++
      (page.buffer ++ ((pages.map (pageBytes codec)).flatten ++ rest)) := by
    rw [h.reader]; simp [pageBytes, List.append_assoc]
  have hparse := hl.roundtrip (headerOf page)
    (page.buffer ++ ((pages.map (pageBytes codec)).flatten ++ rest)) r.maxPageSize
    (by rw [h.maxSize]; exact hlim)
  have hv := headerValues_toInt hp
  have hpos := valuesSum_nonneg (c := c) (d := d) (ps := pages)
    fun q hq => (h.ok q (List.mem_cons_of_mem _ hq)).1
  have htot := h.total
  rw [valuesSum_cons] at htot
  have hlt := r.totalNumValues.toInt_lt
  have hseen := h.seen
  obtain ⟨s, hs1, hs2⟩ := addI64_toInt ck (a := r.seenNumValues)
    (b := headerValues (dataHeaderOf page))
    (by rw [hv.1]; omega) (by rw [hv.1]; omega)
  refine ⟨{ r with
    reader := (pages.map (pageBytes codec)).flatten ++ rest
    seenNumValues := s
    reserved := page.buffer.length :: r.reserved }, ?_, ?_, ?_⟩
  · rw [Pq.buildPage, hread, hparse]
    simp only [getPageHeader_headerOf hp, hs1, bufferLen_toUsize hs]
    rw [if_neg (by rw [h.maxSize]; omega)]
    simp only [List.take_left, List.drop_left, ne_eq, not_true_eq_false, if_false]
    rw [h.compression, h.descriptor, finishPage_headerOf hs hp]
  · rfl
  · refine ⟨rfl, h.compression, h.descriptor, h.filter, h.maxSize, ?_, ?_, ?_, ?_⟩
    · simp only; rw [hs2, hv.1]; omega
    · simp only; rw [hs2, hv.1]; omega
    · exact fun q hq => h.ok q (List.mem_cons_of_mem _ hq)
    · intro q hq
      refine h.last q ?_
      cases pages with
      | nil => simp at hq
      | cons a as => simpa [List.getLast?_cons_cons] using hq

theorem Before.scratch {pages : List CompressedPage} (b : List Byte)
    (h : Before codec limit c d filter max rest r pages) :
    Before codec limit c d filter max rest { r with scratch := b } pages :=
  ⟨h.reader, h.compression, h.descriptor, h.filter, h.maxSize, h.seen, h.total, h.ok, h.last⟩

theorem Before.nextPage_cons (hl : LawfulCodec codec limit) (ck : Bool) {page : CompressedPage}
    {pages : List CompressedPage} (h : Before codec limit c d filter max rest r (page :: pages)) :
    ∃ r', nextPage codec ck r = (some (.ok (readBack page)), r') ∧ r'.scratch = r.scratch ∧
      Before codec limit c d filter max rest r' pages := by
  obtain ⟨r', h1, h2, h3⟩ := h.buildPage hl ck
  refine ⟨r', ?_, h2, h3⟩
  have hpos := valuesSum_pos (c := c) (d := d) (ps := page :: pages) (fun q hq => (h.ok q hq).1)
    (by simp) h.last
  have := h.total
  rw [nextPage, if_neg (by omega), h1]

theorem Before.nextPage_nil (ck : Bool) (h : Before codec limit c d filter max rest r []) :
    nextPage codec ck r = (none, r) := by
  have := h.total
  simp only [valuesSum, List.map_nil, List.sum_nil] at this
  rw [nextPage, if_pos (by omega)]

theorem wants_readBack (h : r.pagesFilter = filter) (h' : r.descriptor = d) (page : CompressedPage) :
    r.wants (.ok (readBack page)) = passes filter d page := by
  cases page with
  | data p => simp [readBack, PageReader.wants, passes, h, h']
  | dict p => rfl

/-- `next` in a chunk that was written. -/
theorem Before.nextFuel (hl : LawfulCodec codec limit) (ck : Bool) (fuel : Nat)
    (pages : List CompressedPage) (hf : pages.length < fuel)
    (h : Before codec limit c d filter max rest r pages) :
    (pages.filter (passes filter d) = [] ∧ ∃ b,
      (PageReader.nextFuel codec ck fuel r).1 = none ∧
      (PageReader.nextFuel codec ck fuel r).2.scratch = b ∧ (pages = [] → b = r.scratch) ∧
      Before codec limit c d filter max rest (PageReader.nextFuel codec ck fuel r).2 []) ∨
    (∃ p ps, pages.filter (passes filter d) = p :: ps.filter (passes filter d) ∧
      (PageReader.nextFuel codec ck fuel r).1 = some (.ok (readBack p)) ∧
      Before codec limit c d filter max rest (PageReader.nextFuel codec ck fuel r).2 ps) := by
  induction fuel generalizing r pages with
  | zero => omega
  | succ fuel ih =>
    cases pages with
    | nil =>
      left
      have h0 := (h.scratch []).nextPage_nil ck
      refine ⟨rfl, r.scratch, ?_⟩
      rw [PageReader.nextFuel]
      simp only [h0]
      exact ⟨trivial, trivial, fun _ => trivial, h.scratch _⟩
    | cons page pages =>
      obtain ⟨r', h1, -, h3⟩ := (h.scratch []).nextPage_cons hl ck
      rw [PageReader.nextFuel]
      simp only [h1]
      rw [wants_readBack h3.filter h3.descriptor]
      by_cases hw : passes filter d page
      · right
        refine ⟨page, pages, by simp [hw], ?_⟩
        rw [if_pos hw]
        exact ⟨rfl, h3⟩
      · rw [if_neg hw]
        simp only [List.length_cons] at hf
        have := ih pages (by omega) (h3.scratch [])
        simp only [List.filter_cons, hw, Bool.false_eq_true, if_false]
        rcases this with ⟨e, b, h4, h5, h6, h7⟩ | h
        · exact Or.inl ⟨e, b, h4, h5, fun e => by simp at e, h7⟩
        · exact Or.inr h

theorem length_le_pageBytes (hs : SaneCodec codec) (hl : LawfulCodec codec limit)
    (pages : List CompressedPage) :
    pages.length ≤ ((pages.map (pageBytes codec)).flatten).length := by
  induction pages with
  | nil => simp
  | cons p ps ih =>
    have h1 := hl.roundtrip (headerOf p) [] (limit (headerOf p)) (Nat.le_refl _)
    have h2 := hs.progress (limit (headerOf p)) (codec.ser (headerOf p) ++ []) (headerOf p) (by rw [h1])
    rw [h1] at h2
    simp only [List.map_cons, List.flatten_cons, List.length_append, List.length_cons, pageBytes]
    simp only [List.append_nil, List.length_nil] at h2
    omega

theorem Before.next (hl : LawfulCodec codec limit) (hs : SaneCodec codec) (ck : Bool)
    (pages : List CompressedPage) (h : Before codec limit c d filter max rest r pages) :
    (pages.filter (passes filter d) = [] ∧
      (PageReader.next codec ck r).1 = none ∧
      Before codec limit c d filter max rest (PageReader.next codec ck r).2 []) ∨
    (∃ p ps, pages.filter (passes filter d) = p :: ps.filter (passes filter d) ∧
      (PageReader.next codec ck r).1 = some (.ok (readBack p)) ∧
      Before codec limit c d filter max rest (PageReader.next codec ck r).2 ps) := by
  have hlen := length_le_pageBytes hs hl pages
  have := h.nextFuel hl ck (r.reader.length + 2) pages (by
    rw [h.reader, List.length_append]; omega)
  rcases this with ⟨e, b, h4, h5, h6, h7⟩ | h
  · exact Or.inl ⟨e, h4, h7⟩
  · exact Or.inr h

/-- What the reader delivers of a written chunk. -/
theorem Before.pulls (hl : LawfulCodec codec limit) (hs : SaneCodec codec) (ck : Bool)
    (xs : List CompressedPage) (pages : List CompressedPage)
    (hx : pages.filter (passes filter d) = xs)
    (h : Before codec limit c d filter max rest r pages) :
    ∃ t, Pulls (PageReader.next codec ck) r (xs.map fun p => .ok (readBack p)) t ∧
      Before codec limit c d filter max rest t [] := by
  induction xs generalizing r pages with
  | nil =>
    rcases h.next hl hs ck pages with ⟨-, h1, h2⟩ | ⟨p, ps, h1, -⟩
    · exact ⟨_, .done (Prod.ext h1 rfl), h2⟩
    · rw [hx] at h1; cases h1
  | cons x xs ih =>
    rcases h.next hl hs ck pages with ⟨h1, -⟩ | ⟨p, ps, h1, h2, h3⟩
    · rw [hx] at h1; cases h1
    · rw [hx] at h1
      injection h1 with h1 h4
      obtain ⟨t, h5, h6⟩ := ih ps h4.symm h3
      exact ⟨t, .item (Prod.ext (by rw [h2, h1]) rfl) h5, h6⟩

theorem Before.next_nil (ck : Bool) (h : Before codec limit c d filter max rest r []) :
    PageReader.next codec ck r = (none, r) := by
  rw [PageReader.next, PageReader.nextFuel]
  simp only [(h.scratch []).nextPage_nil ck]

/-- The reader as an iterator for the decompressor. -/
theorem Before.serves (hl : LawfulCodec codec limit) (hs : SaneCodec codec) (ck : Bool)
    (c : Compression) (d : Descriptor) (filter : PageFilter) (max : Nat) (rest : List Byte) :
    Serves (PageReader.iter codec ck) (fun r xs => ∃ pages,
      Before codec limit c d filter max rest r pages ∧
      xs = (pages.filter (passes filter d)).map fun p => .ok (readBack p)) where
  nil := by
    rintro r ⟨pages, h, hx⟩
    rcases h.next hl hs ck pages with ⟨-, h1, h2⟩ | ⟨p, ps, h1, -⟩
    · exact ⟨_, Prod.ext h1 rfl, [], h2, rfl⟩
    · rw [h1] at hx; simp at hx
  cons := by
    rintro r x xs ⟨pages, h, hx⟩
    rcases h.next hl hs ck pages with ⟨h1, -⟩ | ⟨p, ps, h1, h2, h3⟩
    · rw [h1] at hx; simp at hx
    · rw [h1] at hx
      simp only [List.map_cons, List.cons.injEq] at hx
      exact ⟨_, Prod.ext (by rw [hx.1]; exact h2) rfl, ps, h3, hx.2⟩
  swap := by
    rintro r xs b ⟨pages, h, hx⟩
    exact ⟨pages, h.scratch _, hx⟩

end Pq
