import Verif.Lemmas.ClientFile
import Verif.Lemmas.FileMetadata
import Verif.Spec.ClientRead
import Verif.Props.BasicDecompressor
import Verif.Props.HybridRle
/-
Lemmas for C94: from the columns of a field to its array.
-/
namespace Pq.Client
open Pq.Spec Pq.Deser

/-- What the loop over the pages of a column makes of a list of pages. -/
def readAll (ck : Bool) (t : PhysicalType) (filled : Bool) : Option Dict → Reading → List Page → Res Reading
  | _, r, [] => .ok r
  | dict, r, .data page :: pages => do
    let r ← r.push ck filled page dict
    readAll ck t filled dict r pages
  | _, r, .dict page :: pages => do
    let dict ← deserializeDict page t
    readAll ck t filled (some dict) r pages

theorem readPages_observe {σ : Type} (ck : Bool) (advance : Nat → σ → Res Unit × σ) (get : σ → Option Page)
    (t : PhysicalType) (filled : Bool) (pages : List Page) (k fuel : Nat) (s : σ) (dict : Option Dict) (r out : Reading)
    (h : observe advance get (pages.length + 1) k s = pages.map (fun p => .ok (some p)) ++ [.ok none])
    (hf : pages.length < fuel) (ho : readAll ck t filled dict r pages = .ok out) :
    ∃ s', readPages ck advance get t filled fuel k s dict r = .ok (out, s') := by
  induction pages generalizing k s dict r fuel with
  | nil =>
    obtain ⟨fuel, rfl⟩ : ∃ f, fuel = f + 1 := ⟨fuel - 1, by simp at hf; omega⟩
    simp only [List.length_nil, Nat.zero_add, observe, List.map_nil, List.nil_append, List.cons.injEq, and_true] at h
    rw [readPages]
    generalize advance k s = q at h
    obtain ⟨a, s'⟩ := q
    simp only [readAll, Res.ok.injEq] at ho
    cases a with
    | ok u => simp only [Res.map', Res.ok.injEq] at h; simp only [h, ho]; exact ⟨s', rfl⟩
    | err e => simp [Res.map'] at h
    | panic => simp [Res.map'] at h
  | cons p pages ih =>
    obtain ⟨fuel, rfl⟩ : ∃ f, fuel = f + 1 := ⟨fuel - 1, by simp at hf; omega⟩
    rw [List.length_cons, observe] at h
    simp only [List.map_cons, List.cons_append, List.cons.injEq] at h
    rw [readPages]
    generalize advance k s = q at h
    obtain ⟨a, s'⟩ := q
    obtain ⟨h1, h2⟩ := h
    simp only [List.length_cons, Nat.add_lt_add_iff_right] at hf
    cases a with
    | ok u =>
      simp only [Res.map', Res.ok.injEq] at h1
      cases p with
      | data p =>
        rw [readAll, Res.bind_eq_ok] at ho
        obtain ⟨r', h3, h4⟩ := ho
        simp only [h1, h3, Res.ok_bind]
        exact ih (k + 1) fuel s' dict r' h2 hf h4
      | dict p =>
        rw [readAll, Res.bind_eq_ok] at ho
        obtain ⟨d, h3, h4⟩ := ho
        simp only [h1, h3, Res.ok_bind]
        exact ih (k + 1) fuel s' (some d) r h2 hf h4
    | err e => simp [Res.map'] at h1
    | panic => simp [Res.map'] at h1

/-- Which items are there, of a page of one-bit levels that the encoder made. -/
theorem validity_encoded (page : DataPage) (bits : List Bool) (rep lv vals : List Byte) (before : List Bool) (e : Encoding)
    (hd : page.descriptor.maxDefLevel = 1#16) (he : page.definitionLevelEncoding = .ok e)
    (hn : page.numValues = bits.length) (hlen : bits.length < 2 ^ 63)
    (hsplit : splitBuffer page = .ok (rep, lv, vals)) (hlv : Rle.encodeBool bits = .ok lv) :
    extendValidity before page = .ok (before ++ bits) := by
  obtain ⟨h, body, h1, -, -, -, h5, -⟩ := Props.C09_hybrid_bool_roundtrip bits hlen []
  rw [hlv] at h1
  simp only [Res.ok.injEq] at h1
  rw [List.append_nil, ← h1] at h5
  have hne : page.descriptor.maxDefLevel ≠ 0#16 := by rw [hd]; decide
  have hw : getBitWidth page.descriptor.maxDefLevel = 1 := by rw [hd]; decide
  unfold extendValidity
  rw [hsplit]
  simp only [Res.ok_bind]
  rw [if_neg hne, he, hn, hw]
  simp only [Res.ok_bind]
  unfold Rle.decode at h5
  cases ht : Rle.Dec.tryNew lv 1 bits.length with
  | err e => rw [ht] at h5; cases h5
  | panic => rw [ht] at h5; cases h5
  | ok d =>
    rw [ht] at h5
    have hr : d.remaining = bits.length := by
      unfold Rle.Dec.tryNew at ht
      split at ht
      · injection ht with ht
        rw [← ht]
      · cases ht
      · cases ht
    simp only [Res.ok_bind, hr]
    dsimp only at h5
    rw [h5]
    simp only [Res.ok_bind, Res.ok.injEq, List.append_cancel_left_eq, List.map_map]
    conv => rhs; rw [← List.map_id bits]
    apply List.map_congr_left
    intro b _
    cases b <;> rfl

theorem v1Page_split (n : Nat) (s : Option Thrift.Statistics) (lv vals : List Byte) (d : Descriptor)
    (hf : FlatOptional d) (hb : (v1Page n s lv vals d).buffer.length < 2 ^ 32) (rows : Option (List Interval)) :
    splitBuffer { v1Page n s lv vals d with selectedRows := rows } = .ok ([], lv, vals) := by
  have hl : lv.length < 2 ^ 32 := by
    simp only [v1Page, List.length_append] at hb
    omega
  have e1 : decide (0 < d.maxRepLevel.toInt) = false := by rw [hf.repeated]; rfl
  have e2 : decide (0 < d.maxDefLevel.toInt) = true := by rw [hf.definition]; rfl
  change splitBufferV1 (v1Page n s lv vals d).buffer (decide (0 < d.maxRepLevel.toInt))
    (decide (0 < d.maxDefLevel.toInt)) = _
  rw [e1, e2, splitBufferV1_iff]
  refine ⟨leBytes 4 lv.length ++ lv ++ vals, ⟨rfl, ?_⟩, hl, rfl⟩
  simp only [v1Page, toLe_take4 _ hl]

/-- A page of an array, read back. -/
theorem pageOf_push {cs : Codecs} {ck : Bool} {options : WriteOptions} {opts : CompressionOptions}
    {d : Descriptor} {array : Array} {cp : CompressedPage} (hf : FlatOptional d)
    (h : PageOf cs ck options opts d array cp) :
    ∃ p hd, compressPage cs ck (.data p) [] opts = .ok cp ∧ p.header = .v1 hd ∧ ∀ filled r,
      Reading.push ck filled r { p with selectedRows := none } none =
        .ok { validity := if filled then r.validity else r.validity ++ arrayBits array
              arrays := r.arrays ++ [.flat array] } := by
  obtain ⟨ht, hn, page, h1, h2, h3⟩ := h
  obtain ⟨s, lv, vals, rfl, h4, h5, h6, h7⟩ := arrayToPage_ok array options d page h1 hf hn h2
  refine ⟨v1Page array.len s lv vals d, _, h3, rfl, fun filled r => ?_⟩
  have ha : pageToAny ck { v1Page array.len s lv vals d with selectedRows := none } none = .ok (.flat array) := by
    have hr : (v1Page array.len s lv vals d).descriptor.maxRepLevel = 0#16 := hf.repeated
    unfold pageToAny
    rw [if_pos hr, array_vec ck _ none array vals ht (by intro d hd; cases hd) rfl rfl h4 (h7 none)]
    rfl
  have hv : extendValidity r.validity { v1Page array.len s lv vals d with selectedRows := none } =
      .ok (r.validity ++ arrayBits array) := by
    refine validity_encoded _ _ [] lv vals _ .rle hf.definition rfl ?_ (by omega)
      (v1Page_split _ s lv vals d hf h2 none) h6
    have hi := v1Page_numValues array.len hn
    have := asUsize_nonneg (by omega) (BitVec.ofNat 32 array.len) (by omega)
    simp only [DataPage.numValues, v1Page, DataPageHeader.numValues]
    omega
  unfold Reading.push
  cases filled with
  | true => simp only [if_true, Res.ok_bind, ha]
  | false => simp only [Bool.false_eq_true, if_false, hv, Res.ok_bind, ha]

/-- What is read after these arrays. -/
def Reading.add (filled : Bool) (r : Reading) (arrays : List Array) : Reading :=
  { validity := if filled then r.validity else r.validity ++ arrays.flatMap arrayBits
    arrays := r.arrays ++ arrays.map .flat }

/-- A column of arrays that is read back, as `columns_to_array` does. -/
theorem columnOf_read {codec : Codec Thrift.PageHeader} {limit : Thrift.PageHeader → Nat} {file : List Byte}
    {cs : Codecs} {ck : Bool} {options : WriteOptions} {arrays : List Array}
    {c : ColumnDescriptor × List CompressedPage} {chunk : ColumnChunkMetaData} (hcs : Lawful cs)
    (h : ColumnOf cs ck options arrays c) (hr : ColumnReads codec limit file c chunk) (scratch : List Byte) (max : Nat)
    (hmax : ∀ p ∈ c.2, p.buffer.length ≤ max ∧ limit (headerOf p) ≤ max) (reader : PageReader)
    (hi : getPageIterator chunk file none scratch max = .ok reader) (t : PhysicalType)
    (buffers : Nat → Nat × List Byte) (filled : Bool) (r : Reading) (fuel : Nat) (hfuel : c.2.length < fuel) :
    ∃ s, readPages ck (fun k => BasicDecompressor.advance cs ck (PageReader.next codec ck) (buffers k)) (·.current) t
      filled fuel 0 (BasicDecompressor.new reader) none r = .ok (r.add filled arrays, s) := by
  obtain ⟨opts, hp⟩ := h.pages
  have hpages : ∃ pages : List Page, pages.map (fun p => compressPage cs ck p [] opts) = c.2.map .ok ∧
      (∀ page ∈ pages, ∃ p hd, page = .data p ∧ p.header = .v1 hd) ∧
      ∀ r, readAll ck t filled none r (pages.map Props.forget) = .ok (r.add filled arrays) := by
    have hf := h.flat
    clear h hr hmax hfuel
    generalize c.2 = cps at hp
    induction hp with
    | nil =>
      refine ⟨[], rfl, by simp, fun r => ?_⟩
      simp [readAll, Reading.add]
    | @cons a cp as cps hp hr ih =>
      obtain ⟨p, hd, h1, h2, h3⟩ := pageOf_push hf hp
      obtain ⟨pages, h4, h5, h6⟩ := ih
      refine ⟨.data p :: pages, ?_, ?_, fun r => ?_⟩
      · simp only [List.map_cons, h1, h4]
      · intro page hpage
        rcases List.mem_cons.1 hpage with rfl | hpage
        · exact ⟨_, _, rfl, h2⟩
        · exact h5 page hpage
      · simp only [List.map_cons, Props.forget, readAll, h3, h6, Res.ok_bind, Reading.add, Res.ok.injEq,
          List.append_assoc, List.singleton_append, List.flatMap_cons]
        cases filled <;> simp
  obtain ⟨pages, h1, h2, h3⟩ := hpages
  obtain ⟨reader', last, h4, h5⟩ := hr.pages ck none scratch max hmax
  rw [hi] at h4
  injection h4 with h4
  subst h4
  have hfil : c.2.filter (passes (fun _ _ => true) c.1.descriptor) = c.2 := by
    rw [List.filter_eq_self]
    intro p _
    cases p <;> rfl
  have hlen : pages.length = c.2.length := by
    have := congrArg List.length h1
    simpa using this
  have hc' : (pages.map Props.forget).map (fun p => compressPage cs ck p [] opts)
      = (c.2.map readBack).map .ok := by
    generalize c.2 = cps at h1
    clear h2 h3 hmax h5 hfil hlen hi hfuel
    induction pages generalizing cps with
    | nil => cases cps <;> simp at h1 ⊢
    | cons p ps ih =>
      cases cps with
      | nil => simp at h1
      | cons q qs =>
        simp only [List.map_cons, List.cons.injEq] at h1 ⊢
        exact ⟨Props.compressPage_forget cs ck p opts q h1.1, ih _ h1.2⟩
  have key := Props.C34_basic_pipeline cs hcs ck (PageReader.next codec ck) reader last opts (pages.map Props.forget)
    (c.2.map readBack) hc' (by
      intro _ page hp p hd e1 e2
      obtain ⟨q, hq, rfl⟩ := List.mem_map.1 hp
      obtain ⟨p', hd', e3, e4⟩ := h2 q hq
      subst e3
      injection e1 with e1
      rw [← e1] at e2
      exact absurd (e4.symm.trans e2) (by simp))
    (by rw [Option.getD_none, hfil] at h5; rw [List.map_map]; exact h5) buffers
  exact readPages_observe ck _ _ t filled (pages.map Props.forget) 0 fuel _ none r _
    (by rw [List.length_map] at key ⊢; rw [hlen]; exact key) (by rw [List.length_map, hlen]; exact hfuel) (h3 r)

/-- The loop over the columns of a field. -/
theorem readColumns_ok {codec : Codec Thrift.PageHeader} {limit : Thrift.PageHeader → Nat} {file : List Byte}
    {cs : Codecs} {ck : Bool} {options : WriteOptions} (hcs : Lawful cs) (max pages : Nat)
    (buffers : Nat → Nat → Nat × List Byte)
    {arrays : List (List Array)} {columns : List (ColumnDescriptor × List CompressedPage)}
    {chunks : List ColumnChunkMetaData} (h : List.Forall₂ (ColumnOf cs ck options) arrays columns)
    (hr : List.Forall₂ (ColumnReads codec limit file) columns chunks)
    (hmax : ∀ c ∈ columns, ∀ p ∈ c.2, p.buffer.length ≤ max ∧ limit (headerOf p) ≤ max)
    (hpages : ∀ c ∈ columns, c.2.length < pages)
    (it : ColumnIterator)
    (hadv : Advances ColumnIterator.advance
      (fun s c => ∃ reader scratch, s.get = some (reader, c) ∧
        getPageIterator c file none scratch max = .ok reader)
      (fun s t => ∃ r r' c, s.current = some (r, c) ∧ t = { s with current := some (r', c) }) it chunks)
    (fuel k : Nat) (hfuel : chunks.length < fuel) (filled : Bool) (r : Reading) :
    readColumnsLoop codec cs ck buffers pages fuel k filled it r =
      .ok { validity := if filled then r.validity else r.validity ++ (arrays.head?.getD []).flatMap arrayBits
            arrays := r.arrays ++ arrays.flatten.map .flat } := by
  induction h generalizing chunks it fuel k filled r with
  | nil =>
    cases hr
    obtain ⟨fuel, rfl⟩ : ∃ f, fuel = f + 1 := ⟨fuel - 1, by simp at hfuel; omega⟩
    cases hadv with
    | done hd =>
      rw [readColumnsLoop, hd]
      cases filled <;> simp
  | @cons as c arrays columns ha _ ih =>
    cases hr with
    | @cons _ chunk _ chunks hc hr =>
      obtain ⟨fuel, rfl⟩ : ∃ f, fuel = f + 1 := ⟨fuel - 1, by simp at hfuel; omega⟩
      cases hadv with
      | @item _ s' _ _ h1 h2 h3 =>
        obtain ⟨reader, scratch, h4, h5⟩ := h2
        obtain ⟨d, h6⟩ := columnOf_read hcs ha hc scratch max (hmax c (by simp)) reader h5 chunk.physicalType
          (buffers k) filled r pages (hpages c (by simp))
        rw [readColumnsLoop, h1]
        simp only [h4, h6, Res.ok_bind]
        rw [ih hr (fun c hc => hmax c (by simp [hc])) (fun c hc => hpages c (by simp [hc])) _
          (h3 _ ⟨reader, d.iter, chunk, h4, rfl⟩) fuel (k + 1) (by simpa using hfuel) true]
        simp only [Reading.add, if_true, Res.ok.injEq, List.head?_cons, Option.getD_some, List.flatten_cons,
          List.map_append, List.append_assoc]

theorem readAll_filled {ck : Bool} {t : PhysicalType} {dict : Option Dict} {pages : List Page} {arrays : List PageArray}
    (h : PagesRead ck t dict pages arrays) (r : Reading) :
    readAll ck t true dict r pages = .ok { r with arrays := r.arrays ++ arrays } := by
  induction h generalizing r with
  | nil => simp [readAll]
  | data h _ ih => simp [readAll, Reading.push, h, Res.ok_bind, ih]
  | dict h _ ih => simp [readAll, h, Res.ok_bind, ih]

theorem readAll_first {ck : Bool} {t : PhysicalType} {dict : Option Dict} {pages : List Page} {arrays : List PageArray}
    (h : PagesRead ck t dict pages arrays) {bits : List Bool} (hv : PagesValid pages bits) (r : Reading) :
    readAll ck t false dict r pages = .ok { validity := r.validity ++ bits, arrays := r.arrays ++ arrays } := by
  induction h generalizing r bits with
  | nil => cases hv; simp [readAll]
  | data h _ ih =>
    cases hv with
    | data h1 h2 => simp [readAll, Reading.push, h, h1, Res.ok_bind, ih h2]
  | dict h _ ih =>
    cases hv with
    | dict h2 => simp [readAll, h, Res.ok_bind, ih h2]

/-- A column that is read back delivers the pages it was made of. -/
theorem reads_delivers {codec : Codec Thrift.PageHeader} {limit : Thrift.PageHeader → Nat} {file : List Byte}
    {cs : Codecs} {ck : Bool} {c : ColumnDescriptor × List CompressedPage} {chunk : ColumnChunkMetaData}
    (hcs : Lawful cs) (hr : ColumnReads codec limit file c chunk) (max : Nat)
    (hmax : ∀ p ∈ c.2, p.buffer.length ≤ max ∧ limit (headerOf p) ≤ max) {pages : List Page}
    (hm : PagesMade cs ck pages c.2) : ChunkDelivers codec cs ck file max (pages.map Props.forget) chunk := by
  intro scratch
  obtain ⟨opts, h1, h2⟩ := hm
  obtain ⟨reader, last, h4, h5⟩ := hr.pages ck none scratch max hmax
  refine ⟨reader, h4, fun buffers => ?_⟩
  have hfil : c.2.filter (passes (fun _ _ => true) c.1.descriptor) = c.2 := by
    rw [List.filter_eq_self]
    intro p _
    cases p <;> rfl
  have hlen : pages.length = c.2.length := by
    have := congrArg List.length h1
    simpa using this
  have hc' : (pages.map Props.forget).map (fun p => compressPage cs ck p [] opts)
      = (c.2.map readBack).map .ok := by
    generalize c.2 = cps at h1
    clear h2 hmax h5 hfil hlen
    induction pages generalizing cps with
    | nil => cases cps <;> simp at h1 ⊢
    | cons p ps ih =>
      cases cps with
      | nil => simp at h1
      | cons q qs =>
        simp only [List.map_cons, List.cons.injEq] at h1 ⊢
        exact ⟨Props.compressPage_forget cs ck p opts q h1.1, ih _ h1.2⟩
  have key := Props.C34_basic_pipeline cs hcs ck (PageReader.next codec ck) reader last opts (pages.map Props.forget)
    (c.2.map readBack) hc' (by
      intro ho page hp p hd e1 e2
      obtain ⟨q, hq, rfl⟩ := List.mem_map.1 hp
      cases q with
      | dict q => cases e1
      | data q =>
        injection e1 with e1
        subst e1
        exact h2 ho _ hq q hd rfl e2)
    (by rw [Option.getD_none, hfil] at h5; rw [List.map_map]; exact h5) buffers
  rw [List.length_map] at key ⊢
  rw [hlen]
  exact key

/-- One column. -/
theorem chunk_read {codec : Codec Thrift.PageHeader} {cs : Codecs} {ck : Bool} {file : List Byte} {max : Nat}
    {pages : List Page} {chunk : ColumnChunkMetaData} (h : ChunkDelivers codec cs ck file max pages chunk)
    {scratch : List Byte} {reader : PageReader} (hi : getPageIterator chunk file none scratch max = .ok reader)
    (buffers : Nat → Nat × List Byte) (t : PhysicalType) (filled : Bool) (r out : Reading) (fuel : Nat)
    (hf : pages.length < fuel) (ho : readAll ck t filled none r pages = .ok out) :
    ∃ s, readPages ck (fun k => BasicDecompressor.advance cs ck (PageReader.next codec ck) (buffers k)) (·.current) t
      filled fuel 0 (BasicDecompressor.new reader) none r = .ok (out, s) := by
  obtain ⟨reader', h1, h2⟩ := h scratch
  rw [hi] at h1
  injection h1 with h1
  subst h1
  exact readPages_observe ck _ _ t filled pages 0 fuel _ none r _ (h2 buffers) hf ho

/-- The columns after the first one. -/
theorem chunks_read {codec : Codec Thrift.PageHeader} {cs : Codecs} {ck : Bool} {file : List Byte} {max fuel : Nat}
    (buffers : Nat → Nat → Nat × List Byte) {cols : List (List Page × List PageArray)}
    {chunks : List ColumnChunkMetaData}
    (h : List.Forall₂ (fun x chunk => ChunkDelivers codec cs ck file max x.1 chunk ∧
      PagesRead ck chunk.physicalType none x.1 x.2) cols chunks)
    (hf : ∀ x ∈ cols, x.1.length < fuel) (it : ColumnIterator)
    (hadv : Advances ColumnIterator.advance
      (fun s c => ∃ reader scratch, s.get = some (reader, c) ∧
        getPageIterator c file none scratch max = .ok reader)
      (fun s t => ∃ r r' c, s.current = some (r, c) ∧ t = { s with current := some (r', c) }) it chunks)
    (n k : Nat) (hn : chunks.length < n) (r : Reading) :
    readColumnsLoop codec cs ck buffers fuel n k true it r =
      .ok { r with arrays := r.arrays ++ cols.flatMap (·.2) } := by
  induction h generalizing it n k r with
  | nil =>
    obtain ⟨n, rfl⟩ : ∃ f, n = f + 1 := ⟨n - 1, by simp at hn; omega⟩
    cases hadv with
    | done hd => rw [readColumnsLoop, hd]; simp
  | @cons x chunk cols chunks hx _ ih =>
    obtain ⟨n, rfl⟩ : ∃ f, n = f + 1 := ⟨n - 1, by simp at hn; omega⟩
    cases hadv with
    | @item _ s' _ _ h1 h2 h3 =>
      obtain ⟨reader, scratch, h4, h5⟩ := h2
      obtain ⟨d, h6⟩ := chunk_read hx.1 h5 (buffers k) chunk.physicalType true r _ fuel (hf x (by simp))
        (readAll_filled hx.2 r)
      rw [readColumnsLoop, h1]
      simp only [h4, h6, Res.ok_bind]
      rw [ih (fun c hc => hf c (by simp [hc])) _ (h3 _ ⟨reader, d.iter, chunk, h4, rfl⟩) n (k + 1) (by simpa using hn)]
      simp

end Pq.Client
