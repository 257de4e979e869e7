import Verif.Lemmas.ClientWrite
import Verif.Spec.WholeFile
import Verif.Props.Compression
import Verif.Props.PageIO
/-
From column chunks to arrays.
-/
namespace Pq.Client
open Pq.Spec Pq.Deser

/-- What `collect` makes of a list of pages. -/
def collectPages (ck : Bool) (t : PhysicalType) : Option Dict → List Page → Res (List Array)
  | _, [] => .ok []
  | dict, .data page :: pages => do
    let array ← pageToArray ck page dict
    let rest ← collectPages ck t dict pages
    .ok (array :: rest)
  | _, .dict page :: pages => do
    let dict ← deserializeDict page t
    collectPages ck t (some dict) pages

theorem collect_observe {σ : Type} (ck : Bool) (advance : Nat → σ → Res Unit × σ) (get : σ → Option Page)
    (t : PhysicalType) (pages : List Page) (k : Nat) (s : σ) (dict : Option Dict)
    (h : observe advance get (pages.length + 1) k s = pages.map (fun p => .ok (some p)) ++ [.ok none]) :
    collect ck advance get t (pages.length + 1) k s dict = collectPages ck t dict pages := by
  induction pages generalizing k s dict with
  | nil =>
    simp only [List.length_nil, Nat.zero_add, observe, List.map_nil, List.nil_append, List.cons.injEq, and_true] at h
    rw [List.length_nil, Nat.zero_add, collect]
    generalize advance k s = r at h
    obtain ⟨a, s'⟩ := r
    cases a with
    | ok u => simp only [Res.map', Res.ok.injEq] at h; simp only [h, collectPages]
    | err e => simp [Res.map'] at h
    | panic => simp [Res.map'] at h
  | cons p pages ih =>
    rw [List.length_cons, observe] at h
    simp only [List.map_cons, List.cons_append, List.cons.injEq] at h
    rw [List.length_cons, collect]
    generalize advance k s = r at h
    obtain ⟨a, s'⟩ := r
    obtain ⟨h1, h2⟩ := h
    cases a with
    | ok u =>
      simp only [Res.map', Res.ok.injEq] at h1
      have := fun d => ih (k + 1) s' d h2
      cases p with
      | data p => simp only [h1, this, collectPages]
      | dict p => simp only [h1, this, collectPages]
    | err e => simp [Res.map'] at h1
    | panic => simp [Res.map'] at h1

/-- A column chunk that is read back gives what the pages give. -/
theorem column_collect {codec : Codec Thrift.PageHeader} {limit : Thrift.PageHeader → Nat} {file : List Byte}
    {c : ColumnDescriptor × List CompressedPage} {chunk : ColumnChunkMetaData}
    (h : ColumnReads codec limit file c chunk) (cs : Codecs) (hcs : Lawful cs) (ck : Bool)
    (opts : CompressionOptions) (pages : List Page)
    (hc : pages.map (fun p => compressPage cs ck p [] opts) = c.2.map .ok)
    (hv2 : opts ≠ .uncompressed → ∀ page ∈ pages,
      ∀ p hd, page = .data p → p.header = .v2 hd → hd.isCompressed ≠ some false)
    (t : PhysicalType) (scratch buffer : List Byte) (max : Nat) (caps : Nat → Nat)
    (hmax : ∀ p ∈ c.2, p.buffer.length ≤ max ∧ limit (headerOf p) ≤ max) :
    ∃ reader, getPageIterator chunk file none scratch max = .ok reader ∧
      collect ck (fun k => Decompressor.advance cs ck (PageReader.iter codec ck) (caps k)) (·.current) t
        (c.2.length + 1) 0 (Decompressor.new reader buffer) none =
        collectPages ck t none (pages.map Props.forget) := by
  obtain ⟨reader, R, h1, h2, h3⟩ := h.swapped ck none scratch max hmax
  refine ⟨reader, h1, ?_⟩
  have hfil : c.2.filter (passes (fun _ _ => true) c.1.descriptor) = c.2 := by
    rw [List.filter_eq_self]
    intro p _
    cases p <;> rfl
  have hlen : pages.length = c.2.length := by
    have := congrArg List.length hc
    simpa using this
  have hc' : (pages.map Props.forget).map (fun p => compressPage cs ck p [] opts)
      = (c.2.map readBack).map .ok := by
    generalize c.2 = cps at hc
    clear hv2 hmax h1 h2 h3 hfil hlen
    induction pages generalizing cps with
    | nil => cases cps <;> simp at hc ⊢
    | cons p ps ih =>
      cases cps with
      | nil => simp at hc
      | cons q qs =>
        simp only [List.map_cons, List.cons.injEq] at hc ⊢
        exact ⟨Props.compressPage_forget cs ck p opts q hc.1, ih _ hc.2⟩
  have key := Props.C34_pipeline cs hcs ck (PageReader.iter codec ck) R h2 reader opts (pages.map Props.forget)
    (c.2.map readBack) hc' (by
      intro ho page hp p hd e1 e2
      obtain ⟨q, hq, rfl⟩ := List.mem_map.1 hp
      cases q with
      | data q =>
        injection e1 with e1
        exact hv2 ho _ hq q hd rfl (by rw [← e1] at e2; exact e2)
      | dict q => cases e1)
    (by rw [Option.getD_none, hfil] at h3; rw [List.map_map]; exact h3) caps buffer
  rw [← collect_observe ck _ _ t (pages.map Props.forget) 0 (Decompressor.new reader buffer) none (by
    rw [List.length_map, hlen]; rw [List.length_map] at key; exact key), List.length_map, hlen]


theorem forall₂_right {α β : Type} {R : α → β → Prop} {xs : List α} {ys : List β} (h : List.Forall₂ R xs ys)
    {y : β} (hy : y ∈ ys) : ∃ x ∈ xs, R x y := by
  induction h with
  | nil => cases hy
  | @cons a b as bs hab _ ih =>
    rcases List.mem_cons.1 hy with rfl | hy
    · exact ⟨a, by simp, hab⟩
    · obtain ⟨x, hx, h⟩ := ih hy
      exact ⟨x, by simp [hx], h⟩

theorem forall₂_getLast {α β : Type} {R : α → β → Prop} {xs : List α} {ys : List β} (h : List.Forall₂ R xs ys)
    {y : β} (hy : ys.getLast? = some y) : ∃ x, xs.getLast? = some x ∧ R x y := by
  induction h with
  | nil => simp at hy
  | @cons a b as bs hab hr ih =>
    cases hr with
    | nil => simp at hy; subst hy; exact ⟨a, rfl, hab⟩
    | @cons a' b' as bs h1 h2 =>
      rw [List.getLast?_cons_cons] at hy
      obtain ⟨x, hx, h⟩ := ih hy
      exact ⟨x, by rw [List.getLast?_cons_cons, hx], h⟩

/-- A page of an array, compressed. -/
theorem pageOf_shape {cs : Codecs} {ck : Bool} {options : WriteOptions} {opts : CompressionOptions}
    {d : Descriptor} {array : Array} {cp : CompressedPage} (hf : FlatOptional d)
    (h : PageOf cs ck options opts d array cp) :
    ∃ s lv vals buf, compressPage cs ck (.data (v1Page array.len s lv vals d)) [] opts = .ok cp ∧
      cp = .data { header := (v1Page array.len s lv vals d).header, buffer := buf, compression := opts.codec
                   uncompressedPageSize := (v1Page array.len s lv vals d).buffer.length, descriptor := d
                   selectedRows := some [⟨0, array.len⟩] } ∧
      ∀ ck, pageToArray ck { v1Page array.len s lv vals d with selectedRows := none } none = .ok array := by
  obtain ⟨ht, hn, page, h1, h2, h3⟩ := h
  obtain ⟨s, lv, vals, rfl, h4, h5, -, h6⟩ := arrayToPage_ok array options d page h1 hf hn h2
  obtain ⟨cd, hcd, hcp⟩ := map'_ok _ _ _ h3
  have hcd' := hcd
  unfold compressData at hcd'
  refine ⟨s, lv, vals, cd.buffer, h3, ?_, fun ck => ?_⟩
  · rw [← hcp]
    by_cases ho : opts ≠ .uncompressed
    · rw [if_pos ho] at hcd'
      simp only [v1Page] at hcd'
      obtain ⟨b, h7, h8⟩ := Res.bind_eq_ok.1 hcd'
      injection h8 with h8
      rw [← h8]
      rfl
    · rw [if_neg ho] at hcd'
      simp only [Res.ok_bind, Res.ok.injEq] at hcd'
      rw [← hcd']
      rfl
  · exact array_vec ck _ none array vals ht (by intro d hd; cases hd) rfl rfl h4 (h6 none)

theorem v1Page_numValues (n : Nat) (h : n < 2 ^ 31) : (BitVec.ofNat 32 n).toInt = n := by
  rw [BitVec.toInt_eq_toNat_of_lt (by rw [BitVec.toNat_ofNat]; omega), BitVec.toNat_ofNat]
  omega

theorem columnOf_readable {cs : Codecs} {ck : Bool} {options : WriteOptions} {arrays : List Array}
    {c : ColumnDescriptor × List CompressedPage} (h : ColumnOf cs ck options arrays c) : Readable c := by
  obtain ⟨opts, hp⟩ := h.pages
  obtain ⟨d, cps⟩ := c
  have key : ∀ a cp, PageOf cs ck options opts d.descriptor a cp →
      PageOk cp.compression d.descriptor cp ∧ valuesOf cp = a.len := by
    intro a cp hp
    have hn := hp.2.1
    obtain ⟨s, lv, vals, buf, -, rfl, -⟩ := pageOf_shape h.flat hp
    have := v1Page_numValues a.len hn
    refine ⟨⟨rfl, rfl, ?_⟩, ?_⟩
    · simp only [v1Page]
      exact ⟨by omega, by unfold knownEncoding; decide, by unfold knownEncoding; decide, by unfold knownEncoding; decide⟩
    · simp only [valuesOf, v1Page]
      exact this
  constructor
  · intro p hp'
    obtain ⟨a, -, ha⟩ := forall₂_right hp hp'
    exact (key a p ha).1
  · intro p hp'
    have hl := h.last
    dsimp only at hp hp'
    obtain ⟨a, ha, hap⟩ := forall₂_getLast hp hp'
    rw [(key a p hap).2]
    have := hl a ha
    omega

theorem columnOf_rows {cs : Codecs} {ck : Bool} {options : WriteOptions} {arrays : List Array}
    {c : ColumnDescriptor × List CompressedPage} (h : ColumnOf cs ck options arrays c) :
    RowsKnown c.2 ∧ chunkRows c.2 = (arrays.map Array.len).sum := by
  obtain ⟨opts, hp⟩ := h.pages
  have hf := h.flat
  obtain ⟨d, cps⟩ := c
  dsimp only at hp hf ⊢
  clear h
  induction hp with
  | nil => exact ⟨fun p hp => (List.not_mem_nil hp).elim, rfl⟩
  | @cons a cp as cps hp hr ih =>
    obtain ⟨s, lv, vals, buf, -, rfl, -⟩ := pageOf_shape hf hp
    refine ⟨fun p hp => ?_, ?_⟩
    · rcases List.mem_cons.1 hp with rfl | hp
      · intro _; rfl
      · exact ih.1 p hp
    · have := ih.2
      unfold chunkRows at this ⊢
      rw [List.filter_cons_of_pos rfl, List.map_cons, List.sum_cons, this]
      rfl

theorem columnOf_gives {codec : Codec Thrift.PageHeader} {limit : Thrift.PageHeader → Nat} {file : List Byte}
    {cs : Codecs} {ck : Bool} {options : WriteOptions} {arrays : List Array}
    {c : ColumnDescriptor × List CompressedPage} {chunk : ColumnChunkMetaData} (hcs : Lawful cs)
    (h : ColumnOf cs ck options arrays c) (hr : ColumnReads codec limit file c chunk) :
    ChunkGives codec limit cs ck file arrays c.2 chunk := by
  obtain ⟨opts, hp⟩ := h.pages
  have hpages : ∃ pages : List Page, pages.map (fun p => compressPage cs ck p [] opts) = c.2.map .ok ∧
      (∀ page ∈ pages, ∃ p hd, page = .data p ∧ p.header = .v1 hd) ∧
      ∀ t, collectPages ck t none (pages.map Props.forget) = .ok arrays := by
    have hf := h.flat
    clear h hr
    generalize c.2 = cps at hp
    induction hp with
    | nil => exact ⟨[], rfl, by simp, fun t => rfl⟩
    | @cons a cp as cps hp hr ih =>
      obtain ⟨s, lv, vals, buf, h1, -, h2⟩ := pageOf_shape hf hp
      obtain ⟨pages, h3, h4, h5⟩ := ih
      refine ⟨.data (v1Page a.len s lv vals c.1.descriptor) :: pages, ?_, ?_, fun t => ?_⟩
      · simp only [List.map_cons, h1, h3]
      · intro page hpage
        rcases List.mem_cons.1 hpage with rfl | hpage
        · exact ⟨_, _, rfl, rfl⟩
        · exact h4 page hpage
      · simp only [List.map_cons, Props.forget, collectPages, h2, h5, Res.ok_bind]
  obtain ⟨pages, h1, h2, h3⟩ := hpages
  intro scratch buffer max caps hmax
  obtain ⟨reader, h4, h5⟩ := column_collect hr cs hcs ck opts pages h1 (by
    intro _ page hp p hd e1 e2
    obtain ⟨p', hd', e3, e4⟩ := h2 page hp
    rw [e1] at e3
    injection e3 with e3
    rw [e3, e4] at e2
    cases e2) chunk.columnDescr.descriptor.primitiveType.physicalType scratch buffer max caps hmax
  exact ⟨reader, h4, by rw [h5, h3]⟩

end Pq.Client
