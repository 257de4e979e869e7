import Verif.Spec.Writer
import Verif.Lemmas.PageIO
import Verif.Lemmas.FileMetadata
import Verif.Lemmas.Statistics2
/-
Lemmas about the writer of column chunks and row groups.
-/
namespace Pq
open Spec

/-! ### Sums -/

theorem addI64_eq {ck : Bool} {a b c : I64} (h : addI64 ck a b = .ok c) : c = a + b := by
  rw [addI64] at h
  split at h
  · cases h
  · injection h with h; exact h.symm

theorem sumI64_eq {ck : Bool} {acc : I64} {xs : List I64} {r : I64} (h : sumI64 ck acc xs = .ok r) :
    r.toInt = (acc.toInt + (xs.map BitVec.toInt).sum).bmod (2 ^ 64) := by
  induction xs generalizing acc with
  | nil =>
    injection h with h
    subst h
    have h1 := BitVec.le_toInt acc
    have h2 := BitVec.toInt_lt (x := acc)
    simp only [List.map_nil, List.sum_nil, Int.add_zero]
    rw [Int.bmod_eq_of_le] <;> omega
  | cons x xs ih =>
    rw [sumI64] at h
    split at h
    · rename_i a ha
      have := ih h
      rw [this, addI64_eq ha, BitVec.toInt_add]
      simp only [List.map_cons, List.sum_cons, Int.bmod_add_bmod, Int.add_assoc]
    · cases h
    · cases h

theorem sumI64_range {ck : Bool} {xs : List I64} {r : I64} {n : Int} (h : sumI64 ck 0 xs = .ok r)
    (hn : (xs.map BitVec.toInt).sum.bmod (2 ^ 64) = n.bmod (2 ^ 64)) (h1 : -(2 ^ 63) ≤ n)
    (h2 : n < 2 ^ 63) : r.toInt = n := by
  rw [sumI64_eq h]
  rw [show (0 : I64).toInt = 0 from rfl, Int.zero_add, hn, Int.bmod_eq_of_le] <;> omega

theorem sumOf_ok {ck : Bool} {f : PageWriteSpec → Res I64} {specs : List PageWriteSpec} {r : I64}
    (h : sumOf ck f specs = .ok r) : ∃ xs, specs.map f = xs.map .ok ∧ sumI64 ck 0 xs = .ok r := by
  rw [sumOf] at h
  obtain ⟨xs, h1, h2⟩ := Res.bind_eq_ok.1 h
  exact ⟨xs, (collectRes_ok_iff _ _).1 h1, h2⟩

/-! ### Specs of pages -/

/-- What the writer remembers of a page. -/
structure SpecOf (codec : Codec Thrift.PageHeader) (off : Nat) (s : PageWriteSpec)
    (p : CompressedPage) : Prop where
  sizes : SizesOk p
  header : s.header = headerOf p
  headerSize : s.headerSize = (codec.ser (headerOf p)).length
  offset : s.offset = off
  bytesWritten : s.bytesWritten = (pageBytes codec p).length
  compression : s.compression = p.compression
  numValues : s.numValues = p.numValues
  statistics : pageStatistics p = .ok s.statistics
  numRows : lastSelected p.selectedRows = .ok s.numRows

/-- The same, of consecutive pages. -/
def Specs (codec : Codec Thrift.PageHeader) : Nat → List PageWriteSpec → List CompressedPage → Prop
  | _, [], [] => True
  | off, s :: ss, p :: ps =>
    SpecOf codec off s p ∧ Specs codec (off + (pageBytes codec p).length) ss ps
  | _, _, _ => False

theorem writePages_specs {codec : Codec Thrift.PageHeader} {off : Nat}
    {items : List (Res CompressedPage)} {specs : List PageWriteSpec} {bytes : List Byte}
    (h : writePages codec off items = (.ok specs, bytes)) :
    ∃ pages : List CompressedPage, items = pages.map .ok ∧ bytes = chunkBytes codec pages ∧
      Specs codec off specs pages := by
  induction items generalizing off specs bytes with
  | nil =>
    simp only [writePages, Prod.mk.injEq, Res.ok.injEq] at h
    obtain ⟨rfl, rfl⟩ := h
    exact ⟨[], rfl, rfl, trivial⟩
  | cons x items ih =>
    cases x with
    | err e => simp [writePages] at h
    | panic => simp [writePages] at h
    | ok page =>
      rw [writePages] at h
      split at h
      · simp at h
      · simp at h
      · rename_i spec b hw
        obtain ⟨h1, rfl, h3, h4, h5, h6, h7, h8, h9, h10⟩ := writePage_ok hw
        generalize hr : writePages codec (off + spec.bytesWritten) items = r at h
        obtain ⟨rs, rb⟩ := r
        simp only [Prod.mk.injEq] at h
        obtain ⟨h, rfl⟩ := h
        obtain ⟨ss, e, rfl⟩ := map'_ok _ _ _ h
        subst e
        obtain ⟨pages, e1, e2, e3⟩ := ih hr
        rw [h6] at e3
        exact ⟨page :: pages, by simp [e1], by simp [e2, chunkBytes],
          ⟨h1, h3, h4, h5, h6, h7, h8, h9, h10⟩, e3⟩

theorem Specs.bytes {codec : Codec Thrift.PageHeader} {off : Nat} {ss : List PageWriteSpec}
    {ps : List CompressedPage} (h : Specs codec off ss ps) :
    (ss.map (·.bytesWritten)).sum = (chunkBytes codec ps).length := by
  induction ss generalizing off ps with
  | nil => cases ps with
    | nil => rfl
    | cons p ps => exact h.elim
  | cons s ss ih => cases ps with
    | nil => exact h.elim
    | cons p ps =>
      have := ih h.2
      simp only [chunkBytes] at this ⊢
      simp [this, h.1.bytesWritten]

theorem Specs.sizes {codec : Codec Thrift.PageHeader} {off : Nat} {ss : List PageWriteSpec}
    {ps : List CompressedPage} (h : Specs codec off ss ps) : ∀ p ∈ ps, SizesOk p := by
  induction ss generalizing off ps with
  | nil => cases ps with
    | nil => simp
    | cons p ps => exact h.elim
  | cons s ss ih => cases ps with
    | nil => exact h.elim
    | cons p ps =>
      intro q hq
      rcases List.mem_cons.1 hq with rfl | hq
      · exact h.1.sizes
      · exact ih h.2 q hq

/-- Anything about single pages. -/
theorem Specs.map_eq {α : Type} {codec : Codec Thrift.PageHeader} {off : Nat}
    {ss : List PageWriteSpec} {ps : List CompressedPage} (h : Specs codec off ss ps)
    (f : PageWriteSpec → α) (g : CompressedPage → α)
    (hfg : ∀ off s p, SpecOf codec off s p → f s = g p) : ss.map f = ps.map g := by
  induction ss generalizing off ps with
  | nil => cases ps with
    | nil => rfl
    | cons p ps => exact h.elim
  | cons s ss ih => cases ps with
    | nil => exact h.elim
    | cons p ps => simp only [List.map_cons, hfg _ _ _ h.1, ih h.2]

theorem Specs.filter {codec : Codec Thrift.PageHeader} {off : Nat}
    {ss : List PageWriteSpec} {ps : List CompressedPage} (h : Specs codec off ss ps)
    {α : Type} (f : PageWriteSpec → α) (g : CompressedPage → α)
    (q : PageWriteSpec → Bool) (r : CompressedPage → Bool)
    (hfg : ∀ off s p, SpecOf codec off s p → q s = r p ∧ f s = g p) :
    (ss.filter q).map f = (ps.filter r).map g := by
  induction ss generalizing off ps with
  | nil => cases ps with
    | nil => rfl
    | cons p ps => exact h.elim
  | cons s ss ih => cases ps with
    | nil => exact h.elim
    | cons p ps =>
      simp only [List.filter_cons, (hfg _ _ _ h.1).1]
      split
      · simp only [List.map_cons, (hfg _ _ _ h.1).2, ih h.2]
      · exact ih h.2

theorem SpecOf.isData {codec : Codec Thrift.PageHeader} {off : Nat} {s : PageWriteSpec}
    {p : CompressedPage} (h : SpecOf codec off s p) : isDataPage s = isData p := by
  rw [isDataPage, h.header]
  cases p with
  | data p => cases hp : p.header <;> simp [headerOf, hp, Spec.isData]
  | dict p => simp [headerOf, Spec.isData]

/-! ### Totals of a column chunk -/

theorem toInt_ofNat32 {n : Nat} (h : n < 2 ^ 31) : (BitVec.ofNat 32 n).toInt = n := by
  rw [BitVec.toInt_eq_toNat_of_lt] <;> rw [BitVec.toNat_ofNat] <;> omega

theorem signExtend64_toInt (x : I32) : (x.signExtend 64).toInt = x.toInt :=
  BitVec.toInt_signExtend_of_le (by omega)

theorem asI64_toInt (n : Nat) : (asI64 n).toInt = (n : Int).bmod (2 ^ 64) := by
  rw [asI64, BitVec.toInt_ofNat']

theorem asI64_toInt_small {n : Nat} (h : n < 2 ^ 63) : (asI64 n).toInt = n := by
  rw [asI64_toInt, Int.bmod_eq_of_le] <;> omega

theorem pageSize_toInt {ck : Bool} {n k : Nat} {x : I64} (hk : k < 2 ^ 31)
    (h : pageSize ck n (BitVec.ofNat 32 k) = .ok x) :
    x.toInt = ((n + k : Nat) : Int).bmod (2 ^ 64) := by
  rw [pageSize] at h
  rw [addI64_eq h, BitVec.toInt_add, asI64_toInt, signExtend64_toInt, toInt_ofNat32 hk,
    Int.bmod_add_bmod]
  simp

theorem headerOf_compressed (p : CompressedPage) :
    (headerOf p).compressedPageSize = BitVec.ofNat 32 p.buffer.length := by
  cases p with
  | data p => cases hp : p.header <;> simp [headerOf, hp, CompressedPage.buffer]
  | dict p => simp [headerOf, CompressedPage.buffer]

theorem headerOf_uncompressed (p : CompressedPage) :
    (headerOf p).uncompressedPageSize = BitVec.ofNat 32 p.uncompressedSize := by
  cases p with
  | data p => cases hp : p.header <;> simp [headerOf, hp, CompressedPage.uncompressedSize]
  | dict p => simp [headerOf, CompressedPage.uncompressedSize]

theorem sum_bmod {α : Type} (f g : α → Int) (xs : List α)
    (h : ∀ x ∈ xs, f x = (g x).bmod (2 ^ 64)) :
    (xs.map f).sum.bmod (2 ^ 64) = (xs.map g).sum.bmod (2 ^ 64) := by
  induction xs with
  | nil => rfl
  | cons x xs ih =>
    simp only [List.map_cons, List.sum_cons]
    rw [h x (by simp), Int.bmod_add_bmod, Int.add_comm, ← Int.bmod_add_bmod,
      ih fun y hy => h y (List.mem_cons_of_mem _ hy), Int.bmod_add_bmod, Int.add_comm]

/-- Generic total over the specs. -/
theorem Specs.total {codec : Codec Thrift.PageHeader} {off : Nat} {ss : List PageWriteSpec}
    {ps : List CompressedPage} (h : Specs codec off ss ps) (f : PageWriteSpec → Res I64)
    (g : CompressedPage → Int)
    (hfg : ∀ off s p x, SpecOf codec off s p → f s = .ok x → x.toInt = (g p).bmod (2 ^ 64))
    {xs : List I64} (hx : ss.map f = xs.map .ok) :
    (xs.map BitVec.toInt).sum.bmod (2 ^ 64) = (ps.map g).sum.bmod (2 ^ 64) := by
  have : xs.map BitVec.toInt = ps.map fun p => (g p).bmod (2 ^ 64) := by
    induction ss generalizing off ps xs with
    | nil => cases ps with
      | nil => cases xs <;> simp at hx ⊢
      | cons p ps => exact h.elim
    | cons s ss ih => cases ps with
      | nil => exact h.elim
      | cons p ps => cases xs with
        | nil => simp at hx
        | cons x xs =>
          simp only [List.map_cons, List.cons.injEq] at hx ⊢
          exact ⟨hfg _ _ _ _ h.1 hx.1, ih h.2 hx.2⟩
  rw [this]
  exact sum_bmod _ _ _ fun _ _ => rfl

theorem specValues_toInt {codec : Codec Thrift.PageHeader} {off : Nat} {s : PageWriteSpec}
    {p : CompressedPage} {x : I64} (h : SpecOf codec off s p) (hx : specValues s = .ok x) :
    x.toInt = valuesOf p := by
  rw [specValues, h.header] at hx
  cases p with
  | data p =>
    cases hp : p.header with
    | v1 hd =>
      simp only [headerOf, hp] at hx
      simp only [show PageType.ofThrift 0#32 = .ok .dataPage from rfl, Res.unwrap, Res.map',
        Res.ok.injEq] at hx
      subst hx
      simp only [valuesOf, hp, signExtend64_toInt]
    | v2 hd =>
      simp only [headerOf, hp] at hx
      simp only [show PageType.ofThrift 3#32 = .ok .dataPageV2 from rfl, Res.unwrap, Res.map',
        Res.ok.injEq] at hx
      subst hx
      simp only [valuesOf, hp, signExtend64_toInt]
  | dict p =>
    simp only [headerOf] at hx
    simp only [show PageType.ofThrift 2#32 = .ok .dictionaryPage from rfl, Res.ok.injEq] at hx
    subst hx
    rfl

theorem specEncodings_eq {codec : Codec Thrift.PageHeader} {off : Nat} {s : PageWriteSpec}
    {p : CompressedPage} (h : SpecOf codec off s p) : specEncodings s = .ok (encodingsOf p) := by
  rw [specEncodings, h.header]
  cases p with
  | data p =>
    cases hp : p.header with
    | v1 hd =>
      simp only [headerOf, hp]
      simp only [show PageType.ofThrift 0#32 = .ok .dataPage from rfl, Res.unwrap, Res.map',
        encodingsOf, hp, Encoding.toThrift]
    | v2 hd =>
      simp only [headerOf, hp]
      simp only [show PageType.ofThrift 3#32 = .ok .dataPageV2 from rfl, Res.unwrap, Res.map',
        encodingsOf, hp, Encoding.toThrift]
  | dict p =>
    simp only [headerOf]
    simp only [show PageType.ofThrift 2#32 = .ok .dictionaryPage from rfl, Res.unwrap, Res.map',
      encodingsOf]

theorem mem_insertSorted {x y : I32} {xs : List I32} :
    y ∈ insertSorted x xs ↔ y = x ∨ y ∈ xs := by
  induction xs with
  | nil => simp [insertSorted]
  | cons z zs ih =>
    rw [insertSorted]
    split
    · simp
    · split
      · rename_i h; subst h; simp
      · simp only [List.mem_cons, ih]; tauto

theorem insertSorted_sorted {x : I32} {xs : List I32} (h : xs.Pairwise fun a b => a.toInt < b.toInt) :
    (insertSorted x xs).Pairwise fun a b => a.toInt < b.toInt := by
  induction xs with
  | nil => simp [insertSorted]
  | cons z zs ih =>
    rw [insertSorted]
    split
    · rename_i hx
      rw [List.pairwise_cons]
      refine ⟨fun y hy => ?_, h⟩
      rcases List.mem_cons.1 hy with rfl | hy
      · exact hx
      · have := (List.pairwise_cons.1 h).1 y hy
        omega
    · rename_i hx
      split
      · exact h
      · rename_i hne
        rw [List.pairwise_cons] at h ⊢
        refine ⟨fun y hy => ?_, ih h.2⟩
        rcases mem_insertSorted.1 hy with rfl | hy
        · have : z.toInt ≠ y.toInt := fun e => hne (BitVec.eq_of_toInt_eq e).symm
          omega
        · exact h.1 y hy

theorem mem_uniqueSorted {y : I32} {xs : List I32} : y ∈ uniqueSorted xs ↔ y ∈ xs := by
  induction xs with
  | nil => simp [uniqueSorted]
  | cons x xs ih =>
    rw [show uniqueSorted (x :: xs) = insertSorted x (uniqueSorted xs) from rfl, mem_insertSorted, ih]
    simp

theorem uniqueSorted_sorted (xs : List I32) :
    (uniqueSorted xs).Pairwise fun a b => a.toInt < b.toInt := by
  induction xs with
  | nil => simp [uniqueSorted]
  | cons x xs ih => exact insertSorted_sorted ih

theorem toThrift_mem (c : Compression) : (c, c.toThrift.toNat) ∈ compressionTable := by
  cases c <;> decide

theorem Specs.compression {codec : Codec Thrift.PageHeader} {off : Nat} {ss : List PageWriteSpec}
    {ps : List CompressedPage} (h : Specs codec off ss ps) {c : Compression}
    (hc : chunkCompression ss = .ok c) : ∀ p ∈ ps, p.compression = c := by
  have hm := h.map_eq (·.compression) (·.compression) fun _ _ _ h => h.compression
  have : ∀ x ∈ ss.map (·.compression), x = c := by
    cases ss with
    | nil => simp
    | cons s ss =>
      rw [chunkCompression] at hc
      split at hc
      · rename_i ha
        injection hc with hc
        intro x hx
        obtain ⟨y, hy, rfl⟩ := List.mem_map.1 hx
        rcases List.mem_cons.1 hy with rfl | hy
        · exact hc
        · rw [← hc]
          simpa using List.all_eq_true.1 ha y hy
      · cases hc
  rw [hm] at this
  exact fun p hp => this _ (List.mem_map_of_mem hp)

theorem Specs.head_offset {codec : Codec Thrift.PageHeader} {off : Nat} {ss : List PageWriteSpec}
    {ps : List CompressedPage} (h : Specs codec off ss ps) (hne : ps ≠ []) :
    (ss.head?.map (·.offset)).getD 0 = off := by
  cases ps with
  | nil => exact absurd rfl hne
  | cons p ps => cases ss with
    | nil => exact h.elim
    | cons s ss => simp [h.1.offset]

theorem Specs.statistics {codec : Codec Thrift.PageHeader} {off : Nat} {ss : List PageWriteSpec}
    {ps : List CompressedPage} (h : Specs codec off ss ps) : ∀ p ∈ ps, (pageStatistics p).isOk = true := by
  induction ss generalizing off ps with
  | nil => cases ps with
    | nil => simp
    | cons p ps => exact h.elim
  | cons s ss ih => cases ps with
    | nil => exact h.elim
    | cons p ps =>
      intro q hq
      rcases List.mem_cons.1 hq with rfl | hq
      · rw [h.1.statistics]; rfl
      · exact ih h.2 q hq

/-- What `buildColumnChunk` records. -/
theorem buildColumnChunk_ok {codec : Codec Thrift.PageHeader} {ck : Bool} {off : Nat}
    {ss : List PageWriteSpec} {ps : List CompressedPage} {d : ColumnDescriptor}
    {c : Thrift.ColumnChunk} (h : Specs codec off ss ps) (hf : Fits codec ps)
    (hlen : off + (chunkBytes codec ps).length < 2 ^ 63)
    (hc : buildColumnChunk ck ss d = .ok c) :
    ∃ m, c = { fileOffset := c.fileOffset, metaData := some m } ∧ DescribesChunk codec off d ps m ∧
      (ps ≠ [] → c.fileOffset.toInt = (off + (chunkBytes codec ps).length : Nat)) ∧
      (ps = [] → m.dataPageOffset = 0#64 ∧ c.fileOffset = 0#64) ∧
      ∃ r, reduceStatistics ck (ss.map (·.statistics)) = .ok r ∧
        optionMapRes serializeStatistics r = .ok m.statistics := by
  rw [buildColumnChunk] at hc
  obtain ⟨comp, h1, hc⟩ := Res.bind_eq_ok.1 hc
  obtain ⟨tc, h2, hc⟩ := Res.bind_eq_ok.1 hc
  obtain ⟨tu, h3, hc⟩ := Res.bind_eq_ok.1 hc
  obtain ⟨nv, h4, hc⟩ := Res.bind_eq_ok.1 hc
  obtain ⟨es, h5, hc⟩ := Res.bind_eq_ok.1 hc
  obtain ⟨st, h6, hc⟩ := Res.bind_eq_ok.1 hc
  obtain ⟨st', h7, hc⟩ := Res.bind_eq_ok.1 hc
  obtain ⟨fo, h8, hc⟩ := Res.bind_eq_ok.1 hc
  injection hc with hc
  have htc : tc.toInt = (chunkBytes codec ps).length := by
    obtain ⟨xs, e1, e2⟩ := sumOf_ok h2
    refine sumI64_range e2 ?_ (by omega) (by omega)
    rw [h.total _ (fun p => ((pageBytes codec p).length : Int)) ?_ e1]
    · congr 1
      clear h hf hlen e1 e2 h1 h2 h3 h4 h5 h6 h7 h8 hc
      induction ps with
      | nil => rfl
      | cons p ps ih => simp only [List.map_cons, List.sum_cons, ih, chunkBytes]; simp
    · intro off s p x hs hx
      rw [hs.header, headerOf_compressed, hs.headerSize] at hx
      rw [pageSize_toInt hs.sizes.2.1 hx]
      simp [pageBytes]
  have htu : tu.toInt = chunkUncompressed codec ps := by
    obtain ⟨xs, e1, e2⟩ := sumOf_ok h3
    have := hf.uncompressed
    refine sumI64_range e2 ?_ (by omega) (by omega)
    rw [h.total _ (fun p => (uncompressedLen codec p : Int)) ?_ e1]
    · congr 1
      clear h hf hlen e1 e2 h1 h2 h3 h4 h5 h6 h7 h8 hc this htc
      induction ps with
      | nil => rfl
      | cons p ps ih => simp only [List.map_cons, List.sum_cons, ih, chunkUncompressed]; simp
    · intro off s p x hs hx
      rw [hs.header, headerOf_uncompressed, hs.headerSize] at hx
      rw [pageSize_toInt hs.sizes.1 hx]
      simp [uncompressedLen]
  have hnv : nv.toInt = chunkValues ps := by
    obtain ⟨xs, e1, e2⟩ := sumOf_ok h4
    refine sumI64_range e2 ?_ hf.values.1 hf.values.2
    rw [h.total _ valuesOf ?_ e1]
    · rfl
    · intro off s p x hs hx
      have e := specValues_toInt hs hx
      rw [← e]
      have h1 := BitVec.le_toInt x
      have h2 := BitVec.toInt_lt (x := x)
      rw [Int.bmod_eq_of_le] <;> omega
  have hes : es = ps.map encodingsOf := by
    have e := (collectRes_ok_iff _ _).1 h5
    rw [h.map_eq specEncodings (fun p => .ok (encodingsOf p)) fun _ _ _ h => specEncodings_eq h] at e
    rw [show (ps.map fun p => (Res.ok (encodingsOf p))) = (ps.map encodingsOf).map .ok by
      rw [List.map_map]; rfl] at e
    exact (List.map_injective_iff.2 (fun a b h => by injection h) e).symm
  have hfo := addI64_eq h8
  refine ⟨_, by rw [← hc], ?_, ?_, ?_, st, h6, h7⟩
  · refine ⟨fun hne => ?_, rfl, htc, htu, hnv, rfl, rfl, ?_, uniqueSorted_sorted _, ?_, ?_,
      ⟨rfl, rfl, rfl, rfl⟩, h.statistics, ck, st, ?_, h7⟩
    · simp only [h.head_offset hne]
      exact asI64_toInt_small (by omega)
    · intro p hp
      rw [h.compression h1 p hp]
      exact toThrift_mem _
    · intro e
      simp only [mem_uniqueSorted, hes]
      simp
    · intro he
      subst he
      cases ss with
      | cons s ss => exact h.elim
      | nil =>
        injection h1 with h1
        exact ⟨rfl, by rw [← h1]; rfl⟩
    · rw [← h.map_eq (·.statistics) pageStats fun _ _ _ h => by rw [pageStats, h.statistics]]
      exact h6
  · intro hne
    rw [← hc]
    simp only [hfo, h.head_offset hne]
    rw [BitVec.toInt_add, htc, asI64_toInt_small (by omega), Int.bmod_eq_of_le] <;> omega
  · intro he
    subst he
    cases ss with
    | cons s ss => exact h.elim
    | nil =>
      refine ⟨rfl, ?_⟩
      rw [← hc]
      simp only [hfo]
      have : tc = 0#64 := BitVec.eq_of_toInt_eq (by rw [htc]; rfl)
      rw [this]
      rfl

/-! ### Column chunks and row groups -/

/-- What `writeColumns` leaves behind. -/
inductive ColumnsBuilt (cs : ThriftCodecs) (ck : Bool) : Nat →
    List (ColumnDescriptor × List CompressedPage) →
    List (Thrift.ColumnChunk × List PageWriteSpec) → List Byte → Prop where
  | nil (off : Nat) : ColumnsBuilt cs ck off [] [] []
  | cons {off : Nat} {d : ColumnDescriptor} {pages : List CompressedPage}
      {columns : List (ColumnDescriptor × List CompressedPage)} {chunk : Thrift.ColumnChunk}
      {specs : List PageWriteSpec} {built : List (Thrift.ColumnChunk × List PageWriteSpec)}
      {m : Thrift.ColumnMetaData} {bytes : List Byte} :
      Specs cs.page off specs pages → buildColumnChunk ck specs d = .ok chunk →
      chunk.metaData = some m →
      ColumnsBuilt cs ck (off + (chunkBytes cs.page pages ++ cs.column.ser m).length) columns built bytes →
      ColumnsBuilt cs ck off ((d, pages) :: columns) ((chunk, specs) :: built)
        (chunkBytes cs.page pages ++ cs.column.ser m ++ bytes)

theorem map_ok_injective {α : Type} : Function.Injective (List.map (Res.ok (α := α))) :=
  List.map_injective_iff.2 fun _ _ h => by injection h

theorem writeColumnChunk_ok {cs : ThriftCodecs} {ck : Bool} {off size : Nat} {d : ColumnDescriptor}
    {pages : List CompressedPage} {chunk : Thrift.ColumnChunk} {specs : List PageWriteSpec}
    {bytes : List Byte}
    (h : writeColumnChunk cs ck off d (pages.map .ok) = (.ok (chunk, specs, size), bytes)) :
    Specs cs.page off specs pages ∧ buildColumnChunk ck specs d = .ok chunk ∧
      ∃ m, chunk.metaData = some m ∧ bytes = chunkBytes cs.page pages ++ cs.column.ser m ∧
        size = bytes.length := by
  rw [writeColumnChunk] at h
  split at h
  · simp at h
  · simp at h
  · rename_i ss b hw
    obtain ⟨pages', e1, e2, e3⟩ := writePages_specs hw
    rw [← map_ok_injective e1] at e2 e3
    split at h
    · simp at h
    · simp at h
    · rename_i c hc
      split at h
      · simp at h
      · rename_i m hm
        simp only [Prod.mk.injEq, Res.ok.injEq] at h
        obtain ⟨⟨rfl, rfl, rfl⟩, rfl⟩ := h
        exact ⟨e3, hc, m, hm, by rw [e2], by rw [e3.bytes, ← e2]; simp⟩

theorem writeColumns_ok {cs : ThriftCodecs} {ck : Bool} {off size : Nat} {ds : List ColumnDescriptor}
    {cols : List (List CompressedPage)} {built : List (Thrift.ColumnChunk × List PageWriteSpec)}
    {bytes : List Byte}
    (h : writeColumns cs ck off ds (cols.map fun pages => .ok (pages.map .ok)) =
      (.ok (built, size), bytes)) :
    ColumnsBuilt cs ck off (ds.zip cols) built bytes ∧ size = bytes.length := by
  induction ds generalizing off cols built size bytes with
  | nil =>
    simp only [writeColumns, Prod.mk.injEq, Res.ok.injEq] at h
    obtain ⟨⟨rfl, rfl⟩, rfl⟩ := h
    exact ⟨by simpa using ColumnsBuilt.nil off, rfl⟩
  | cons d ds ih =>
    cases cols with
    | nil =>
      simp only [List.map_nil, writeColumns, Prod.mk.injEq, Res.ok.injEq] at h
      obtain ⟨⟨rfl, rfl⟩, rfl⟩ := h
      exact ⟨by simpa using ColumnsBuilt.nil off, rfl⟩
    | cons pages cols =>
      simp only [List.map_cons] at h
      rw [writeColumns] at h
      split at h
      · simp at h
      · simp at h
      · rename_i chunk specs sz b hw
        obtain ⟨h1, h2, m, h3, rfl, rfl⟩ := writeColumnChunk_ok hw
        generalize hr : writeColumns cs ck _ ds _ = r at h
        obtain ⟨rs, rb⟩ := r
        simp only [Prod.mk.injEq] at h
        obtain ⟨h, rfl⟩ := h
        obtain ⟨⟨bs, n⟩, e, hq⟩ := map'_ok _ _ _ h
        subst e
        obtain ⟨rfl, rfl⟩ := Prod.mk.inj hq
        obtain ⟨e1, rfl⟩ := ih hr
        refine ⟨.cons h1 h2 h3 e1, by simp; omega⟩

theorem ColumnsBuilt.chunks {cs : ThriftCodecs} {ck : Bool} {off : Nat}
    {columns : List (ColumnDescriptor × List CompressedPage)}
    {built : List (Thrift.ColumnChunk × List PageWriteSpec)} {bytes : List Byte}
    (h : ColumnsBuilt cs ck off columns built bytes) (hf : ∀ c ∈ columns, Fits cs.page c.2)
    (hlen : off + bytes.length < 2 ^ 63) :
    ∃ ms, built.map (·.1.metaData) = ms.map some ∧ Chunks cs off columns ms bytes := by
  induction h with
  | nil off => exact ⟨[], rfl, .nil off⟩
  | cons h1 h2 h3 h4 ih =>
    simp only [List.length_append] at hlen
    obtain ⟨m', e, h5, -⟩ := buildColumnChunk_ok h1 (hf _ List.mem_cons_self) (by omega) h2
    rw [e] at h3
    simp only [Option.some.injEq] at h3
    subst h3
    obtain ⟨ms, e1, e2⟩ := ih (fun c hc => hf c (List.mem_cons_of_mem _ hc)) (by simp; omega)
    exact ⟨m' :: ms, by simp only [List.map_cons, e1]; rw [e], .cons h5 e2⟩

theorem chunks_totals {cs : ThriftCodecs} {off : Nat}
    {columns : List (ColumnDescriptor × List CompressedPage)} {ms : List Thrift.ColumnMetaData}
    {bytes : List Byte} (h : Chunks cs off columns ms bytes) :
    (ms.map fun m => m.totalUncompressedSize.toInt).sum =
        ((columns.map fun c => chunkUncompressed cs.page c.2).sum : Nat) ∧
      (ms.map fun m => m.totalCompressedSize.toInt).sum =
        ((columns.map fun c => (chunkBytes cs.page c.2).length).sum : Nat) ∧
      (columns.map fun c => (chunkBytes cs.page c.2).length).sum ≤ bytes.length := by
  induction h with
  | nil => exact ⟨rfl, rfl, by simp⟩
  | cons h1 h2 ih =>
    obtain ⟨i1, i2, i3⟩ := ih
    simp only [List.map_cons, List.sum_cons, i1, i2, h1.uncompressed, h1.compressed]
    refine ⟨by omega, by omega, ?_⟩
    simp only [List.length_append]
    omega

theorem sumColumns_ok {ck : Bool} {size : Thrift.ColumnMetaData → I64}
    {built : List (Thrift.ColumnChunk × List PageWriteSpec)} {ms : List Thrift.ColumnMetaData} {r : I64}
    (hm : built.map (·.1.metaData) = ms.map some) (h : sumColumns ck size built = .ok r) {n : Nat}
    (hn : (ms.map fun m => (size m).toInt).sum = n) (hlt : n < 2 ^ 63) : r.toInt = n := by
  rw [sumColumns] at h
  obtain ⟨xs, h1, h2⟩ := Res.bind_eq_ok.1 h
  have h1 := (collectRes_ok_iff _ _).1 h1
  have e : (built.map fun c => (Res.unwrap c.1.metaData).map' size) = (ms.map size).map .ok := by
    rw [show (fun c : Thrift.ColumnChunk × List PageWriteSpec => (Res.unwrap c.1.metaData).map' size) =
      (fun o => (Res.unwrap o).map' size) ∘ (·.1.metaData) from rfl, ← List.map_map, hm]
    simp [Res.unwrap, Res.map']
  rw [e] at h1
  have h1 := map_ok_injective h1
  subst h1
  refine sumI64_range h2 ?_ (by omega) (by omega)
  rw [List.map_map, ← hn]
  rfl

theorem sumRows_ok {ck : Bool} {acc : I64} {specs : List PageWriteSpec} {r : I64}
    (h : sumRows ck acc specs = .ok r) :
    ∃ ns : List Nat, specs.map (·.numRows) = ns.map some ∧
      r.toInt = (acc.toInt + (ns.map fun n : Nat => (n : Int)).sum).bmod (2 ^ 64) := by
  induction specs generalizing acc with
  | nil =>
    injection h with h
    subst h
    have h1 := BitVec.le_toInt acc
    have h2 := BitVec.toInt_lt (x := acc)
    refine ⟨[], rfl, ?_⟩
    simp only [List.map_nil, List.sum_nil, Int.add_zero]
    rw [Int.bmod_eq_of_le] <;> omega
  | cons s ss ih =>
    rw [sumRows] at h
    split at h
    · cases h
    · rename_i n hn
      split at h
      · rename_i a ha
        obtain ⟨ns, e1, e2⟩ := ih h
        refine ⟨n :: ns, by simp [hn, e1], ?_⟩
        rw [e2, addI64_eq ha, BitVec.toInt_add, asI64_toInt]
        simp only [List.map_cons, List.sum_cons, Int.bmod_add_bmod, Int.add_assoc]
        rw [← Int.add_assoc, Int.add_comm acc.toInt, Int.add_assoc, Int.bmod_add_bmod]
        congr 1
        omega
      · cases h
      · cases h

theorem lastSelected_rows {p : CompressedPage} {n : Nat} (h : lastSelected p.selectedRows = .ok (some n))
    (hk : (pageRowCount p).isSome = true) : (pageRowCount p).getD 0 = n := by
  cases p with
  | dict p => simp [pageRowCount] at hk
  | data p =>
    simp only [pageRowCount] at hk ⊢
    split at hk
    · rename_i iv hiv
      simp only [CompressedPage.selectedRows, hiv, lastSelected] at h
      simp only [List.getLast?_singleton, Res.unwrap, Res.map', Res.ok.injEq, Option.some.injEq] at h
      simp [h]
    · simp at hk

theorem Specs.rows {codec : Codec Thrift.PageHeader} {off : Nat} {ss : List PageWriteSpec}
    {ps : List CompressedPage} (h : Specs codec off ss ps) (hk : RowsKnown ps) {ns : List Nat}
    (hn : (ss.filter isDataPage).map (·.numRows) = ns.map some) : ns.sum = chunkRows ps := by
  induction ss generalizing off ps ns with
  | nil => cases ps with
    | nil => cases ns <;> simp [chunkRows] at hn ⊢
    | cons p ps => exact h.elim
  | cons s ss ih => cases ps with
    | nil => exact h.elim
    | cons p ps =>
      have hk' : RowsKnown ps := fun q hq => hk q (List.mem_cons_of_mem _ hq)
      simp only [chunkRows, List.filter_cons, h.1.isData] at hn ⊢
      split
      · rename_i hd
        rw [if_pos hd] at hn
        cases ns with
        | nil => simp at hn
        | cons n ns =>
          simp only [List.map_cons, List.cons.injEq] at hn
          have e := h.1.numRows
          rw [hn.1] at e
          simp only [List.map_cons, List.sum_cons]
          rw [lastSelected_rows e (hk p (by simp) hd), ih h.2 hk' hn.2]
          rfl
      · rename_i hd
        rw [if_neg hd] at hn
        exact ih h.2 hk' hn

theorem nat_sum_cast (ns : List Nat) : (ns.map fun n : Nat => (n : Int)).sum = (ns.sum : Nat) := by
  induction ns with
  | nil => rfl
  | cons n ns ih => simp only [List.map_cons, List.sum_cons, ih]; omega

/-- What `buildRowGroup` records. -/
theorem buildRowGroup_ok {cs : ThriftCodecs} {ck : Bool} {off : Nat}
    {columns : List (ColumnDescriptor × List CompressedPage)}
    {built : List (Thrift.ColumnChunk × List PageWriteSpec)} {bytes : List Byte}
    (hb : ColumnsBuilt cs ck off columns built bytes) (hf : GroupFits cs columns)
    (hlen : off + bytes.length < 2 ^ 63) {ordinal : Nat} {rg : Thrift.RowGroup}
    (h : buildRowGroup ck built ordinal = .ok rg) :
    rg.columns = built.map (·.1) ∧ DescribesGroup cs columns rg ∧
      ∃ ms, rg.columns.map (·.metaData) = ms.map some ∧ Chunks cs off columns ms bytes := by
  rw [buildRowGroup] at h
  obtain ⟨rows, h1, h⟩ := Res.bind_eq_ok.1 h
  obtain ⟨tu, h2, h⟩ := Res.bind_eq_ok.1 h
  obtain ⟨tc, h3, h⟩ := Res.bind_eq_ok.1 h
  injection h with h
  subst h
  obtain ⟨ms, e, hc⟩ := hb.chunks hf.chunks hlen
  obtain ⟨c1, c2, c3⟩ := chunks_totals hc
  refine ⟨rfl, ⟨sumColumns_ok e h2 c1 hf.total, ?_, ?_, ?_, ?_, rfl⟩, ms, by rw [← e]; simp, hc⟩
  · show some tc.toInt = _
    rw [sumColumns_ok e h3 c2 (by omega)]
  · intro c hhd hk hr
    cases hb with
    | nil => simp at hhd
    | cons b1 b2 b3 b4 =>
      simp only [List.head?_cons, Option.mem_def, Option.some.injEq] at hhd
      subst hhd
      simp only [computeNumRows] at h1
      obtain ⟨ns, e1, e2⟩ := sumRows_ok h1
      simp only at hk hr ⊢
      rw [e2, nat_sum_cast, b1.rows hk e1, show (0 : I64).toInt = 0 from rfl, Int.zero_add,
        Int.bmod_eq_of_le] <;> omega
  · intro he
    subst he
    cases hb
    injection h1 with h1
    exact h1.symm
  · cases hc with
    | nil =>
      cases built with
      | nil => rfl
      | cons b bs => simp at e
    | cons d1 d2 =>
      cases built with
      | nil => simp at e
      | cons b bs =>
        simp only [List.map_cons, List.cons.injEq] at e
        have e1 := e.1
        simp [chunkFileOffset, e1, d1.noDictionary]

theorem writeRowGroup_ok {cs : ThriftCodecs} {ck : Bool} {off size ordinal : Nat}
    {ds : List ColumnDescriptor} {cols : List (List CompressedPage)} {rg : Thrift.RowGroup}
    {specs : List (List PageWriteSpec)} {bytes : List Byte}
    (h : writeRowGroup cs ck off ds (cols.map fun pages => .ok (pages.map .ok)) ordinal =
      (.ok (rg, specs, size), bytes)) :
    ∃ built, ColumnsBuilt cs ck off (ds.zip cols) built bytes ∧ size = bytes.length ∧
      specs = built.map (·.2) ∧ buildRowGroup ck built ordinal = .ok rg := by
  rw [writeRowGroup] at h
  split at h
  · simp at h
  · simp at h
  · rename_i built n b hw
    obtain ⟨h1, rfl⟩ := writeColumns_ok hw
    simp only [Prod.mk.injEq] at h
    obtain ⟨h, rfl⟩ := h
    obtain ⟨g, e, h⟩ := map'_ok _ _ _ h
    simp only [Prod.mk.injEq] at h
    obtain ⟨rfl, rfl, rfl⟩ := h
    exact ⟨built, h1, rfl, rfl, e⟩

/-! ### The file writer -/

/-- A row group with the chunks and page descriptions it was built from. -/
abbrev BuiltGroup := Thrift.RowGroup × List (Thrift.ColumnChunk × List PageWriteSpec)

/-- The state of a writer after some row groups. -/
inductive GroupsBuilt (cs : ThriftCodecs) (ck : Bool) : Nat →
    List (List (ColumnDescriptor × List CompressedPage)) → List BuiltGroup → List Byte → Prop where
  | nil (pos : Nat) : GroupsBuilt cs ck pos [] [] []
  | snoc {pos : Nat} {groups : List (List (ColumnDescriptor × List CompressedPage))}
      {gb : List BuiltGroup} {bytes : List Byte}
      {columns : List (ColumnDescriptor × List CompressedPage)}
      {built : List (Thrift.ColumnChunk × List PageWriteSpec)} {b : List Byte} {rg : Thrift.RowGroup} :
      GroupsBuilt cs ck pos groups gb bytes →
      ColumnsBuilt cs ck (pos + bytes.length) columns built b →
      buildRowGroup ck built gb.length = .ok rg →
      GroupsBuilt cs ck pos (groups ++ [columns]) (gb ++ [(rg, built)]) (bytes ++ b)

theorem autoStart_new (schema : SchemaDescriptor) (options : WriteOptions)
    (createdBy : Option String) (w : FileWriter) (h : Fresh schema options createdBy w) :
    w.autoStart = (FileWriter.new schema options createdBy).start.2 := by
  rcases h with rfl | rfl
  · rfl
  · rfl

theorem autoStart_of_ne {w : FileWriter} (h : w.offset ≠ 0) : w.autoStart = w := by
  rw [FileWriter.autoStart, if_neg h]

/-- What is known of a writer after successful writes. -/
structure After (cs : ThriftCodecs) (ck : Bool) (schema : SchemaDescriptor) (options : WriteOptions)
    (createdBy : Option String) (groups : List (List (List CompressedPage))) (w : FileWriter) : Prop where
  schema : w.schema = schema
  options : w.options = options
  createdBy : w.createdBy = createdBy
  state : w.state = .started
  metadata : w.metadata = none
  offset : w.offset = w.out.length
  built : ∃ gb bytes, w.out = par1 ++ bytes ∧ w.rowGroups = gb.map (·.1) ∧
    w.pageSpecs = gb.map (·.2.map (·.2)) ∧
    GroupsBuilt cs ck 4 (groups.map (w.schema.leaves.zip ·)) gb bytes

theorem After.ne {cs : ThriftCodecs} {ck : Bool} {schema : SchemaDescriptor} {options : WriteOptions}
    {createdBy : Option String} {groups : List (List (List CompressedPage))} {w : FileWriter}
    (h : After cs ck schema options createdBy groups w) : w.offset ≠ 0 := by
  obtain ⟨_, b, hb, -⟩ := h.built
  rw [h.offset, hb]
  simp [par1]

theorem wrote_after {cs : ThriftCodecs} {ck : Bool} {schema : SchemaDescriptor}
    {options : WriteOptions} {createdBy : Option String} {w0 w : FileWriter}
    {groups : List (List (List CompressedPage))} (h0 : Fresh schema options createdBy w0)
    (h : Wrote cs ck w0 groups w) : After cs ck schema options createdBy groups w.autoStart := by
  induction h with
  | nil =>
    rw [autoStart_new _ _ _ _ h0]
    exact ⟨rfl, rfl, rfl, rfl, rfl, rfl, [], [], rfl, rfl, rfl, .nil 4⟩
  | @snoc groups g w w' hw hs ih =>
    rw [FileWriter.write] at hs
    split at hs
    · simp at hs
    · simp at hs
    · rename_i rg specs size bytes hr
      obtain ⟨built, h1, rfl, rfl, h2⟩ := writeRowGroup_ok hr
      simp only [Prod.mk.injEq, true_and] at hs
      subst hs
      obtain ⟨gb, bs, hb, hr1, hr2, hg⟩ := ih.built
      rw [autoStart_of_ne (by have := ih.ne; simp; omega)]
      refine ⟨ih.schema, ih.options, ih.createdBy, ih.state, ih.metadata, by simp [ih.offset], ?_⟩
      refine ⟨gb ++ [(rg, built)], bs ++ bytes, by simp [hb], by simp [hr1], by simp [hr2], ?_⟩
      simp only [List.map_append, List.map_cons, List.map_nil]
      have hl : w.autoStart.rowGroups.length = gb.length := by rw [hr1]; simp
      rw [hl] at h2
      refine .snoc hg ?_ h2
      have : w.autoStart.offset = 4 + bs.length := by rw [ih.offset, hb]; simp [par1]; omega
      rw [← this]
      exact h1

theorem groups_snoc {cs : ThriftCodecs} {pos : Nat}
    {groups : List (List (ColumnDescriptor × List CompressedPage))} {rgs : List Thrift.RowGroup}
    {bytes b : List Byte} {columns : List (ColumnDescriptor × List CompressedPage)}
    {ms : List Thrift.ColumnMetaData} {rg : Thrift.RowGroup} (h : Groups cs pos groups rgs bytes)
    (hc : Chunks cs (pos + bytes.length) columns ms b)
    (hm : rg.columns.map (·.metaData) = ms.map some) (hd : DescribesGroup cs columns rg) :
    Groups cs pos (groups ++ [columns]) (rgs ++ [rg]) (bytes ++ b) := by
  induction h with
  | nil pos => simpa using Groups.cons hc hm hd (.nil _)
  | @cons pos cols ms' b' rg' gs rs bs h1 h2 h3 h4 ih =>
    have := ih (by simpa [Nat.add_assoc] using hc)
    simpa using Groups.cons h1 h2 h3 this

/-- The place recorded in each row group. -/
theorem GroupsBuilt.ordinals {cs : ThriftCodecs} {ck : Bool} {pos : Nat}
    {groups : List (List (ColumnDescriptor × List CompressedPage))} {gb : List BuiltGroup}
    {bytes : List Byte} (h : GroupsBuilt cs ck pos groups gb bytes) :
    gb.length = groups.length ∧ gb.map (·.1.ordinal) = (List.range groups.length).map placeOf := by
  induction h with
  | nil => exact ⟨rfl, rfl⟩
  | snoc h1 h2 h3 ih =>
    rw [buildRowGroup] at h3
    obtain ⟨_, -, h3⟩ := Res.bind_eq_ok.1 h3
    obtain ⟨_, -, h3⟩ := Res.bind_eq_ok.1 h3
    obtain ⟨_, -, h3⟩ := Res.bind_eq_ok.1 h3
    injection h3 with h3
    subst h3
    refine ⟨by simp [ih.1], ?_⟩
    simp only [List.map_append, ih.2, List.length_append, List.length_cons, List.length_nil,
      List.range_succ, List.map_cons, List.map_nil, ih.1]
    rfl

theorem GroupsBuilt.groups {cs : ThriftCodecs} {ck : Bool} {pos : Nat}
    {groups : List (List (ColumnDescriptor × List CompressedPage))} {gb : List BuiltGroup}
    {bytes : List Byte}
    (h : GroupsBuilt cs ck pos groups gb bytes) (hf : ∀ g ∈ groups, GroupFits cs g)
    (hlen : pos + bytes.length < 2 ^ 63) : Groups cs pos groups (gb.map (·.1)) bytes := by
  induction h with
  | nil => exact .nil _
  | snoc h1 h2 h3 ih =>
    simp only [List.length_append] at hlen
    obtain ⟨-, hd, ms, hm, hc⟩ := buildRowGroup_ok h2 (hf _ (by simp)) (by omega) h3
    rw [List.map_append]
    exact groups_snoc (ih (fun g hg => hf g (by simp [hg])) (by omega)) hc hm hd

end Pq
