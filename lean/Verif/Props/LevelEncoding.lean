import Verif.Props.Client
import Verif.Props.Schema
import Verif.Spec.LevelEncoding
/-
C77: the encodings of levels that a page header declares.
-/
namespace Pq.Props
open Pq.Spec Pq.Deser Pq.Client

/-- The page with other encodings of levels declared in its header. -/
def declare (page : DataPage) (h : Thrift.DataPageHeader) (definition repetition : I32) : DataPage :=
  { page with header := .v1 { h with definitionLevelEncoding := definition, repetitionLevelEncoding := repetition } }

/-- A V1 page of an optional column of 64-bit integers, for the examples. -/
def levelsPage (definition n : I32) (buffer : List Byte) : DataPage :=
  { header := .v1 { numValues := n, encoding := 0#32, definitionLevelEncoding := definition
                    repetitionLevelEncoding := 3#32 }
    buffer
    descriptor := { primitiveType := clientType "c" .int64 .optional, maxDefLevel := 1#16, maxRepLevel := 0#16 }
    selectedRows := none }

/-- **C77** what is read of a page does not depend on the encodings of levels that its header declares. -/
theorem C77_ignored (ck : Bool) (page : DataPage) (dict : Option Dict) (h : Thrift.DataPageHeader)
    (hh : page.header = .v1 h) (definition repetition : I32) :
    pageToArray ck (declare page h definition repetition) dict = pageToArray ck page dict := by
  obtain ⟨header, buffer, d, rows⟩ := page
  simp only at hh
  subst hh
  rfl

example : ∃ h, (levelsPage 3#32 4#32 [1#8]).header = .v1 h ∧
    declare (levelsPage 3#32 4#32 [1#8]) h 4#32 3#32 = levelsPage 4#32 4#32 [1#8] := ⟨_, rfl, rfl⟩

/-- **C77** what the page says of its levels: of a V1 page the encodings that its header declares by their
numbers in the format, and an abort if there is none of that number; of a V2 page always RLE. -/
theorem C77_declared (page : DataPage) (e : Encoding) :
    (∀ h, page.header = .v1 h →
      ((page.definitionLevelEncoding = .ok e ↔ (e, h.definitionLevelEncoding.toNat) ∈ encodingTable) ∧
       (page.repetitionLevelEncoding = .ok e ↔ (e, h.repetitionLevelEncoding.toNat) ∈ encodingTable) ∧
       (h.definitionLevelEncoding.toNat ∉ encodingTable.map (·.2) → page.definitionLevelEncoding = .panic) ∧
       (h.repetitionLevelEncoding.toNat ∉ encodingTable.map (·.2) → page.repetitionLevelEncoding = .panic))) ∧
    (∀ h, page.header = .v2 h → page.definitionLevelEncoding = .ok .rle ∧ page.repetitionLevelEncoding = .ok .rle) := by
  have key : ∀ c : I32, Encoding.unwrapThrift c = .ok e ↔ (e, c.toNat) ∈ encodingTable := by
    intro c
    have h1 : Encoding.unwrapThrift c = .ok e ↔ Encoding.ofThrift c = .ok e := by
      unfold Encoding.unwrapThrift
      cases Encoding.ofThrift c <;> simp
    rw [h1]
    constructor
    · intro h
      have := C51_encoding.2.1 c e h
      subst this
      exact (C51_encoding.1 e).1
    · intro h
      have h2 : ∀ n, (e, n) ∈ encodingTable → n = e.toThrift.toNat := by
        intro n hn
        simp only [encodingTable, List.mem_cons, Prod.mk.injEq, List.not_mem_nil, or_false] at hn
        rcases hn with ⟨rfl, rfl⟩ | ⟨rfl, rfl⟩ | ⟨rfl, rfl⟩ | ⟨rfl, rfl⟩ | ⟨rfl, rfl⟩ | ⟨rfl, rfl⟩ | ⟨rfl, rfl⟩ |
          ⟨rfl, rfl⟩ | ⟨rfl, rfl⟩ <;> rfl
      have h3 : c = e.toThrift := BitVec.eq_of_toNat_eq (h2 _ h)
      rw [h3]
      exact (C51_encoding.1 e).2
  have no : ∀ c : I32, c.toNat ∉ encodingTable.map (·.2) → Encoding.unwrapThrift c = .panic := by
    intro c h
    rw [Encoding.unwrapThrift, C51_encoding.2.2 c h]
  refine ⟨fun h hh => ?_, fun h hh => ?_⟩
  · simp only [DataPage.definitionLevelEncoding, DataPage.repetitionLevelEncoding, hh]
    exact ⟨key _, key _, no _, no _⟩
  · simp only [DataPage.definitionLevelEncoding, DataPage.repetitionLevelEncoding, hh, and_self]

/-- **C77** (partial) a page of a flat optional column that declares RLE levels and has them is read as what it
holds. The whole claim is that a page is read according to the encodings it declares, or refused. Missing: pages that
declare BIT_PACKED levels (`C77_violated`). -/
theorem C77_rle_partial (ck : Bool) (page : DataPage) (array : Client.Array) (h : Thrift.DataPageHeader)
    (lv vals : List Byte) (hh : page.header = .v1 h) (_hrle : page.definitionLevelEncoding = .ok .rle)
    (hf : FlatOptional page.descriptor)
    (ht : HasType array page.descriptor.primitiveType.physicalType)
    (henc : page.encoding = .ok .plain) (hsel : page.selectedRows = none)
    (hn : page.numValues = (arrayBits array).length)
    (hbuf : page.buffer = leBytes 4 lv.length ++ lv ++ vals) (hl : lv.length < 2 ^ 32)
    (hlv : LevelStream lv (arrayBits array)) (hv : PlainValues array vals) :
    pageToArray ck page none = .ok array := by
  refine C70_plain_page ck page none array [] lv vals hf ht (by intro d hd; cases hd) henc hsel hn ?_ hlv hv
  unfold splitBuffer
  rw [hh]
  simp only
  have e1 : decide (0 < page.descriptor.maxRepLevel.toInt) = false := by rw [hf.repeated]; rfl
  have e2 : decide (0 < page.descriptor.maxDefLevel.toInt) = true := by rw [hf.definition]; rfl
  rw [e1, e2, splitBufferV1_iff]
  exact ⟨leBytes 4 lv.length ++ lv ++ vals, ⟨rfl, hbuf⟩, hl, rfl⟩

example :
    let page := levelsPage 3#32 4#32 ([4#8, 0#8, 0#8, 0#8, 0x04#8, 0x00#8, 0x03#8, 0xA5#8] ++ leBytes 8 77)
    let array : Client.Array := .int64 [none, none, some 77#64, none]
    page.definitionLevelEncoding = .ok .rle ∧ FlatOptional page.descriptor ∧
    page.encoding = .ok .plain ∧ page.numValues = (arrayBits array).length ∧
    page.buffer = leBytes 4 4 ++ [0x04#8, 0x00#8, 0x03#8, 0xA5#8] ++ leBytes 8 77 ∧
    LevelStream [0x04#8, 0x00#8, 0x03#8, 0xA5#8] (arrayBits array) ∧ PlainValues array (leBytes 8 77) :=
  ⟨by decide +kernel, ⟨rfl, rfl, rfl⟩, by decide +kernel, by decide +kernel, by decide +kernel, client_levels, rfl⟩

example : (levelsPage 4#32 8#32 []).definitionLevelEncoding = .ok .bitPacked ∧
    (levelsPage 4#32 8#32 []).repetitionLevelEncoding = .ok .rle ∧
    (levelsPage 1#32 8#32 []).definitionLevelEncoding = .panic := by decide +kernel

/-- **C77** is false of the code: eight rows, of which the sixth and the last are there, with their levels in the
BIT_PACKED encoding that the header declares. Read without error: the first row has the value of the last one, the
others are null. -/
theorem C77_violated :
    let column : List (Option (BitVec 64)) :=
      [none, none, none, none, none, some 0x103000000#64, none, some 9#64]
    let page := levelsPage 4#32 8#32 ([5#8] ++ leBytes 8 0x103000000 ++ leBytes 8 9)
    page.definitionLevelEncoding = .ok .bitPacked ∧ PackedLevels [5#8] (arrayBits (.int64 column)) ∧
    PlainValues (.int64 column) (leBytes 8 0x103000000 ++ leBytes 8 9) ∧
    page.buffer = [5#8] ++ (leBytes 8 0x103000000 ++ leBytes 8 9) ∧
    pageToArray true page none = .ok (.int64 [some 9#64, none, none, none, none, none, none, none]) := by
  refine ⟨by decide +kernel, ⟨by decide, ?_⟩, by rfl, by decide +kernel, by decide +kernel⟩
  have : ∀ i : Fin 8, msbAt [5#8] i.val = [false, false, false, false, false, true, false, true].getD i.val false := by
    decide
  intro i hi
  exact this ⟨i, hi⟩

end Pq.Props
