import Verif.Lemmas.ClientPage
import Verif.Lemmas.FileMetadata
/-
From arrays to pages.
-/
namespace Pq.Client
open Pq.Spec Pq.Deser

theorem flatMap_present {α : Type} (f : Option α → List Byte) (g : α → List Byte) (h0 : f none = [])
    (h1 : ∀ x, f (some x) = g x) (array : List (Option α)) :
    array.flatMap f = (array.filterMap id).flatMap g := by
  induction array with
  | nil => rfl
  | cons o array ih =>
    cases o with
    | none => rw [List.flatMap_cons, h0, ih, List.nil_append, List.filterMap_cons_none (f := id) rfl]
    | some x => rw [List.flatMap_cons, h1, ih, List.filterMap_cons_some (f := id) rfl, List.flatMap_cons]

/-- What `array_to_page_v1` makes. -/
theorem arrayToPageV1_ok {α : Type} (toLe : α → List Byte) (ord : α → α → Ordering)
    (statistics : Option I64 → Option α → Option α → Statistics) (array : List (Option α))
    (options : WriteOptions) (d : Descriptor) (page : Page)
    (h : arrayToPageV1 toLe ord statistics array options d = .ok page) :
    ∃ lv s, Rle.encodeBool (array.map Option.isSome) = .ok lv ∧
      page = .data ⟨.v1 { numValues := BitVec.ofNat 32 array.length, encoding := 0#32
                          definitionLevelEncoding := 3#32, repetitionLevelEncoding := 3#32, statistics := s },
        (Pq.toLe 8 (BitVec.ofNat 64 lv.length)).take 4 ++ lv ++ (array.filterMap id).flatMap toLe, d,
        some [⟨0, array.length⟩]⟩ ∧
      arrayStatistics ord statistics array options = .ok s := by
  unfold arrayToPageV1 unzipOption at h
  simp only [Res.bind_eq_ok] at h
  obtain ⟨⟨vals, buf⟩, ⟨lv, h1, h2⟩, s, h3, h4⟩ := h
  simp only [Res.ok.injEq, Prod.mk.injEq] at h2 h4
  refine ⟨lv, s, h1, ?_, h3⟩
  rw [← h4, ← h2.1, ← h2.2]
  rw [flatMap_present _ toLe rfl fun _ => rfl]
  rfl

theorem toLe_take4 (n : Nat) (h : n < 2 ^ 32) : (Pq.toLe 8 (BitVec.ofNat 64 n)).take 4 = leBytes 4 n := by
  apply List.ext_getElem
  · simp [toLe_length, Rle.leBytes_length]
  · intro i h1 h2
    have hi : i < 4 := by simpa [Rle.leBytes_length] using h2
    simp only [List.getElem_take, toLe, leBytes, List.getElem_map, List.getElem_range]
    apply BitVec.eq_of_toNat_eq
    simp [Nat.shiftRight_eq_div_pow, Nat.pow_mul]
    have : n % 18446744073709551616 = n := Nat.mod_eq_of_lt (by omega)
    rw [this]


/-- The data page made of these levels and values. -/
def v1Page (n : Nat) (s : Option Thrift.Statistics) (lv vals : List Byte) (d : Descriptor) : DataPage :=
  ⟨.v1 { numValues := BitVec.ofNat 32 n, encoding := 0#32, definitionLevelEncoding := 3#32
         repetitionLevelEncoding := 3#32, statistics := s },
    (Pq.toLe 8 (BitVec.ofNat 64 lv.length)).take 4 ++ lv ++ vals, d, some [⟨0, n⟩]⟩

theorem v1Page_optional (bits : List Bool) (s : Option Thrift.Statistics) (lv vals : List Byte) (d : Descriptor)
    (hlv : Rle.encodeBool bits = .ok lv) (hf : FlatOptional d) (hn : bits.length < 2 ^ 31)
    (hb : (v1Page bits.length s lv vals d).buffer.length < 2 ^ 32) (rows : Option (List Interval)) :
    OptionalPage { v1Page bits.length s lv vals d with selectedRows := rows } bits vals := by
  have hl : lv.length < 2 ^ 32 := by
    simp only [v1Page, List.length_append] at hb
    omega
  refine .ofFlat hf ?_ ⟨[], lv, ?_, levelsAre_of_encode lv bits (by omega) hlv⟩
  · have hi : (BitVec.ofNat 32 bits.length).toInt = bits.length := by
      rw [BitVec.toInt_eq_toNat_of_lt (by rw [BitVec.toNat_ofNat]; omega), BitVec.toNat_ofNat]
      omega
    have := asUsize_nonneg (by omega) (BitVec.ofNat 32 bits.length) (by omega)
    simp only [DataPage.numValues, v1Page, DataPageHeader.numValues]
    omega
  · have e1 : decide (0 < d.maxRepLevel.toInt) = false := by rw [hf.repeated]; rfl
    have e2 : decide (0 < d.maxDefLevel.toInt) = true := by rw [hf.definition]; rfl
    change splitBufferV1 (v1Page bits.length s lv vals d).buffer (decide (0 < d.maxRepLevel.toInt))
      (decide (0 < d.maxDefLevel.toInt)) = _
    rw [e1, e2, splitBufferV1_iff]
    refine ⟨leBytes 4 lv.length ++ lv ++ vals, ⟨rfl, ?_⟩, hl, rfl⟩
    simp only [v1Page, toLe_take4 _ hl]

/-- What `array_to_page` makes. -/
theorem arrayToPage_ok (array : Array) (options : WriteOptions) (d : Descriptor) (page : Page)
    (h : arrayToPage array options d = .ok page) (hf : FlatOptional d) (hn : array.len < 2 ^ 31)
    (hb : page.buffer.length < 2 ^ 32) :
    ∃ s lv vals, page = .data (v1Page array.len s lv vals d) ∧ PlainValues array vals ∧
      (arrayBits array).length = array.len ∧ Rle.encodeBool (arrayBits array) = .ok lv ∧
      ∀ rows, OptionalPage { v1Page array.len s lv vals d with selectedRows := rows } (arrayBits array) vals := by
  cases array with
  | int32 xs =>
    obtain ⟨lv, s, h1, rfl, -⟩ := arrayToPageV1_ok _ _ _ _ _ _ _ h
    refine ⟨s, lv, _, rfl, by simp only [PlainValues, funext (nativeToLe_eq 4)], by simp [arrayBits, Array.len], h1, fun rows => ?_⟩
    have := v1Page_optional (xs.map Option.isSome) s lv ((xs.filterMap id).flatMap (nativeToLe 4)) d h1 hf
      (by simpa [Array.len] using hn) (by rw [List.length_map]; exact hb) rows
    rw [List.length_map] at this
    exact this
  | int64 xs =>
    obtain ⟨lv, s, h1, rfl, -⟩ := arrayToPageV1_ok _ _ _ _ _ _ _ h
    refine ⟨s, lv, _, rfl, by simp only [PlainValues, funext (nativeToLe_eq 8)], by simp [arrayBits, Array.len], h1, fun rows => ?_⟩
    have := v1Page_optional (xs.map Option.isSome) s lv ((xs.filterMap id).flatMap (nativeToLe 8)) d h1 hf
      (by simpa [Array.len] using hn) (by rw [List.length_map]; exact hb) rows
    rw [List.length_map] at this
    exact this
  | int96 xs =>
    obtain ⟨lv, s, h1, rfl, -⟩ := arrayToPageV1_ok _ _ _ _ _ _ _ h
    refine ⟨s, lv, _, rfl, by simp only [PlainValues, funext (nativeToLe_eq 12)], by simp [arrayBits, Array.len], h1, fun rows => ?_⟩
    have := v1Page_optional (xs.map Option.isSome) s lv ((xs.filterMap id).flatMap (nativeToLe 12)) d h1 hf
      (by simpa [Array.len] using hn) (by rw [List.length_map]; exact hb) rows
    rw [List.length_map] at this
    exact this
  | float xs =>
    obtain ⟨lv, s, h1, rfl, -⟩ := arrayToPageV1_ok _ _ _ _ _ _ _ h
    refine ⟨s, lv, _, rfl, by simp only [PlainValues, funext (nativeToLe_eq 4)], by simp [arrayBits, Array.len], h1, fun rows => ?_⟩
    have := v1Page_optional (xs.map Option.isSome) s lv ((xs.filterMap id).flatMap (nativeToLe 4)) d h1 hf
      (by simpa [Array.len] using hn) (by rw [List.length_map]; exact hb) rows
    rw [List.length_map] at this
    exact this
  | double xs =>
    obtain ⟨lv, s, h1, rfl, -⟩ := arrayToPageV1_ok _ _ _ _ _ _ _ h
    refine ⟨s, lv, _, rfl, by simp only [PlainValues, funext (nativeToLe_eq 8)], by simp [arrayBits, Array.len], h1, fun rows => ?_⟩
    have := v1Page_optional (xs.map Option.isSome) s lv ((xs.filterMap id).flatMap (nativeToLe 8)) d h1 hf
      (by simpa [Array.len] using hn) (by rw [List.length_map]; exact hb) rows
    rw [List.length_map] at this
    exact this
  | boolean xs => simp [arrayToPage] at h
  | fixedLenBinary xs => simp [arrayToPage] at h
  | binary xs =>
    obtain ⟨lv, s, h1, rfl, -⟩ := arrayToPageV1_ok _ _ _ _ _ _ _ h
    have hlen : ∀ x ∈ xs.filterMap id, x.length < 2 ^ 32 := by
      intro x hx
      have h1 : (binaryToLe x).length ≤ ((xs.filterMap id).flatMap binaryToLe).length := by
        obtain ⟨a, b, hab⟩ := List.append_of_mem hx
        rw [hab]
        simp only [List.flatMap_append, List.flatMap_cons, List.length_append]
        omega
      simp only [binaryToLe, List.length_append] at h1
      simp only [Page.buffer, List.length_append] at hb
      omega
    have he : (xs.filterMap id).flatMap binaryToLe = plainBytes (xs.filterMap id) := by
      unfold plainBytes
      apply List.flatMap_congr
      intro x hx
      unfold binaryToLe
      rw [show toLe 4 (BitVec.ofNat 32 x.length) = leBytes 4 x.length from ?_]
      have := nativeToLe_eq 4 (BitVec.ofNat (8 * 4) x.length)
      rw [BitVec.toNat_ofNat, Nat.mod_eq_of_lt (hlen x hx)] at this
      exact this
    refine ⟨s, lv, _, rfl, ⟨he, hlen⟩, by simp [arrayBits, Array.len], h1, fun rows => ?_⟩
    have := v1Page_optional (xs.map Option.isSome) s lv ((xs.filterMap id).flatMap binaryToLe) d h1 hf
      (by simpa [Array.len] using hn) (by rw [List.length_map]; exact hb) rows
    rw [List.length_map] at this
    exact this

end Pq.Client
