import Verif.Lemmas.PageState
import Verif.Props.Deserialize
import Verif.Props.Types
import Verif.Props.Delta
/-
Property C58: the states that data pages are decoded with (`NativePageState`, `BinaryPageState`,
`FixedLenBinaryPageState`, `BooleanPageState`).
-/
namespace Pq.Props
open Pq.Spec Pq.Deser

/-- The two dictionary encodings. -/
def IsDictionary (e : Encoding) : Prop := e = .plainDictionary ∨ e = .rleDictionary

instance (e : Encoding) : Decidable (IsDictionary e) := inferInstanceAs (Decidable (_ ∨ _))

/-- A state over a dictionary whose rows (an index into the dictionary, or null) are `col`. -/
def OptionalIndexes {ι π : Type} (r : Res (PageState ι π)) (d : π) (col : List (Option Rle.U32)) : Prop :=
  ∃ it dec, r = .ok (.optionalDictionary (.bitmap it) dec d) ∧
    Yields (optionalNext (BoolIter.next RunIter.next) Rle.Dec.next) (BoolIter.new it, dec) col

/-- The same for a required column. -/
def RequiredIndexes {ι π : Type} (r : Res (PageState ι π)) (d : π) (col : List Rle.U32) : Prop :=
  ∃ dec, r = .ok (.requiredDictionary dec d) ∧ Yields Rle.Dec.next dec col

/-- Pages of the examples. -/
def statePage (buffer : List Byte) (n encoding : I32) (pt : PhysicalType) (rep : Repetition)
    (maxDef : BitVec 16) : DataPage :=
  { header := .v1 { numValues := n, encoding, definitionLevelEncoding := 3#32,
                    repetitionLevelEncoding := 3#32, statistics := none }
    buffer, selectedRows := none
    descriptor := { primitiveType := { fieldInfo := { name := "a", repetition := rep, id := none },
                                       logicalType := none, convertedType := none, physicalType := pt }
                    maxDefLevel := maxDef, maxRepLevel := 0#16 } }

/-- The three states that know dictionaries, on a page with a dictionary encoding. -/
theorem dictionary_dispatch {π : Type} (page : DataPage) (d : π) (e : Encoding)
    (he : page.encoding = .ok e) (hd : IsDictionary e) :
    (∀ b, nativeState b page (some d) = dictionaryState page d) ∧
    binaryState page (some d) = dictionaryState page d ∧
    (∀ size, page.descriptor.primitiveType.physicalType = .fixedLenByteArray size →
      fixedState page (some d) = dictionaryState page d) := by
  rcases hd with rfl | rfl <;>
    exact ⟨fun b => by unfold nativeState; rw [he]; rfl, by unfold binaryState; rw [he]; rfl,
      fun size hs => by unfold fixedState; rw [hs]; simp only [he]; rfl⟩

/-- The definition levels of an optional flat column written by `encode_bool`. -/
theorem validity_ok (page : DataPage) (rep lv vals : List Byte) (bits : List Bool)
    (hlv : Rle.encodeBool bits = .ok lv) (hsplit : splitBuffer page = .ok (rep, lv, vals))
    (hdef : page.descriptor.maxDefLevel = 1#16) (hn : page.numValues = bits.length)
    (hlen : bits.length < 2 ^ 63) :
    ∃ it, DefLevels.tryNew page = .ok (.bitmap it) ∧
      Yields (BoolIter.next RunIter.next) (BoolIter.new it) bits := by
  obtain ⟨lv', h1, es, h2, h3, h4, h5⟩ := runIter_encodeBool bits hlen
  rw [hlv] at h1
  simp only [Res.ok.injEq] at h1
  subst h1
  refine ⟨RunIter.new ⟨lv, 1⟩ bits.length, ?_, ?_⟩
  · unfold DefLevels.tryNew
    rw [hsplit]
    simp only [Res.ok_bind]
    rw [if_pos hdef, hn]
  · have := boolIter_yields RunIter.next _ es h2 h3
    rwa [h5] at this

/-- The index decoder of a page that has room for all the indices (there is one per non-null
row, the page counts all the rows). -/
theorem indexes_ok (page : DataPage) (rep lv body : List Byte) (w : Byte) (idx : List Rle.U32)
    (hw : w.toNat ≤ 32) (h0 : 0 < w.toNat) (hfit : ∀ x ∈ idx, x.toNat < 2 ^ w.toNat)
    (hbody : Rle.encodeU32 idx w.toNat = .ok body)
    (hsplit : splitBuffer page = .ok (rep, lv, w :: body)) (hlen : 4 * idx.length < 2 ^ 63)
    (hn : idx.length ≤ page.numValues) :
    ∃ dec ys, dictIndicesDecoder page = .ok dec ∧ Yields Rle.Dec.next dec ys ∧
      ys.length = page.numValues ∧ ys.take idx.length = idx := by
  obtain ⟨ys, h1, h2, h3⟩ := Rle.decode_more w.toNat h0 hw idx hfit hlen body hbody page.numValues hn
  obtain ⟨dec, h4, h5⟩ := tryNew_yields h1
  refine ⟨dec, ys, ?_, h5, h2, h3⟩
  unfold dictIndicesDecoder
  rw [hsplit]
  simp only [Res.ok_bind]
  rw [if_neg (by omega)]
  exact h4

/-- **C58** an optional dictionary page of any column of indices, written with `encode_bool`
(levels) and `encode_u32` (indices): natively, as binary and as fixed-length binary the page is
decoded over the given dictionary and its rows are exactly that column. -/
theorem C58_dictionary_optional {π : Type} (page : DataPage) (d : π) (e : Encoding)
    (he : page.encoding = .ok e) (hd : IsDictionary e) (hopt : isOptional page = true)
    (hdef : page.descriptor.maxDefLevel = 1#16)
    (col : List (Option Rle.U32)) (rep lv body : List Byte) (w : Byte)
    (hw : w.toNat ≤ 32) (h0 : 0 < w.toNat) (hfit : ∀ x, some x ∈ col → x.toNat < 2 ^ w.toNat)
    (hlv : Rle.encodeBool (col.map Option.isSome) = .ok lv)
    (hbody : Rle.encodeU32 (col.filterMap id) w.toNat = .ok body)
    (hsplit : splitBuffer page = .ok (rep, lv, w :: body))
    (hlen : 4 * col.length < 2 ^ 63) (hn : page.numValues = col.length) :
    (∀ b, OptionalIndexes (nativeState b page (some d)) d col) ∧
    OptionalIndexes (binaryState page (some d)) d col ∧
    (∀ size, page.descriptor.primitiveType.physicalType = .fixedLenByteArray size →
      OptionalIndexes (fixedState page (some d)) d col) := by
  obtain ⟨d1, d2, d3⟩ := dictionary_dispatch page d e he hd
  have hle : (col.filterMap id).length ≤ col.length := List.length_filterMap_le _ _
  obtain ⟨it, g1, g2⟩ := validity_ok page rep lv _ (col.map Option.isSome) hlv hsplit hdef
    (by simpa using hn) (by simp; omega)
  obtain ⟨dec, ys, k1, k2, k3, k4⟩ := indexes_ok page rep lv body w (col.filterMap id) hw h0
    (by intro x hx; exact hfit x (by simpa using hx)) hbody hsplit (by omega) (by omega)
  have key : ∀ {ι : Type}, OptionalIndexes (dictionaryState (ι := ι) page d) d col := by
    intro ι
    refine ⟨it, dec, ?_, ?_⟩
    · unfold dictionaryState
      rw [if_pos hopt, g1, k1]; rfl
    · have := yields_optional g2 k2 (by rw [count_isSome]; omega)
      rw [← assemble_take, count_isSome, k4, assemble_isSome] at this
      exact this
  refine ⟨fun b => ?_, ?_, fun size hs => ?_⟩
  · rw [d1]; exact key
  · rw [d2]; exact key
  · rw [d3 size hs]; exact key

-- the hypotheses of the optional dictionary page: rows 2, null, 1, 3, null
example :
    let page := statePage [2, 0, 0, 0, 3, 0x0D, 2, 3, 0x36] 5#32 8#32 .int32 .optional 1#16
    page.encoding = .ok .rleDictionary ∧ isOptional page = true ∧ page.descriptor.maxDefLevel = 1#16 ∧
    Rle.encodeBool ([some 2#32, none, some 1#32, some 3#32, none].map Option.isSome) = .ok [3, 0x0D] ∧
    Rle.encodeU32 ([some 2#32, none, some 1#32, some 3#32, none].filterMap id) 2 = .ok [3, 0x36] ∧
    splitBuffer page = .ok ([], [3, 0x0D], [2, 3, 0x36]) ∧ page.numValues = 5 := by
  decide +kernel

/-- **C58** the same for a required column. -/
theorem C58_dictionary_required {π : Type} (page : DataPage) (d : π) (e : Encoding)
    (he : page.encoding = .ok e) (hd : IsDictionary e) (hopt : isOptional page = false)
    (col : List Rle.U32) (rep lv body : List Byte) (w : Byte)
    (hw : w.toNat ≤ 32) (h0 : 0 < w.toNat) (hfit : ∀ x ∈ col, x.toNat < 2 ^ w.toNat)
    (hbody : Rle.encodeU32 col w.toNat = .ok body)
    (hsplit : splitBuffer page = .ok (rep, lv, w :: body))
    (hlen : 4 * col.length < 2 ^ 63) (hn : page.numValues = col.length) :
    (∀ b, RequiredIndexes (nativeState b page (some d)) d col) ∧
    RequiredIndexes (binaryState page (some d)) d col ∧
    (∀ size, page.descriptor.primitiveType.physicalType = .fixedLenByteArray size →
      RequiredIndexes (fixedState page (some d)) d col) := by
  obtain ⟨d1, d2, d3⟩ := dictionary_dispatch page d e he hd
  obtain ⟨dec, ys, k1, k2, k3, k4⟩ := indexes_ok page rep lv body w col hw h0 hfit hbody hsplit
    (by omega) (by omega)
  have key : ∀ {ι : Type}, RequiredIndexes (dictionaryState (ι := ι) page d) d col := by
    intro ι
    refine ⟨dec, ?_, ?_⟩
    · unfold dictionaryState
      rw [if_neg (by simp [hopt]), k1]; rfl
    · rw [← k4, List.take_of_length_le (by omega)]; exact k2
  refine ⟨fun b => ?_, ?_, fun size hs => ?_⟩
  · rw [d1]; exact key
  · rw [d2]; exact key
  · rw [d3 size hs]; exact key

-- required
example :
    let page := statePage [2, 3, 0x36] 3#32 2#32 .byteArray .required 0#16
    page.encoding = .ok .plainDictionary ∧ isOptional page = false ∧
    Rle.encodeU32 [2#32, 1#32, 3#32] 2 = .ok [3, 0x36] ∧
    splitBuffer page = .ok ([], [], [2, 3, 0x36]) ∧ page.numValues = 3 := by
  decide +kernel

/-- **C58** definition levels of nested columns (maximum at least 2), written by `encode_u32` in
the smallest number of bits that holds the maximum: the decoder yields one level per value and
knows the maximum. -/
theorem C58_levels (page : DataPage) (rep lv vals : List Byte) (levels : List Rle.U32) (w : Nat)
    (hmax : 1 < page.descriptor.maxDefLevel.toInt)
    (hw : page.descriptor.maxDefLevel.toInt < 2 ^ w)
    (hw' : ∀ v, page.descriptor.maxDefLevel.toInt < 2 ^ v → w ≤ v)
    (hfit : ∀ x ∈ levels, (x.toNat : Int) ≤ page.descriptor.maxDefLevel.toInt)
    (hlv : Rle.encodeU32 levels w = .ok lv) (hlen : 4 * levels.length < 2 ^ 63)
    (hsplit : splitBuffer page = .ok (rep, lv, vals)) (hn : page.numValues = levels.length) :
    ∃ dec m, DefLevels.tryNew page = .ok (.levels dec m) ∧ Yields Rle.Dec.next dec levels ∧
      (m : Int) = page.descriptor.maxDefLevel.toInt := by
  obtain ⟨b1, b2⟩ := C31_bit_width page.descriptor.maxDefLevel (by omega)
  have e : w = getBitWidth page.descriptor.maxDefLevel := by
    apply Nat.le_antisymm
    · apply hw'
      have := b1 page.descriptor.maxDefLevel.toInt.toNat (by omega)
      have h2 : ((page.descriptor.maxDefLevel.toInt.toNat : Nat) : Int) < ((2 ^ getBitWidth page.descriptor.maxDefLevel : Nat) : Int) := by
        exact_mod_cast this
      rw [Int.toNat_of_nonneg (by omega)] at h2
      simpa using h2
    · apply b2
      intro level hl
      have : (level : Int) < ((2 ^ w : Nat) : Int) := by
        have h3 : ((2 ^ w : Nat) : Int) = 2 ^ w := by simp
        rw [h3]; omega
      exact_mod_cast this
  have h1 : page.descriptor.maxDefLevel ≠ 1#16 := by
    intro h; rw [h] at hmax; simp at hmax
  have hwpos : 0 < w := by
    rcases Nat.eq_zero_or_pos w with h | h
    · subst h; simp at hw; omega
    · exact h
  have hw32 : w ≤ 32 := by
    apply Nat.le_trans (hw' 16 _) (by omega)
    have := page.descriptor.maxDefLevel.toInt_lt
    simp at this ⊢; omega
  obtain ⟨ys, g1, g2, g3⟩ := Rle.decode_more w hwpos hw32 levels
    (by
      intro x hx
      have h3 : ((2 ^ w : Nat) : Int) = 2 ^ w := by simp
      have := hfit x hx
      have : (x.toNat : Int) < ((2 ^ w : Nat) : Int) := by rw [h3]; omega
      exact_mod_cast this) hlen lv hlv levels.length (Nat.le_refl _)
  obtain ⟨dec, k1, k2⟩ := tryNew_yields g1
  refine ⟨dec, (page.descriptor.maxDefLevel.signExtend 32).toNat, ?_, ?_, ?_⟩
  · unfold DefLevels.tryNew
    rw [hsplit]
    simp only [Res.ok_bind]
    rw [if_neg h1, hn, ← e, k1]
    rfl
  · rw [← g3, List.take_of_length_le (by omega)]; exact k2
  · have h5 : (page.descriptor.maxDefLevel.signExtend 32).toInt = page.descriptor.maxDefLevel.toInt :=
      BitVec.toInt_signExtend_of_le (by omega)
    have h6 : 0 ≤ (page.descriptor.maxDefLevel.signExtend 32).toInt := by omega
    rw [← h5]
    rw [BitVec.toInt_eq_toNat_of_lt]
    by_contra h
    have := BitVec.toInt_eq_toNat_cond (page.descriptor.maxDefLevel.signExtend 32)
    rw [if_neg h] at this
    have := (page.descriptor.maxDefLevel.signExtend 32).isLt
    omega

-- levels up to 2
example :
    let page := statePage [2, 0, 0, 0, 3, 0x18, 7, 0, 0, 0] 3#32 0#32 .int32 .optional 2#16
    1 < page.descriptor.maxDefLevel.toInt ∧ page.descriptor.maxDefLevel.toInt < 2 ^ 2 ∧
    Rle.encodeU32 [0#32, 2#32, 1#32] 2 = .ok [3, 0x18] ∧
    splitBuffer page = .ok ([], [3, 0x18], [7, 0, 0, 0]) ∧ page.numValues = 3 := by
  decide +kernel
example : ∀ v, (2#16).toInt < 2 ^ v → 2 ≤ v := by
  intro v h
  match v with
  | 0 => simp at h
  | 1 => simp at h
  | v + 2 => omega

/-- **C58** required PLAIN pages, with or without a dictionary: natively the items are the values
of the section; as binary they are the length-prefixed strings, announced as the number of values
of the page; as fixed-length binary the chunks; booleans keep the bits and the number of values. -/
theorem C58_plain_required (page : DataPage) (he : page.encoding = .ok .plain)
    (hopt : isOptional page = false) (rep lv vals : List Byte)
    (hsplit : splitBuffer page = .ok (rep, lv, vals)) :
    (∀ {π : Type} (dict : Option π) (b : Nat) (xs : List (BitVec (8 * b))), 0 < b →
      vals = xs.flatMap (nativeToLe b) →
      nativeState b page dict = .ok (.required (xs.map .ok))) ∧
    (∀ {π : Type} (dict : Option π) (items : List (List Byte)), (∀ s ∈ items, s.length < 2 ^ 32) →
      vals = plainBytes items → page.numValues = items.length →
      ∃ it, binaryState page dict = .ok (.required it) ∧ it.sizeHint = (items.length, some items.length) ∧
        it.items (vals.length + 1) = some (items.map Except.ok)) ∧
    (∀ {π : Type} (dict : Option π) (size : Nat) (items : List (List Byte)), 0 < size →
      page.descriptor.primitiveType.physicalType = .fixedLenByteArray size →
      (∀ s ∈ items, s.length = size) → vals = items.flatten →
      fixedState page dict = .ok (.required items)) ∧
    booleanState page = .ok (.required vals page.numValues) := by
  refine ⟨?_, ?_, ?_, ?_⟩
  · intro π dict b xs hb hv
    unfold nativeState
    simp only [he, Res.ok_bind, hopt]
    rw [if_neg (by simp), nativeCast_ok b hb page rep lv xs (by rw [← hv]; exact hsplit)]
    rfl
  · intro π dict items hi hv hnum
    refine ⟨⟨vals, some items.length⟩, ?_, rfl, ?_⟩
    · unfold binaryState
      simp only [he, Res.ok_bind, hopt]
      rw [if_neg (by simp), hsplit]
      simp only [Res.ok_bind, hnum]
    · have := C18_plain_roundtrip items hi (some items.length) [] (by simp) (vals.length + 1)
        (by rw [hv]; omega)
      rw [List.append_nil] at this
      rw [hv] at this ⊢
      exact this
  · intro π dict size items hs hp hi hv
    unfold fixedState
    simp only [hp, he, Res.ok_bind, hopt]
    rw [if_neg (by simp), hsplit]
    simp only [Res.ok_bind]
    rw [fixedIter_ok size hs items hi vals hv]
    rfl
  · unfold booleanState
    simp only [he, Res.ok_bind, hopt]
    rw [if_neg (by simp), hsplit]
    rfl

example :
    let page := statePage [2, 0, 0, 0, 7, 8, 0, 0, 0, 0] 2#32 0#32 .byteArray .required 0#16
    page.encoding = .ok .plain ∧ isOptional page = false ∧
    splitBuffer page = .ok ([], [], plainBytes [[7, 8], []]) ∧ page.numValues = 2 := by
  decide +kernel

/-- **C58** optional PLAIN pages of flat columns, with or without a dictionary: the validity is
that of the column and the values are its non-null values; natively, as binary (announced without
a number of values), as fixed-length binary, and as booleans (all the bits of the section). -/
theorem C58_plain_optional (page : DataPage) (he : page.encoding = .ok .plain)
    (hopt : isOptional page = true) (hdef : page.descriptor.maxDefLevel = 1#16)
    (rep lv vals : List Byte) (bits : List Bool)
    (hlv : Rle.encodeBool bits = .ok lv) (hlen : bits.length < 2 ^ 63)
    (hsplit : splitBuffer page = .ok (rep, lv, vals)) (hn : page.numValues = bits.length) :
    ∃ it, Yields (BoolIter.next RunIter.next) (BoolIter.new it) bits ∧
    (∀ {π : Type} (dict : Option π) (b : Nat) (xs : List (BitVec (8 * b))), 0 < b →
      vals = xs.flatMap (nativeToLe b) →
      nativeState b page dict = .ok (.optional (.bitmap it) (xs.map .ok))) ∧
    (∀ {π : Type} (dict : Option π) (items : List (List Byte)), (∀ s ∈ items, s.length < 2 ^ 32) →
      vals = plainBytes items →
      ∃ v, binaryState page dict = .ok (.optional (.bitmap it) v) ∧ v.sizeHint = (0, none) ∧
        v.items (vals.length + 1) = some (items.map Except.ok)) ∧
    (∀ {π : Type} (dict : Option π) (size : Nat) (items : List (List Byte)), 0 < size →
      page.descriptor.primitiveType.physicalType = .fixedLenByteArray size →
      (∀ s ∈ items, s.length = size) → vals = items.flatten →
      fixedState page dict = .ok (.optional (.bitmap it) items)) ∧
    (∃ v, booleanState page = .ok (.optional (.bitmap it) v) ∧
      v.collect = .ok ((List.range (8 * vals.length)).map (bitAt vals))) := by
  obtain ⟨it, g1, g2⟩ := validity_ok page rep lv vals bits hlv hsplit hdef hn hlen
  refine ⟨it, g2, ?_, ?_, ?_, ?_⟩
  · intro π dict b xs hb hv
    unfold nativeState
    simp only [he, Res.ok_bind, hopt, if_true, g1]
    rw [nativeCast_ok b hb page rep lv xs (by rw [← hv]; exact hsplit)]
    rfl
  · intro π dict items hi hv
    refine ⟨⟨vals, none⟩, ?_, rfl, ?_⟩
    · unfold binaryState
      simp only [he, Res.ok_bind, hopt, if_true, hsplit, g1]
    · have := C18_plain_roundtrip items hi none [] (by simp) (vals.length + 1)
        (by rw [hv]; omega)
      rw [List.append_nil] at this
      rw [hv] at this ⊢
      exact this
  · intro π dict size items hs hp hi hv
    unfold fixedState
    simp only [hp, he, Res.ok_bind, hopt, if_true, hsplit, g1]
    rw [fixedIter_ok size hs items hi vals hv]
    rfl
  · obtain ⟨v, k1, k2⟩ := C12_bitmap_bytes vals 0 (8 * vals.length) (by omega)
    refine ⟨v, ?_, by simpa using k2⟩
    unfold booleanState
    simp only [he, Res.ok_bind, hopt, if_true, hsplit, g1]
    rw [Nat.mul_comm, k1]
    rfl

example :
    let page := statePage [2, 0, 0, 0, 3, 5, 9, 0, 8, 0] 3#32 0#32 (.fixedLenByteArray 2) .optional 1#16
    page.encoding = .ok .plain ∧ isOptional page = true ∧ page.descriptor.maxDefLevel = 1#16 ∧
    Rle.encodeBool [true, false, true] = .ok [3, 5] ∧
    splitBuffer page = .ok ([], [3, 5], [[9, 0], [8, 0]].flatten) ∧ page.numValues = 3 := by
  decide +kernel

/-- **C58** everything else is refused, never decoded as something else: an encoding that is
neither PLAIN nor a dictionary encoding, a dictionary encoding without dictionary, a boolean page
that is not PLAIN, and a fixed-length state over another physical type. -/
theorem C58_refused {π : Type} (page : DataPage) (e : Encoding) (he : page.encoding = .ok e)
    (hp : e ≠ .plain) :
    (∀ (dict : Option π), (IsDictionary e → dict = none) →
      (∀ b, nativeState b page dict = .err .featureNotSupported) ∧
      binaryState page dict = .err .featureNotSupported ∧
      (∀ size, page.descriptor.primitiveType.physicalType = .fixedLenByteArray size →
        fixedState page dict = .err .featureNotSupported)) ∧
    booleanState page = .err .invalidParameter := by
  constructor
  · intro dict hd
    by_cases hdic : IsDictionary e
    · rw [hd hdic]
      rcases hdic with rfl | rfl <;>
        exact ⟨fun b => by unfold nativeState; rw [he]; rfl, by unfold binaryState; rw [he]; rfl,
          fun size hs => by unfold fixedState; rw [hs]; simp only [he]; rfl⟩
    · refine ⟨fun b => ?_, ?_, fun size hs => ?_⟩
      · unfold nativeState
        rw [he]
        cases e <;> first | exact absurd rfl hp | exact absurd (by decide) hdic | rfl
      · unfold binaryState
        rw [he]
        cases e <;> first | exact absurd rfl hp | exact absurd (by decide) hdic | rfl
      · unfold fixedState
        rw [hs]
        simp only [he]
        cases e <;> first | exact absurd rfl hp | exact absurd (by decide) hdic | rfl
  · unfold booleanState
    rw [he]
    cases e <;> first | exact absurd rfl hp | rfl

example : (statePage [] 0#32 5#32 .int32 .required 0#16).encoding = .ok .deltaBinaryPacked := by decide

/-- **C58** fixed-length states over any other physical type are refused. -/
theorem C58_fixed_type {π : Type} (page : DataPage) (dict : Option π)
    (h : ∀ size, page.descriptor.primitiveType.physicalType ≠ .fixedLenByteArray size) :
    fixedState page dict = .err .invalidParameter := by
  unfold fixedState
  cases hp : page.descriptor.primitiveType.physicalType with
  | fixedLenByteArray size => exact absurd hp (h size)
  | _ => rfl

example : ∀ size, (statePage [] 0#32 0#32 .int32 .required 0#16).descriptor.primitiveType.physicalType ≠
    .fixedLenByteArray size := by intro size h; cases h

/-- **C58** the clause "every page is decoded or refused" is violated: an encoding code that the
library does not know aborts the process in every state. -/
theorem C58_violated :
    (nativeState (π := Unit) 4 (statePage [] 0#32 77#32 .int32 .required 0#16) none).noPanic = false ∧
    (binaryState (π := Unit) (statePage [] 0#32 77#32 .byteArray .required 0#16) none).noPanic = false ∧
    (fixedState (π := Unit) (statePage [] 0#32 77#32 (.fixedLenByteArray 2) .required 0#16) none).noPanic = false ∧
    booleanState (statePage [] 0#32 77#32 .boolean .required 0#16) = .panic := by
  refine ⟨by decide, by decide, by decide, rfl⟩

end Pq.Props
