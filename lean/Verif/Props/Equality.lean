import Verif.Lemmas.Equality
import Verif.Props.Statistics
/-
**C85**: equality of statistics and of page indexes.
-/
namespace Pq.Props
open Spec

/-- What `Res` gives a boolean that decides `P`. -/
abbrev Decides (r : Res Bool) (P : Prop) : Prop := ∃ b, r = .ok b ∧ (b = true ↔ P)

/-- A column of physical type `t`. -/
def columnOf (t : PhysicalType) : PrimitiveType :=
  { fieldInfo := ⟨"x", .optional, none⟩, logicalType := none, convertedType := none, physicalType := t }

/-- **C85**: `==` of statistics whose types are sound returns, and is true exactly when both are of the same
kind and have the same fields, floats being compared as numbers. -/
theorem C85_statistics (a b : Statistics) (ha : SoundType a) (hb : SoundType b) :
    Decides (a.eq b) (SameStatistics a b) := by
  cases a <;> cases b
  case boolean.boolean x y => exact ⟨_, rfl, by simp [SameStatistics]⟩
  case int32.int32 x y => exact ⟨_, rfl, by simp [SameStatistics, fieldsEq_eq]⟩
  case int64.int64 x y => exact ⟨_, rfl, by simp [SameStatistics, fieldsEq_eq]⟩
  case int96.int96 x y => exact ⟨_, rfl, by simp [SameStatistics, fieldsEq_eq]⟩
  case float.float x y => exact ⟨_, rfl, fieldsEq_iff (floatEq_iff 8 23) x y⟩
  case double.double x y => exact ⟨_, rfl, fieldsEq_iff (floatEq_iff 11 52) x y⟩
  case binary.binary x y => exact ⟨_, rfl, by simp [SameStatistics]⟩
  case fixedLen.fixedLen x y =>
    obtain ⟨n, hn⟩ := ha
    obtain ⟨k, hk⟩ := hb
    by_cases hnk : n = k
    · subst hnk
      refine ⟨decide (x = y), ?_, by simp [SameStatistics]⟩
      simp [Statistics.eq, Statistics.physicalType, hn, hk]
    · refine ⟨false, ?_, ?_⟩
      · simp [Statistics.eq, Statistics.physicalType, hn, hk, hnk]
      · simp only [Bool.false_eq_true, SameStatistics, Statistics.fixedLen.injEq, false_iff]
        rintro rfl
        rw [hn] at hk
        exact hnk (by injection hk)
  all_goals
    refine ⟨false, ?_, by simp [SameStatistics]⟩
    first
    | rfl
    | (obtain ⟨n, hn⟩ := ha
       simp [Statistics.eq, Statistics.physicalType, hn])
    | (obtain ⟨n, hn⟩ := hb
       simp [Statistics.eq, Statistics.physicalType, hn])

/-- Non-vacuity: sound statistics, equal up to the sign of a zero. -/
example : SoundType (.float ⟨columnOf .float, some 3#64, none, some 0#32, some 0x40000000#32⟩) ∧
    (Statistics.float ⟨columnOf .float, some 3#64, none, some 0#32, some 0x40000000#32⟩).eq
      (.float ⟨columnOf .float, some 3#64, none, some 0x80000000#32, some 0x40000000#32⟩) = .ok true ∧
    (Statistics.float ⟨columnOf .float, some 3#64, none, some 0#32, some 0x40000000#32⟩).eq
      (.float ⟨columnOf .float, some 2#64, none, some 0#32, some 0x40000000#32⟩) = .ok false :=
  ⟨trivial, by decide +kernel⟩

/-- Non-vacuity: fixed-length statistics of two widths. -/
example : SoundType (.fixedLen ⟨columnOf (.fixedLenByteArray 2), some 0#64, none, some [1#8, 2#8], none⟩) ∧
    (Statistics.fixedLen ⟨columnOf (.fixedLenByteArray 2), some 0#64, none, some [1#8, 2#8], none⟩).eq
      (.fixedLen ⟨columnOf (.fixedLenByteArray 3), some 0#64, none, some [1#8, 2#8], none⟩) = .ok false ∧
    (Statistics.fixedLen ⟨columnOf (.fixedLenByteArray 2), some 0#64, none, some [1#8, 2#8], none⟩).eq
      (.binary ⟨columnOf .byteArray, some 0#64, none, some [1#8, 2#8], none⟩) = .ok false :=
  ⟨⟨2, rfl⟩, by decide +kernel⟩

/-- **C85**: `==` of page indexes whose types are sound returns, and is true exactly when both are of the
same kind and have the same fields, floats being compared as numbers. -/
theorem C85_indexes (a b : Index) (ha : SoundIndex a) (hb : SoundIndex b) :
    Decides (a.eq b) (SameIndex a b) := by
  cases a <;> cases b
  case boolean.boolean xs o ys p =>
    exact ⟨_, rfl, by simp [SameIndex, vecEq_eq entryEq_eq]⟩
  case int32.int32 => exact ⟨_, rfl, by simp [SameIndex, nativeIndexEq_eq]⟩
  case int64.int64 => exact ⟨_, rfl, by simp [SameIndex, nativeIndexEq_eq]⟩
  case int96.int96 => exact ⟨_, rfl, by simp [SameIndex, nativeIndexEq_eq]⟩
  case float.float => exact ⟨_, rfl, nativeIndexEq_iff (floatEq_iff 8 23) _ _ _ _ _ _⟩
  case double.double => exact ⟨_, rfl, nativeIndexEq_iff (floatEq_iff 11 52) _ _ _ _ _ _⟩
  case byteArray.byteArray => exact ⟨_, rfl, by simp [SameIndex, nativeIndexEq_eq]⟩
  case fixedLen.fixedLen t xs o u ys p =>
    obtain ⟨n, hn⟩ := ha
    obtain ⟨k, hk⟩ := hb
    by_cases hnk : n = k
    · subst hnk
      refine ⟨nativeIndexEq (fun x y => decide (x = y)) t u xs ys o p, ?_,
        by simp [SameIndex, nativeIndexEq_eq]⟩
      simp [Index.eq, Index.physicalType, hn, hk]
    · refine ⟨false, ?_, ?_⟩
      · simp [Index.eq, Index.physicalType, hn, hk, hnk]
      · simp only [Bool.false_eq_true, SameIndex, Index.fixedLen.injEq, false_iff]
        rintro ⟨rfl, -, -⟩
        rw [hn] at hk
        exact hnk (by injection hk)
  all_goals
    refine ⟨false, ?_, by simp [SameIndex]⟩
    first
    | rfl
    | (obtain ⟨n, hn⟩ := ha
       simp [Index.eq, Index.physicalType, hn])
    | (obtain ⟨n, hn⟩ := hb
       simp [Index.eq, Index.physicalType, hn])

/-- Non-vacuity: indexes of two pages that differ in the order only, or in a page only. -/
example :
    SoundIndex (.int32 (columnOf .int32) [⟨some 1#32, some 2#32, some 0#64⟩, ⟨none, none, some 4#64⟩] .ascending) ∧
    (Index.int32 (columnOf .int32) [⟨some 1#32, some 2#32, some 0#64⟩, ⟨none, none, some 4#64⟩] .ascending).eq
      (.int32 (columnOf .int32) [⟨some 1#32, some 2#32, some 0#64⟩, ⟨none, none, some 4#64⟩] .ascending) = .ok true ∧
    (Index.int32 (columnOf .int32) [⟨some 1#32, some 2#32, some 0#64⟩, ⟨none, none, some 4#64⟩] .ascending).eq
      (.int32 (columnOf .int32) [⟨some 1#32, some 2#32, some 0#64⟩, ⟨none, none, some 4#64⟩] .unordered) = .ok false ∧
    (Index.int32 (columnOf .int32) [⟨some 1#32, some 2#32, some 0#64⟩, ⟨none, none, some 4#64⟩] .ascending).eq
      (.int32 (columnOf .int32) [⟨some 1#32, some 2#32, some 0#64⟩] .ascending) = .ok false ∧
    (Index.float (columnOf .float) [⟨some 1#32, some 2#32, some 0#64⟩] .ascending).eq
      (.int32 (columnOf .int32) [⟨some 1#32, some 2#32, some 0#64⟩] .ascending) = .ok false :=
  ⟨trivial, by decide +kernel⟩

/-- A comparison aborts exactly when the physical types agree and one of the two is a fixed-length one with
the type of another physical type. -/
theorem C85_panics (a b : Statistics) :
    a.eq b = .panic ↔ a.physicalType = b.physicalType ∧ (¬ SoundType a ∨ ¬ SoundType b) := by
  constructor
  · intro h
    refine ⟨?_, ?_⟩
    · by_contra hne
      unfold Statistics.eq at h
      rw [if_pos hne] at h
      cases h
    · by_contra hs
      rw [not_or, not_not, not_not] at hs
      obtain ⟨r, hr, -⟩ := C85_statistics a b hs.1 hs.2
      rw [hr] at h
      cases h
  · rintro ⟨he, hs⟩
    have hpt : ∀ s : Statistics, ¬ SoundType s → (∃ x, s = .fixedLen x) ∧
        ∀ n, s.physicalType ≠ .fixedLenByteArray n := by
      intro s hs
      cases s
      case fixedLen x => exact ⟨⟨x, rfl⟩, fun n hn => hs ⟨n, hn⟩⟩
      all_goals exact absurd trivial hs
    unfold Statistics.eq
    rw [if_neg (by simpa using he)]
    rcases hs with hs | hs
    · obtain ⟨⟨x, rfl⟩, hn⟩ := hpt _ hs
      generalize hp : (Statistics.fixedLen x).physicalType = p at hn ⊢
      cases p <;> first | rfl | exact absurd rfl (hn _)
    · obtain ⟨⟨x, rfl⟩, hn⟩ := hpt _ hs
      rw [← he] at hn
      generalize hp : a.physicalType = p at hn ⊢
      cases p <;> first | (exact absurd rfl (hn _)) | (cases a <;> rfl)

/-- A comparison of page indexes aborts exactly when the physical types agree and one of the two is a
fixed-length one with the type of another physical type. -/
theorem C85_index_panics (a b : Index) :
    a.eq b = .panic ↔ a.physicalType = b.physicalType ∧ (¬ SoundIndex a ∨ ¬ SoundIndex b) := by
  constructor
  · intro h
    refine ⟨?_, ?_⟩
    · by_contra hne
      unfold Index.eq at h
      rw [if_pos hne] at h
      cases h
    · by_contra hs
      rw [not_or, not_not, not_not] at hs
      obtain ⟨r, hr, -⟩ := C85_indexes a b hs.1 hs.2
      rw [hr] at h
      cases h
  · rintro ⟨he, hs⟩
    have hpt : ∀ s : Index, ¬ SoundIndex s → (∃ t xs o, s = .fixedLen t xs o) ∧
        ∀ n, s.physicalType ≠ .fixedLenByteArray n := by
      intro s hs
      cases s
      case fixedLen t xs o => exact ⟨⟨t, xs, o, rfl⟩, fun n hn => hs ⟨n, hn⟩⟩
      all_goals exact absurd trivial hs
    unfold Index.eq
    rw [if_neg (by simpa using he)]
    rcases hs with hs | hs
    · obtain ⟨⟨t, xs, o, rfl⟩, hn⟩ := hpt _ hs
      generalize hp : (Index.fixedLen t xs o).physicalType = p at hn ⊢
      cases p <;> first | rfl | exact absurd rfl (hn _)
    · obtain ⟨⟨t, xs, o, rfl⟩, hn⟩ := hpt _ hs
      rw [← he] at hn
      generalize hp : a.physicalType = p at hn ⊢
      cases p <;> first | (exact absurd rfl (hn _)) | (cases a <;> rfl)

/-- Statistics are equal to themselves unless a bound is NaN; so are page indexes. -/
theorem C85_reflexive (s : Statistics) (hs : SoundType s) (i : Index) (hi : SoundIndex i) :
    Decides (s.eq s) (¬ HasNaN s) ∧ Decides (i.eq i) (¬ IndexHasNaN i) := by
  constructor
  · obtain ⟨r, hr, h⟩ := C85_statistics s s hs hs
    refine ⟨r, hr, h.trans ?_⟩
    cases s
    case float x =>
      simp only [SameStatistics, SameFields, true_and, HasNaN, not_or]
      exact and_congr (bothOr_self (e := 8) (m := 23) _) (bothOr_self (e := 8) (m := 23) _)
    case double x =>
      simp only [SameStatistics, SameFields, true_and, HasNaN, not_or]
      exact and_congr (bothOr_self (e := 11) (m := 52) _) (bothOr_self (e := 11) (m := 52) _)
    all_goals simp [SameStatistics, HasNaN]
  · obtain ⟨r, hr, h⟩ := C85_indexes i i hi hi
    refine ⟨r, hr, h.trans ?_⟩
    cases i
    case float t xs o =>
      simp only [SameIndex, true_and, and_true, IndexHasNaN, not_exists, not_and, not_or]
      rw [forall2_self]
      refine forall_congr' fun x => imp_congr_right fun _ => ?_
      simp only [SameEntry, and_true]
      exact and_congr (bothOr_self (e := 8) (m := 23) _) (bothOr_self (e := 8) (m := 23) _)
    case double t xs o =>
      simp only [SameIndex, true_and, and_true, IndexHasNaN, not_exists, not_and, not_or]
      rw [forall2_self]
      refine forall_congr' fun x => imp_congr_right fun _ => ?_
      simp only [SameEntry, and_true]
      exact and_congr (bothOr_self (e := 11) (m := 52) _) (bothOr_self (e := 11) (m := 52) _)
    all_goals simp [SameIndex, IndexHasNaN]

example : SoundType (.float ⟨columnOf .float, some 0#64, none, some 1#32, some 0x7fc00000#32⟩) ∧
    HasNaN (.float ⟨columnOf .float, some 0#64, none, some 1#32, some 0x7fc00000#32⟩) ∧
    SoundIndex (.float (columnOf .float) [⟨some 1#32, some 2#32, some 0#64⟩] .ascending) :=
  ⟨trivial, .inr (by decide +kernel), trivial⟩

theorem sameStatistics_symm (a b : Statistics) (h : SameStatistics a b) : SameStatistics b a := by
  cases a <;> cases b <;> simp only [SameStatistics] at h ⊢ <;>
    first
    | exact sameFields_symm (sameNumber_symm (e := 8) (m := 23)) h
    | exact sameFields_symm (sameNumber_symm (e := 11) (m := 52)) h
    | exact h.symm

theorem sameStatistics_trans (a b c : Statistics) (h : SameStatistics a b) (h' : SameStatistics b c) :
    SameStatistics a c := by
  cases a <;> cases b <;> simp only [SameStatistics, reduceCtorEq] at h <;> cases c <;>
    simp only [SameStatistics, reduceCtorEq] at h' ⊢ <;>
    first
    | exact sameFields_trans (sameNumber_trans (e := 8) (m := 23)) h h'
    | exact sameFields_trans (sameNumber_trans (e := 11) (m := 52)) h h'
    | exact h.trans h'

theorem sameIndex_symm (a b : Index) (h : SameIndex a b) : SameIndex b a := by
  cases a <;> cases b <;> simp only [SameIndex] at h ⊢ <;>
    first
    | exact ⟨h.1.symm, forall2_symm (sameEntry_symm (sameNumber_symm (e := 8) (m := 23))) h.2.1, h.2.2.symm⟩
    | exact ⟨h.1.symm, forall2_symm (sameEntry_symm (sameNumber_symm (e := 11) (m := 52))) h.2.1, h.2.2.symm⟩
    | exact h.symm

theorem sameIndex_trans (a b c : Index) (h : SameIndex a b) (h' : SameIndex b c) : SameIndex a c := by
  cases a <;> cases b <;> simp only [SameIndex, reduceCtorEq] at h <;> cases c <;>
    simp only [SameIndex, reduceCtorEq] at h' ⊢ <;>
    first
    | exact ⟨h.1.trans h'.1, forall2_trans (sameEntry_trans (sameNumber_trans (e := 8) (m := 23))) h.2.1 h'.2.1,
        h.2.2.trans h'.2.2⟩
    | exact ⟨h.1.trans h'.1, forall2_trans (sameEntry_trans (sameNumber_trans (e := 11) (m := 52))) h.2.1 h'.2.1,
        h.2.2.trans h'.2.2⟩
    | exact h.trans h'

/-- Equality of sound statistics is symmetric and transitive; so is that of page indexes. -/
theorem C85_equivalence :
    (∀ a b : Statistics, SoundType a → SoundType b → a.eq b = b.eq a) ∧
    (∀ a b c : Statistics, SoundType a → SoundType b → SoundType c → a.eq b = .ok true → b.eq c = .ok true →
      a.eq c = .ok true) ∧
    (∀ a b : Index, SoundIndex a → SoundIndex b → a.eq b = b.eq a) ∧
    (∀ a b c : Index, SoundIndex a → SoundIndex b → SoundIndex c → a.eq b = .ok true → b.eq c = .ok true →
      a.eq c = .ok true) := by
  refine ⟨fun a b ha hb => ?_, fun a b c ha hb hc h h' => ?_, fun a b ha hb => ?_, fun a b c ha hb hc h h' => ?_⟩
  · obtain ⟨r, hr, h⟩ := C85_statistics a b ha hb
    obtain ⟨r', hr', h'⟩ := C85_statistics b a hb ha
    rw [hr, hr', Bool.eq_iff_iff.mpr (h.trans
      (Iff.trans ⟨sameStatistics_symm a b, sameStatistics_symm b a⟩ h'.symm))]
  · obtain ⟨r, hr, e⟩ := C85_statistics a b ha hb
    obtain ⟨r', hr', e'⟩ := C85_statistics b c hb hc
    obtain ⟨r'', hr'', e''⟩ := C85_statistics a c ha hc
    rw [hr] at h; rw [hr'] at h'
    injection h with h; injection h' with h'
    rw [hr'', e''.mpr (sameStatistics_trans a b c (e.mp h) (e'.mp h'))]
  · obtain ⟨r, hr, h⟩ := C85_indexes a b ha hb
    obtain ⟨r', hr', h'⟩ := C85_indexes b a hb ha
    rw [hr, hr', Bool.eq_iff_iff.mpr (h.trans
      (Iff.trans ⟨sameIndex_symm a b, sameIndex_symm b a⟩ h'.symm))]
  · obtain ⟨r, hr, e⟩ := C85_indexes a b ha hb
    obtain ⟨r', hr', e'⟩ := C85_indexes b c hb hc
    obtain ⟨r'', hr'', e''⟩ := C85_indexes a c ha hc
    rw [hr] at h; rw [hr'] at h'
    injection h with h; injection h' with h'
    rw [hr'', e''.mpr (sameIndex_trans a b c (e.mp h) (e'.mp h'))]

/-- Statistics and indexes that were read have sound types: comparing them never aborts. -/
theorem C85_read (v : Thrift.Statistics) (t : PrimitiveType) (s : Statistics)
    (hs : deserializeStatistics v t = .ok s) (index : Thrift.ColumnIndex) (u : PrimitiveType) (i : Index)
    (hi : indexOfThrift index u = .ok i) : SoundType s ∧ SoundIndex i := by
  constructor
  · have h : OfType s t := by
      have h := C48_read v t
      by_cases hw : WidthsOk v t.physicalType
      · obtain ⟨s', hs', ho, -⟩ := h.1 hw
        rw [hs] at hs'
        injection hs' with hs'
        rw [hs']
        exact ho
      · have := h.2 hw
        rw [hs] at this
        cases this
    cases s <;> first | trivial | skip
    obtain ⟨h1, n, hn, -⟩ := h
    exact ⟨n, by rw [h1]; exact hn⟩
  · have key : ∀ {α : Type} (f : List Byte → Res α) (mk : List (PageIndex α) → BoundaryOrder → Index),
        tryNewIndex f index mk = .ok i → ∃ xs o, i = mk xs o := by
      intro α f mk h
      unfold tryNewIndex at h
      obtain ⟨xs, -, h⟩ := Res.bind_eq_ok.mp h
      obtain ⟨o, -, h⟩ := Res.bind_eq_ok.mp h
      injection h with h
      exact ⟨xs, o, h.symm⟩
    unfold indexOfThrift at hi
    split at hi <;> obtain ⟨xs, o, rfl⟩ := key _ _ hi <;> first | trivial | exact ⟨_, by assumption⟩

example : (deserializeStatistics { minValue := some [1#8, 0#8], maxValue := some [2#8, 0#8] }
      (columnOf (.fixedLenByteArray 2))).isOk = true ∧
    (indexOfThrift { nullPages := [false], minValues := [[1#8, 0#8]], maxValues := [[2#8, 0#8]]
                     boundaryOrder := 1#32, nullCounts := some [0#64] } (columnOf (.fixedLenByteArray 2))).isOk = true := by
  decide +kernel

/-- Statistics of a column written and read again are equal to those written, unless a bound is NaN. -/
theorem C85_roundtrip (s : Statistics) (pt : PrimitiveType) (h : OfType s pt) :
    ∃ s', (serializeStatistics s >>= fun v => deserializeStatistics v pt) = .ok s' ∧
      Decides (s.eq s') (¬ HasNaN s) := by
  refine ⟨s, C48_roundtrip s pt h, ?_⟩
  have hs : SoundType s := by
    cases s <;> first | trivial | skip
    obtain ⟨h1, n, hn, -⟩ := h
    exact ⟨n, by rw [h1]; exact hn⟩
  exact (C85_reflexive s hs (.boolean [] .unordered) trivial).1

/-- Non-vacuity of the round trip: a NaN bound, and none. -/
example : OfType (.float ⟨columnOf .float, some 0#64, none, some 1#32, some 0x7fc00000#32⟩) (columnOf .float) ∧
    HasNaN (.float ⟨columnOf .float, some 0#64, none, some 1#32, some 0x7fc00000#32⟩) ∧
    ¬ HasNaN (.float ⟨columnOf .float, some 0#64, none, some 1#32, some 2#32⟩) := by
  refine ⟨⟨rfl, rfl⟩, .inr ?_, ?_⟩
  · decide +kernel
  · rintro (h | h) <;> revert h <;> decide +kernel

/-- **C85** violated: `dyn Index` implements `Eq`, but an index with a NaN bound differs from itself; so do
the statistics, also after a round trip. A comparison of fixed-length statistics that carry the type of
another physical type aborts. -/
theorem C85_violated :
    (Index.float (columnOf .float) [⟨some 0x7fc00000#32, some 0x7fc00000#32, some 0#64⟩] .unordered).eq
      (Index.float (columnOf .float) [⟨some 0x7fc00000#32, some 0x7fc00000#32, some 0#64⟩] .unordered) = .ok false ∧
    (Statistics.double ⟨columnOf .double, some 0#64, none, some 1#64, some 0x7ff8000000000000#64⟩).eq
      (Statistics.double ⟨columnOf .double, some 0#64, none, some 1#64, some 0x7ff8000000000000#64⟩) = .ok false ∧
    (Statistics.fixedLen ⟨columnOf .int32, none, none, some [1#8], some [1#8]⟩).eq
      (Statistics.fixedLen ⟨columnOf .int32, none, none, some [1#8], some [1#8]⟩) = .panic := by
  decide +kernel

/-- The zeros are equal; the infinities, numbers of other signs and subnormals are not. -/
example : floatEq 8 23 0#32 0x80000000#32 = true ∧ floatEq 8 23 0x3f800000#32 0xbf800000#32 = false ∧
    floatEq 8 23 1#32 2#32 = false ∧ floatEq 8 23 0x7f800000#32 0x7f800000#32 = true ∧
    floatEq 8 23 0x7f800000#32 0xff800000#32 = false ∧ floatEq 8 23 0x7f800001#32 0x7f800001#32 = false := by
  decide +kernel

/-- **C48** (type): what `physical_type` says of statistics that were read is the physical type of the
column, with its length for fixed-length byte arrays. -/
theorem C48_type (v : Thrift.Statistics) (pt : PrimitiveType) (s : Statistics)
    (h : deserializeStatistics v pt = .ok s) : s.physicalType = pt.physicalType := by
  by_cases hw : WidthsOk v pt.physicalType
  · obtain ⟨t, ht, hty, -⟩ := (C48_read v pt).1 hw
    rw [h] at ht
    cases ht
    cases s with
    | boolean s => exact hty.symm
    | fixedLen s => exact congrArg PrimitiveType.physicalType hty.1
    | _ s => exact hty.2.symm
  · rw [(C48_read v pt).2 hw] at h
    cases h

example : (deserializeStatistics { minValue := some [1#8, 2#8, 3#8], maxValue := none }
      (exampleType (.fixedLenByteArray 3))).map' (fun s => s.physicalType) =
    .ok (.fixedLenByteArray 3) := by decide +kernel

end Pq.Props
