import Verif.Lemmas.Statistics2
import Verif.Lemmas.Util
import Verif.Props.Types
/-
C46–C48: statistics.
-/
namespace Pq.Props
open Spec

/-! ### C48 -/

theorem le4 (x : BitVec 32) : nativeToLe 4 x = leBytes 4 x.toNat := (C29_native 4 x).1
theorem le8 (x : BitVec 64) : nativeToLe 8 x = leBytes 8 x.toNat := (C29_native 8 x).1
theorem le12 (x : Int96) : int96ToLe x = int96Bytes x := (C29_int96 x).1

/-- Column types for the examples. -/
def exampleType (t : PhysicalType) : PrimitiveType :=
  { fieldInfo := { name := "c", repetition := .optional, id := none }
    logicalType := none, convertedType := none, physicalType := t }

/-- An int32 statistics. -/
def exampleInt32 (lo hi : BitVec 32) (nulls : Option I64) : Statistics :=
  .int32 { primitiveType := exampleType .int32, nullCount := nulls, distinctCount := none
           minValue := some lo, maxValue := some hi }

/-- **C48** (format): every statistics of a column type is written with the counts unchanged and the
bounds plain-encoded, the deprecated fields absent. -/
theorem C48_write (s : Statistics) (pt : PrimitiveType) (h : OfType s pt) :
    serializeStatistics s = .ok
      { nullCount := s.nullCount, distinctCount := distinctOf s
        minValue := plainMin s, maxValue := plainMax s, min := none, max := none } := by
  have e4 : nativeToLe 4 = fun x : BitVec 32 => leBytes 4 x.toNat := funext le4
  have e8 : nativeToLe 8 = fun x : BitVec 64 => leBytes 8 x.toNat := funext le8
  have e12 : int96ToLe = int96Bytes := funext le12
  cases s with
  | boolean s => rfl
  | int32 s => simp only [serializeStatistics, primitiveWrite, e4]; rfl
  | int64 s => simp only [serializeStatistics, primitiveWrite, e8]; rfl
  | int96 s => simp only [serializeStatistics, primitiveWrite, e12]; rfl
  | float s => simp only [serializeStatistics, primitiveWrite, e4]; rfl
  | double s => simp only [serializeStatistics, primitiveWrite, e8]; rfl
  | binary s => rfl
  | fixedLen s =>
    obtain ⟨h1, n, h2, _⟩ := h
    simp only [serializeStatistics, h1, h2]
    rfl

example : OfType (exampleInt32 (-5#32) 7#32 (some 1#64)) (exampleType .int32) := ⟨rfl, rfl⟩
example : serializeStatistics (exampleInt32 (-5#32) 7#32 (some 1#64)) = .ok
    { nullCount := some 1#64, minValue := some [251#8, 255#8, 255#8, 255#8]
      maxValue := some [7#8, 0#8, 0#8, 0#8] } := by decide +kernel

theorem checkWidth_ok (v : Thrift.Statistics) (n : Nat) (h1 : ∀ x, v.maxValue = some x → x.length = n)
    (h2 : ∀ x, v.minValue = some x → x.length = n) : checkWidth v n = .ok () := by
  unfold checkWidth
  cases hmx : v.maxValue with
  | none =>
    cases hmn : v.minValue with
    | none => rfl
    | some y => simp [h2 y hmn]
  | some x =>
    cases hmn : v.minValue with
    | none => simp [h1 x hmx]
    | some y => simp [h1 x hmx, h2 y hmn]

theorem checkWidth_err (v : Thrift.Statistics) (n : Nat) (h : ¬ ((∀ x, v.maxValue = some x → x.length = n) ∧
    ∀ x, v.minValue = some x → x.length = n)) : checkWidth v n = .err .oos := by
  unfold checkWidth
  cases hmx : v.maxValue with
  | none =>
    cases hmn : v.minValue with
    | none => simp [hmx, hmn] at h
    | some y => simp only [hmx, hmn] at h; simp at h; simp [h]
  | some x =>
    by_cases hx : x.length = n
    · cases hmn : v.minValue with
      | none => simp [hmx, hmn, hx] at h
      | some y => simp only [hmx, hmn] at h; simp [hx] at h; simp [hx, h]
    · simp [hx]

theorem primitiveRead_write {α : Type} (n : Nat) (toLe : α → List Byte) (decode : List Byte → Res α)
    (hlen : ∀ x, (toLe x).length = n) (hdec : ∀ x, decode (toLe x) = .ok x)
    (s : PrimitiveStatistics α) :
    primitiveRead n decode (primitiveWrite toLe s) s.primitiveType = .ok s := by
  unfold primitiveRead
  rw [checkWidth_ok]
  · obtain ⟨pt, nc, dc, mn, mx⟩ := s
    cases mn <;> cases mx <;> simp [primitiveWrite, optionMapRes, hdec, Res.map']
  · intro x hx
    simp only [primitiveWrite] at hx
    cases hv : s.maxValue with
    | none => rw [hv] at hx; simp at hx
    | some y => rw [hv] at hx; simp at hx; rw [← hx, hlen]
  · intro x hx
    simp only [primitiveWrite] at hx
    cases hv : s.minValue with
    | none => rw [hv] at hx; simp at hx
    | some y => rw [hv] at hx; simp at hx; rw [← hx, hlen]

/-- **C48** (round trip): what is written for a statistics of a column type reads back as that
statistics, for every physical type. -/
theorem C48_roundtrip (s : Statistics) (pt : PrimitiveType) (h : OfType s pt) :
    (serializeStatistics s >>= fun v => deserializeStatistics v pt) = .ok s := by
  have n4 : ∀ x : BitVec 32, (nativeToLe 4 x).length = 4 := fun x => Deser.toLe_length 4 x
  have n8 : ∀ x : BitVec 64, (nativeToLe 8 x).length = 8 := fun x => Deser.toLe_length 8 x
  cases s with
  | boolean s =>
    simp only [OfType] at h
    simp only [serializeStatistics, Res.ok_bind, deserializeStatistics, h, booleanRead]
    rw [checkWidth_ok]
    · obtain ⟨nc, dc, mx, mn⟩ := s
      cases mn with
      | none => cases mx with
        | none => rfl
        | some b => cases b <;> rfl
      | some a => cases mx with
        | none => cases a <;> rfl
        | some b => cases a <;> cases b <;> rfl
    · intro x hx
      simp only [booleanWrite] at hx
      cases hv : s.maxValue with
      | none => rw [hv] at hx; simp at hx
      | some y => rw [hv] at hx; simp at hx; rw [← hx]; rfl
    · intro x hx
      simp only [booleanWrite] at hx
      cases hv : s.minValue with
      | none => rw [hv] at hx; simp at hx
      | some y => rw [hv] at hx; simp at hx; rw [← hx]; rfl
  | int32 s =>
    obtain ⟨rfl, h⟩ := h
    simp only [serializeStatistics, Res.ok_bind, deserializeStatistics, h]
    rw [primitiveRead_write 4 (nativeToLe 4) (nativeDecode 4) n4 (fun x => (C29_native 4 x).2.1)]
    rfl
  | int64 s =>
    obtain ⟨rfl, h⟩ := h
    simp only [serializeStatistics, Res.ok_bind, deserializeStatistics, h]
    rw [primitiveRead_write 8 (nativeToLe 8) (nativeDecode 8) n8 (fun x => (C29_native 8 x).2.1)]
    rfl
  | int96 s =>
    obtain ⟨rfl, h⟩ := h
    simp only [serializeStatistics, Res.ok_bind, deserializeStatistics, h]
    rw [primitiveRead_write 12 int96ToLe int96Decode (fun _ => rfl) (fun x => (C29_int96 x).2.1)]
    rfl
  | float s =>
    obtain ⟨rfl, h⟩ := h
    simp only [serializeStatistics, Res.ok_bind, deserializeStatistics, h]
    rw [primitiveRead_write 4 (nativeToLe 4) (nativeDecode 4) n4 (fun x => (C29_native 4 x).2.1)]
    rfl
  | double s =>
    obtain ⟨rfl, h⟩ := h
    simp only [serializeStatistics, Res.ok_bind, deserializeStatistics, h]
    rw [primitiveRead_write 8 (nativeToLe 8) (nativeDecode 8) n8 (fun x => (C29_native 8 x).2.1)]
    rfl
  | binary s =>
    obtain ⟨rfl, h⟩ := h
    simp only [serializeStatistics, Res.ok_bind, deserializeStatistics, h]
    rfl
  | fixedLen s =>
    obtain ⟨rfl, n, h, hmx, hmn⟩ := h
    simp only [serializeStatistics, h, Res.ok_bind, deserializeStatistics, fixedLenRead]
    rw [checkWidth_ok _ _ hmx hmn]
    obtain ⟨pt, nc, dc, mx, mn⟩ := s
    simp only at hmx hmn
    cases mn with
    | none => cases mx with
      | none => rfl
      | some b =>
        simp only [fixedLenWrite, Res.ok_bind, Res.map', Option.map_some, Option.map_none]
        rw [List.take_of_length_le (Nat.le_of_eq (hmx b rfl))]
    | some a => cases mx with
      | none =>
        simp only [fixedLenWrite, Res.ok_bind, Res.map', Option.map_some, Option.map_none]
        rw [List.take_of_length_le (Nat.le_of_eq (hmn a rfl))]
      | some b =>
        simp only [fixedLenWrite, Res.ok_bind, Res.map', Option.map_some]
        rw [List.take_of_length_le (Nat.le_of_eq (hmn a rfl)),
          List.take_of_length_le (Nat.le_of_eq (hmx b rfl))]

example : OfType (exampleInt32 (-5#32) 7#32 (some 1#64)) (exampleType .int32) := ⟨rfl, rfl⟩

/-- **C48** (reading): thrift statistics are accepted exactly when their bounds have the width of the
physical type, and then yield statistics of that type; otherwise they are reported as out of spec. -/
theorem C48_read (v : Thrift.Statistics) (pt : PrimitiveType) :
    (WidthsOk v pt.physicalType → ∃ s, deserializeStatistics v pt = .ok s ∧ OfType s pt ∧
      s.nullCount = v.nullCount ∧ distinctOf s = v.distinctCount ∧
      (pt.physicalType ≠ .boolean → plainMin s = v.minValue ∧ plainMax s = v.maxValue)) ∧
    (¬ WidthsOk v pt.physicalType → deserializeStatistics v pt = .err .oos) := by
  have prim : ∀ {α : Type} (n : Nat) (decode : List Byte → Res α) (toLe : α → List Byte),
      (∀ chunk : List Byte, chunk.length = n → ∃ y, decode chunk = .ok y ∧ toLe y = chunk) →
      (∀ x, v.maxValue = some x → x.length = n) → (∀ x, v.minValue = some x → x.length = n) →
      ∃ s : PrimitiveStatistics α, primitiveRead n decode v pt = .ok s ∧ s.primitiveType = pt ∧
        s.nullCount = v.nullCount ∧ s.distinctCount = v.distinctCount ∧
        s.minValue.map toLe = v.minValue ∧ s.maxValue.map toLe = v.maxValue := by
    intro α n decode toLe hd h1 h2
    unfold primitiveRead
    rw [checkWidth_ok v n h1 h2]
    cases hmx : v.maxValue with
    | none =>
      cases hmn : v.minValue with
      | none => exact ⟨_, rfl, rfl, rfl, rfl, rfl, rfl⟩
      | some y =>
        obtain ⟨y', hy, hy'⟩ := hd y (h2 y hmn)
        exact ⟨_, by simp [optionMapRes, hy, Res.map']; rfl, rfl, rfl, rfl, by simp [hy'], rfl⟩
    | some x =>
      obtain ⟨x', hx, hx'⟩ := hd x (h1 x hmx)
      cases hmn : v.minValue with
      | none => exact ⟨_, by simp [optionMapRes, hx, Res.map']; rfl, rfl, rfl, rfl, rfl, by simp [hx']⟩
      | some y =>
        obtain ⟨y', hy, hy'⟩ := hd y (h2 y hmn)
        exact ⟨_, by simp [optionMapRes, hx, hy, Res.map']; rfl, rfl, rfl, rfl, by simp [hy'], by simp [hx']⟩
  have e4 : (fun x : BitVec 32 => leBytes 4 x.toNat) = nativeToLe 4 := (funext le4).symm
  have e8 : (fun x : BitVec 64 => leBytes 8 x.toNat) = nativeToLe 8 := (funext le8).symm
  have e12 : int96Bytes = int96ToLe := (funext le12).symm
  have d4 : ∀ chunk : List Byte, chunk.length = 4 → ∃ y : BitVec 32, nativeDecode 4 chunk = .ok y ∧
    nativeToLe 4 y = chunk := (C29_native 4 0#32).2.2
  have d8 : ∀ chunk : List Byte, chunk.length = 8 → ∃ y : BitVec 64, nativeDecode 8 chunk = .ok y ∧
    nativeToLe 8 y = chunk := (C29_native 8 0#64).2.2
  have d12 := (C29_int96 ⟨0, 0, 0⟩).2.2
  constructor
  · intro hw
    cases ht : pt.physicalType with
    | boolean =>
      obtain ⟨h1, h2⟩ := hw 1 (by rw [ht]; rfl)
      simp only [deserializeStatistics, ht, booleanRead, checkWidth_ok v 1 h1 h2]
      exact ⟨_, rfl, ht, rfl, rfl, fun h => absurd rfl h⟩
    | int32 =>
      obtain ⟨h1, h2⟩ := hw 4 (by rw [ht]; rfl)
      obtain ⟨s, hs, hp, hn, hdc, hmn, hmx⟩ := prim 4 (nativeDecode 4) (nativeToLe 4) d4 h1 h2
      simp only [deserializeStatistics, ht, hs]
      exact ⟨_, rfl, ⟨hp, ht⟩, hn, hdc, fun _ => ⟨by rw [← hmn]; simp only [plainMin, e4],
        by rw [← hmx]; simp only [plainMax, e4]⟩⟩
    | int64 =>
      obtain ⟨h1, h2⟩ := hw 8 (by rw [ht]; rfl)
      obtain ⟨s, hs, hp, hn, hdc, hmn, hmx⟩ := prim 8 (nativeDecode 8) (nativeToLe 8) d8 h1 h2
      simp only [deserializeStatistics, ht, hs]
      exact ⟨_, rfl, ⟨hp, ht⟩, hn, hdc, fun _ => ⟨by rw [← hmn]; simp only [plainMin, e8],
        by rw [← hmx]; simp only [plainMax, e8]⟩⟩
    | int96 =>
      obtain ⟨h1, h2⟩ := hw 12 (by rw [ht]; rfl)
      obtain ⟨s, hs, hp, hn, hdc, hmn, hmx⟩ := prim 12 int96Decode int96ToLe d12 h1 h2
      simp only [deserializeStatistics, ht, hs]
      exact ⟨_, rfl, ⟨hp, ht⟩, hn, hdc, fun _ => ⟨by rw [← hmn]; simp only [plainMin, e12],
        by rw [← hmx]; simp only [plainMax, e12]⟩⟩
    | float =>
      obtain ⟨h1, h2⟩ := hw 4 (by rw [ht]; rfl)
      obtain ⟨s, hs, hp, hn, hdc, hmn, hmx⟩ := prim 4 (nativeDecode 4) (nativeToLe 4) d4 h1 h2
      simp only [deserializeStatistics, ht, hs]
      exact ⟨_, rfl, ⟨hp, ht⟩, hn, hdc, fun _ => ⟨by rw [← hmn]; simp only [plainMin, e4],
        by rw [← hmx]; simp only [plainMax, e4]⟩⟩
    | double =>
      obtain ⟨h1, h2⟩ := hw 8 (by rw [ht]; rfl)
      obtain ⟨s, hs, hp, hn, hdc, hmn, hmx⟩ := prim 8 (nativeDecode 8) (nativeToLe 8) d8 h1 h2
      simp only [deserializeStatistics, ht, hs]
      exact ⟨_, rfl, ⟨hp, ht⟩, hn, hdc, fun _ => ⟨by rw [← hmn]; simp only [plainMin, e8],
        by rw [← hmx]; simp only [plainMax, e8]⟩⟩
    | byteArray =>
      simp only [deserializeStatistics, ht]
      exact ⟨_, rfl, ⟨rfl, ht⟩, rfl, rfl, fun _ => ⟨rfl, rfl⟩⟩
    | fixedLenByteArray n =>
      obtain ⟨h1, h2⟩ := hw n (by rw [ht]; rfl)
      have t1 : v.maxValue.map (·.take n) = v.maxValue := by
        cases hv : v.maxValue with
        | none => rfl
        | some x => rw [Option.map_some, List.take_of_length_le (Nat.le_of_eq (h1 x hv))]
      have t2 : v.minValue.map (·.take n) = v.minValue := by
        cases hv : v.minValue with
        | none => rfl
        | some x => rw [Option.map_some, List.take_of_length_le (Nat.le_of_eq (h2 x hv))]
      simp only [deserializeStatistics, ht, fixedLenRead, checkWidth_ok v n h1 h2, t1, t2]
      exact ⟨_, rfl, ⟨rfl, n, ht, h1, h2⟩, rfl, rfl, fun _ => ⟨rfl, rfl⟩⟩
  · intro hw
    have bad : ∀ n, plainWidth pt.physicalType = some n → checkWidth v n = .err .oos := by
      intro n hn
      apply checkWidth_err
      intro hc
      apply hw
      intro w h
      rw [hn] at h
      simp only [Option.some.injEq] at h
      subst h
      exact hc
    cases ht : pt.physicalType with
    | boolean => simp [deserializeStatistics, ht, booleanRead, bad 1 (by rw [ht]; rfl), Res.map']
    | int32 => simp [deserializeStatistics, ht, primitiveRead, bad 4 (by rw [ht]; rfl), Res.map']
    | int64 => simp [deserializeStatistics, ht, primitiveRead, bad 8 (by rw [ht]; rfl), Res.map']
    | int96 => simp [deserializeStatistics, ht, primitiveRead, bad 12 (by rw [ht]; rfl), Res.map']
    | float => simp [deserializeStatistics, ht, primitiveRead, bad 4 (by rw [ht]; rfl), Res.map']
    | double => simp [deserializeStatistics, ht, primitiveRead, bad 8 (by rw [ht]; rfl), Res.map']
    | byteArray =>
      exfalso
      apply hw
      intro w h
      rw [ht] at h
      simp [plainWidth] at h
    | fixedLenByteArray n =>
      simp [deserializeStatistics, ht, fixedLenRead, bad n (by rw [ht]; rfl), Res.map']

example : WidthsOk { minValue := some [1#8, 2#8, 3#8], maxValue := none } (.fixedLenByteArray 3) := by
  intro w h
  simp [plainWidth] at h
  subst h
  simp
example : ¬ WidthsOk { minValue := some [1#8, 2#8, 3#8], maxValue := none } .int32 := by
  intro h
  have := (h 4 rfl).2 [1#8, 2#8, 3#8] rfl
  simp at this

/-- **C48** (reading booleans): a one-byte bound reads as true exactly when the byte is non-zero. -/
theorem C48_read_boolean (v : Thrift.Statistics) (pt : PrimitiveType) (hpt : pt.physicalType = .boolean)
    (b c : Byte) (hmn : v.minValue = some [b]) (hmx : v.maxValue = some [c]) :
    deserializeStatistics v pt = .ok (.boolean
      { nullCount := v.nullCount, distinctCount := v.distinctCount
        minValue := some (decide (b.toNat ≠ 0)), maxValue := some (decide (c.toNat ≠ 0)) }) := by
  have h : ∀ b : Byte, decide (b ≠ 0#8) = decide (b.toNat ≠ 0) := by
    intro b
    rw [decide_eq_decide]
    constructor
    · intro h hb
      exact h (BitVec.eq_of_toNat_eq (by simpa using hb))
    · intro h hb
      exact h (by rw [hb]; rfl)
  simp only [deserializeStatistics, hpt, booleanRead]
  rw [checkWidth_ok v 1 (by rw [hmx]; simp) (by rw [hmn]; simp)]
  simp only [Res.ok_bind, Res.map', hmn, hmx, Option.bind_some, List.head?_cons, Option.map_some, h]

example : deserializeStatistics { nullCount := some 3#64, minValue := some [0#8], maxValue := some [2#8] }
      { fieldInfo := { name := "c", repetition := .optional, id := none }
        logicalType := none, convertedType := none, physicalType := .boolean }
    = .ok (.boolean { nullCount := some 3#64, distinctCount := none, minValue := some false
                      maxValue := some true }) := by decide +kernel

/-! ### C46 -/

/-- **C46** for the pages that carry statistics, none of them NaN: the merged numeric minimum
(maximum) is one of the pages' and bounds them all; it is absent iff no page has one. Missing: pages
without statistics are ignored and NaN bounds are not handled (`C46_violated`). -/
theorem C46_bounds_partial (ck : Bool) (pages : List (Option Statistics)) (r : Statistics)
    (h : reduceStatistics ck pages = .ok (some r))
    (hnan : ∀ s, some s ∈ pages → numMin s ≠ some none ∧ numMax s ≠ some none) :
    Extremum numLe ((pages.filterMap id).map numMin) (numMin r) ∧
    Extremum numGe ((pages.filterMap id).map numMax) (numMax r) := by
  obtain ⟨hm, _⟩ := reduceStatistics_ok ck pages r h
  have hnan' : ∀ s ∈ pages.filterMap id, numMin s ≠ some none ∧ numMax s ≠ some none := by
    intro s hs
    obtain ⟨a, ha, hb⟩ := List.mem_filterMap.1 hs
    simp only [id] at hb
    subst hb
    exact hnan s ha
  have hint : ∀ (w : Nat) (x y : BitVec w) (a b : Int), (some ∘ BitVec.toInt) x = some a →
      (some ∘ BitVec.toInt) y = some b → intGt x y = decide (b < a) := by
    intro w x y a b ha hb
    simp only [Function.comp_apply, Option.some.injEq] at ha hb
    subst ha hb
    rfl
  cases hm with
  | boolean l x hl hx =>
    rw [hl, List.map_map, List.map_map]
    exact reduceBoolean_bounds ck l x hx
  | int32 l x hl hx =>
    rw [hl, List.map_map, List.map_map]
    exact reducePrimitive_bounds ck intGt (some ∘ BitVec.toInt) (hint 32) l x hx
      (fun _ _ v _ => by simp) (fun _ _ v _ => by simp)
  | int64 l x hl hx =>
    rw [hl, List.map_map, List.map_map]
    exact reducePrimitive_bounds ck intGt (some ∘ BitVec.toInt) (hint 64) l x hx
      (fun _ _ v _ => by simp) (fun _ _ v _ => by simp)
  | float l x hl hx =>
    rw [hl] at hnan' ⊢
    rw [List.map_map, List.map_map]
    refine reducePrimitive_bounds ck _ (floatVal 8 23) (fun x y a b => floatGt_val 8 23 x y a b) l x hx ?_ ?_
    · intro s hs v hv hn
      have := (hnan' (.float s) (List.mem_map_of_mem hs)).1
      simp [numMin, hv, hn] at this
    · intro s hs v hv hn
      have := (hnan' (.float s) (List.mem_map_of_mem hs)).2
      simp [numMax, hv, hn] at this
  | double l x hl hx =>
    rw [hl] at hnan' ⊢
    rw [List.map_map, List.map_map]
    refine reducePrimitive_bounds ck _ (floatVal 11 52) (fun x y a b => floatGt_val 11 52 x y a b) l x hx ?_ ?_
    · intro s hs v hv hn
      have := (hnan' (.double s) (List.mem_map_of_mem hs)).1
      simp [numMin, hv, hn] at this
    · intro s hs v hv hn
      have := (hnan' (.double s) (List.mem_map_of_mem hs)).2
      simp [numMax, hv, hn] at this
  | binary l x hl hx =>
    rw [hl]
    exact ⟨fun y hy => by simp [numMin] at hy; exact hy.2.symm ▸ rfl,
      fun y hy => by simp [numMax] at hy; exact hy.2.symm ▸ rfl⟩
  | fixedLen l x hl hx =>
    rw [hl]
    exact ⟨fun y hy => by simp [numMin] at hy; exact hy.2.symm ▸ rfl,
      fun y hy => by simp [numMax] at hy; exact hy.2.symm ▸ rfl⟩

example : reduceStatistics true [some (exampleInt32 5#32 7#32 (some 1#64)), none,
      some (exampleInt32 (-3#32) 6#32 (some 2#64))]
    = .ok (some (exampleInt32 (-3#32) 7#32 (some 3#64))) := by decide +kernel
example : ∀ s, some s ∈ [some (exampleInt32 5#32 7#32 (some 1#64))] →
    numMin s ≠ some none ∧ numMax s ≠ some none := by
  intro s hs
  simp only [List.mem_singleton, Option.some.injEq] at hs
  subst hs
  decide

/-- **C46** counts and types, for all pages carrying statistics: the null count is the sum of the
counts present (exactly, with overflow checks; modulo 2^64 without), the type is the pages' common
type, and a distinct count survives only if there is a single page. -/
theorem C46_counts (ck : Bool) (pages : List (Option Statistics)) (r : Statistics)
    (h : reduceStatistics ck pages = .ok (some r)) :
    SumOf ((pages.filterMap id).map (·.nullCount)) r.nullCount ∧
    (ck = true → ExactSumOf ((pages.filterMap id).map (·.nullCount)) r.nullCount) ∧
    (∀ s, some s ∈ pages → s.physicalType = r.physicalType) ∧
    distinctOf r = (if (pages.filterMap id).length = 1 then (pages.filterMap id).head?.bind distinctOf
      else none) := by
  obtain ⟨hm, hty⟩ := reduceStatistics_ok ck pages r h
  have hty' : ∀ s t, some s ∈ pages → t ∈ pages.filterMap id → s.physicalType = t.physicalType :=
    fun s t hs ht => hty s (List.mem_filterMap.2 ⟨_, hs, rfl⟩) t ht
  have hin : ∀ s, some s ∈ pages → s ∈ pages.filterMap id :=
    fun s hs => List.mem_filterMap.2 ⟨_, hs, rfl⟩
  cases hm with
  | boolean l x hl hx =>
    obtain ⟨c1, c2, c3⟩ := reduceBoolean_counts ck l x hx
    refine ⟨?_, ?_, ?_, ?_⟩
    · rw [hl, List.map_map]; exact c1
    · rw [hl, List.map_map]; exact c2
    · intro s hs
      have := hin s hs
      rw [hl] at this
      obtain ⟨b, _, rfl⟩ := List.mem_map.1 this
      rfl
    · simp only [distinctOf, c3, hl, List.length_map]
      cases l <;> rfl
  | int32 l x hl hx =>
    obtain ⟨⟨c1, c2, c3⟩, _⟩ := reducePrimitive_counts ck _ l x hx
    refine ⟨?_, ?_, ?_, ?_⟩
    · rw [hl, List.map_map]; exact c1
    · rw [hl, List.map_map]; exact c2
    · intro s hs
      have := hin s hs
      rw [hl] at this
      obtain ⟨b, _, rfl⟩ := List.mem_map.1 this
      rfl
    · simp only [distinctOf, c3, hl, List.length_map]
      cases l <;> rfl
  | int64 l x hl hx =>
    obtain ⟨⟨c1, c2, c3⟩, _⟩ := reducePrimitive_counts ck _ l x hx
    refine ⟨?_, ?_, ?_, ?_⟩
    · rw [hl, List.map_map]; exact c1
    · rw [hl, List.map_map]; exact c2
    · intro s hs
      have := hin s hs
      rw [hl] at this
      obtain ⟨b, _, rfl⟩ := List.mem_map.1 this
      rfl
    · simp only [distinctOf, c3, hl, List.length_map]
      cases l <;> rfl
  | float l x hl hx =>
    obtain ⟨⟨c1, c2, c3⟩, _⟩ := reducePrimitive_counts ck _ l x hx
    refine ⟨?_, ?_, ?_, ?_⟩
    · rw [hl, List.map_map]; exact c1
    · rw [hl, List.map_map]; exact c2
    · intro s hs
      have := hin s hs
      rw [hl] at this
      obtain ⟨b, _, rfl⟩ := List.mem_map.1 this
      rfl
    · simp only [distinctOf, c3, hl, List.length_map]
      cases l <;> rfl
  | double l x hl hx =>
    obtain ⟨⟨c1, c2, c3⟩, _⟩ := reducePrimitive_counts ck _ l x hx
    refine ⟨?_, ?_, ?_, ?_⟩
    · rw [hl, List.map_map]; exact c1
    · rw [hl, List.map_map]; exact c2
    · intro s hs
      have := hin s hs
      rw [hl] at this
      obtain ⟨b, _, rfl⟩ := List.mem_map.1 this
      rfl
    · simp only [distinctOf, c3, hl, List.length_map]
      cases l <;> rfl
  | binary l x hl hx =>
    obtain ⟨⟨c1, c2, c3⟩, _⟩ := reduceBinary_counts ck l x hx
    refine ⟨?_, ?_, ?_, ?_⟩
    · rw [hl, List.map_map]; exact c1
    · rw [hl, List.map_map]; exact c2
    · intro s hs
      have := hin s hs
      rw [hl] at this
      obtain ⟨b, _, rfl⟩ := List.mem_map.1 this
      rfl
    · simp only [distinctOf, c3, hl, List.length_map]
      cases l <;> rfl
  | fixedLen l x hl hx =>
    obtain ⟨⟨c1, c2, c3⟩, hp⟩ := reduceFixLenBinary_counts ck l x hx
    refine ⟨?_, ?_, ?_, ?_⟩
    · rw [hl, List.map_map]; exact c1
    · rw [hl, List.map_map]; exact c2
    · intro s hs
      cases l with
      | nil => simp at hp
      | cons f fs =>
        have h1 := hty' s (.fixedLen f) hs (by rw [hl]; simp)
        rw [h1]
        simp only [List.head?_cons, Option.map_some, Option.some.injEq] at hp
        simp only [Statistics.physicalType, hp]
    · simp only [distinctOf, c3, hl, List.length_map]
      cases l <;> rfl

example : reduceStatistics true [some (exampleInt32 5#32 7#32 (some 1#64)), none,
      some (exampleInt32 (-3#32) 6#32 (some 2#64))]
    = .ok (some (exampleInt32 (-3#32) 7#32 (some 3#64))) := by decide +kernel

/-- **C46** outcomes: without any page statistics there are no chunk statistics, and pages of
different types are refused. -/
theorem C46_outcome (ck : Bool) (pages : List (Option Statistics)) :
    (reduceStatistics ck pages = .ok none ↔ ∀ p ∈ pages, p = none) ∧
    ((∃ s t, some s ∈ pages ∧ some t ∈ pages ∧ s.physicalType ≠ t.physicalType) →
      reduceStatistics ck pages = .err .oos) := by
  constructor
  · constructor
    · intro h
      unfold reduceStatistics at h
      split at h
      · rename_i he
        intro p hp
        rw [List.isEmpty_iff] at he
        rw [he] at hp
        simp at hp
      · simp only at h
        split at h
        · rename_i heq
          exact List.filterMap_eq_nil_iff.1 heq
        · exfalso
          split at h
          · simp at h
          · split at h
            all_goals try (simp at h; done)
            all_goals
              rw [Res.bind_eq_ok] at h
              obtain ⟨l, h1, h2⟩ := h
              obtain ⟨x, h4, h3⟩ := map'_ok _ _ _ h2
              simp at h3
    · intro h
      unfold reduceStatistics
      split
      · rfl
      · simp only [filterMap_id_none pages h]
  · rintro ⟨s, t, hs, ht, hne⟩
    have hs' : s ∈ pages.filterMap id := List.mem_filterMap.2 ⟨_, hs, rfl⟩
    have ht' : t ∈ pages.filterMap id := List.mem_filterMap.2 ⟨_, ht, rfl⟩
    unfold reduceStatistics
    rw [if_neg (by intro he; rw [List.isEmpty_iff] at he; rw [he] at hs; simp at hs)]
    simp only
    split
    · rename_i heq; rw [heq] at hs'; simp at hs'
    · rename_i first rest heq
      rw [if_pos]
      intro hall
      have hty : ∀ s ∈ first :: rest, s.physicalType = first.physicalType := by
        intro s hs
        rcases List.mem_cons.1 hs with rfl | hs
        · rfl
        · have := List.all_eq_true.1 hall s hs
          simpa using this
      rw [heq] at hs' ht'
      exact hne (by rw [hty s hs', hty t ht'])

example : (exampleInt32 5#32 7#32 none).physicalType ≠
    (Statistics.boolean { nullCount := none, distinctCount := none, minValue := none, maxValue := none }).physicalType := by
  decide

/-- **C46 is violated**: a page without statistics (its values are unknown) is ignored, so bounds and
null count of the chunk are claimed without it; a page without a null count is counted as if it had
none; a NaN bound hides the others; and merging int96 statistics panics (`todo!()`). -/
theorem C46_violated :
    reduceStatistics true [some (exampleInt32 5#32 7#32 (some 1#64)), none]
      = .ok (some (exampleInt32 5#32 7#32 (some 1#64))) ∧
    reduceStatistics true [some (exampleInt32 5#32 7#32 (some 1#64)), some (exampleInt32 5#32 7#32 none)]
      = .ok (some (exampleInt32 5#32 7#32 (some 1#64))) ∧
    (let nan := 0x7fc00000#32
     let one := 0x3f800000#32
     let stat (x : BitVec 32) : Statistics := .float
       { primitiveType := exampleType .float, nullCount := none, distinctCount := none
         minValue := some x, maxValue := some x }
     reduceStatistics true [some (stat nan), some (stat one)] = .ok (some (.float
       { primitiveType := exampleType .float, nullCount := none, distinctCount := none
         minValue := some nan, maxValue := some one }))) ∧
    reduceStatistics true [some (.int96 { primitiveType := exampleType .int96, nullCount := none
                                          distinctCount := none, minValue := none, maxValue := none })]
      = .panic := by
  decide +kernel

/-! ### C47 -/

/-- A byte-array statistics. -/
def exampleBinary (lo hi : List Byte) : Statistics :=
  .binary { primitiveType := exampleType .byteArray, nullCount := some 0#64, distinctCount := none
            minValue := some lo, maxValue := some hi }

/-- A statistics of byte arrays of length 2. -/
def exampleFixed (lo hi : List Byte) : Statistics :=
  .fixedLen { primitiveType := exampleType (.fixedLenByteArray 2), nullCount := some 0#64
              distinctCount := none, minValue := some lo, maxValue := some hi }

/-- **C47** when no minimum (maximum) is a proper prefix of another one: the merged bounds are the
extrema in lexicographic order. Missing: proper prefixes (`C47_violated`). -/
theorem C47_bounds_partial (ck : Bool) (pages : List (Option Statistics)) (r : Statistics)
    (h : reduceStatistics ck pages = .ok (some r))
    (hmin : ∀ s t a b, some s ∈ pages → some t ∈ pages → bytesMin s = some a → bytesMin t = some b →
      a <+: b → a = b)
    (hmax : ∀ s t a b, some s ∈ pages → some t ∈ pages → bytesMax s = some a → bytesMax t = some b →
      a <+: b → a = b) :
    Extremum lexLe ((pages.filterMap id).map bytesMin) (bytesMin r) ∧
    Extremum (fun a b => lexLe b a) ((pages.filterMap id).map bytesMax) (bytesMax r) := by
  obtain ⟨hm, _⟩ := reduceStatistics_ok ck pages r h
  have out : ∀ s ∈ pages.filterMap id, some s ∈ pages := by
    intro s hs
    obtain ⟨a, ha, hb⟩ := List.mem_filterMap.1 hs
    simp only [id] at hb
    subst hb
    exact ha
  have free1 : PrefixFree ((pages.filterMap id).map bytesMin) := by
    intro a b ha hb
    obtain ⟨s, hs, hsa⟩ := List.mem_map.1 ha
    obtain ⟨t, ht, htb⟩ := List.mem_map.1 hb
    exact hmin s t a b (out s hs) (out t ht) hsa htb
  have free2 : PrefixFree ((pages.filterMap id).map bytesMax) := by
    intro a b ha hb
    obtain ⟨s, hs, hsa⟩ := List.mem_map.1 ha
    obtain ⟨t, ht, htb⟩ := List.mem_map.1 hb
    exact hmax s t a b (out s hs) (out t ht) hsa htb
  have triv : ∀ {α : Type} (l : List α) (c : α → Statistics),
      (∀ x, bytesMin (c x) = none ∧ bytesMax (c x) = none) →
      Extremum lexLe ((l.map c).map bytesMin) none ∧
      Extremum (fun a b => lexLe b a) ((l.map c).map bytesMax) none := by
    intro α l c hc
    constructor
    · intro y hy
      rw [List.map_map] at hy
      obtain ⟨x, _, rfl⟩ := List.mem_map.1 hy
      exact (hc x).1
    · intro y hy
      rw [List.map_map] at hy
      obtain ⟨x, _, rfl⟩ := List.mem_map.1 hy
      exact (hc x).2
  cases hm with
  | boolean l x hl hx => rw [hl]; exact triv l _ fun _ => ⟨rfl, rfl⟩
  | int32 l x hl hx => rw [hl]; exact triv l _ fun _ => ⟨rfl, rfl⟩
  | int64 l x hl hx => rw [hl]; exact triv l _ fun _ => ⟨rfl, rfl⟩
  | float l x hl hx => rw [hl]; exact triv l _ fun _ => ⟨rfl, rfl⟩
  | double l x hl hx => rw [hl]; exact triv l _ fun _ => ⟨rfl, rfl⟩
  | binary l x hl hx =>
    rw [hl, List.map_map] at free1 free2
    rw [hl, List.map_map, List.map_map]
    exact reduceBinary_bounds ck l x hx free1 free2
  | fixedLen l x hl hx =>
    rw [hl, List.map_map] at free1 free2
    rw [hl, List.map_map, List.map_map]
    exact reduceFixLenBinary_bounds ck l x hx free1 free2

example : reduceStatistics true [some (exampleBinary [1#8, 2#8] [3#8]), some (exampleBinary [1#8, 1#8, 9#8] [4#8])]
    = .ok (some (exampleBinary [1#8, 1#8, 9#8] [4#8])) := by decide +kernel

/-- **C47** holds in full for fixed-length byte arrays: all statistics of one column type. -/
theorem C47_fixed_len (ck : Bool) (pages : List (Option Statistics)) (r : Statistics)
    (pt : PrimitiveType) (n : Nat) (hpt : pt.physicalType = .fixedLenByteArray n)
    (h : reduceStatistics ck pages = .ok (some r)) (hty : ∀ s, some s ∈ pages → OfType s pt) :
    Extremum lexLe ((pages.filterMap id).map bytesMin) (bytesMin r) ∧
    Extremum (fun a b => lexLe b a) ((pages.filterMap id).map bytesMax) (bytesMax r) := by
  have key : ∀ s, some s ∈ pages → (∀ x, bytesMin s = some x → x.length = n) ∧
      ∀ x, bytesMax s = some x → x.length = n := by
    intro s hs
    have := hty s hs
    cases s with
    | fixedLen s =>
      obtain ⟨_, m, hm, h1, h2⟩ := this
      rw [hpt] at hm
      simp only [PhysicalType.fixedLenByteArray.injEq] at hm
      subst hm
      exact ⟨h2, h1⟩
    | binary s => obtain ⟨_, hb⟩ := this; rw [hpt] at hb; simp at hb
    | boolean s => exact ⟨by simp [bytesMin], by simp [bytesMax]⟩
    | int32 s => exact ⟨by simp [bytesMin], by simp [bytesMax]⟩
    | int64 s => exact ⟨by simp [bytesMin], by simp [bytesMax]⟩
    | int96 s => exact ⟨by simp [bytesMin], by simp [bytesMax]⟩
    | float s => exact ⟨by simp [bytesMin], by simp [bytesMax]⟩
    | double s => exact ⟨by simp [bytesMin], by simp [bytesMax]⟩
  refine C47_bounds_partial ck pages r h ?_ ?_
  · intro s t a b hs ht ha hb hab
    exact hab.eq_of_length (by rw [(key s hs).1 a ha, (key t ht).1 b hb])
  · intro s t a b hs ht ha hb hab
    exact hab.eq_of_length (by rw [(key s hs).2 a ha, (key t ht).2 b hb])

example : OfType (exampleFixed [1#8, 2#8] [3#8, 0#8]) (exampleType (.fixedLenByteArray 2)) :=
  ⟨rfl, 2, rfl, by simp, by simp⟩
example : reduceStatistics true [some (exampleFixed [1#8, 2#8] [3#8, 0#8]), some (exampleFixed [1#8, 1#8] [2#8, 9#8])]
    = .ok (some (exampleFixed [1#8, 1#8] [3#8, 0#8])) := by decide +kernel

/-- **C47 is violated** when one bound is a proper prefix of the other: the first page's is kept, so
the merged minimum `[1, 2]` is above the second page's `[1]`, and the merged maximum `[5]` below
`[5, 6]`. -/
theorem C47_violated :
    reduceStatistics true [some (exampleBinary [1#8, 2#8] [5#8]), some (exampleBinary [1#8] [5#8, 6#8])]
      = .ok (some (exampleBinary [1#8, 2#8] [5#8])) ∧
    ¬ lexLe [1#8, 2#8] [1#8] ∧ ¬ lexLe [5#8, 6#8] [5#8] := by
  decide +kernel

end Pq.Props
