import Verif.Spec.ArbitraryIndex
import Verif.Lemmas.ArbitraryFile
import Verif.Lemmas.Reserialise
import Verif.Lemmas.Intervals
/-
Lemmas about reading page indexes of arbitrary bytes.
-/
namespace Pq
open Spec

/-! ### Column indexes -/

theorem tryNewIndex_ne_panic {α : Type} {decode : List Byte → Res α} (hd : ∀ x, decode x ≠ .panic)
    (index : Thrift.ColumnIndex) (make : List (PageIndex α) → BoundaryOrder → Index) :
    tryNewIndex decode index make ≠ .panic := by
  rw [tryNewIndex]
  refine bind_ne_panic (collectRes_ne_panic fun x hx => ?_) fun _ _ => bind_ne_panic ?_ fun _ _ => by simp
  · obtain ⟨row, -, rfl⟩ := List.mem_map.1 hx
    rw [pageIndex]
    split
    · simp
    · exact bind_ne_panic (hd _) fun _ _ => bind_ne_panic (hd _) fun _ _ => by simp
  · unfold BoundaryOrder.ofThrift; repeat' split
    all_goals simp

theorem collectRes_panic_iff {α : Type} {xs : List (Res α)} (h : ∀ x ∈ xs, ∀ e, x ≠ .err e) :
    collectRes xs = .panic ↔ .panic ∈ xs := by
  induction xs with
  | nil => simp [collectRes]
  | cons x xs ih =>
    have ih := ih fun y hy => h y (List.mem_cons_of_mem _ hy)
    rw [collectRes]
    cases x with
    | err e => exact absurd rfl (h _ (List.mem_cons_self ..) e)
    | panic => simp
    | ok a =>
      rw [Res.ok_bind, List.mem_cons, ← ih]
      cases collectRes xs <;> simp

theorem booleanBound_panic (x : List Byte) : booleanBound x = .panic ↔ x = [] := by
  cases x <;> simp [booleanBound, Res.unwrap, Res.map']

theorem booleanBound_ne_err (x : List Byte) (e : Err) : booleanBound x ≠ .err e := by
  cases x <;> simp [booleanBound, Res.unwrap, Res.map']

theorem mem_indexRows (i : Thrift.ColumnIndex) (mn mx : List Byte) (b : Bool) :
    (∃ n, (((mn, mx), b), n) ∈ indexRows i) ↔
      ∃ k : Nat, i.nullPages[k]? = some b ∧ i.minValues[k]? = some mn ∧ i.maxValues[k]? = some mx ∧
        ∀ counts, i.nullCounts = some counts → k < counts.length := by
  constructor
  · rintro ⟨n, h⟩
    obtain ⟨k, hk⟩ := List.mem_iff_getElem?.1 h
    unfold indexRows at hk
    simp only [List.getElem?_zip_eq_some] at hk
    obtain ⟨⟨⟨h1, h2⟩, h3⟩, h4⟩ := hk
    refine ⟨k, h3, h1, h2, fun counts hc => ?_⟩
    rw [hc] at h4
    simp only [List.getElem?_map, Option.map_eq_some_iff] at h4
    obtain ⟨_, h4, -⟩ := h4
    exact (List.getElem?_eq_some_iff.1 h4).1
  · rintro ⟨k, h3, h1, h2, h4⟩
    unfold indexRows
    cases hc : i.nullCounts with
    | none =>
      refine ⟨none, List.mem_iff_getElem?.2 ⟨k, ?_⟩⟩
      simp only [List.getElem?_zip_eq_some, h1, h2, h3, and_self, true_and]
      rw [List.getElem?_replicate, if_pos (List.getElem?_eq_some_iff.1 h1).1]
    | some counts =>
      have hk := h4 counts hc
      refine ⟨some counts[k], List.mem_iff_getElem?.2 ⟨k, ?_⟩⟩
      simp only [List.getElem?_zip_eq_some, h1, h2, h3, and_self, true_and]
      rw [List.getElem?_map, List.getElem?_eq_getElem hk]
      rfl

theorem booleanIndex_panic (i : Thrift.ColumnIndex) (make : List (PageIndex Bool) → BoundaryOrder → Index) :
    tryNewIndex booleanBound i make = .panic ↔ EmptyBound i := by
  have hnb : ∀ b, BoundaryOrder.ofThrift b ≠ .panic := by
    intro b; unfold BoundaryOrder.ofThrift; repeat' split
    all_goals simp
  have e1 : tryNewIndex booleanBound i make = .panic ↔
      collectRes ((indexRows i).map (pageIndex booleanBound)) = .panic := by
    rw [tryNewIndex]
    cases collectRes ((indexRows i).map (pageIndex booleanBound)) with
    | err e => simp
    | panic => simp
    | ok xs =>
      rw [Res.ok_bind]
      have := hnb i.boundaryOrder
      cases h : BoundaryOrder.ofThrift i.boundaryOrder <;> simp_all
  rw [e1, collectRes_panic_iff, List.mem_map]
  · constructor
    · rintro ⟨⟨⟨⟨mn, mx⟩, b⟩, n⟩, hm, hp⟩
      have hb : b = false := by
        cases b
        · rfl
        · simp [pageIndex] at hp
      subst hb
      obtain ⟨k, h1, h2, h3, h4⟩ := (mem_indexRows i mn mx false).1 ⟨n, hm⟩
      refine ⟨k, mn, mx, h1, h2, h3, h4, ?_⟩
      simp only [pageIndex] at hp
      cases mn with
      | nil => exact .inl rfl
      | cons x mn =>
        cases mx with
        | nil => exact .inr rfl
        | cons y mx => simp [booleanBound, Res.unwrap, Res.map'] at hp
    · rintro ⟨k, mn, mx, h1, h2, h3, h4, h5⟩
      obtain ⟨n, hm⟩ := (mem_indexRows i mn mx false).2 ⟨k, h1, h2, h3, h4⟩
      refine ⟨_, hm, ?_⟩
      simp only [pageIndex]
      cases mn with
      | nil => simp [booleanBound, Res.unwrap, Res.map']
      | cons x mn =>
        cases mx with
        | nil => simp [booleanBound, Res.unwrap, Res.map']
        | cons y mx => simp at h5
  · intro x hx e
    obtain ⟨⟨⟨⟨mn, mx⟩, b⟩, n⟩, -, rfl⟩ := List.mem_map.1 hx
    cases b <;> simp only [pageIndex]
    · cases mn <;> cases mx <;> simp [booleanBound, Res.unwrap, Res.map']
    · simp

theorem deserializeIndex_panic {codec : Codec Thrift.ColumnIndex} (hs : SaneCodec codec) (data : List Byte)
    (t : PrimitiveType) :
    deserializeIndex codec data t = .panic ↔ EmptyBooleanBound codec data t := by
  rw [deserializeIndex, EmptyBooleanBound]
  have hn : ∀ b x, nativeBound b x ≠ .panic := by intro b x; rw [nativeBound]; split <;> simp
  have hi : ∀ x, int96Bound x ≠ .panic := by intro x; rw [int96Bound]; split <;> simp
  cases hp : (codec.parse (data.length * 2 + 1024) data).1 with
  | err e => simp
  | panic => exact absurd hp (hs.noPanic _ _)
  | ok i =>
    simp only [indexOfThrift, Res.ok.injEq, exists_eq_left']
    cases ht : t.physicalType <;> simp only [reduceCtorEq, false_and, iff_false, true_and]
    · exact booleanIndex_panic i _
    · exact tryNewIndex_ne_panic (hn 4) _ _
    · exact tryNewIndex_ne_panic (hn 8) _ _
    · exact tryNewIndex_ne_panic hi _ _
    · exact tryNewIndex_ne_panic (hn 4) _ _
    · exact tryNewIndex_ne_panic (hn 8) _ _
    · exact tryNewIndex_ne_panic (by simp) _ _
    · exact tryNewIndex_ne_panic (by simp) _ _

/-- The type of the column. -/
abbrev typeOfChunk (c : ColumnChunkMetaData) : PrimitiveType := c.columnDescr.descriptor.primitiveType

theorem total_cons (x : Nat) (xs : List Nat) : total (x :: xs) = x + total xs := rfl

theorem deserializeColumnIndexes_panic {codec : Codec Thrift.ColumnIndex} (hs : SaneCodec codec)
    (data : List Byte) (chunks : List ColumnChunkMetaData) : ∀ (lengths : List Nat) (start : Nat),
    deserializeColumnIndexes codec data start chunks lengths = .panic ↔
      ∃ (k : Nat) (c : ColumnChunkMetaData) (n : Nat), chunks[k]? = some c ∧ lengths[k]? = some n ∧
        (∀ (i : Nat) ci ni, i < k → chunks[i]? = some ci → lengths[i]? = some ni →
          ∃ index, deserializeIndex codec ((data.drop (start + total (lengths.take i))).take ni)
            (typeOfChunk ci) = .ok index) ∧
        (data.length < start + total (lengths.take (k + 1)) ∨
          EmptyBooleanBound codec ((data.drop (start + total (lengths.take k))).take n) (typeOfChunk c)) := by
  induction chunks with
  | nil => intro lengths start; simp [deserializeColumnIndexes]
  | cons chunk chunks ih =>
    intro lengths start
    cases lengths with
    | nil => simp [deserializeColumnIndexes]
    | cons len lengths =>
      rw [deserializeColumnIndexes]
      by_cases hl : start + len ≤ data.length
      · have hsl : slice data start (start + len) = .ok ((data.drop start).take len) := by
          rw [slice, if_pos (by omega), Nat.add_sub_cancel_left]
        rw [hsl, Res.ok_bind]
        have t0 : start + total ((len :: lengths).take 0) = start := rfl
        have tk : ∀ k, start + total ((len :: lengths).take (k + 1)) = start + len + total (lengths.take k) := by
          intro k; rw [List.take_succ_cons, total_cons, Nat.add_assoc]
        by_cases hp : EmptyBooleanBound codec ((data.drop start).take len) (typeOfChunk chunk)
        · rw [(deserializeIndex_panic hs _ _).2 hp]
          refine ⟨fun _ => ⟨0, chunk, len, rfl, rfl, by omega, .inr ?_⟩, fun _ => rfl⟩
          rw [t0]; exact hp
        · have hnp : deserializeIndex codec ((data.drop start).take len) (typeOfChunk chunk) ≠ .panic :=
            fun h => hp ((deserializeIndex_panic hs _ _).1 h)
          cases hd : deserializeIndex codec ((data.drop start).take len) (typeOfChunk chunk) with
          | panic => exact absurd hd hnp
          | err e =>
            refine ⟨fun h => by simp at h, ?_⟩
            rintro ⟨k, c, n, h1, h2, h3, h4⟩
            cases k with
            | zero =>
              simp only [List.getElem?_cons_zero, Option.some.injEq] at h1 h2
              subst h1 h2
              rw [t0] at h4
              rw [tk 0] at h4
              rcases h4 with h4 | h4
              · simp [total] at h4; omega
              · exact absurd h4 hp
            | succ k =>
              obtain ⟨_, h⟩ := h3 0 chunk len (by omega) rfl rfl
              rw [t0, hd] at h
              cases h
          | ok index =>
            rw [Res.ok_bind]
            have key : (deserializeColumnIndexes codec data (start + len) chunks lengths >>= fun rest =>
                (.ok (index :: rest) : Res (List Index))) = .panic ↔
                deserializeColumnIndexes codec data (start + len) chunks lengths = .panic := by
              cases deserializeColumnIndexes codec data (start + len) chunks lengths <;> simp
            rw [key, ih]
            constructor
            · rintro ⟨k, c, n, h1, h2, h3, h4⟩
              refine ⟨k + 1, c, n, h1, h2, fun i ci ni hi e1 e2 => ?_, ?_⟩
              · cases i with
                | zero =>
                  simp only [List.getElem?_cons_zero, Option.some.injEq] at e1 e2
                  subst e1 e2
                  exact ⟨index, by rw [t0]; exact hd⟩
                | succ i =>
                  obtain ⟨x, hx⟩ := h3 i ci ni (by omega) e1 e2
                  exact ⟨x, by rw [tk]; exact hx⟩
              · rw [tk, tk]; exact h4
            · rintro ⟨k, c, n, h1, h2, h3, h4⟩
              cases k with
              | zero =>
                simp only [List.getElem?_cons_zero, Option.some.injEq] at h1 h2
                subst h1 h2
                rw [t0, tk 0] at h4
                rcases h4 with h4 | h4
                · simp [total] at h4; omega
                · exact absurd h4 hp
              | succ k =>
                rw [tk, tk] at h4
                refine ⟨k, c, n, h1, h2, fun i ci ni hi e1 e2 => ?_, h4⟩
                obtain ⟨x, hx⟩ := h3 (i + 1) ci ni (by omega) e1 e2
                rw [tk] at hx
                exact ⟨x, hx⟩
      · have hsl : slice data start (start + len) = .panic := by
          rw [slice, if_neg (by omega)]
        rw [hsl]
        refine ⟨fun _ => ⟨0, chunk, len, rfl, rfl, by omega, .inl ?_⟩, fun _ => rfl⟩
        simp [total]; omega

/-! ### Where the indexes are -/

theorem toUsize_ok_iff {w n : Nat} (x : BitVec w) : toUsize x = .ok n ↔ x.toInt = n := by
  rw [toUsize]
  split
  · rw [Res.ok.injEq]; omega
  · simp; omega

theorem forall2_getElem? {α β : Type} {R : α → β → Prop} {xs : List α} {ys : List β}
    (h : List.Forall₂ R xs ys) : xs.length = ys.length := h.length_eq

theorem collectRes_forall2 {α β : Type} (f : α → Res β) (xs : List α) (ys : List β) :
    collectRes (xs.map f) = .ok ys ↔ List.Forall₂ (fun x y => f x = .ok y) xs ys := by
  rw [collectRes_ok_iff]
  induction xs generalizing ys with
  | nil => cases ys <;> simp
  | cons x xs ih => cases ys <;> simp [ih]

theorem prepareRead_lengths (getLength : Thrift.ColumnChunk → Option I32)
    (chunks : List ColumnChunkMetaData) (lengths : List Nat) :
    collectRes (chunks.map fun x => do
        let length ← Res.ofOption .oos (getLength x.columnChunk)
        toUsize length) = .ok lengths ↔
      List.Forall₂ (fun c (n : Nat) => ∃ l, getLength c.columnChunk = some l ∧ l.toInt = (n : Int)) chunks lengths := by
  rw [collectRes_forall2]
  have : ∀ (c : ColumnChunkMetaData) (n : Nat),
      ((Res.ofOption .oos (getLength c.columnChunk) >>= fun length => toUsize length) = .ok n ↔
      ∃ l, getLength c.columnChunk = some l ∧ l.toInt = (n : Int)) := by
    intro c n
    cases getLength c.columnChunk with
    | none => simp [Res.ofOption]
    | some l => simp [Res.ofOption, toUsize_ok_iff]
  simp only [this]

theorem prepareRead_ne_panic (getOffset : Thrift.ColumnChunk → Option I64)
    (getLength : Thrift.ColumnChunk → Option I32) (chunks : List ColumnChunkMetaData) :
    prepareRead getOffset getLength chunks ≠ .panic := by
  rw [prepareRead.eq_def]
  split
  · simp
  · split
    · simp
    · refine bind_ne_panic (toUsize_ne_panic _) fun _ _ => bind_ne_panic
        (collectRes_ne_panic fun x hx => ?_) fun _ _ => by simp
      obtain ⟨c, -, rfl⟩ := List.mem_map.1 hx
      refine bind_ne_panic ?_ fun _ _ => toUsize_ne_panic _
      cases getLength c.columnChunk <;> simp [Res.ofOption]

theorem lengths_small (getLength : Thrift.ColumnChunk → Option I32) (chunks : List ColumnChunkMetaData)
    (lengths : List Nat)
    (h : List.Forall₂ (fun c (n : Nat) => ∃ l, getLength c.columnChunk = some l ∧ l.toInt = (n : Int))
      chunks lengths) : total lengths ≤ chunks.length * 2 ^ 31 := by
  induction h with
  | nil => simp [total]
  | @cons c n cs ns hcn _ ih =>
    obtain ⟨l, -, hl⟩ := hcn
    have := BitVec.toInt_lt (x := l)
    rw [total_cons, List.length_cons]
    omega

/-- The lengths are below 2^31 and at most as many as columns. -/
theorem prepareRead_small {getOffset : Thrift.ColumnChunk → Option I64}
    {getLength : Thrift.ColumnChunk → Option I32} {chunks : List ColumnChunkMetaData} {o : Nat}
    {ls : List Nat} (h : prepareRead getOffset getLength chunks = .ok (o, ls)) :
    total ls ≤ chunks.length * 2 ^ 31 := by
  rw [prepareRead.eq_def] at h
  split at h
  · cases h; simp [total]
  · split at h
    · cases h; simp [total]
    · rename_i first rest _ _ _
      obtain ⟨_, -, h⟩ := Res.bind_eq_ok.1 h
      obtain ⟨ls', hl, h⟩ := Res.bind_eq_ok.1 h
      injection h with h
      injection h with _ h
      subst h
      have hf := (prepareRead_lengths getLength _ _).1 hl
      exact lengths_small _ _ _ hf

theorem prepareColumnIndexRead_announced {chunks : List ColumnChunkMetaData} {o : Nat} {ls : List Nat}
    (h : Announced chunks o ls) : prepareColumnIndexRead chunks = .ok (o, ls) := by
  obtain ⟨⟨first, x, hf, hx, ho⟩, hl⟩ := h
  cases chunks with
  | nil => cases hf
  | cons c cs =>
    simp only [List.head?_cons, Option.some.injEq] at hf
    subst hf
    rw [prepareColumnIndexRead, prepareRead.eq_def]
    simp only [hx, (toUsize_ok_iff x).2 ho, Res.ok_bind,
      (prepareRead_lengths (·.columnIndexLength) _ _).2 hl]

theorem announced_of_prepare {chunks : List ColumnChunkMetaData} {o : Nat} {ls : List Nat}
    (h : prepareColumnIndexRead chunks = .ok (o, ls)) : ls = [] ∨ Announced chunks o ls := by
  rw [prepareColumnIndexRead, prepareRead.eq_def] at h
  split at h
  · cases h; exact .inl rfl
  · rename_i first rest
    split at h
    · cases h; exact .inl rfl
    · rename_i x hx
      obtain ⟨o', ho, h⟩ := Res.bind_eq_ok.1 h
      obtain ⟨ls', hl, h⟩ := Res.bind_eq_ok.1 h
      injection h with h
      injection h with h1 h2
      subst h1 h2
      exact .inr ⟨⟨first, x, rfl, hx, (toUsize_ok_iff x).1 ho⟩,
        (prepareRead_lengths (·.columnIndexLength) _ _).1 hl⟩

theorem total_take_le (ls : List Nat) (k : Nat) : total (ls.take k) ≤ total ls := by
  induction ls generalizing k with
  | nil => simp
  | cons x xs ih =>
    cases k with
    | zero => simp [total]
    | succ k => rw [List.take_succ_cons, total_cons, total_cons]; have := ih k; omega

theorem total_take_succ (ls : List Nat) (k n : Nat) (h : ls[k]? = some n) :
    total (ls.take (k + 1)) = total (ls.take k) + n := by
  induction ls generalizing k with
  | nil => simp at h
  | cons x xs ih =>
    cases k with
    | zero => simp at h; subst h; simp [total]
    | succ k =>
      rw [List.take_succ_cons, List.take_succ_cons, total_cons, total_cons, ih k h]; omega

theorem region_of_take (file : List Byte) (o T s n : Nat) (h : s + n ≤ T) :
    (((file.drop o).take T).drop s).take n = (file.drop (o + s)).take n := by
  rw [List.drop_take, List.drop_drop, List.take_take, Nat.min_eq_left (by omega)]

/-! ### Page locations -/

theorem pageLocationsLoop_ne_panic {codec : Codec Thrift.OffsetIndex} (hs : SaneCodec codec) (len n : Nat)
    (reader : List Byte) : pageLocationsLoop codec len n reader ≠ .panic := by
  induction n generalizing reader with
  | zero => simp [pageLocationsLoop]
  | succ n ih =>
    rw [pageLocationsLoop]
    have := hs.noPanic len reader
    split
    · rename_i r _
      have := ih r
      cases h : pageLocationsLoop codec len n r <;> simp_all [Res.map']
    · simp
    · rename_i h; rw [h] at this; simp at this

/-! ### Intervals -/

theorem windowInterval_ne_panic (x : Thrift.PageLocation × Thrift.PageLocation) :
    windowInterval x ≠ .panic := by
  rw [windowInterval]
  refine bind_ne_panic (toUsize_ne_panic _) fun _ _ => bind_ne_panic ?_ fun _ _ =>
    bind_ne_panic (toUsize_ne_panic _) fun _ _ => by simp
  cases checkedSubI64 x.2.firstRowIndex x.1.firstRowIndex <;> simp [Res.ofOption]

theorem lastInterval_ne_panic (l : Thrift.PageLocation) (n : Nat) : lastInterval l n ≠ .panic := by
  rw [lastInterval]
  refine bind_ne_panic (toUsize_ne_panic _) fun s _ => ?_
  by_cases h : s ≤ n <;> simp [h]

theorem windowInterval_small {x : Thrift.PageLocation × Thrift.PageLocation} {iv : Interval}
    (h : windowInterval x = .ok iv) : iv.start + iv.length < 2 ^ 63 := by
  rw [windowInterval] at h
  obtain ⟨s, hs, h⟩ := Res.bind_eq_ok.1 h
  obtain ⟨d, hd, h⟩ := Res.bind_eq_ok.1 h
  obtain ⟨l, hl, h⟩ := Res.bind_eq_ok.1 h
  injection h with h
  subst h
  rw [toUsize_ok_iff] at hs hl
  have h2 := BitVec.toInt_lt (x := x.2.firstRowIndex)
  cases hc : checkedSubI64 x.2.firstRowIndex x.1.firstRowIndex with
  | none => rw [hc] at hd; simp [Res.ofOption] at hd
  | some d' =>
    rw [hc] at hd
    simp only [Res.ofOption, Res.ok.injEq] at hd
    subst hd
    rw [checkedSubI64] at hc
    split at hc
    · rename_i hb
      injection hc with hc
      subst hc
      rw [BitVec.toInt_sub, Int.bmod_eq_of_le (by omega) (by omega)] at hl
      simp only
      omega
    · cases hc

theorem lastInterval_small {l : Thrift.PageLocation} {n : Nat} {iv : Interval}
    (h : lastInterval l n = .ok iv) : iv.start + iv.length = n := by
  rw [lastInterval] at h
  obtain ⟨s, hs, h⟩ := Res.bind_eq_ok.1 h
  by_cases hs : s ≤ n
  · simp only [hs, ↓reduceIte, Res.ok_bind, Res.ok.injEq] at h
    subst h
    simp only
    omega
  · simp [hs] at h

theorem computePageRowIntervals_ne_panic (locations : List Thrift.PageLocation) (n : Nat) :
    computePageRowIntervals locations n ≠ .panic := by
  rw [computePageRowIntervals]
  split
  · simp
  · refine collectRes_ne_panic fun x hx => ?_
    rcases List.mem_append.1 hx with hx | hx
    · obtain ⟨w, -, rfl⟩ := List.mem_map.1 hx
      exact windowInterval_ne_panic w
    · rw [List.mem_singleton] at hx
      subst hx
      exact lastInterval_ne_panic _ _

theorem computePageRowIntervals_small {locations : List Thrift.PageLocation} {n : Nat}
    {ivs : List Interval} (h : computePageRowIntervals locations n = .ok ivs) (hn : n < 2 ^ 64) :
    ∀ iv ∈ ivs, iv.start + iv.length < 2 ^ 64 := by
  rw [computePageRowIntervals] at h
  intro iv hiv
  split at h
  · injection h with h; subst h; cases hiv
  · have := mem_collectRes h hiv
    rcases List.mem_append.1 this with hx | hx
    · obtain ⟨w, -, hw⟩ := List.mem_map.1 hx
      have := windowInterval_small hw
      omega
    · rw [List.mem_singleton] at hx
      have := lastInterval_small hx.symm
      omega

theorem isInOne_ne_panic (ck : Bool) (probe iv : Interval) (hp : probe.start + probe.length < 2 ^ 64)
    (hi : iv.start + iv.length < 2 ^ 64) : isInOne ck probe iv ≠ .panic := by
  rw [isInOne, uadd, if_pos hi, uadd, if_pos hp]
  simp only [Res.ok_bind]
  split
  · rename_i h
    simp only [Bool.and_eq_true, decide_eq_true_eq] at h
    rw [Deser.usub, if_pos (by omega), Res.ok_bind, Deser.usub, if_pos (by omega)]
    simp
  · simp

theorem isIn_ne_panic (ck : Bool) (probe : Interval) (ivs : List Interval)
    (hp : probe.start + probe.length < 2 ^ 64) (hi : ∀ iv ∈ ivs, iv.start + iv.length < 2 ^ 64) :
    isIn ck probe ivs ≠ .panic := by
  induction ivs with
  | nil => simp [isIn]
  | cons iv ivs ih =>
    rw [isIn]
    exact bind_ne_panic (isInOne_ne_panic ck probe iv hp (hi iv (List.mem_cons_self ..))) fun _ _ =>
      bind_ne_panic (ih fun x hx => hi x (List.mem_cons_of_mem _ hx)) fun _ _ => by simp

theorem selectPages_ne_panic (ck : Bool) (ivs : List Interval) (locations : List Thrift.PageLocation)
    (n : Nat) (hn : n < 2 ^ 64) (hi : ∀ iv ∈ ivs, iv.start + iv.length < 2 ^ 64) :
    selectPages ck ivs locations n ≠ .panic := by
  rw [selectPages]
  refine bind_ne_panic (computePageRowIntervals_ne_panic _ _) fun pis hpis =>
    collectRes_ne_panic fun x hx => ?_
  obtain ⟨⟨pi, l⟩, hm, rfl⟩ := List.mem_map.1 hx
  have := computePageRowIntervals_small hpis hn pi (List.of_mem_zip hm).1
  rw [selectPage]
  exact bind_ne_panic (isIn_ne_panic ck _ _ this hi) fun _ _ => bind_ne_panic (toUsize_ne_panic _) fun _ _ =>
    bind_ne_panic (toUsize_ne_panic _) fun _ _ => by simp

/-! ### Pages at locations -/

theorem finishPage_ne_panic (header : Thrift.PageHeader) (data : List Byte) (c : Compression)
    (d : Descriptor) (rows : Option (List Interval)) : finishPage header data c d rows ≠ .panic := by
  rw [finishPage]
  refine bind_ne_panic ?_ fun t _ => bind_ne_panic (toUsize_ne_panic _) fun _ _ => ?_
  · unfold PageType.ofThrift; repeat' split
    all_goals simp
  · cases t <;> simp only
    · refine bind_ne_panic ?_ fun _ _ => by simp
      cases header.dataPageHeader <;> simp [Res.ofOption]
    · refine bind_ne_panic ?_ fun _ _ => by simp
      cases header.dataPageHeaderV2 <;> simp [Res.ofOption]
    · refine bind_ne_panic ?_ fun _ _ => bind_ne_panic (toUsize_ne_panic _) fun _ _ => by simp
      cases header.dictionaryPageHeader <;> simp [Res.ofOption]

theorem readPageAt_ne_panic {codec : Codec Thrift.PageHeader} (hs : SaneCodec codec) (file : List Byte)
    (start length : Nat) : readPageAt codec file start length ≠ .panic := by
  rw [readPageAt]
  split
  · simp
  · have := hs.noPanic (1024 * 1024) ((file.drop start).take length)
    simp only
    split
    · simp
    · simp
    · rename_i h; rw [h] at this; simp at this

theorem readDictPage_ne_panic {codec : Codec Thrift.PageHeader} (hs : SaneCodec codec) (file : List Byte)
    (start length : Nat) (c : Compression) (d : Descriptor) :
    readDictPage codec file start length c d ≠ .panic := by
  rw [readDictPage]
  refine bind_ne_panic (readPageAt_ne_panic hs _ _ _) fun x _ => ?_
  obtain ⟨h, b⟩ := x
  refine bind_ne_panic (finishPage_ne_panic _ _ _ _ _) fun p _ => ?_
  cases p <;> simp

theorem nextData_ne_panic {codec : Codec Thrift.PageHeader} (hs : SaneCodec codec) (r : IndexedReader)
    (pages : List FilteredPage) : (r.nextData codec pages).1 ≠ some .panic := by
  induction pages with
  | nil => simp [IndexedReader.nextData]
  | cons p ps ih =>
    rw [IndexedReader.nextData]
    split
    · exact ih
    · simp only [ne_eq, Option.some.injEq]
      rw [IndexedReader.readPage]
      refine bind_ne_panic (readPageAt_ne_panic hs _ _ _) fun x _ => ?_
      obtain ⟨h, b⟩ := x
      exact finishPage_ne_panic _ _ _ _ _

theorem nextData_maybeDict {codec : Codec Thrift.PageHeader} (r : IndexedReader)
    (pages : List FilteredPage) : (r.nextData codec pages).2.maybeDict = r.maybeDict := by
  induction pages with
  | nil => rfl
  | cons p ps ih =>
    rw [IndexedReader.nextData]
    split
    · exact ih
    · rfl

theorem usub_panic (ck : Bool) (a b : Nat) : Deser.usub ck a b = .panic ↔ ck = true ∧ a < b := by
  rw [Deser.usub]
  by_cases h : b ≤ a
  · simp [h]
  · rw [if_neg h]
    cases ck
    · simp
    · simp; omega

theorem usub_ne_err (ck : Bool) (a b : Nat) (e : Err) : Deser.usub ck a b ≠ .err e := by
  rw [Deser.usub]
  split
  · simp
  · split <;> simp

theorem readDict_panic_iff {codec : Codec Thrift.PageHeader} (hs : SaneCodec codec) (ck : Bool)
    (r : IndexedReader) :
    r.readDict codec ck = some .panic ↔
      ck = true ∧ ∃ p, r.pages.head? = some p ∧ p.start < r.columnStart := by
  rw [IndexedReader.readDict]
  cases hp : r.pages.head? with
  | none => simp
  | some p =>
    simp only [Option.some.injEq, exists_eq_left']
    rw [← usub_panic]
    have he := usub_ne_err ck p.start r.columnStart
    generalize Deser.usub ck p.start r.columnStart = u at he
    cases u with
    | err e => exact absurd rfl (he e)
    | panic => simp
    | ok n =>
      simp only [reduceCtorEq, iff_false]
      by_cases hn : 0 < n
      · rw [if_pos hn]
        intro h
        injection h with h
        exact readDictPage_ne_panic hs _ _ _ _ _ h
      · rw [if_neg hn]
        simp

theorem indexedNext_panic_iff {codec : Codec Thrift.PageHeader} (hs : SaneCodec codec) (ck : Bool)
    (r : IndexedReader) :
    (r.next codec ck).1 = some .panic ↔
      ck = true ∧ r.maybeDict = true ∧ ∃ p, r.pages.head? = some p ∧ p.start < r.columnStart := by
  rw [IndexedReader.next]
  by_cases hm : r.maybeDict = true
  · simp only [hm, ↓reduceIte, true_and]
    have key := readDict_panic_iff hs ck { r with maybeDict := false }
    simp only at key
    rw [← key]
    cases h : IndexedReader.readDict codec ck { r with maybeDict := false } with
    | none =>
      simp only [reduceCtorEq, iff_false]
      exact nextData_ne_panic hs _ _
    | some page => simp only
  · simp only [hm, Bool.false_eq_true, ↓reduceIte, false_and, and_false, iff_false]
    exact nextData_ne_panic hs _ _

theorem indexedNext_maybeDict {codec : Codec Thrift.PageHeader} (ck : Bool) (r : IndexedReader) :
    (r.next codec ck).2.maybeDict = false := by
  rw [IndexedReader.next]
  split
  · simp only
    split
    · rfl
    · rw [nextData_maybeDict]
  · rename_i h
    rw [nextData_maybeDict]
    simpa using h

end Pq
