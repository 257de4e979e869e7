import Verif.Lemmas.FileMetadata
import Verif.Lemmas.PageIO2
import Verif.Lemmas.Intervals
import Verif.Lemmas.Schema
import Verif.Spec.ArbitraryFile
/-
Lemmas about files of arbitrary bytes.
-/
namespace Pq

open Spec

/-! ### Metadata -/

theorem columnChunk_usable {d : ColumnDescriptor} {t : Thrift.ColumnChunk} {c : ColumnChunkMetaData}
    (h : ColumnChunkMetaData.tryFromThrift d t = .ok c) :
    c.columnChunk = t ∧ c.columnDescr = d ∧ ∃ m x, t.metaData = some m ∧ Compression.ofThrift m.codec = .ok x ∧
      0 ≤ m.totalCompressedSize.toInt ∧ 0 ≤ m.dataPageOffset.toInt ∧
      ∀ o, m.dictionaryPageOffset = some o → 0 ≤ o.toInt := by
  rw [ColumnChunkMetaData.tryFromThrift] at h
  cases hm : t.metaData with
  | none => rw [hm] at h; cases h
  | some m =>
    rw [hm] at h
    simp only [Res.ofOption, Res.ok_bind] at h
    have pos : ∀ {w : Nat} (x : BitVec w) n, toUsize x = .ok n → 0 ≤ x.toInt := by
      intro w x n hx
      rw [toUsize] at hx
      split at hx
      · assumption
      · cases hx
    cases h1 : toUsize m.totalCompressedSize with
    | err e => rw [h1] at h; cases h
    | panic => rw [h1] at h; cases h
    | ok n1 =>
      rw [h1, Res.ok_bind] at h
      cases h2 : transposeMap (toUsize (w := 64)) m.dictionaryPageOffset with
      | err e => rw [h2] at h; cases h
      | panic => rw [h2] at h; cases h
      | ok n2 =>
        rw [h2, Res.ok_bind] at h
        cases h3 : toUsize m.dataPageOffset with
        | err e => rw [h3] at h; cases h
        | panic => rw [h3] at h; cases h
        | ok n3 =>
          rw [h3, Res.ok_bind] at h
          cases h4 : Compression.ofThrift m.codec with
          | err e => rw [h4] at h; cases h
          | panic => rw [h4] at h; cases h
          | ok x =>
            rw [h4, Res.ok_bind] at h
            injection h with h
            subst h
            refine ⟨rfl, rfl, m, x, rfl, h4, pos _ _ h1, pos _ _ h3, fun o ho => ?_⟩
            rw [ho] at h2
            simp only [transposeMap] at h2
            cases h5 : toUsize o with
            | err e => rw [h5] at h2; cases h2
            | panic => rw [h5] at h2; cases h2
            | ok n => exact pos _ _ h5

theorem checkWidth_ok {v : Thrift.Statistics} {n : Nat} (h : checkWidth v n = .ok ()) :
    (∀ x, v.maxValue = some x → x.length = n) ∧ ∀ x, v.minValue = some x → x.length = n := by
  rw [checkWidth] at h
  cases h1 : v.maxValue <;> cases h2 : v.minValue <;> simp only [h1, h2] at h <;>
    (try split at h) <;> simp_all

theorem checkWidth_ne_panic (v : Thrift.Statistics) (n : Nat) : checkWidth v n ≠ .panic := by
  rw [checkWidth]
  cases v.maxValue <;> cases v.minValue <;> simp only <;> (repeat' split) <;> simp
  all_goals split <;> simp

theorem primitiveRead_ne_panic {α : Type} {n : Nat} {decode : List Byte → Res α}
    (hd : ∀ x, x.length = n → decode x ≠ .panic) (v : Thrift.Statistics) (t : PrimitiveType) :
    primitiveRead n decode v t ≠ .panic := by
  rw [primitiveRead]
  refine bind_ne_panic (checkWidth_ne_panic v n) fun _ h => ?_
  obtain ⟨h1, h2⟩ := checkWidth_ok h
  refine bind_ne_panic ?_ fun _ _ => bind_ne_panic ?_ fun _ _ => by simp
  · cases hv : v.maxValue with
    | none => simp [optionMapRes]
    | some x => exact map'_ne_panic (hd x (h1 x hv))
  · cases hv : v.minValue with
    | none => simp [optionMapRes]
    | some x => exact map'_ne_panic (hd x (h2 x hv))

theorem deserializeStatistics_ne_panic (v : Thrift.Statistics) (t : PrimitiveType) :
    deserializeStatistics v t ≠ .panic := by
  rw [deserializeStatistics]
  have hn : ∀ n (x : List Byte), x.length = n → nativeDecode n x ≠ .panic := by
    intro n x hx; simp [nativeDecode, hx]
  have hi : ∀ (x : List Byte), x.length = 12 → int96Decode x ≠ .panic := by
    intro x hx; simp [int96Decode, hx]
  split
  · refine map'_ne_panic ?_
    rw [booleanRead]
    exact bind_ne_panic (checkWidth_ne_panic v 1) fun _ _ => by simp
  · exact map'_ne_panic (primitiveRead_ne_panic (hn 4) v t)
  · exact map'_ne_panic (primitiveRead_ne_panic (hn 8) v t)
  · exact map'_ne_panic (primitiveRead_ne_panic hi v t)
  · exact map'_ne_panic (primitiveRead_ne_panic (hn 4) v t)
  · exact map'_ne_panic (primitiveRead_ne_panic (hn 8) v t)
  · simp
  · refine map'_ne_panic ?_
    rw [fixedLenRead]
    exact bind_ne_panic (checkWidth_ne_panic v _) fun _ _ => by simp

theorem mem_collectRes {α : Type} {xs : List (Res α)} {ys : List α} (h : collectRes xs = .ok ys)
    {y : α} (hy : y ∈ ys) : .ok y ∈ xs := by
  induction xs generalizing ys with
  | nil => rw [collectRes] at h; injection h with h; subst h; cases hy
  | cons x xs ih =>
    rw [collectRes] at h
    obtain ⟨a, ha, h⟩ := Res.bind_eq_ok.1 h
    obtain ⟨as, has, h⟩ := Res.bind_eq_ok.1 h
    injection h with h
    subst h
    rcases List.mem_cons.1 hy with rfl | hy
    · simp [ha]
    · exact List.mem_cons_of_mem _ (ih has hy)

theorem leafPaths_ne_nil :
    (t : ParquetType) → ∀ lp ∈ leafPaths t, lp.1 ≠ [] := by
  intro t lp h
  cases t with
  | primitive p =>
    simp only [leafPaths, List.mem_singleton] at h
    subst h; simp
  | group info a b fields =>
    simp only [leafPaths, List.mem_map] at h
    obtain ⟨x, -, rfl⟩ := h
    simp

theorem schema_paths {es : List Thrift.SchemaElement} {s : SchemaDescriptor}
    (h : SchemaDescriptor.tryFromThrift es = .ok s) :
    ∀ d ∈ s.leaves, d.pathInSchema ≠ [] := by
  rw [SchemaDescriptor.tryFromThrift] at h
  split at h
  · rename_i t _
    cases t with
    | primitive p => simp [SchemaDescriptor.tryFromType] at h
    | group info a b fields =>
      simp only [SchemaDescriptor.tryFromType] at h
      injection h with h
      subst h
      intro d hd
      simp only [SchemaDescriptor.new, List.mem_flatMap] at hd
      obtain ⟨f, -, hd⟩ := hd
      have := buildTree_eq f f []
      simp only [List.map_nil, Spec.repLevel, Spec.defLevel, List.filter_nil, List.length_nil] at this
      have e : (0#16 : BitVec 16) = BitVec.ofNat 16 0 := rfl
      rw [e, this] at hd
      obtain ⟨lp, hlp, rfl⟩ := List.mem_map.1 hd
      simp [leafColumn, leafPaths_ne_nil f lp hlp]
  · cases h
  · cases h

/-- What is known of a column of metadata that was read. -/
theorem column_facts {m : Thrift.FileMetaData} {fm : FileMetaData}
    (h : FileMetaData.tryFromThrift m = .ok fm) {g : RowGroupMetaData} (hg : g ∈ fm.rowGroups) :
    g.numRows < 2 ^ 63 ∧ g.totalByteSize < 2 ^ 63 ∧ g.columns.map (·.columnDescr) = fm.schemaDescr.leaves ∧
    ∀ c ∈ g.columns, c.columnDescr.pathInSchema ≠ [] ∧
      ∃ m x, c.columnChunk.metaData = some m ∧ Compression.ofThrift m.codec = .ok x ∧
      0 ≤ m.totalCompressedSize.toInt ∧ 0 ≤ m.dataPageOffset.toInt ∧
      ∀ o, m.dictionaryPageOffset = some o → 0 ≤ o.toInt := by
  rw [FileMetaData.tryFromThrift] at h
  split at h
  · cases h
  · cases h
  rename_i schema hs
  obtain ⟨gs, hgs, h⟩ := Res.bind_eq_ok.1 h
  obtain ⟨n, hn, h⟩ := Res.bind_eq_ok.1 h
  injection h with h
  subst h
  obtain ⟨rg, -, hrg⟩ := List.mem_map.1 (mem_collectRes hgs hg)
  rw [RowGroupMetaData.tryFromThrift] at hrg
  split at hrg
  · cases hrg
  rename_i hlen
  obtain ⟨a, ha, hrg⟩ := Res.bind_eq_ok.1 hrg
  obtain ⟨b, hb, hrg⟩ := Res.bind_eq_ok.1 hrg
  obtain ⟨cs, hcs, hrg⟩ := Res.bind_eq_ok.1 hrg
  injection hrg with hrg
  subst hrg
  have small : ∀ (x : I64) n, toUsize x = .ok n → n < 2 ^ 63 := by
    intro x n hx
    rw [toUsize] at hx
    split at hx
    · injection hx with hx
      subst hx
      have := x.toInt_lt
      omega
    · cases hx
  have hdescr : cs.map (·.columnDescr) = schema.leaves := by
    have gen : ∀ (xs : List Thrift.ColumnChunk) (ds : List ColumnDescriptor)
        (cs : List ColumnChunkMetaData), ds.length = xs.length →
        collectRes ((xs.zip ds).map fun x => ColumnChunkMetaData.tryFromThrift x.2 x.1) = .ok cs →
        cs.map (·.columnDescr) = ds := by
      intro xs
      induction xs with
      | nil =>
        intro ds cs hl hc
        obtain rfl : ds = [] := List.length_eq_zero_iff.1 hl
        simp only [List.zip_nil_left, List.map_nil, collectRes] at hc
        injection hc with hc; subst hc; rfl
      | cons x xs ih =>
        intro ds cs hl hc
        cases ds with
        | nil => simp at hl
        | cons d ds =>
          simp only [List.zip_cons_cons, List.map_cons, collectRes] at hc
          obtain ⟨c, hc1, hc⟩ := Res.bind_eq_ok.1 hc
          obtain ⟨cs', hc2, hc⟩ := Res.bind_eq_ok.1 hc
          injection hc with hc; subst hc
          simp only [List.map_cons, (columnChunk_usable hc1).2.1]
          rw [ih ds cs' (by simpa using hl) hc2]
    exact gen _ _ _ (by simpa using hlen) hcs
  refine ⟨small _ _ hb, small _ _ ha, hdescr, fun c hc => ⟨?_, ?_⟩⟩
  · refine schema_paths hs _ ?_
    rw [← hdescr]
    exact List.mem_map_of_mem hc
  · obtain ⟨x, -, hx⟩ := List.mem_map.1 (mem_collectRes hcs hc)
    obtain ⟨h1, -, h3⟩ := columnChunk_usable hx
    rw [h1]
    exact h3

theorem getFieldColumns_ok (name : String) (cs : List ColumnChunkMetaData)
    (h : ∀ c ∈ cs, c.columnDescr.pathInSchema ≠ []) :
    getFieldColumns name cs = .ok (cs.filter fun c => c.columnDescr.pathInSchema.head? = some name) := by
  induction cs with
  | nil => rfl
  | cons c cs ih =>
    rw [getFieldColumns, ih fun x hx => h x (List.mem_cons_of_mem _ hx)]
    cases hp : c.columnDescr.pathInSchema with
    | nil => exact absurd hp (h c (by simp))
    | cons root rest =>
      simp only [Res.map', List.filter_cons, hp, List.head?_cons, Option.some.injEq, decide_eq_true_eq]

theorem readColumns_ok (file : List Byte) (name : String) (cs : List ColumnChunkMetaData)
    (h : ∀ c ∈ cs, c.columnDescr.pathInSchema ≠ [])
    (hr : ∀ c ∈ cs, ∃ bytes, readColumn file c = .ok bytes) :
    ∃ out, readColumns file name cs = .ok out ∧
      out.map (·.1) = cs.filter (fun c => c.columnDescr.pathInSchema.head? = some name) ∧
      ∀ x ∈ out, readColumn file x.1 = .ok x.2 := by
  induction cs with
  | nil => exact ⟨[], rfl, rfl, by simp⟩
  | cons c cs ih =>
    obtain ⟨out, h1, h2, h3⟩ := ih (fun x hx => h x (List.mem_cons_of_mem _ hx))
      (fun x hx => hr x (List.mem_cons_of_mem _ hx))
    rw [readColumns]
    cases hp : c.columnDescr.pathInSchema with
    | nil => exact absurd hp (h c (by simp))
    | cons root rest =>
      simp only
      obtain ⟨bytes, hb⟩ := hr c (by simp)
      by_cases hn : root = name
      · rw [if_pos hn, hb, h1]
        refine ⟨(c, bytes) :: out, rfl, ?_, ?_⟩
        · simp [hp, hn, h2]
        · intro x hx
          rcases List.mem_cons.1 hx with rfl | hx
          · exact hb
          · exact h3 x hx
      · rw [if_neg hn, h1]
        refine ⟨out, rfl, ?_, h3⟩
        simp [hp, hn, h2]

theorem sumUsize_total (ck : Bool) (xs : List Nat) (acc : Nat) (hacc : acc < 2 ^ 64)
    (hck : ck = true → acc + total xs < 2 ^ 64) :
    sumUsize ck acc xs = .ok ((acc + total xs) % 2 ^ 64) := by
  induction xs generalizing acc with
  | nil => rw [sumUsize, show total [] = 0 from rfl, Nat.add_zero, Nat.mod_eq_of_lt hacc]
  | cons x xs ih =>
    have ht : total (x :: xs) = x + total xs := rfl
    rw [sumUsize, uadd]
    by_cases h : acc + x < 2 ^ 64
    · rw [if_pos h, Res.ok_bind, ih _ h (fun hc => by have := hck hc; omega), ht]
      congr 2; omega
    · rw [if_neg h]
      cases ck with
      | true => have := hck rfl; omega
      | false =>
        simp only [Bool.false_eq_true, if_false, Res.ok_bind]
        rw [ih _ (Nat.mod_lt _ (by decide)) (by simp), ht]
        congr 1; omega

theorem sumUsize_panic (xs : List Nat) (acc : Nat) (hacc : acc < 2 ^ 64)
    (h : 2 ^ 64 ≤ acc + total xs) : sumUsize true acc xs = .panic := by
  induction xs generalizing acc with
  | nil => simp [total] at h; omega
  | cons x xs ih =>
    have ht : total (x :: xs) = x + total xs := rfl
    rw [sumUsize, uadd]
    by_cases hx : acc + x < 2 ^ 64
    · rw [if_pos hx, Res.ok_bind]
      exact ih _ hx (by omega)
    · rw [if_neg hx]; rfl

/-! ### Pages -/

variable {codec : Codec Thrift.PageHeader}

/-- The values counted so far do not exceed what the bytes read so far can announce. -/
def Balance (ck : Bool) (L : Nat) (r : PageReader) : Prop :=
  r.reader.length ≤ L ∧ (ck = true → -(2 ^ 31 * ((L : Int) - r.reader.length)) ≤ r.seenNumValues.toInt ∧
    r.seenNumValues.toInt ≤ 2 ^ 31 * ((L : Int) - r.reader.length))

theorem buildPage_balance (hs : SaneCodec codec) (ck : Bool) (L : Nat) (r : PageReader)
    (h : Balance ck L r) (hL : ck = true → L < 2 ^ 32 - 1) :
    (buildPage codec ck r).1 ≠ .panic ∧ Balance ck L (buildPage codec ck r).2 ∧
    (∀ p, (buildPage codec ck r).1 = .ok p → (buildPage codec ck r).2.reader.length < r.reader.length) := by
  have hnp := hs.noPanic r.maxPageSize r.reader
  have hpr := hs.progress r.maxPageSize r.reader
  have hsx := (hs.suffix r.maxPageSize r.reader).length_le
  obtain ⟨hlen, hbal⟩ := h
  unfold buildPage
  generalize codec.parse r.maxPageSize r.reader = res at hnp hpr hsx
  obtain ⟨res, rest⟩ := res
  simp only at hsx
  -- less of the reader left keeps the balance
  have shrink : ∀ (rd : List Byte), rd.length ≤ r.reader.length →
      rd.length ≤ L ∧ (ck = true → -(2 ^ 31 * ((L : Int) - rd.length)) ≤ r.seenNumValues.toInt ∧
        r.seenNumValues.toInt ≤ 2 ^ 31 * ((L : Int) - rd.length)) := by
    intro rd hrd
    exact ⟨by omega, fun hc => by have := hbal hc; omega⟩
  cases res with
  | err e => exact ⟨by simp, shrink rest hsx, by simp⟩
  | panic => exact absurd rfl hnp
  | ok header =>
    have hlt : rest.length < r.reader.length := hpr header rfl
    simp only
    have hg := getPageHeader_noPanic header
    cases hgg : getPageHeader header with
    | err e => exact ⟨by simp, shrink rest hsx, by simp⟩
    | panic => exact absurd hgg hg
    | ok dh =>
      simp only
      have hb := headerValues_bound dh
      have hadd : ∃ s, addI64 ck r.seenNumValues (headerValues dh) = .ok s ∧
          (ck = true → s.toInt = r.seenNumValues.toInt + (headerValues dh).toInt) := by
        cases ck with
        | true =>
          have hr := hbal rfl
          have hL := hL rfl
          obtain ⟨s, h1, h2⟩ := addI64_toInt true (a := r.seenNumValues) (b := headerValues dh)
            (by omega) (by omega)
          exact ⟨s, h1, fun _ => h2⟩
        | false => exact ⟨_, by simp [addI64]; rfl, fun h => by simp at h⟩
      obtain ⟨s, hs1, hs2⟩ := hadd
      simp only [hs1]
      have hu := toUsize_noPanic header.compressedPageSize
      have grow : ∀ (rd : List Byte), rd.length ≤ rest.length →
          rd.length ≤ L ∧ (ck = true → -(2 ^ 31 * ((L : Int) - rd.length)) ≤ s.toInt ∧
            s.toInt ≤ 2 ^ 31 * ((L : Int) - rd.length)) := by
        intro rd hrd
        refine ⟨by omega, fun hc => ?_⟩
        have := hbal hc
        have := hs2 hc
        constructor <;> omega
      cases huu : toUsize header.compressedPageSize with
      | err e => exact ⟨by simp, grow rest (by omega), by simp⟩
      | panic => exact absurd huu hu
      | ok k =>
        simp only
        split
        · exact ⟨by simp, grow rest (by omega), by simp⟩
        · split
          · exact ⟨by simp, grow _ (by simp), by simp⟩
          · refine ⟨finishPage_noPanic _ _ _ _ _, grow _ (by simp), fun p hp => ?_⟩
            simp only [List.length_drop]
            omega

theorem nextFuel_balance (hs : SaneCodec codec) (ck : Bool) (L : Nat) (fuel : Nat) (r : PageReader)
    (hf : r.reader.length < fuel) (h : Balance ck L r) (hL : ck = true → L < 2 ^ 32 - 1) :
    (PageReader.nextFuel codec ck fuel r).1 ≠ some .panic ∧
      Balance ck L (PageReader.nextFuel codec ck fuel r).2 := by
  induction fuel generalizing r with
  | zero => omega
  | succ fuel ih =>
    rw [PageReader.nextFuel, nextPage]
    by_cases ht : r.totalNumValues.toInt ≤ r.seenNumValues.toInt
    · simp only [ht, ↓reduceIte]
      exact ⟨by simp, h⟩
    · simp only [ht, ↓reduceIte]
      have hb := buildPage_balance hs ck L { r with scratch := [] } h hL
      generalize buildPage codec ck { r with scratch := [] } = res at hb ⊢
      obtain ⟨page, r'⟩ := res
      simp only at hb ⊢
      by_cases hw : r'.wants page = true
      · rw [if_pos hw]
        exact ⟨by simpa using hb.1, hb.2.1⟩
      · rw [if_neg hw]
        have hok : ∃ p, page = .ok p := by
          cases page with
          | ok p => exact ⟨p, rfl⟩
          | err e => simp [PageReader.wants] at hw
          | panic => simp [PageReader.wants] at hw
        obtain ⟨p, hp⟩ := hok
        have := hb.2.2 p hp
        exact ih { r' with scratch := [] } (by simp only; omega) hb.2.1

theorem next_balance (hs : SaneCodec codec) (ck : Bool) (L : Nat) (r : PageReader)
    (h : Balance ck L r) (hL : ck = true → L < 2 ^ 32 - 1) :
    (PageReader.next codec ck r).1 ≠ some .panic ∧ Balance ck L (PageReader.next codec ck r).2 :=
  nextFuel_balance hs ck L _ r (by omega) h hL

theorem stream_balance (hs : SaneCodec codec) (ck : Bool) (L : Nat) (fuel : Nat) (r : PageReader)
    (hf : r.reader.length < fuel) (h : Balance ck L r) (hL : ck = true → L < 2 ^ 32 - 1) :
    (PageStream.nextFuel codec ck fuel r).1 ≠ some .panic ∧
      Balance ck L (PageStream.nextFuel codec ck fuel r).2.inner := by
  induction fuel generalizing r with
  | zero => omega
  | succ fuel ih =>
    rw [PageStream.nextFuel]
    by_cases ht : r.totalNumValues.toInt ≤ r.seenNumValues.toInt
    · simp only [ht, ↓reduceIte]
      exact ⟨by simp, h⟩
    · simp only [ht, ↓reduceIte]
      have hnp := hs.noPanic r.maxPageSize r.reader
      have hpr := hs.progress r.maxPageSize r.reader
      have hsx := (hs.suffix r.maxPageSize r.reader).length_le
      obtain ⟨hlen, hbal⟩ := h
      generalize codec.parse r.maxPageSize r.reader = res at hnp hpr hsx
      obtain ⟨res, rest⟩ := res
      simp only at hsx
      have shrink : ∀ (rd : List Byte), rd.length ≤ r.reader.length →
          rd.length ≤ L ∧ (ck = true → -(2 ^ 31 * ((L : Int) - rd.length)) ≤ r.seenNumValues.toInt ∧
            r.seenNumValues.toInt ≤ 2 ^ 31 * ((L : Int) - rd.length)) := by
        intro rd hrd
        exact ⟨by omega, fun hc => by have := hbal hc; omega⟩
      cases res with
      | err e => exact ⟨by simp, shrink rest hsx⟩
      | panic => exact absurd rfl hnp
      | ok header =>
        have hlt : rest.length < r.reader.length := hpr header rfl
        simp only
        have hg := getPageHeader_noPanic header
        cases hgg : getPageHeader header with
        | err e => exact ⟨by simp, shrink rest hsx⟩
        | panic => exact absurd hgg hg
        | ok dh =>
          simp only
          have hb := headerValues_bound dh
          have hadd : ∃ s, addI64 ck r.seenNumValues (headerValues dh) = .ok s ∧
              (ck = true → s.toInt = r.seenNumValues.toInt + (headerValues dh).toInt) := by
            cases ck with
            | true =>
              have hr := hbal rfl
              have hL := hL rfl
              obtain ⟨s, h1, h2⟩ := addI64_toInt true (a := r.seenNumValues) (b := headerValues dh)
                (by omega) (by omega)
              exact ⟨s, h1, fun _ => h2⟩
            | false => exact ⟨_, by simp [addI64]; rfl, fun h => by simp at h⟩
          obtain ⟨s, hs1, hs2⟩ := hadd
          simp only [hs1]
          have hu := toUsize_noPanic header.compressedPageSize
          have grow : ∀ (rd : List Byte), rd.length ≤ rest.length →
              rd.length ≤ L ∧ (ck = true → -(2 ^ 31 * ((L : Int) - rd.length)) ≤ s.toInt ∧
                s.toInt ≤ 2 ^ 31 * ((L : Int) - rd.length)) := by
            intro rd hrd
            refine ⟨by omega, fun hc => ?_⟩
            have := hbal hc
            have := hs2 hc
            constructor <;> omega
          cases huu : toUsize header.compressedPageSize with
          | err e => exact ⟨by simp, grow rest (by omega)⟩
          | panic => exact absurd huu hu
          | ok k =>
            simp only
            cases dh with
            | none =>
              simp only [Bool.false_eq_true, ↓reduceIte]
              split
              · exact ⟨by simp, grow rest (by omega)⟩
              · split
                · exact ⟨by simp, grow _ (by simp)⟩
                · have hf := finishPage_noPanic header (rest.take k) r.compression r.descriptor none
                  cases hff : finishPage header (rest.take k) r.compression r.descriptor none with
                  | panic => exact absurd hff hf
                  | ok p => exact ⟨by simp, grow _ (by simp)⟩
                  | err e => exact ⟨by simp, grow _ (by simp)⟩
            | some dh =>
              cases hp : r.pagesFilter r.descriptor dh with
              | false =>
                simp only [hp, Bool.not_false, ↓reduceIte]
                refine ih { r with reader := rest.drop k, seenNumValues := s } ?_
                  (grow (rest.drop k) (by simp))
                simp only [List.length_drop]
                omega
              | true =>
                simp only [hp, Bool.not_true, Bool.false_eq_true, ↓reduceIte]
                split
                · exact ⟨by simp, grow rest (by omega)⟩
                · split
                  · exact ⟨by simp, grow _ (by simp)⟩
                  · have hf := finishPage_noPanic header (rest.take k) r.compression r.descriptor none
                    cases hff : finishPage header (rest.take k) r.compression r.descriptor none with
                    | panic => exact absurd hff hf
                    | ok p => exact ⟨by simp, grow _ (by simp)⟩
                    | err e => exact ⟨by simp, grow _ (by simp)⟩

/-! ### Decompression -/

theorem hadoopLoop_ne_panic {cs : Codecs} (hc : NoPanic cs) (fuel : Nat) (input : List Byte) (n : Nat)
    (done output : List Byte) : (hadoopLoop cs fuel input n done output).1 ≠ .panic := by
  induction fuel generalizing input n done output with
  | zero => simp [hadoopLoop]
  | succ fuel ih =>
    rw [hadoopLoop]
    simp only
    split
    · simp
    split
    · simp
    split
    · simp
    have hd := hc.decBlock .lz4 ((input.drop 8).take (beNat ((input.drop 4).take 4))) output
    generalize cs.decBlock .lz4 ((input.drop 8).take (beNat ((input.drop 4).take 4))) output = res at hd
    obtain ⟨res, out⟩ := res
    cases res with
    | err e => simp
    | panic => exact absurd rfl hd
    | ok k =>
      simp only
      split
      · simp
      split
      · exact ih _ _ _ _
      · simp

theorem decompressBytes_ne_panic {cs : Codecs} (hc : NoPanic cs) (c : Compression)
    (input output : List Byte) : (decompressBytes cs c input output).1 ≠ .panic := by
  have hb : ∀ c out, ((cs.decBlock c input out).1.map' fun _ => ()) ≠ .panic :=
    fun c out => map'_ne_panic (hc.decBlock c input out)
  cases c with
  | uncompressed => simp [decompressBytes]
  | lzo => simp [decompressBytes]
  | brotli => rw [decompressBytes]; split; exacts [hc.readExact _ _ _, by simp]
  | gzip => rw [decompressBytes]; split; exacts [hc.readExact _ _ _, by simp]
  | zstd => rw [decompressBytes]; split; exacts [hc.readExact _ _ _, by simp]
  | lz4Raw => rw [decompressBytes]; split; exacts [hb _ _, by simp]
  | snappy =>
    rw [decompressBytes]
    split
    · have := hc.snappyLen input
      split
      · split
        · simp
        · exact hb _ _
      · simp
      · contradiction
    · simp
  | lz4 =>
    rw [decompressBytes]
    split
    · rw [tryDecompressHadoop]
      have := hadoopLoop_ne_panic hc input.length input input.length [] output
      generalize hadoopLoop cs input.length input input.length [] output = res at this
      obtain ⟨res, out⟩ := res
      cases res with
      | panic => exact absurd rfl this
      | err e => exact hb _ _
      | ok n =>
        simp only
        by_cases h : n = 0
        · simp [h]
        · simp only [h, ↓reduceIte]; exact hb _ _
    · simp

theorem decompressV2_panic_iff {cs : Codecs} (hc : NoPanic cs) (ck : Bool) (compressed : List Byte)
    (h : Thrift.DataPageHeaderV2) (c : Compression) (buffer : List Byte) :
    (decompressV2 cs ck compressed h c buffer).1 = .panic ↔ ck = true ∧ LevelsOverflow h := by
  rw [decompressV2]
  by_cases ho : ck = true ∧ LevelsOverflow h
  · have : addI32 ck h.definitionLevelsByteLength h.repetitionLevelsByteLength = .panic := by
      rw [addI32]; exact if_pos ho
    rw [this]
    exact ⟨fun _ => ho, fun _ => rfl⟩
  · have : ∃ s, addI32 ck h.definitionLevelsByteLength h.repetitionLevelsByteLength = .ok s := by
      rw [addI32]; exact ⟨_, if_neg ho⟩
    obtain ⟨s, hs⟩ := this
    rw [hs]
    simp only
    refine ⟨fun hp => ?_, fun h => absurd h ho⟩
    exfalso
    revert hp
    split
    · split
      · simp
      · exact decompressBytes_ne_panic hc _ _ _
    · split <;> simp

theorem decompressBuffer_panic_iff {cs : Codecs} (hc : NoPanic cs) (ck : Bool) (page : CompressedPage)
    (cap : Nat) (buffer : List Byte) :
    (decompressBuffer cs ck page cap buffer).1 = .panic ↔ ck = true ∧ BadLevels page := by
  rw [decompressBuffer]
  by_cases hcomp : page.compression = .uncompressed
  · simp [hcomp, BadLevels]
  · simp only [ne_eq, hcomp, not_false_eq_true, ↓reduceIte]
    have hm : ∀ (x : Res Unit), (x.map' fun _ => true) = .panic ↔ x = .panic := by
      intro x; cases x <;> simp [Res.map']
    rw [hm]
    cases page with
    | dict p =>
      simp only [decompressInto]
      refine ⟨fun h => absurd h (decompressBytes_ne_panic hc _ _ _), ?_⟩
      rintro ⟨-, -, d, h, hd, -⟩
      cases hd
    | data p =>
      simp only [decompressInto]
      cases hh : p.header with
      | v1 h1 =>
        refine ⟨fun h => absurd h (decompressBytes_ne_panic hc _ _ _), ?_⟩
        rintro ⟨-, -, d, h, hd, hv, -⟩
        cases hd
        rw [hh] at hv
        cases hv
      | v2 h2 =>
        simp only
        rw [decompressV2_panic_iff hc]
        refine and_congr_right fun _ => ⟨fun h => ⟨hcomp, p, h2, rfl, hh, h⟩, ?_⟩
        rintro ⟨-, d, h, hd, hv, ho⟩
        cases hd
        rw [hh] at hv
        cases hv
        exact ho

theorem decompressReuse_iter {σ : Type} {cs : Codecs} {ck : Bool} {it : PageIter σ}
    (page : CompressedPage) (iter : σ) (cap : Nat) (buffer : List Byte) {P : σ → Prop} (h : P iter)
    (hswap : ∀ s b, P s → P (it.swap s b).2) :
    P (decompressReuse cs ck it page iter cap buffer).2.1 := by
  rw [decompressReuse]
  generalize decompressBuffer cs ck page cap buffer = res
  obtain ⟨res, p, b⟩ := res
  cases res with
  | ok was =>
    cases was with
    | true => exact hswap _ _ h
    | false => exact h
  | err e => exact h
  | panic => exact h

theorem recycle_iter {σ : Type} {it : PageIter σ} (d : Decompressor σ) {P : σ → Prop} (h : P d.iter)
    (hswap : ∀ s b, P s → P (it.swap s b).2) : P (d.recycle it).iter := by
  rw [Decompressor.recycle]
  split
  · exact h
  · split
    · exact h
    · exact hswap _ _ h

theorem advance_iter {σ : Type} {cs : Codecs} {ck : Bool} {it : PageIter σ} (cap : Nat)
    (d : Decompressor σ) {P : σ → Prop} (h : P d.iter)
    (hswap : ∀ s b, P s → P (it.swap s b).2) (hnext : ∀ s, P s → P (it.next s).2) :
    P (d.advance cs ck it cap).2.iter := by
  rw [Decompressor.advance]
  have h1 := hnext _ (recycle_iter d h hswap)
  generalize it.next (d.recycle it).iter = res at h1
  obtain ⟨res, iter⟩ := res
  match res with
  | none => exact h1
  | some (.err e) => exact h1
  | some .panic => exact h1
  | some (.ok page) =>
    simp only
    have h2 := decompressReuse_iter (cs := cs) (ck := ck) (it := it) page iter cap (d.recycle it).buffer h1 hswap
    generalize decompressReuse cs ck it page iter cap (d.recycle it).buffer = res at h2
    obtain ⟨res, iter, buffer⟩ := res
    match res with
    | .ok (p, was) => exact h2
    | .err e => exact h2
    | .panic => exact h2

theorem advance_panic_iff {σ : Type} {cs : Codecs} (hc : NoPanic cs) {ck : Bool} {it : PageIter σ}
    (cap : Nat) (d : Decompressor σ) (hnext : (it.next (d.recycle it).iter).1 ≠ some .panic) :
    (d.advance cs ck it cap).1 = .panic ↔ ck = true ∧
      ∃ page, (it.next (d.recycle it).iter).1 = some (.ok page) ∧ BadLevels page := by
  rw [Decompressor.advance]
  generalize it.next (d.recycle it).iter = res at hnext
  obtain ⟨res, iter⟩ := res
  match res with
  | none => simp
  | some (.err e) => simp
  | some .panic => exact absurd rfl hnext
  | some (.ok page) =>
    simp only [Option.some.injEq, Res.ok.injEq, exists_eq_left']
    rw [← decompressBuffer_panic_iff hc ck page cap (d.recycle it).buffer, decompressReuse]
    generalize decompressBuffer cs ck page cap (d.recycle it).buffer = res
    obtain ⟨res, p, b⟩ := res
    cases res <;> simp

end Pq
