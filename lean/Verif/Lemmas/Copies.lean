import Verif.Spec.Copies
import Verif.Lemmas.ArbitraryIndex
import Verif.Lemmas.Writer
/-
Copying a file page by page.
-/
namespace Pq
open Spec

/-! ### Writing a copy -/

theorem writePage_copy (codec : Codec Thrift.PageHeader) (offset : Nat) (p q : CompressedPage) (h : CopyOf p q) :
    writePage codec offset q = writePage codec offset p := by
  cases p with
  | data p =>
    cases q with
    | data q =>
      obtain ⟨h1, h2⟩ := h
      obtain ⟨a1, a2, a3, a4, a5, a6⟩ := p
      obtain ⟨b1, b2, b3, b4, b5, b6⟩ := q
      simp only [CompressedDataPage.mk.injEq] at h1
      obtain ⟨rfl, rfl, rfl, rfl, rfl, -⟩ := h1
      have hl : lastSelected b6 = lastSelected a6 := by
        simp only at h2
        cases a6 with
        | none => cases b6 with
          | none => rfl
          | some b => simp at h2
        | some a => cases b6 with
          | none => simp at h2
          | some b =>
            simp only [Option.map_some, Option.some.injEq] at h2
            unfold lastSelected
            cases ha : a.getLast? with
            | none => cases hb : b.getLast? with
              | none => simp only [ha, hb]
              | some y => simp [ha, hb] at h2
            | some x => cases hb : b.getLast? with
              | none => simp [ha, hb] at h2
              | some y =>
                simp only [ha, hb, Option.map_some, Option.some.injEq] at h2
                simp [ha, hb, Res.unwrap, Res.map', h2]
      unfold writePage
      simp only [assembleHeader, assembleDataPageHeader, pageStatistics, CompressedPage.selectedRows,
        CompressedPage.buffer, CompressedPage.compression, CompressedPage.numValues, hl]
    | dict q => exact h.elim
  | dict p =>
    cases q with
    | data q => exact h.elim
    | dict q =>
      obtain ⟨a1, a2, a3, a4, a5⟩ := p
      obtain ⟨b1, b2, b3, b4, b5⟩ := q
      simp only [CopyOf, CompressedDictPage.mk.injEq] at h
      obtain ⟨rfl, rfl, rfl, rfl, -⟩ := h
      rfl

theorem writePages_copy (codec : Codec Thrift.PageHeader) (ps qs : List CompressedPage)
    (h : List.Forall₂ CopyOf ps qs) : ∀ offset,
    writePages codec offset (qs.map .ok) = writePages codec offset (ps.map .ok) := by
  induction h with
  | nil => intro _; rfl
  | @cons p q ps qs h1 _ ih =>
    intro offset
    simp only [List.map_cons, writePages, writePage_copy codec offset p q h1]
    split
    · rfl
    · rfl
    · rw [ih]

theorem writeColumns_copy (cs : ThriftCodecs) (ck : Bool) (g g' : List (List CompressedPage))
    (h : List.Forall₂ (List.Forall₂ CopyOf) g g') : ∀ offset ds,
    writeColumns cs ck offset ds (g'.map fun pages => .ok (pages.map .ok)) =
      writeColumns cs ck offset ds (g.map fun pages => .ok (pages.map .ok)) := by
  induction h with
  | nil => intro _ _; rfl
  | @cons p q ps qs h1 _ ih =>
    intro offset ds
    cases ds with
    | nil => rfl
    | cons d ds =>
      have e : writeColumnChunk cs ck offset d (q.map .ok) = writeColumnChunk cs ck offset d (p.map .ok) := by
        unfold writeColumnChunk
        rw [writePages_copy _ _ _ h1]
      simp only [List.map_cons, writeColumns, e]
      split
      · rfl
      · rfl
      · rw [ih]

theorem write_copy (cs : ThriftCodecs) (ck : Bool) (w : FileWriter) (g g' : List (List CompressedPage))
    (h : List.Forall₂ (List.Forall₂ CopyOf) g g') :
    w.write cs ck (g'.map fun pages => .ok (pages.map .ok)) =
      w.write cs ck (g.map fun pages => .ok (pages.map .ok)) := by
  unfold FileWriter.write writeRowGroup
  simp only [writeColumns_copy cs ck g g' h]

theorem forall₂_snoc {α β : Type} {R : α → β → Prop} {xs : List α} {x : α} {ys : List β}
    (h : List.Forall₂ R (xs ++ [x]) ys) : ∃ a b, ys = a ++ [b] ∧ List.Forall₂ R xs a ∧ R x b := by
  induction xs generalizing ys with
  | nil =>
    cases h with
    | cons h1 h2 => cases h2; exact ⟨[], _, rfl, .nil, h1⟩
  | cons z zs ih =>
    cases h with
    | cons h1 h2 =>
      obtain ⟨a, b, rfl, h3, h4⟩ := ih h2
      exact ⟨_ :: a, b, rfl, .cons h1 h3, h4⟩

theorem wrote_copy (cs : ThriftCodecs) (ck : Bool) (w0 w : FileWriter) (groups groups' : List (List (List CompressedPage)))
    (hw : Wrote cs ck w0 groups w) (h : List.Forall₂ (List.Forall₂ (List.Forall₂ CopyOf)) groups groups') :
    Wrote cs ck w0 groups' w := by
  induction hw generalizing groups' with
  | nil => cases h; exact .nil
  | @snoc groups g w w' h1 h2 ih =>
    obtain ⟨a, b, rfl, ha, hb⟩ := forall₂_snoc h
    exact .snoc (ih _ ha) (by rw [write_copy cs ck w _ _ hb]; exact h2)

/-! ### Pages without a number of rows -/

theorem specs_rowless (codec : Codec Thrift.PageHeader) (pages : List CompressedPage)
    (hn : ∀ p ∈ pages, p.selectedRows = none) : ∀ (off : Nat) (specs : List PageWriteSpec), Specs codec off specs pages →
    (∀ s ∈ specs, s.numRows = none) ∧ ((∃ p ∈ pages, isData p = true) → specs.filter isDataPage ≠ []) := by
  induction pages with
  | nil =>
    intro off specs h
    cases specs with
    | nil => simp
    | cons _ _ => exact h.elim
  | cons p ps ih =>
    intro off specs h
    cases specs with
    | nil => exact h.elim
    | cons s ss =>
      obtain ⟨h1, h2⟩ := h
      obtain ⟨i1, i2⟩ := ih (fun q hq => hn q (List.mem_cons_of_mem _ hq)) _ ss h2
      constructor
      · intro t ht
        rcases List.mem_cons.1 ht with rfl | ht
        · have := h1.numRows
          rw [hn p (List.mem_cons_self ..)] at this
          simp only [lastSelected, Res.ok.injEq] at this
          exact this.symm
        · exact i1 t ht
      · rintro ⟨q, hq, hd⟩
        rw [List.filter_cons]
        split
        · simp
        · rename_i hs
          rcases List.mem_cons.1 hq with rfl | hq
          · exfalso
            apply hs
            cases q with
            | dict q => cases hd
            | data q =>
              unfold isDataPage
              rw [h1.header]
              unfold headerOf
              simp only
              split <;> simp
          · exact i2 ⟨q, hq, hd⟩

theorem computeNumRows_rowless (ck : Bool) (c : Thrift.ColumnChunk) (specs : List PageWriteSpec)
    (rest : List (Thrift.ColumnChunk × List PageWriteSpec)) (h1 : ∀ s ∈ specs, s.numRows = none)
    (h2 : specs.filter isDataPage ≠ []) : computeNumRows ck ((c, specs) :: rest) = .err .oos := by
  unfold computeNumRows
  have h3 : ∀ s ∈ specs.filter isDataPage, s.numRows = none := fun s hs => h1 s (List.mem_filter.1 hs).1
  cases hf : specs.filter isDataPage with
  | nil => exact absurd hf h2
  | cons s ss =>
    simp only [hf, sumRows, h3 s (by rw [hf]; simp)]

theorem writeRowGroup_rowless (cs : ThriftCodecs) (ck : Bool) (offset ordinal : Nat) (d : ColumnDescriptor)
    (ds : List ColumnDescriptor) (pages : List CompressedPage) (columns : List (Res (List (Res CompressedPage))))
    (hn : ∀ p ∈ pages, p.selectedRows = none) (hd : ∃ p ∈ pages, isData p = true) :
    (writeRowGroup cs ck offset (d :: ds) (.ok (pages.map .ok) :: columns) ordinal).1.isOk = false := by
  unfold writeRowGroup
  rw [writeColumns]
  unfold writeColumnChunk
  match hw : writePages cs.page offset (pages.map .ok) with
  | (.err e, _) => rfl
  | (.panic, _) => rfl
  | (.ok specs, bytes) =>
    simp only
    match buildColumnChunk ck specs d with
    | .err e => rfl
    | .panic => rfl
    | .ok chunk =>
      simp only
      match chunk.metaData with
      | none => rfl
      | some m =>
        simp only
        generalize writeColumns cs ck _ ds columns = r
        obtain ⟨r, rb⟩ := r
        match r with
        | .err e => rfl
        | .panic => rfl
        | .ok (rest, k) =>
          obtain ⟨ps, e1, -, hs⟩ := writePages_specs hw
          have e2 : pages = ps := by
            have := congrArg (List.map fun x : Res CompressedPage => match x with | .ok p => some p | _ => none) e1
            simp only [List.map_map] at this
            exact List.map_injective_iff.2 (Option.some_injective _) this
          subst e2
          obtain ⟨k1, k2⟩ := specs_rowless cs.page pages hn _ specs hs
          simp only [Res.map', buildRowGroup, computeNumRows_rowless ck chunk specs rest k1 (k2 hd)]
          rfl

/-! ### Reading all rows -/

theorem isIn_one (ck : Bool) (probe iv : Interval) (xs : List Interval) (h : isIn ck probe [iv] = .ok xs) :
    xs.length ≤ 1 := by
  simp only [isIn] at h
  rw [Res.bind_eq_ok] at h
  obtain ⟨o, -, h⟩ := h
  simp only [Res.ok_bind, Res.ok.injEq, List.append_nil] at h
  rw [← h]
  cases o <;> simp

theorem selectPages_one (ck : Bool) (iv : Interval) (locations : List Thrift.PageLocation) (n : Nat)
    (fs : List FilteredPage) (h : selectPages ck [iv] locations n = .ok fs) :
    ∀ f ∈ fs, f.selectedRows.length ≤ 1 := by
  intro f hf
  unfold selectPages at h
  rw [Res.bind_eq_ok] at h
  obtain ⟨ivs, -, h⟩ := h
  obtain ⟨x, -, hx⟩ := List.mem_map.1 (mem_collectRes h hf)
  unfold selectPage at hx
  rw [Res.bind_eq_ok] at hx
  obtain ⟨rows, h1, hx⟩ := hx
  rw [Res.bind_eq_ok] at hx
  obtain ⟨_, -, hx⟩ := hx
  rw [Res.bind_eq_ok] at hx
  obtain ⟨_, -, hx⟩ := hx
  simp only [Res.ok.injEq] at hx
  rw [← hx]
  exact isIn_one _ _ _ _ h1

theorem le_sum_of_mem {x : Nat} {xs : List Nat} (h : x ∈ xs) : x ≤ xs.sum := by
  induction xs with
  | nil => cases h
  | cons y ys ih =>
    rw [List.sum_cons]
    rcases List.mem_cons.1 h with rfl | h
    · omega
    · have := ih h
      omega

/-- A page as it is delivered when all rows are selected. -/
def copyPage (p : CompressedPage) : CompressedPage := readSelected [⟨0, rowsIn p⟩] p

theorem copyPage_copy (p : CompressedPage) (h : isData p = true → (pageRowCount p).isSome = true) :
    CopyOf p (copyPage p) := by
  cases p with
  | dict p => rfl
  | data p =>
    have := h rfl
    refine ⟨rfl, ?_⟩
    simp only [pageRowCount] at this
    split at this
    · rename_i iv e
      simp only [copyPage, readSelected, rowsIn, pageRowCount, e, Option.getD_some, Option.map_some]
      rfl
    · simp at this

theorem chunkRows_take_le (ps : List CompressedPage) (hd : ∀ p ∈ ps, isData p = true) (i : Nat) (p : CompressedPage)
    (h : ps[i]? = some p) : chunkRows (ps.take i) + rowsIn p ≤ chunkRows ps := by
  have e : ps = ps.take i ++ p :: ps.drop (i + 1) := by
    obtain ⟨hi, rfl⟩ := List.getElem?_eq_some_iff.1 h
    rw [← List.drop_eq_getElem_cons hi, List.take_append_drop]
  have hp : isData p = true := hd p (List.mem_of_getElem? h)
  conv => rhs; rw [e]
  simp only [chunkRows, List.filter_append, List.map_append, List.sum_append, List.filter_cons, hp, if_true,
    List.map_cons, List.sum_cons, rowsIn]
  omega

theorem readsAll (codec : Codec Thrift.PageHeader) (file : List Byte) (dict : Option CompressedDictPage)
    (datas : List CompressedPage) (chunk : ColumnChunkMetaData) (locations : List Thrift.PageLocation)
    (h : SelectionReads codec file dict datas chunk locations) (hN : chunkRows datas < 2 ^ 63)
    (hd : ∀ p ∈ datas, isData p = true) (hpos : ∀ p ∈ datas, 0 < rowsIn p) (hdict : datas = [] → dict = none) :
    ReadsAll codec file (chunkRows datas) chunk locations ((dict.toList.map CompressedPage.dict ++ datas).map copyPage) := by
  intro ck
  obtain ⟨fs, h1, h2, h3, -, reader, last, h4, h5⟩ := h ck [⟨0, chunkRows datas⟩] (by
    intro iv hiv
    rw [List.mem_singleton.1 hiv]
    simp only
    omega)
  refine ⟨fs, reader, last, h1, h4, ?_⟩
  have key : ∀ x ∈ fs.zip datas, x.1.selectedRows = [⟨0, rowsIn x.2⟩] := by
    intro x hx
    obtain ⟨i, hi⟩ := List.getElem?_of_mem hx
    rw [List.getElem?_zip_eq_some] at hi
    obtain ⟨hn, hw, -, -, hr⟩ := h3 i x.1 x.2 hi.1 hi.2
    have hle := selectPages_one _ _ _ _ _ h1 x.1 (List.mem_of_getElem? hi.1)
    have htk := chunkRows_take_le datas hd i x.2 hi.2
    have hp := hpos x.2 (List.mem_of_getElem? hi.2)
    have mem : ∀ r, (r ∈ x.1.selectedRows.flatMap fun iv => (rowsOf iv).map (chunkRows (datas.take i) + ·)) ↔
        (r < chunkRows datas ∧ chunkRows (datas.take i) ≤ r ∧ r < chunkRows (datas.take i) + rowsIn x.2) := by
      intro r
      rw [hr]
      simp [rowsOf, List.mem_filter]
    match hs : x.1.selectedRows, hle with
    | [], _ =>
      have := (mem (chunkRows (datas.take i))).2 ⟨by omega, by omega, by omega⟩
      rw [hs] at this
      simp at this
    | [iv], _ =>
      have hiv := hw iv (by rw [hs]; simp)
      have a := (mem (chunkRows (datas.take i))).2 ⟨by omega, by omega, by omega⟩
      have b := (mem (chunkRows (datas.take i) + rowsIn x.2 - 1)).2 ⟨by omega, by omega, by omega⟩
      rw [hs] at a b
      simp only [List.flatMap_cons, List.flatMap_nil, List.append_nil, List.mem_map, rowsOf, List.mem_range'_1] at a b
      obtain ⟨a, ha, ha'⟩ := a
      obtain ⟨b, hb, hb'⟩ := b
      obtain ⟨s, l⟩ := iv
      simp only at *
      have : s = 0 := by omega
      have : l = rowsIn x.2 := by omega
      subst s l
      rfl
    | _ :: _ :: _, hle => simp at hle
  have e : ((fs.zip datas).filter fun x => x.1.selectedRows ≠ []).map (fun x => readSelected x.1.selectedRows x.2) =
      datas.map copyPage := by
    rw [List.filter_eq_self.2 (fun x hx => by simp [key x hx])]
    rw [List.map_congr_left (g := fun x => copyPage x.2) (fun x hx => by rw [key x hx]; rfl)]
    rw [show (fun x : FilteredPage × CompressedPage => copyPage x.2) = copyPage ∘ Prod.snd from rfl, ← List.map_map,
      List.map_snd_zip (by omega)]
  rw [e] at h5
  have e' : (if datas = [] then [] else dict.toList.map fun d => readBack (.dict d)) =
      (dict.toList.map CompressedPage.dict).map copyPage := by
    split
    · rename_i hn
      rw [hdict hn]
      rfl
    · rw [List.map_map]
      rfl
  rw [e', ← List.map_append] at h5
  exact h5

end Pq
