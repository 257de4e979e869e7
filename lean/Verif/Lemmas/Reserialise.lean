import Verif.Lemmas.Indexes
import Verif.Spec.Reserialise
/-
Lemmas about converting metadata that was read back to thrift.
-/
namespace Pq

open Spec

theorem toUsize_inv {w n : Nat} {x : BitVec w} (h : toUsize x = .ok n) : 0 ≤ x.toInt ∧ x.toInt = n := by
  unfold toUsize at h
  split at h
  · injection h with h
    omega
  · cases h

theorem toUsize_lt {n : Nat} {x : I32} (h : toUsize x = .ok n) : n < 2 ^ 31 := by
  have := toUsize_inv h
  have := @BitVec.toInt_lt 32 x
  omega

theorem asI64_inv {n : Nat} {x : I64} (h : toUsize x = .ok n) : asI64 n = x := by
  have h1 := (toUsize_inv h).2
  have h2 := @BitVec.toInt_lt 64 x
  exact BitVec.toInt_inj.1 (by rw [asI64_toInt_small (by omega), h1])

theorem PhysicalType.ofThrift_small {c : I32} {l : Option I32} {t : PhysicalType}
    (h : PhysicalType.ofThrift c l = .ok t) : SmallPhysical t := by
  unfold PhysicalType.ofThrift at h
  repeat' split at h
  all_goals try (injection h with h; subst h; trivial)
  · obtain ⟨l', -, h⟩ := Res.bind_eq_ok.1 h
    obtain ⟨n, hn, h⟩ := Res.bind_eq_ok.1 h
    injection h with h
    subst h
    exact toUsize_lt hn
  · cases h

theorem ite_ok_elim {α : Type} {c Q : Prop} [Decidable c] {x y : Res α} {t : α} (hx : x = .ok t → Q)
    (hy : y = .ok t → Q) : (if c then x else y) = .ok t → Q := by
  split
  · exact hx
  · exact hy

theorem PrimitiveConvertedType.ofThrift_small {c : I32} {d : Option (I32 × I32)} {t : PrimitiveConvertedType}
    (h : PrimitiveConvertedType.ofThrift c d = .ok t) : SmallConverted t := by
  unfold PrimitiveConvertedType.ofThrift at h
  have hd : (match d with
      | some (precision, scale) => do
        let p ← toUsize precision
        let s ← toUsize scale
        Res.ok (PrimitiveConvertedType.decimal p s)
      | none => .err .oos) = .ok t → SmallConverted t := by
    intro h
    cases d with
    | none => cases h
    | some d =>
      obtain ⟨p, hp, h⟩ := Res.bind_eq_ok.1 h
      obtain ⟨s, hs, h⟩ := Res.bind_eq_ok.1 h
      injection h with h
      subst h
      exact ⟨toUsize_lt hp, toUsize_lt hs⟩
  revert h
  refine ite_ok_elim ?_ (ite_ok_elim ?_ (ite_ok_elim hd ?_))
  · intro h
    injection h with h
    subst h
    trivial
  · intro h
    injection h with h
    subst h
    trivial
  · repeat' apply ite_ok_elim
    all_goals
      intro h
      first
        | (cases h; done)
        | (injection h with h; subst h; trivial)

theorem PrimitiveLogicalType.ofThrift_small {c : Thrift.LogicalType} {t : PrimitiveLogicalType}
    (h : PrimitiveLogicalType.ofThrift c = .ok t) : SmallLogical t := by
  cases c with
  | decimal scale precision =>
    obtain ⟨p, hp, h⟩ := Res.bind_eq_ok.1 h
    obtain ⟨s, hs, h⟩ := Res.bind_eq_ok.1 h
    injection h with h
    subst h
    exact ⟨toUsize_lt hp, toUsize_lt hs⟩
  | map => cases h
  | list => cases h
  | _ =>
    injection h with h
    subst h
    trivial

theorem transposeMap_inv {α β : Type} {f : α → Res β} {o : Option α} {r : Option β}
    (h : transposeMap f o = .ok r) {b : β} (hb : r = some b) : ∃ a, f a = .ok b := by
  cases o with
  | none =>
    injection h with h
    subst h
    cases hb
  | some a =>
    obtain ⟨b', h1, h2⟩ := map'_ok _ _ _ h
    rw [hb] at h2
    injection h2 with h2
    exact ⟨a, by rw [h1, h2]⟩

/-- A primitive type that was read is good. -/
theorem primitiveOfElement_good {e : Thrift.SchemaElement} {t : ParquetType}
    (h : primitiveOfElement e = .ok t) : GoodTree t := by
  unfold primitiveOfElement at h
  obtain ⟨_, -, h⟩ := Res.bind_eq_ok.1 h
  obtain ⟨r, -, h⟩ := Res.bind_eq_ok.1 h
  obtain ⟨_, -, h⟩ := Res.bind_eq_ok.1 h
  obtain ⟨c, hc, h⟩ := Res.bind_eq_ok.1 h
  obtain ⟨l, hl, h⟩ := Res.bind_eq_ok.1 h
  obtain ⟨p, hp, h⟩ := Res.bind_eq_ok.1 h
  have h' := h
  unfold ParquetType.tryFromPrimitive at h
  obtain ⟨_, -, h⟩ := Res.bind_eq_ok.1 h
  obtain ⟨_, -, h⟩ := Res.bind_eq_ok.1 h
  injection h with h
  subst h
  refine ⟨PhysicalType.ofThrift_small hp, ?_, ?_, h'⟩
  · intro x hx
    obtain ⟨a, ha⟩ := transposeMap_inv hc hx
    obtain ⟨d, -, ha⟩ := Res.bind_eq_ok.1 ha
    exact PrimitiveConvertedType.ofThrift_small ha
  · intro x hx
    obtain ⟨a, ha⟩ := transposeMap_inv hl hx
    exact PrimitiveLogicalType.ofThrift_small ha

theorem childrenLoop_good {helper : Nat → Res (Nat × ParquetType)} (P : ParquetType → Prop)
    (h : ∀ i next t, helper i = .ok (next, t) → P t) {n i next : Nat} {ts : List ParquetType}
    (he : childrenLoop helper n i = .ok (next, ts)) : ts.length = n ∧ ∀ t ∈ ts, P t := by
  induction n generalizing i ts with
  | zero =>
    simp only [childrenLoop, Res.ok.injEq, Prod.mk.injEq] at he
    obtain ⟨rfl, rfl⟩ := he
    exact ⟨rfl, by simp⟩
  | succ n ih =>
    obtain ⟨⟨m, t⟩, ha, he⟩ := Res.bind_eq_ok.1 he
    obtain ⟨⟨k, us⟩, hb, he⟩ := Res.bind_eq_ok.1 he
    simp only [Res.ok.injEq, Prod.mk.injEq] at he
    obtain ⟨rfl, rfl⟩ := he
    obtain ⟨h4, h5⟩ := ih hb
    refine ⟨by simp [h4], fun x hx => ?_⟩
    rcases List.mem_cons.1 hx with rfl | hx
    · exact h i m x ha
    · exact h5 x hx

theorem noEmptyGroups_iff (ts : List ParquetType) : NoEmptyGroups ts ↔ ∀ t ∈ ts, NoEmptyGroup t := by
  induction ts with
  | nil => simp [NoEmptyGroups]
  | cons t ts ih => simp [NoEmptyGroups, ih]

theorem goodTrees_iff (ts : List ParquetType) : GoodTrees ts ↔ ∀ t ∈ ts, GoodTree t := by
  induction ts with
  | nil => simp [GoodTrees]
  | cons t ts ih => simp [GoodTrees, ih]

/-- What holds of a tree that was read, by induction: it holds of primitives that were read, and of
groups of which it holds for the fields. -/
theorem helper_induct {elements : List Thrift.SchemaElement} (P : ParquetType → Prop)
    (hp : ∀ e t, primitiveOfElement e = .ok t → P t)
    (hg : ∀ e ∈ elements, ∀ n info l c fields, e.numChildren = some n → n.toInt ≠ 0 →
      fields.length = n.toInt.toNat → (∀ t ∈ fields, P t) → P (.group info l c fields)) :
    ∀ fuel index next t, fromThriftHelper elements fuel index = .ok (next, t) → P t := by
  intro fuel
  induction fuel with
  | zero => intro index next t h; cases h
  | succ fuel ih =>
    intro index next t h
    unfold fromThriftHelper at h
    cases he : elements[index]? with
    | none => rw [he] at h; cases h
    | some e =>
      rw [he] at h
      have hprim : (primitiveOfElement e).map' (fun t => (index + 1, t)) = .ok (next, t) → P t := by
        intro h
        obtain ⟨t', h1, h2⟩ := map'_ok _ _ _ h
        simp only [Prod.mk.injEq] at h2
        obtain ⟨rfl, rfl⟩ := h2
        exact hp e _ h1
      cases hc : e.numChildren with
      | none =>
        simp only [hc] at h
        exact hprim h
      | some n =>
        simp only [hc] at h
        split at h
        · exact hprim h
        · rename_i hz
          have h2 : n.toInt ≠ 0 := fun hcon => hz (BitVec.toInt_inj.1 (by simpa using hcon))
          split at h
          · cases h
          · cases h
          · rename_i m fields hl
            obtain ⟨i2, i3⟩ := childrenLoop_good P ih hl
            split at h
            · simp only [Res.ok.injEq, Prod.mk.injEq] at h
              obtain ⟨rfl, rfl⟩ := h
              exact hg e (List.mem_of_getElem? he) n _ _ _ fields hc h2 i2 i3
            · obtain ⟨t', h3, h4⟩ := map'_ok _ _ _ h
              simp only [Prod.mk.injEq] at h4
              obtain ⟨rfl, rfl⟩ := h4
              unfold groupOfElement at h3
              obtain ⟨_, -, h3⟩ := Res.bind_eq_ok.1 h3
              obtain ⟨_, -, h3⟩ := Res.bind_eq_ok.1 h3
              obtain ⟨_, -, h3⟩ := Res.bind_eq_ok.1 h3
              obtain ⟨_, -, h3⟩ := Res.bind_eq_ok.1 h3
              injection h3 with h3
              subst h3
              exact hg e (List.mem_of_getElem? he) n _ _ _ fields hc h2 i2 i3

/-- The same for whole schemas. -/
theorem schema_induct {elements : List Thrift.SchemaElement} (P : ParquetType → Prop)
    (hp : ∀ e t, primitiveOfElement e = .ok t → P t)
    (hg : ∀ e ∈ elements, ∀ n info l c fields, e.numChildren = some n → n.toInt ≠ 0 →
      fields.length = n.toInt.toNat → (∀ t ∈ fields, P t) → P (.group info l c fields))
    {s : SchemaDescriptor} (h : SchemaDescriptor.tryFromThrift elements = .ok s) :
    ∃ info l c, s = SchemaDescriptor.new s.name s.fields ∧ P (.group info l c s.fields) := by
  unfold SchemaDescriptor.tryFromThrift at h
  split at h
  · rename_i t ht
    have hg : P t := by
      unfold ParquetType.tryFromThrift at ht
      split at ht
      · rename_i t' htop
        injection ht with ht
        subst ht
        rw [topLevel] at htop
        split at htop
        · obtain ⟨⟨next, u⟩, h1, h2⟩ := Res.bind_eq_ok.1 htop
          obtain ⟨rest, -, h2⟩ := Res.bind_eq_ok.1 h2
          simp only [Res.ok.injEq, List.cons.injEq] at h2
          rw [← h2.1]
          exact helper_induct P hp hg _ _ _ _ h1
        · cases htop
      all_goals cases ht
    cases t with
    | primitive p => cases h
    | group info l c fields =>
      injection h with h
      subst h
      exact ⟨_, _, _, rfl, hg⟩
  · cases h
  · cases h

/-- A schema that was read is made of good trees if there is no empty group in it. -/
theorem schema_good {elements : List Thrift.SchemaElement}
    {s : SchemaDescriptor} (h : SchemaDescriptor.tryFromThrift elements = .ok s)
    (h0 : s.fields ≠ []) (he : NoEmptyGroups s.fields) :
    s = SchemaDescriptor.new s.name s.fields ∧ 0 < s.fields.length ∧ s.fields.length < 2 ^ 31 ∧
      GoodTrees s.fields := by
  obtain ⟨info, l, c, e, hP⟩ := schema_induct (fun t => NoEmptyGroup t → GoodTree t)
    (fun e t ht _ => primitiveOfElement_good ht)
    (fun e _ n info l c fields _ _ hl ih hne => by
      obtain ⟨h1, h2⟩ := hne
      have := @BitVec.toInt_lt 32 n
      refine ⟨List.length_pos_iff.2 h1, by omega, (goodTrees_iff _).2 fun t ht => ?_⟩
      exact ih t ht ((noEmptyGroups_iff _).1 h2 t ht)) h
  exact ⟨e, hP ⟨h0, he⟩⟩

/-- There is no empty group in a schema read from elements without negative numbers of children. -/
theorem schema_nonempty {elements : List Thrift.SchemaElement} (hn : NoNegativeChildren elements)
    {s : SchemaDescriptor} (h : SchemaDescriptor.tryFromThrift elements = .ok s) :
    s.fields ≠ [] ∧ NoEmptyGroups s.fields := by
  obtain ⟨info, l, c, e, hP⟩ := schema_induct NoEmptyGroup
    (fun e t ht => by
      have := primitiveOfElement_good ht
      unfold primitiveOfElement at ht
      obtain ⟨_, -, ht⟩ := Res.bind_eq_ok.1 ht
      obtain ⟨_, -, ht⟩ := Res.bind_eq_ok.1 ht
      obtain ⟨_, -, ht⟩ := Res.bind_eq_ok.1 ht
      obtain ⟨_, -, ht⟩ := Res.bind_eq_ok.1 ht
      obtain ⟨_, -, ht⟩ := Res.bind_eq_ok.1 ht
      obtain ⟨_, -, ht⟩ := Res.bind_eq_ok.1 ht
      unfold ParquetType.tryFromPrimitive at ht
      obtain ⟨_, -, ht⟩ := Res.bind_eq_ok.1 ht
      obtain ⟨_, -, ht⟩ := Res.bind_eq_ok.1 ht
      injection ht with ht
      subst ht
      trivial)
    (fun e he n info l c fields hc hz hl ih => by
      have := hn e he n hc
      refine ⟨List.length_pos_iff.1 (by omega), (noEmptyGroups_iff _).2 ih⟩) h
  exact hP

theorem columnChunk_metadata {d : ColumnDescriptor} {chunk : Thrift.ColumnChunk} {cm : ColumnChunkMetaData}
    (h : ColumnChunkMetaData.tryFromThrift d chunk = .ok cm) :
    ∃ m, cm.metadata = .ok m ∧ chunk.metaData = some m ∧ asUsize m.totalCompressedSize = chunkSize chunk := by
  have h' := columnChunk_ofThrift h
  rw [ColumnChunkMetaData.tryFromThrift] at h
  obtain ⟨m, hm, h⟩ := Res.bind_eq_ok.1 h
  obtain ⟨n, hn, -⟩ := Res.bind_eq_ok.1 h
  have hm' : chunk.metaData = some m := by
    cases hc : chunk.metaData with
    | none => rw [hc] at hm; cases hm
    | some m' =>
      rw [hc] at hm
      injection hm with hm
      rw [hm]
  refine ⟨m, by rw [h', ColumnChunkMetaData.metadata, hm']; rfl, hm', ?_⟩
  have h0 := (toUsize_inv hn).1
  have h1 := asUsize_nonneg (Nat.le_refl 64) m.totalCompressedSize h0
  simp only [chunkSize, hm', Option.map_some, Option.getD_some]
  omega

theorem sumUsize_release (acc : Nat) (xs : List Nat) : ∃ n, sumUsize false acc xs = .ok n := by
  induction xs generalizing acc with
  | nil => exact ⟨_, rfl⟩
  | cons x xs ih =>
    rw [sumUsize, uadd]
    split
    · exact ih _
    · exact ih _

/-- Converting a row group that was read. -/
theorem rowGroup_intoThrift {ck : Bool} {schema : SchemaDescriptor} {rg : Thrift.RowGroup}
    {gm : RowGroupMetaData} (h : RowGroupMetaData.tryFromThrift schema rg = .ok gm)
    (hck : ck = true → (rg.columns.map chunkSize).sum < 2 ^ 64) :
    ∃ rg', gm.intoThrift ck = .ok rg' ∧ SameGroup rg rg' := by
  have hc := (rowGroup_ofThrift h).1
  rw [RowGroupMetaData.tryFromThrift] at h
  split at h
  · cases h
  rename_i hl
  obtain ⟨b, hb, h⟩ := Res.bind_eq_ok.1 h
  obtain ⟨r, hr, h⟩ := Res.bind_eq_ok.1 h
  obtain ⟨cms, hcm, h⟩ := Res.bind_eq_ok.1 h
  injection h with h
  subst h
  rw [collectRes_ok_iff] at hcm
  have hall : ∀ cm ∈ cms, ∃ m, cm.metadata = .ok m ∧ cm.columnChunk.metaData = some m ∧
      asUsize m.totalCompressedSize = chunkSize cm.columnChunk := by
    intro cm hm
    have : Res.ok cm ∈ cms.map Res.ok := List.mem_map_of_mem hm
    rw [← hcm] at this
    obtain ⟨x, -, hx⟩ := List.mem_map.1 this
    have e := columnChunk_ofThrift hx
    obtain ⟨m, h1, h2, h3⟩ := columnChunk_metadata hx
    exact ⟨m, h1, by rw [e]; exact h2, by rw [e]; exact h3⟩
  have hsizes : collectRes (cms.map fun c => c.compressedSize.map' fun x => asUsize x) =
      .ok (cms.map fun c => chunkSize c.columnChunk) := by
    rw [collectRes_ok_iff, List.map_map]
    refine List.map_congr_left fun cm hm => ?_
    obtain ⟨m, h1, h2, h3⟩ := hall cm hm
    simp only [ColumnChunkMetaData.compressedSize, h1, Res.map', Function.comp, h3]
  have hsum : ∃ n, sumUsize ck 0 (cms.map fun c => chunkSize c.columnChunk) = .ok n ∧
      ((rg.columns.map chunkSize).sum < 2 ^ 64 → n = (rg.columns.map chunkSize).sum) := by
    have e : (cms.map fun c => chunkSize c.columnChunk) = rg.columns.map chunkSize := by
      rw [← hc, List.map_map]
      rfl
    rw [e]
    by_cases hlt : (rg.columns.map chunkSize).sum < 2 ^ 64
    · exact ⟨_, sumUsize_ok ck 0 _ (by omega), fun _ => by omega⟩
    · cases ck with
      | true => exact absurd (hck rfl) hlt
      | false =>
        obtain ⟨n, hn⟩ := sumUsize_release 0 (rg.columns.map chunkSize)
        exact ⟨n, hn, fun h => absurd h hlt⟩
  obtain ⟨n, hn, hn'⟩ := hsum
  have hoff : ∃ o, RowGroupMetaData.intoThrift ck { columns := cms, numRows := r, totalByteSize := b } =
      .ok { columns := cms.map (·.intoThrift), totalByteSize := asI64 b, numRows := asI64 r
            fileOffset := o, totalCompressedSize := some (asI64 n) } ∧
      o = rg.columns.head?.bind chunkStart := by
    rw [RowGroupMetaData.intoThrift, RowGroupMetaData.compressedSize, ← hc]
    simp only [hsizes, hn, Res.ok_bind]
    clear hsizes hn hc
    cases cms with
    | nil => exact ⟨_, rfl, rfl⟩
    | cons cm cms =>
      obtain ⟨m, h1, h2, -⟩ := hall cm (by simp)
      simp only [RowGroupMetaData.fileOffset, h1, Res.map', Res.ok_bind]
      refine ⟨_, rfl, ?_⟩
      simp only [List.map_cons, List.head?_cons, Option.bind_some, chunkStart, h2, Option.map_some]
      cases m.dictionaryPageOffset with
      | none => rfl
      | some x =>
        by_cases hx : 0 < x.toInt <;> simp [Option.filter, hx]
  obtain ⟨o, ho, ho'⟩ := hoff
  refine ⟨_, ho, hc, asI64_inv hb, asI64_inv hr, fun hlt => ?_, ho', rfl, rfl⟩
  simp only [hn' hlt]
  rfl

/-- Row groups that are the same are read as the same. -/
theorem rowGroup_same {schema : SchemaDescriptor} {rg rg' : Thrift.RowGroup} (h : SameGroup rg rg') :
    RowGroupMetaData.tryFromThrift schema rg' = RowGroupMetaData.tryFromThrift schema rg := by
  rw [RowGroupMetaData.tryFromThrift, RowGroupMetaData.tryFromThrift, h.columns, h.bytes, h.rows]

end Pq
