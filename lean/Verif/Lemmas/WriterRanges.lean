import Verif.Lemmas.WriterEnd
/-
Lemmas about the byte ranges of column chunks.
-/
namespace Pq

open Spec

/-- What the range of a chunk in `[lo, hi)` is. -/
def RangeOk (cs : ThriftCodecs) (file : List Byte) (lo hi : Nat)
    (c : ColumnDescriptor × List CompressedPage) (m : Thrift.ColumnMetaData) : Prop :=
  (rangeOf m).2 = (chunkBytes cs.page c.2).length ∧
    (c.2 ≠ [] → (lo : Int) ≤ (rangeOf m).1 ∧ (rangeOf m).1 + (rangeOf m).2 ≤ hi ∧
      region file (rangeOf m).1.toNat (rangeOf m).2.toNat = chunkBytes cs.page c.2)

theorem RangeOk.mono {cs : ThriftCodecs} {file : List Byte} {lo hi lo' hi' : Nat}
    {c : ColumnDescriptor × List CompressedPage} {m : Thrift.ColumnMetaData}
    (h : RangeOk cs file lo hi c m) (h1 : lo' ≤ lo) (h2 : hi ≤ hi') : RangeOk cs file lo' hi' c m := by
  refine ⟨h.1, fun hne => ?_⟩
  obtain ⟨h3, h4, h5⟩ := h.2 hne
  exact ⟨by omega, by omega, h5⟩

/-- An empty range, or one in `[lo, hi)`. -/
def Within (lo hi : Nat) (m : Thrift.ColumnMetaData) : Prop :=
  (rangeOf m).2 = 0 ∨ ((lo : Int) ≤ (rangeOf m).1 ∧ (rangeOf m).1 + (rangeOf m).2 ≤ hi)

theorem RangeOk.within {cs : ThriftCodecs} {file : List Byte} {lo hi : Nat}
    {c : ColumnDescriptor × List CompressedPage} {m : Thrift.ColumnMetaData}
    (h : RangeOk cs file lo hi c m) : Within lo hi m := by
  by_cases hne : c.2 = []
  · left
    rw [h.1, hne]
    rfl
  · exact .inr ⟨(h.2 hne).1, (h.2 hne).2.1⟩

theorem forall₂_right {α β : Type} {R : α → β → Prop} {P : β → Prop} (hP : ∀ a b, R a b → P b)
    {as : List α} {bs : List β} (h : List.Forall₂ R as bs) : ∀ b ∈ bs, P b := by
  induction h with
  | nil => simp
  | cons h1 h2 ih =>
    intro b hb
    rcases List.mem_cons.1 hb with rfl | hb
    · exact hP _ _ h1
    · exact ih b hb

theorem describes_range {cs : ThriftCodecs} {file : List Byte} {pos : Nat} {d : ColumnDescriptor}
    {pages : List CompressedPage} {m : Thrift.ColumnMetaData}
    (h : DescribesChunk cs.page pos d pages m) (hat : Located file pos (chunkBytes cs.page pages)) :
    RangeOk cs file pos (pos + (chunkBytes cs.page pages).length) (d, pages) m := by
  have e2 : (rangeOf m).2 = (chunkBytes cs.page pages).length := h.compressed
  refine ⟨e2, fun hne => ?_⟩
  have e1 : (rangeOf m).1 = pos := by
    rw [rangeOf, h.noDictionary]
    exact h.start hne
  refine ⟨by omega, by omega, ?_⟩
  rw [e1, e2]
  exact hat.region

theorem chunks_ranges {cs : ThriftCodecs} {file : List Byte} {pos : Nat}
    {columns : List (ColumnDescriptor × List CompressedPage)} {ms : List Thrift.ColumnMetaData}
    {bytes : List Byte} (h : Chunks cs pos columns ms bytes) (hat : Located file pos bytes) :
    List.Forall₂ (RangeOk cs file pos (pos + bytes.length)) columns ms ∧
      ms.Pairwise fun a b => Precedes (rangeOf a) (rangeOf b) := by
  induction h with
  | nil => exact ⟨.nil, .nil⟩
  | @cons pos d pages m columns ms bytes h1 h2 ih =>
    obtain ⟨i1, i2⟩ := ih hat.right
    have r := describes_range h1 hat.left.left
    simp only [List.length_append] at i1 ⊢
    refine ⟨.cons (r.mono (by omega) (by omega)) (i1.imp fun a b hab => hab.mono (by omega) (by omega)),
      .cons ?_ i2⟩
    intro b hb
    have w1 := r.within
    have w2 := forall₂_right (fun a b hab => hab.within) i1 b hb
    unfold Within at w1 w2
    unfold Precedes
    omega

theorem groups_ranges {cs : ThriftCodecs} {file : List Byte} {pos : Nat}
    {groups : List (List (ColumnDescriptor × List CompressedPage))} {rgs : List Thrift.RowGroup}
    {bytes : List Byte} (h : Groups cs pos groups rgs bytes) (hat : Located file pos bytes) :
    ∃ ms, (rgs.flatMap (·.columns)).map (·.metaData) = ms.map some ∧
      List.Forall₂ (RangeOk cs file pos (pos + bytes.length)) groups.flatten ms ∧
      ms.Pairwise fun a b => Precedes (rangeOf a) (rangeOf b) := by
  induction h with
  | nil => exact ⟨[], rfl, .nil, .nil⟩
  | @cons pos columns ms b rg groups rgs bytes h1 h2 h3 h4 ih =>
    obtain ⟨ms', i0, i1, i2⟩ := ih hat.right
    obtain ⟨c1, c2⟩ := chunks_ranges h1 hat.left
    simp only [List.length_append] at i1 ⊢
    refine ⟨ms ++ ms', ?_, ?_, ?_⟩
    · simp [h2, i0]
    · rw [List.flatten_cons]
      exact forall₂_append' (c1.imp fun a b hab => hab.mono (by omega) (by omega))
        (i1.imp fun a b hab => hab.mono (by omega) (by omega))
    · refine List.pairwise_append.2 ⟨c2, i2, fun x hx y hy => ?_⟩
      have w1 := forall₂_right (fun a b hab => hab.within) c1 x hx
      have w2 := forall₂_right (fun a b hab => hab.within) i1 y hy
      unfold Within at w1 w2
      unfold Precedes
      omega

theorem forall₂_left {α β : Type} {R : α → β → Prop} {as : List α} {bs : List β}
    (h : List.Forall₂ R as bs) {a : α} (ha : a ∈ as) : ∃ b ∈ bs, R a b := by
  induction h with
  | nil => simp at ha
  | cons h1 h2 ih =>
    rcases List.mem_cons.1 ha with rfl | ha
    · exact ⟨_, by simp, h1⟩
    · obtain ⟨b, h3, h4⟩ := ih ha
      exact ⟨b, List.mem_cons_of_mem _ h3, h4⟩

theorem region_split {file a b : List Byte} {pos : Nat}
    (h : region file pos (a ++ b).length = a ++ b) :
    region file pos a.length = a ∧ region file (pos + a.length) b.length = b := by
  simp only [region, List.length_append] at h ⊢
  constructor
  · have := congrArg (List.take a.length) h
    rwa [List.take_take, Nat.min_eq_left (by omega), List.take_left'  rfl] at this
  · have := congrArg (List.drop a.length) h
    rwa [List.drop_take, List.drop_drop, List.drop_left' rfl, Nat.add_sub_cancel_left] at this

theorem locationsOf_get {codec : Codec Thrift.PageHeader} {file : List Byte}
    {pages : List CompressedPage} {pos row : Nat}
    (h : region file pos (chunkBytes codec pages).length = chunkBytes codec pages)
    {i : Nat} {l : Int × Int × Int} (hl : (locationsOf codec pos row pages)[i]? = some l) :
    ∃ p, (pages.filter isData)[i]? = some p ∧ region file l.1.toNat l.2.1.toNat = pageBytes codec p ∧
      l.2.2 = row + ((((pages.filter isData).take i).map fun p => (pageRowCount p).getD 0).sum : Nat) := by
  induction pages generalizing pos row i with
  | nil => simp [locationsOf] at hl
  | cons p ps ih =>
    have e : chunkBytes codec (p :: ps) = pageBytes codec p ++ chunkBytes codec ps := by
      simp [chunkBytes]
    rw [e] at h
    obtain ⟨h1, h2⟩ := region_split h
    rw [locationsOf] at hl
    by_cases hd : isData p = true
    · simp only [hd, if_true] at hl
      cases i with
      | zero =>
        simp only [List.getElem?_cons_zero, Option.some.injEq] at hl
        subst hl
        refine ⟨p, by simp [hd], ?_, by simp⟩
        simpa using h1
      | succ i =>
        rw [List.getElem?_cons_succ] at hl
        obtain ⟨q, h3, h4, h5⟩ := ih h2 (by push_cast at hl ⊢; exact hl)
        refine ⟨q, by simpa [hd] using h3, h4, ?_⟩
        rw [h5]
        simp only [List.filter_cons, hd, if_true, List.take_succ_cons, List.map_cons, List.sum_cons]
        push_cast
        omega
    · simp only [hd] at hl
      obtain ⟨q, h3, h4, h5⟩ := ih h2 (by push_cast at hl ⊢; exact hl)
      simp only [List.filter_cons, hd]
      exact ⟨q, h3, h4, h5⟩

theorem groupWritten_rows {cs : ThriftCodecs} {stats : Bool} {file : List Byte}
    {columns : List (ColumnDescriptor × List CompressedPage)} {rg : Thrift.RowGroup}
    (h : GroupWritten cs stats file columns rg) (hk : GroupRowsKnown columns) :
    rg.numRows.toInt = groupRows columns := by
  cases hh : columns with
  | nil => rw [h.totals.noColumns hh]; rfl
  | cons c l =>
    obtain ⟨k1, k2⟩ := hk c (by simp [hh])
    rw [h.totals.rows c (by simp [hh]) k1 k2]
    rfl

theorem fileWritten_rows {cs : ThriftCodecs} {schema : SchemaDescriptor} {options : WriteOptions}
    {createdBy : Option String} {kv : Option (List Thrift.KeyValue)}
    {groups : List (List (List CompressedPage))} {file : List Byte} {md : Thrift.FileMetaData}
    (h : FileWritten cs schema options createdBy kv groups file md)
    (hk : ∀ g ∈ groups, GroupRowsKnown (schema.leaves.zip g))
    (hs : (groups.map fun g => groupRows (schema.leaves.zip g)).sum < 2 ^ 63) :
    md.numRows.toInt = ((groups.map fun g => groupRows (schema.leaves.zip g)).sum : Nat) := by
  have e : ∀ (gs : List (List (List CompressedPage))) (rgs : List Thrift.RowGroup),
      List.Forall₂ (fun g rg =>
        GroupWritten cs options.writeStatistics file (schema.leaves.zip g) rg) gs rgs →
      (∀ g ∈ gs, GroupRowsKnown (schema.leaves.zip g)) →
      (rgs.map fun rg : Thrift.RowGroup => rg.numRows.toInt).sum =
        ((gs.map fun g => groupRows (schema.leaves.zip g)).sum : Nat) := by
    intro gs rgs hgs hk
    induction hgs with
    | nil => rfl
    | @cons g rg gs rgs h1 h2 ih =>
      simp only [List.map_cons, List.sum_cons]
      rw [ih (fun g hg => hk g (List.mem_cons_of_mem _ hg)), groupWritten_rows h1 (hk g (by simp))]
      push_cast
      rfl
  rw [h.rows, e _ _ (List.forall₂_map_left_iff.1 h.rowGroups) hk, Int.bmod_eq_of_le] <;> omega

theorem asUsize_toNat (x : I64) (h : 0 ≤ x.toInt) : asUsize x = x.toInt.toNat := by
  have := asUsize_nonneg (Nat.le_refl 64) x h
  omega

end Pq
