import Verif.Spec.FileMetadata
import Verif.Spec.Thrift
import Verif.Lemmas.Bits
import Verif.Lemmas.Schema
import Verif.Lemmas.Intervals
import Verif.Lemmas.ThriftCompact
/- Helper lemmas for file metadata. -/
namespace Pq
open Spec

/-! ### The allocation limit -/

namespace Compact

mutual
theorem cost_lt : ∀ v : TVal, cost v + 1 ≤ (encVal v).length
  | .bool _ => by simp [cost, encVal]
  | .byte _ => by simp [cost, encVal]
  | .i16 x => by have := zvar_pos x; simp only [cost, encVal]; omega
  | .i32 x => by have := zvar_pos x; simp only [cost, encVal]; omega
  | .i64 x => by have := zvar_pos x; simp only [cost, encVal]; omega
  | .double x => by simp only [cost, encVal, Pq.toLe_length]; omega
  | .binary bs => by
    have := uvar_pos bs.length
    simp only [cost, encVal, List.length_append]; omega
  | .list elem vs => by
    have h1 := listHeader_pos vs.length elem
    have h2 := costList_le vs
    simp only [cost, encVal, List.length_append]; omega
  | .struct fs => by
    have h2 := costFields_lt fs 0
    simp only [cost, encVal]; omega
theorem costList_le : ∀ vs : TList, vs.length + costList vs ≤ (encList vs).length
  | .nil => by simp [costList, TList.length]
  | .cons v vs => by
    have h1 := cost_lt v
    have h2 := costList_le vs
    simp only [costList, encList, TList.length, List.length_append]; omega
theorem costFields_lt : ∀ (fs : TFields) (prev : BitVec 16),
    costFields fs + 1 ≤ (encFields prev fs).length
  | .nil, _ => by simp [costFields, encFields]
  | .cons id v fs, prev => by
    have h1 := cost_lt v
    have h2 := costFields_lt fs id
    have h3 := fieldHeader_pos prev id (fieldCode v)
    cases v with
    | bool b => simp only [costFields, encFields, List.length_append, cost]; omega
    | _ =>
      simp only [costFields, encFields, List.length_append, isBool, Bool.false_eq_true, if_false]
      omega
end

end Compact

/-! ### The footer -/

theorem magic_eq : magic = par1 := rfl

theorem slice_inside {α : Type} {s : List α} {a b : Nat} (h : a ≤ b ∧ b ≤ s.length) :
    slice s a b = .ok ((s.drop a).take (b - a)) := if_pos h

theorem footer_eq (n : Nat) : footer (asI32 n) = le32 n ++ par1 := by
  have h : ∀ k, BitVec.extractLsb' (8 * k) 8 (asI32 n) = BitVec.ofNat 8 ((n % 2 ^ 32) / 2 ^ (8 * k)) := by
    intro k
    apply BitVec.eq_of_toNat_eq
    simp [asI32, Nat.shiftRight_eq_div_pow]
  simp only [footer, toLe, magic_eq, le32]
  simp only [show List.range 4 = [0, 1, 2, 3] from rfl, List.map_cons, List.map_nil, h]
  congr 1
  simp only [List.cons.injEq, and_true]
  refine ⟨?_, ?_, ?_, ?_⟩ <;> apply BitVec.eq_of_toNat_eq <;> simp only [BitVec.toNat_ofNat] <;> omega

theorem le32_length (n : Nat) : (le32 n).length = 4 := rfl
theorem tail8_length (m : List Byte) : (tail8 m).length = 8 := rfl

theorem le32_leNat (bs : List Byte) (h : bs.length = 4) : le32 (leNat bs) = bs := by
  match bs, h with
  | [a, b, c, d], _ =>
    have ha := a.isLt
    have hb := b.isLt
    have hc := c.isLt
    have hd := d.isLt
    simp only [leNat, le32, List.cons.injEq, and_true]
    refine ⟨?_, ?_, ?_, ?_⟩ <;> apply BitVec.eq_of_toNat_eq <;> simp only [BitVec.toNat_ofNat] <;> omega

theorem leNat_le32 (n : Nat) (h : n < 2 ^ 32) : leNat (le32 n) = n := by
  simp only [leNat, le32, BitVec.toNat_ofNat]
  omega

/-- The number before the last magic bytes. -/
def lenField (file : List Byte) : I32 := fromLe 32 ((file.drop (file.length - 8)).take 4)

theorem footerBytes_eq (file : List Byte) (s : Nat) :
    footerBytes file s =
      if s < 12 ∨ file.length < min (64 * 1024) s then .err .oos
      else if file.drop (file.length - 4) ≠ par1 then .err .oos
      else if (lenField file).toInt < 0 then .err .oos
      else if s < 8 + (lenField file).toInt.toNat then .err .oos
      else if file.length < 8 + (lenField file).toInt.toNat then .err .oos
      else .ok (file.drop (file.length - (8 + (lenField file).toInt.toNat))) := by
  unfold footerBytes
  by_cases h1 : s < 12
  · rw [if_pos h1, if_pos (Or.inl h1)]
  rw [if_neg h1]
  simp only [lastBytes]
  by_cases h2 : min (64 * 1024) s ≤ file.length
  swap
  · rw [if_neg h2, if_pos (Or.inr (by omega))]
    rfl
  rw [if_pos h2, if_neg (c := s < 12 ∨ _) (by omega)]
  generalize hk : min (64 * 1024) s = k at *
  have hk12 : 12 ≤ k := by omega
  have hlen : (file.drop (file.length - k)).length = k := by simp; omega
  simp only [Res.ok_bind]
  rw [slice_inside (by rw [hlen]; omega), hlen]
  simp only [Res.ok_bind, List.drop_drop]
  have e1 : file.length - k + (k - 4) = file.length - 4 := by omega
  rw [e1, show k - (k - 4) = 4 by omega,
    List.take_of_length_le (l := file.drop (file.length - 4)) (by simp; omega), magic_eq]
  split
  · rfl
  simp only [metadataLen]
  rw [slice_inside (by rw [hlen]; omega)]
  simp only [Res.map', Res.ok_bind, List.drop_drop]
  rw [show file.length - k + (k - 8) = file.length - 8 by omega, show k - 4 - (k - 8) = 4 by omega]
  rw [show fromLe 32 ((file.drop (file.length - 8)).take 4) = lenField file from rfl]
  by_cases h3 : (lenField file).toInt < 0
  · rw [if_pos h3, toUsize_err _ (by omega)]; rfl
  rw [if_neg h3, toUsize_ok _ (by omega)]
  simp only [Res.ok_bind, hlen]
  split
  · rfl
  by_cases h4 : 8 + (lenField file).toInt.toNat < k
  · rw [if_pos h4, if_neg (by omega),
      show file.length - k + (k - (8 + (lenField file).toInt.toNat))
        = file.length - (8 + (lenField file).toInt.toNat) by omega]
  · rw [if_neg h4]
    by_cases h5 : file.length < 8 + (lenField file).toInt.toNat
    · rw [if_pos h5, if_neg (by omega)]
    · rw [if_neg h5, if_pos (by omega)]

theorem footerBytes_ne_panic (file : List Byte) (s : Nat) : footerBytes file s ≠ .panic := by
  rw [footerBytes_eq]
  repeat' split
  all_goals simp

theorem footerBytes_size {file : List Byte} {s : Nat} {r : List Byte}
    (h : footerBytes file s = .ok r) : footerBytes file file.length = .ok r := by
  rw [footerBytes_eq] at h ⊢
  split at h
  · cases h
  rename_i h1
  split at h
  · cases h
  rename_i h2
  split at h
  · cases h
  rename_i h3
  split at h
  · cases h
  rename_i h4
  split at h
  · cases h
  rename_i h5
  rw [if_neg (by omega), if_neg h2, if_neg h3, if_neg h5, if_neg h5]
  exact h

theorem footerBytes_framed (file r : List Byte) :
    footerBytes file file.length = .ok r ↔
      ∃ m, Framed file m ∧ r = m ++ tail8 m := by
  rw [footerBytes_eq]
  constructor
  · intro h
    split at h
    · cases h
    rename_i h1
    split at h
    · cases h
    rename_i h2
    split at h
    · cases h
    rename_i h3
    split at h
    · cases h
    rename_i h4
    injection h with h
    have h2' : file.drop (file.length - 4) = par1 := by
      by_contra hc
      exact h2 hc
    generalize hn : (lenField file).toInt.toNat = n at *
    have h4' : ((file.drop (file.length - 8)).take 4).length = 4 := by simp; omega
    have hx : leNat ((file.drop (file.length - 8)).take 4) = n := by
      have hlt := leNat_lt ((file.drop (file.length - 8)).take 4)
      rw [h4'] at hlt
      have : (lenField file).toNat = leNat ((file.drop (file.length - 8)).take 4) := by
        simp only [lenField, fromLe, BitVec.toNat_ofNat]
        exact Nat.mod_eq_of_lt hlt
      rw [BitVec.toInt_eq_toNat_cond] at h3 hn
      split at h3
      · rename_i h5
        rw [if_pos h5] at hn
        omega
      · have := (lenField file).isLt
        omega
    have hn31 : n < 2 ^ 31 := by
      have := BitVec.toInt_lt (x := lenField file)
      omega
    refine ⟨(file.drop (file.length - (8 + n))).take n, ⟨⟨file.take (file.length - (8 + n)), ?_⟩, ?_, ?_⟩, ?_⟩
    · have hl : ((file.drop (file.length - (8 + n))).take n).length = n := by simp; omega
      rw [tail8, hl, ← hx, le32_leNat _ h4', hx, ← h2']
      have e1 : file.drop (file.length - 8)
          = (file.drop (file.length - 8)).take 4 ++ file.drop (file.length - 4) := by
        conv_lhs => rw [← List.take_append_drop 4 (file.drop (file.length - 8))]
        rw [List.drop_drop, show file.length - 8 + 4 = file.length - 4 by omega]
      rw [← e1, List.append_assoc]
      have e2 : file.drop (file.length - (8 + n))
          = (file.drop (file.length - (8 + n))).take n ++ file.drop (file.length - 8) := by
        conv_lhs => rw [← List.take_append_drop n (file.drop (file.length - (8 + n)))]
        rw [List.drop_drop, show file.length - (8 + n) + n = file.length - 8 by omega]
      rw [← e2, List.take_append_drop]
    · have hl : ((file.drop (file.length - (8 + n))).take n).length = n := by simp; omega
      omega
    · omega
    · have hl : ((file.drop (file.length - (8 + n))).take n).length = n := by simp; omega
      rw [tail8, hl, ← hx, le32_leNat _ h4', hx, ← h2', ← h]
      have e1 : file.drop (file.length - 8)
          = (file.drop (file.length - 8)).take 4 ++ file.drop (file.length - 4) := by
        conv_lhs => rw [← List.take_append_drop 4 (file.drop (file.length - 8))]
        rw [List.drop_drop, show file.length - 8 + 4 = file.length - 4 by omega]
      rw [← e1]
      conv_lhs => rw [← List.take_append_drop n (file.drop (file.length - (8 + n)))]
      rw [List.drop_drop, show file.length - (8 + n) + n = file.length - 8 by omega]
  · rintro ⟨m, ⟨⟨body, hf⟩, hm, h12⟩, rfl⟩
    have hlen : file.length = body.length + m.length + 8 := by
      rw [hf]; simp only [List.length_append, tail8_length]
    have d4 : file.drop (file.length - 4) = par1 := by
      rw [hlen, hf, tail8, ← List.append_assoc]
      rw [List.drop_left' (by simp [le32_length]; omega)]
    have d8 : file.drop (file.length - 8) = tail8 m := by
      rw [hlen, hf]
      rw [List.drop_left' (by simp)]
    have hl : (lenField file).toInt = m.length := by
      rw [lenField, d8]
      rw [show (tail8 m).take 4 = le32 m.length from rfl, fromLe, leNat_le32 _ (by omega),
        BitVec.toInt_eq_toNat_cond]
      simp only [BitVec.toNat_ofNat]
      rw [Nat.mod_eq_of_lt (by omega), if_pos (by omega)]
    rw [if_neg (by omega), if_neg (by rw [d4]; simp), hl, if_neg (by omega),
      show ((m.length : Int)).toNat = m.length from rfl, if_neg (by omega), if_neg (by omega), hlen,
      show body.length + m.length + 8 - (8 + m.length) = body.length by omega, hf,
      List.append_assoc, List.drop_left]

/-! ### Conversion from thrift -/

theorem parquetType_tryFromThrift_ne_panic (es : List Thrift.SchemaElement) :
    ParquetType.tryFromThrift es ≠ .panic := by
  unfold ParquetType.tryFromThrift
  have := topLevel_ne_panic es (es.length + 1) 0 (by omega)
  split <;> simp_all

theorem schemaDescriptor_tryFromThrift_ne_panic (es : List Thrift.SchemaElement) :
    SchemaDescriptor.tryFromThrift es ≠ .panic := by
  unfold SchemaDescriptor.tryFromThrift
  have := parquetType_tryFromThrift_ne_panic es
  split
  · rename_i t _
    cases t <;> simp [SchemaDescriptor.tryFromType]
  · simp
  · contradiction

theorem compression_ofThrift_ne_panic (x : I32) : Compression.ofThrift x ≠ .panic := by
  unfold Compression.ofThrift
  repeat' split
  all_goals simp

theorem collectRes_ne_panic {α : Type} {xs : List (Res α)} (h : ∀ x ∈ xs, x ≠ .panic) :
    collectRes xs ≠ .panic := by
  induction xs with
  | nil => simp [collectRes]
  | cons x xs ih =>
    rw [collectRes]
    refine bind_ne_panic (h x (by simp)) fun a _ => ?_
    exact bind_ne_panic (ih fun y hy => h y (by simp [hy])) fun _ _ => by simp

theorem columnChunk_tryFromThrift_ne_panic (d : ColumnDescriptor) (c : Thrift.ColumnChunk) :
    ColumnChunkMetaData.tryFromThrift d c ≠ .panic := by
  unfold ColumnChunkMetaData.tryFromThrift
  refine bind_ne_panic (ofOption_ne_panic _ _) fun m _ => ?_
  refine bind_ne_panic (toUsize_ne_panic _) fun _ _ => ?_
  refine bind_ne_panic (transposeMap_ne_panic _ (fun _ => toUsize_ne_panic _) _) fun _ _ => ?_
  refine bind_ne_panic (toUsize_ne_panic _) fun _ _ => ?_
  refine bind_ne_panic (compression_ofThrift_ne_panic _) fun _ _ => by simp

theorem rowGroup_tryFromThrift_ne_panic (s : SchemaDescriptor) (g : Thrift.RowGroup) :
    RowGroupMetaData.tryFromThrift s g ≠ .panic := by
  unfold RowGroupMetaData.tryFromThrift
  split
  · simp
  refine bind_ne_panic (toUsize_ne_panic _) fun _ _ => ?_
  refine bind_ne_panic (toUsize_ne_panic _) fun _ _ => ?_
  refine bind_ne_panic (collectRes_ne_panic ?_) fun _ _ => by simp
  intro x hx
  obtain ⟨y, -, rfl⟩ := List.mem_map.1 hx
  exact columnChunk_tryFromThrift_ne_panic _ _

theorem fileMetaData_tryFromThrift_ne_panic (m : Thrift.FileMetaData) :
    FileMetaData.tryFromThrift m ≠ .panic := by
  unfold FileMetaData.tryFromThrift
  have := schemaDescriptor_tryFromThrift_ne_panic m.schema
  split
  · simp
  · contradiction
  refine bind_ne_panic (collectRes_ne_panic ?_) fun _ _ => ?_
  · intro x hx
    obtain ⟨y, -, rfl⟩ := List.mem_map.1 hx
    exact rowGroup_tryFromThrift_ne_panic _ _
  exact bind_ne_panic (toUsize_ne_panic _) fun _ _ => by simp

theorem asUsize_nonneg {w : Nat} (hw : w ≤ 64) (x : BitVec w) (h : 0 ≤ x.toInt) :
    (asUsize x : Int) = x.toInt := by
  have e : (x.signExtend 64).toInt = x.toInt := BitVec.toInt_signExtend_of_le hw
  rw [asUsize, ← e, BitVec.toInt_eq_toNat_of_lt]
  have h2 := e ▸ h
  rw [BitVec.toInt_eq_toNat_cond] at h2
  split at h2 <;> omega

theorem asUsize_asI32 {n : Nat} (h : n < 2 ^ 31) : asUsize (asI32 n) = n := by
  have h1 := asI32_toInt n h
  have := asUsize_nonneg (by omega) (asI32 n) (by omega)
  omega

theorem compression_known {c : I32} (h : c.toNat ∈ compressionTable.map (·.2)) :
    ∃ x, Compression.ofThrift c = .ok x := by
  have : ∀ n ∈ compressionTable.map (·.2), ∃ x, Compression.ofThrift (BitVec.ofNat 32 n) = .ok x := by
    intro n hn
    simp only [compressionTable, List.map_cons, List.map_nil, List.mem_cons, List.not_mem_nil,
      or_false] at hn
    rcases hn with rfl | rfl | rfl | rfl | rfl | rfl | rfl | rfl <;> exact ⟨_, rfl⟩
  obtain ⟨x, hx⟩ := this _ h
  exact ⟨x, by simpa using hx⟩

theorem getPageIterator_ok {c : ColumnChunkMetaData} (h : UsableChunk c.columnChunk)
    (file : List Byte) (filter : Option PageFilter) (scratch : List Byte) (max : Nat) :
    ∃ r, getPageIterator c file filter scratch max = .ok r := by
  obtain ⟨m, hm, hc⟩ := h
  obtain ⟨x, hx⟩ := compression_known hc
  have h1 : c.metadata = .ok m := by rw [ColumnChunkMetaData.metadata, hm]; rfl
  rw [getPageIterator]
  simp only [ColumnChunkMetaData.byteRange, ColumnChunkMetaData.pageMetaData,
    ColumnChunkMetaData.numValues, ColumnChunkMetaData.compression, h1, Res.ok_bind, Res.map', hx]
  exact ⟨_, rfl⟩

theorem columnIterator_advances {file : List Byte} {filter : Option PageFilter} {max : Nat}
    (columns : List ColumnChunkMetaData) (hc : ∀ c ∈ columns, UsableChunk c.columnChunk)
    (s : ColumnIterator) (hfile : s.file = file) (hfilter : s.pageFilter = filter)
    (hmax : s.maxPageSize = max) (hcols : s.columns = columns.reverse)
    (hr : s.reader = some () ∨ s.current.isSome = true) :
    Advances ColumnIterator.advance
      (fun s c => ∃ reader scratch, s.get = some (reader, c) ∧
        getPageIterator c file filter scratch max = .ok reader)
      (fun s t => ∃ r r' c, s.current = some (r, c) ∧ t = { s with current := some (r', c) })
      s columns := by
  have hs : ∃ scratch, s.takeScratch = .ok scratch := by
    rw [ColumnIterator.takeScratch]
    cases h : s.current with
    | some x => exact ⟨_, rfl⟩
    | none =>
      rcases hr with hr | hr
      · rw [hr]; exact ⟨_, rfl⟩
      · rw [h] at hr; cases hr
  obtain ⟨scratch, hs⟩ := hs
  induction columns generalizing s scratch with
  | nil =>
    refine .done (scratch := scratch) ?_
    rw [ColumnIterator.advance, hs, hcols]
    rfl
  | cons c cs ih =>
    obtain ⟨r, hr'⟩ := getPageIterator_ok (hc c (by simp)) file filter scratch max
    refine .item (s' := { file := s.file, reader := none, columns := cs.reverse
                          pageFilter := s.pageFilter, current := some (r, c), scratch := []
                          maxPageSize := s.maxPageSize }) ?_ ⟨r, scratch, rfl, hr'⟩ ?_
    · rw [ColumnIterator.advance, hs, hcols]
      simp only [List.reverse_cons, List.getLast?_append, List.getLast?_singleton, Option.some_or,
        List.dropLast_concat, hfile, hfilter, hmax, hr']
    · rintro t ⟨r1, r2, c', h1, rfl⟩
      exact ih (fun x hx => hc x (List.mem_cons_of_mem _ hx)) _ hfile hfilter hmax rfl
        (Or.inr rfl) r2.scratch rfl

theorem readColumnIterator_advances
    (chunks : List (List (Res CompressedPage) × ColumnChunkMetaData)) (s : ReadColumnIterator)
    (h : s.chunks = chunks.reverse) :
    Advances ReadColumnIterator.advance (fun s x => s.get = some x)
      (fun s t => ∃ x y, s.current = some x ∧ t = { s with current := some y }) s chunks := by
  induction chunks generalizing s with
  | nil =>
    refine .done (scratch := []) ?_
    rw [ReadColumnIterator.advance, h]
    rfl
  | cons c cs ih =>
    refine .item (s' := { field := s.field, chunks := cs.reverse, current := some c }) ?_ rfl ?_
    · rw [ReadColumnIterator.advance, h]
      simp
    · rintro t ⟨x, y, -, rfl⟩
      exact ih _ rfl

theorem getSortOrder_eq (t : PrimitiveType) :
    getSortOrder t.logicalType t.convertedType t.physicalType = orderOf t := by
  unfold getSortOrder orderOf
  cases hl : t.logicalType with
  | some l =>
    cases l with
    | integer i => cases i <;> rfl
    | _ => rfl
  | none =>
    cases hc : t.convertedType with
    | some c => cases c <;> rfl
    | none => cases t.physicalType <;> rfl

theorem filterGroups_eq (predicate : RowGroupMetaData → Nat → Bool) (i : Nat)
    (gs : List RowGroupMetaData) :
    filterGroups predicate i gs =
      ((gs.zipIdx i).filter fun x => predicate x.1 x.2).map (·.1) := by
  induction gs generalizing i with
  | nil => rfl
  | cons g gs ih =>
    simp only [filterGroups, List.zipIdx_cons, List.filter_cons, ih]
    split <;> simp

end Pq
