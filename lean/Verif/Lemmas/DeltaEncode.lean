import Verif.Lemmas.DeltaDecode
/- Helper lemmas: the delta encoder writes legal streams. -/
namespace Pq.Delta
open Pq.Spec Pq.Bitpack

/-- Successive differences. -/
def diffs (prev : I64) : List I64 → List I64
  | [] => []
  | x :: xs => (x - prev) :: diffs x xs

theorem diffs_length (prev : I64) (xs : List I64) : (diffs prev xs).length = xs.length := by
  induction xs generalizing prev with
  | nil => rfl
  | cons x xs ih => simp [diffs, ih]

theorem prefixSums_diffs (first : I64) (xs : List I64) :
    prefixSums first (diffs first xs) = first :: xs := by
  induction xs generalizing first with
  | nil => rfl
  | cons x xs ih =>
    simp only [diffs, prefixSums]
    rw [show first + (x - first) = x by rw [BitVec.add_comm, BitVec.sub_add_cancel], ih]

theorem diffs_append (prev : I64) (xs ys : List I64) :
    diffs prev (xs ++ ys) = diffs prev xs ++ diffs (xs.getLastD prev) ys := by
  induction xs generalizing prev with
  | nil => rfl
  | cons x xs ih =>
    simp only [List.cons_append, diffs, ih]
    cases xs <;> rfl

theorem lt_bitLen (x : I64) : x.toNat < 2 ^ bitLen x := by
  unfold bitLen
  split
  · rename_i h; subst h; simp
  · exact Nat.lt_log2_self

theorem bitLen_le (x : I64) : bitLen x ≤ 64 := by
  unfold bitLen
  split
  · omega
  · rename_i h
    have h0 : x.toNat ≠ 0 := by
      intro h1; apply h; apply BitVec.eq_of_toNat_eq; simpa using h1
    have := (Nat.log2_lt h0).2 x.isLt
    omega

theorem scan_spec (xs : List I64) (prev mn mx : I64) (nb : Nat) :
    ∃ m M n, scan false xs prev mn mx nb = .ok (diffs prev xs, m, n, xs.getLastD prev) ∧
      m.toInt ≤ mn.toInt ∧ mx.toInt ≤ M.toInt ∧
      (∀ d ∈ diffs prev xs, m.toInt ≤ d.toInt ∧ d.toInt ≤ M.toInt) ∧
      n = if xs = [] then nb else bitLen (M - m) := by
  induction xs generalizing prev mn mx nb with
  | nil => exact ⟨mn, mx, nb, rfl, by simp, by simp, by simp [diffs], by simp⟩
  | cons x xs ih =>
    obtain ⟨m, M, n, h1, h2, h3, h4, h5⟩ := ih x
      (if (x - prev).slt mn then x - prev else mn)
      (if mx.slt (x - prev) then x - prev else mx)
      (bitLen ((if mx.slt (x - prev) then x - prev else mx) -
        (if (x - prev).slt mn then x - prev else mn)))
    have e2 : m.toInt ≤ mn.toInt ∧ m.toInt ≤ (x - prev).toInt := by
      by_cases h : (x - prev).slt mn
      · rw [if_pos h] at h2
        rw [BitVec.slt_iff_toInt_lt] at h
        omega
      · rw [if_neg h] at h2
        rw [BitVec.slt_iff_toInt_lt] at h
        omega
    have e3 : mx.toInt ≤ M.toInt ∧ (x - prev).toInt ≤ M.toInt := by
      by_cases h : mx.slt (x - prev)
      · rw [if_pos h] at h3
        rw [BitVec.slt_iff_toInt_lt] at h
        omega
      · rw [if_neg h] at h3
        rw [BitVec.slt_iff_toInt_lt] at h
        omega
    by_cases hx : xs = []
    · subst hx
      simp only [scan, Res.ok.injEq, Prod.mk.injEq] at h1
      refine ⟨m, (if mx.slt (x - prev) then x - prev else mx), n, ?_, e2.1, ?_, ?_, ?_⟩
      · rw [scan]
        simp only [subI_false, Res.ok_bind, scan, Res.pure_eq]
        rw [h1.2.2.1, h1.2.1]; rfl
      · split
        · rename_i h; rw [BitVec.slt_iff_toInt_lt] at h; omega
        · omega
      · intro d hd
        simp only [diffs, List.mem_singleton] at hd
        subst hd
        refine ⟨e2.2, ?_⟩
        split
        · omega
        · rename_i h; rw [BitVec.slt_iff_toInt_lt] at h; omega
      · rw [if_pos rfl] at h5
        rw [if_neg (by simp), h5, h1.2.1]
    · refine ⟨m, M, n, ?_, e2.1, e3.1, ?_, ?_⟩
      · rw [scan]
        simp only [subI_false, Res.ok_bind, h1, Res.pure_eq, diffs]
        cases xs with
        | nil => exact absurd rfl hx
        | cons _ _ => rfl
      · intro d hd
        rcases List.mem_cons.1 hd with rfl | hd
        · exact ⟨e2.2, e3.2⟩
        · exact h4 d hd
      · rw [h5, if_neg hx, if_neg (by simp)]

theorem sub_toNat_le (d m M : I64) (h1 : m.toInt ≤ d.toInt) (h2 : d.toInt ≤ M.toInt) :
    (d - m).toNat ≤ (M - m).toNat := by
  rw [BitVec.toInt_eq_toNat_cond, BitVec.toInt_eq_toNat_cond] at h1
  rw [BitVec.toInt_eq_toNat_cond, BitVec.toInt_eq_toNat_cond] at h2
  rw [BitVec.toNat_sub, BitVec.toNat_sub]
  have a := d.isLt
  have b := m.isLt
  have c := M.isLt
  split at h1 <;> split at h1 <;> split at h2 <;> omega

theorem relative_spec (m : I64) (vs : List I64) :
    relative false m vs = .ok (vs.map (· - m)) := by
  induction vs with
  | nil => rfl
  | cons v vs ih => simp only [relative, subI_false, Res.ok_bind, ih, Res.pure_eq, List.map_cons]

theorem header_ok (v : BitVec 64) : ∃ h, Leb.encode v = .ok h ∧ IsHeader h v.toNat := by
  obtain ⟨bs, h1, h2, h3, h4⟩ := Leb.encode_spec v
  exact ⟨bs, h1, h2, h4, h3, v.isLt⟩

theorem zigzag_header_ok (v : I64) :
    ∃ h, Leb.zigzagEncode v = .ok h ∧ IsHeader h (zigzagNat v.toInt) := by
  rw [Leb.zigzagEncode, ← Leb.zigzag_toNat]
  exact header_ok _

/-- A miniblock of 128 deltas of which the first `len` fit the width. -/
theorem writeMiniblock_spec (n : Nat) (hn : n ≤ 64) (rel deltas : List I64)
    (hl : deltas.length = 128) (hr : rel.length ≤ 128) (hfit : ∀ x ∈ rel, x.toNat < 2 ^ n) :
    ∃ bs, writeMiniblock n (Rle.overwrite rel deltas) = .ok bs ∧ 8 * bs.length = 128 * n ∧
      ∀ i, i < rel.length → fieldBV 8 n bs i = rel.getD i 0#64 := by
  have hol : (Rle.overwrite rel deltas).length = 128 := by
    rw [Rle.overwrite_length _ _ (by omega), hl]
  unfold writeMiniblock
  by_cases h0 : 0 < n
  · rw [if_pos h0, hol, Rle.ceil8_eq]
    have hz : (128 * n + 7) / 8 = 16 * n := by omega
    rw [hz]
    obtain ⟨o, e1, e2, e3⟩ := encode_prefix 8 n (by decide) h0 hn rel.length 2
      (Rle.overwrite rel deltas) (List.replicate (16 * n) 0#8) (by rw [hol])
      (by
        intro i hi
        have : (Rle.overwrite rel deltas).getD i 0#64 = rel.getD i 0#64 :=
          Rle.overwrite_getD _ _ (by omega) i hi _
        show ((Rle.overwrite rel deltas).getD i 0#64).toNat < 2 ^ n
        rw [this, List.getD_eq_getElem?_getD, List.getElem?_eq_getElem hi]
        exact hfit _ (List.getElem_mem _))
      (by rw [List.length_replicate]; omega)
    rw [List.length_replicate] at e2 e3
    refine ⟨o, e1, by omega, ?_⟩
    intro i hi
    have hget : (Rle.overwrite rel deltas).getD i 0#64 = rel.getD i 0#64 :=
      Rle.overwrite_getD _ _ (by omega) i hi _
    have hfi : (rel.getD i 0#64).toNat < 2 ^ n := by
      rw [List.getD_eq_getElem?_getD, List.getElem?_eq_getElem hi]
      exact hfit _ (List.getElem_mem _)
    apply BitVec.eq_of_getLsbD_eq
    intro k _
    rw [fieldBV_getLsbD _ _ _ _ _ hn]
    by_cases hk : k < n
    · have hb1 : i * n + k < rel.length * n := by
        have : (i + 1) * n ≤ rel.length * n := Nat.mul_le_mul_right n hi
        rw [Nat.add_mul] at this; omega
      have hb2 : rel.length * n ≤ 128 * n := Nat.mul_le_mul_right n hr
      rw [e3 _ (by omega) hb1, bitAt_replicate_zero, Nat.mul_comm i n, Nat.mul_add_div h0,
        Nat.div_eq_of_lt hk, Nat.mul_add_mod, Nat.mod_eq_of_lt hk, Nat.add_zero]
      simp only [hk, decide_true, Bool.true_and, Bool.false_or]
      exact congrArg (fun z : I64 => z.getLsbD k) hget
    · simp only [hk, decide_false, Bool.false_and]
      exact (getLsbD_of_fit _ hfi k (by omega)).symm
  · have hn0 : n = 0 := by omega
    subst hn0
    rw [if_neg (by omega)]
    refine ⟨[], rfl, rfl, ?_⟩
    intro i hi
    rw [fieldBV_zero]
    have := hfit (rel.getD i 0#64) (by
      rw [List.getD_eq_getElem?_getD, List.getElem?_eq_getElem hi]
      exact List.getElem_mem _)
    apply BitVec.eq_of_toNat_eq
    simp at this ⊢; omega

theorem blocks_spec (fuel : Nat) (xs : List I64) (prev : I64) (deltas : List I64)
    (hf : xs.length ≤ fuel) (hl : deltas.length = 128) :
    ∃ out, blocks false fuel xs prev deltas = .ok out ∧
      DeltaBlocks 1 128 xs.length out (diffs prev xs) := by
  induction fuel generalizing xs prev deltas with
  | zero =>
    have : xs = [] := List.eq_nil_of_length_eq_zero (by omega)
    subst this
    exact ⟨[], rfl, .nil⟩
  | succ fuel ih =>
    rw [blocks]
    by_cases hx : xs = []
    · subst hx
      exact ⟨[], by simp, .nil⟩
    · rw [if_neg hx]
      have hxl : 0 < xs.length := List.length_pos_iff.2 hx
      obtain ⟨m, M, n, s1, _, _, s4, s5⟩ := scan_spec (xs.take 128) prev
        (BitVec.ofNat 64 (2 ^ 63 - 1)) (BitVec.ofNat 64 (2 ^ 63)) 0
      have htl : (xs.take 128).length = min 128 xs.length := List.length_take
      rw [if_neg (by intro h; rw [h] at htl; simp at htl; omega)] at s5
      have hn : n ≤ 64 := by rw [s5]; exact bitLen_le _
      rw [s1]
      simp only [Res.ok_bind, relative_spec]
      obtain ⟨z, z1, z2⟩ := zigzag_header_ok m
      rw [z1]
      simp only [Res.ok_bind]
      obtain ⟨mini, w1, w2, w3⟩ := writeMiniblock_spec n hn
        ((diffs prev (xs.take 128)).map (· - m)) deltas hl
        (by rw [List.length_map, diffs_length]; omega)
        (by
          intro x hx
          obtain ⟨d, hd, rfl⟩ := List.mem_map.1 hx
          obtain ⟨a, b⟩ := s4 d hd
          rw [s5]
          exact Nat.lt_of_le_of_lt (sub_toNat_le d m M a b) (lt_bitLen _))
      rw [w1]
      simp only [Res.ok_bind]
      obtain ⟨tail, t1, t2⟩ := ih (xs.drop 128) ((xs.take 128).getLastD prev)
        (Rle.overwrite ((diffs prev (xs.take 128)).map (· - m)) deltas)
        (by rw [List.length_drop]; omega)
        (by rw [Rle.overwrite_length _ _ (by rw [List.length_map, diffs_length]; omega), hl])
      rw [t1]
      refine ⟨_, rfl, ?_⟩
      have hsplit : diffs prev xs = diffs prev (xs.take 128) ++
          diffs ((xs.take 128).getLastD prev) (xs.drop 128) := by
        rw [← diffs_append, List.take_append_drop]
      have hds : diffs prev (xs.take 128) = ([MiniBlock.mk n mini].flatMap
          (MiniBlock.deltas 128 m)).take (min xs.length (1 * 128)) := by
        apply List.ext_getElem
        · simp [diffs_length, MiniBlock.deltas, fields]; omega
        · intro i hi1 hi2
          rw [diffs_length, htl] at hi1
          have hi3 : i < (diffs prev (xs.take 128)).length := by rw [diffs_length]; omega
          have := w3 i (by rw [List.length_map, diffs_length]; omega)
          rw [List.getD_eq_getElem?_getD, List.getElem?_eq_getElem (by rw [List.length_map]; exact hi3),
            List.getElem_map, Option.getD_some] at this
          simp only [List.flatMap_cons, List.flatMap_nil, List.append_nil, List.getElem_take,
            MiniBlock.deltas, fields, List.getElem_map, List.getElem_range]
          change _ = m + fieldBV 8 n mini i
          rw [this, BitVec.add_comm, BitVec.sub_add_cancel]
      rw [hsplit, hds]
      refine DeltaBlocks.cons hxl ?_ ⟨z, [BitVec.ofNat 8 n], z2, rfl, by simp, ?_, ?_, ?_⟩ ?_
      · simp only [List.length_singleton, Nat.one_mul]; omega
      · simp only [List.length_singleton, List.take_succ_cons, List.take_zero, List.map_cons,
          List.map_nil, BitVec.toNat_ofNat]
        rw [Nat.mod_eq_of_lt (by omega)]
      · intro mb hmb
        simp only [List.mem_singleton] at hmb
        subst hmb
        exact ⟨hn, w2, by simp only; omega⟩
      · simp
      · rw [List.length_drop] at t2
        rw [show xs.length - min xs.length (1 * 128) = xs.length - 128 by omega]
        exact t2

/-- The encoder succeeds and writes a legal stream with blocks of 128 values and one miniblock. -/
theorem encode_stream (xs : List I64) (hl : xs.length < 2 ^ 64) :
    ∃ out, encode false xs = .ok out ∧ DeltaStream 128 1 xs out := by
  obtain ⟨h1, a1, b1⟩ := header_ok 128#64
  obtain ⟨h2, a2, b2⟩ := header_ok 1#64
  obtain ⟨h3, a3, b3⟩ := header_ok (BitVec.ofNat 64 xs.length)
  obtain ⟨h4, a4, b4⟩ := zigzag_header_ok (xs.headD 0#64)
  obtain ⟨body, c1, c2⟩ := blocks_spec xs.length xs.tail (xs.headD 0#64) (List.replicate 128 0#64)
    (by simp) (by simp)
  refine ⟨h1 ++ h2 ++ h3 ++ h4 ++ body, ?_, h1, h2, h3, h4, body, xs.headD 0#64, _, 128, by decide,
    by decide, by decide, by decide, by decide, b1, b2, ?_, b4, rfl, by simpa using c2, ?_⟩
  · rw [encode, a1, a2, a3]
    simp only [Res.ok_bind, a4, c1, Res.pure_eq]
  · rw [BitVec.toNat_ofNat, Nat.mod_eq_of_lt hl] at b3; exact b3
  · cases xs with
    | nil => exact .inl ⟨rfl, rfl⟩
    | cons x xs => right; simp [prefixSums_diffs]

/-! ### builds with overflow checks -/

/-- Neighbouring values differ by less than 2^62 (as integers). -/
def Small (a b : I64) : Prop := -2 ^ 62 ≤ b.toInt - a.toInt ∧ b.toInt - a.toInt < 2 ^ 62

def SmallFrom : I64 → List I64 → Prop
  | _, [] => True
  | p, x :: xs => Small p x ∧ SmallFrom x xs

theorem subI_true (a b : I64) (h : -2 ^ 63 ≤ a.toInt - b.toInt ∧ a.toInt - b.toInt < 2 ^ 63) :
    subI true a b = .ok (a - b) ∧ (a - b).toInt = a.toInt - b.toInt := by
  constructor
  · unfold subI
    rw [if_neg]
    simp only [Bool.true_and, BitVec.ssubOverflow, ge_iff_le, Bool.or_eq_true, decide_eq_true_eq]
    omega
  · rw [BitVec.toInt_sub, Int.bmod_eq_of_le (by omega) (by omega)]

theorem scan_checked (xs : List I64) (prev mn mx : I64) (nb : Nat)
    (hs : SmallFrom prev xs) (hmn : -2 ^ 62 ≤ mn.toInt) (hmx : mx.toInt < 2 ^ 62) :
    scan true xs prev mn mx nb = scan false xs prev mn mx nb := by
  induction xs generalizing prev mn mx nb with
  | nil => rfl
  | cons x xs ih =>
    obtain ⟨⟨s1, s2⟩, s3⟩ := hs
    obtain ⟨t1, t2⟩ := subI_true x prev (by omega)
    rw [scan, scan, t1, subI_false]
    simp only [Res.ok_bind]
    generalize hd : x - prev = d at *
    have a1 : -2 ^ 62 ≤ (if d.slt mn then d else mn).toInt ∧
        (if d.slt mn then d else mn).toInt ≤ d.toInt := by
      split
      · omega
      · rename_i h; rw [BitVec.slt_iff_toInt_lt] at h; omega
    have a2 : (if mx.slt d then d else mx).toInt < 2 ^ 62 ∧
        d.toInt ≤ (if mx.slt d then d else mx).toInt := by
      split
      · omega
      · rename_i h; rw [BitVec.slt_iff_toInt_lt] at h; omega
    generalize (if d.slt mn then d else mn) = mn' at *
    generalize (if mx.slt d then d else mx) = mx' at *
    rw [(subI_true mx' mn' (by omega)).1, subI_false]
    simp only [Res.ok_bind]
    rw [ih x mn' mx' _ s3 a1.1 a2.1]

theorem diffs_small (prev : I64) (xs : List I64) (hs : SmallFrom prev xs) :
    ∀ d ∈ diffs prev xs, -2 ^ 62 ≤ d.toInt ∧ d.toInt < 2 ^ 62 := by
  induction xs generalizing prev with
  | nil => simp [diffs]
  | cons x xs ih =>
    intro d hd
    rcases List.mem_cons.1 hd with rfl | hd
    · have := subI_true x prev (by have := hs.1.1; have := hs.1.2; omega)
      rw [this.2]; exact hs.1
    · exact ih x hs.2 d hd

theorem relative_checked (m : I64) (vs : List I64)
    (hm : -2 ^ 62 ≤ m.toInt ∧ m.toInt < 2 ^ 62)
    (hv : ∀ d ∈ vs, -2 ^ 62 ≤ d.toInt ∧ d.toInt < 2 ^ 62) :
    relative true m vs = relative false m vs := by
  induction vs with
  | nil => rfl
  | cons v vs ih =>
    have h := hv v (List.mem_cons_self ..)
    rw [relative, relative, (subI_true v m (by omega)).1, subI_false,
      ih (fun d hd => hv d (List.mem_cons_of_mem _ hd))]

theorem smallFrom_append (prev : I64) (xs ys : List I64) (h : SmallFrom prev (xs ++ ys)) :
    SmallFrom prev xs ∧ SmallFrom (xs.getLastD prev) ys := by
  induction xs generalizing prev with
  | nil => exact ⟨trivial, h⟩
  | cons x xs ih =>
    obtain ⟨a, b⟩ := ih x h.2
    refine ⟨⟨h.1, a⟩, ?_⟩
    cases xs <;> exact b

theorem scan_min_mem (xs : List I64) (prev mn mx : I64) (nb : Nat) (ds : List I64) (m p : I64)
    (n : Nat) (h : scan false xs prev mn mx nb = .ok (ds, m, n, p)) :
    m = mn ∨ m ∈ diffs prev xs := by
  induction xs generalizing prev mn mx nb ds m n p with
  | nil => simp only [scan, Res.ok.injEq, Prod.mk.injEq] at h; exact .inl h.2.1.symm
  | cons x xs ih =>
    rw [scan] at h
    simp only [subI_false, Res.ok_bind] at h
    rw [Res.bind_eq_ok] at h
    obtain ⟨⟨ds', m', n', p'⟩, h1, h2⟩ := h
    simp only [Res.pure_eq, Res.ok.injEq, Prod.mk.injEq] at h2
    obtain ⟨_, rfl, _, _⟩ := h2
    rcases ih x _ _ _ _ _ _ _ h1 with h3 | h3
    · split at h3
      · right; rw [h3]; exact List.mem_cons_self ..
      · exact .inl h3
    · exact .inr (List.mem_cons_of_mem _ h3)

theorem scan_min_le (xs : List I64) (prev mn mx : I64) (nb : Nat) (ds : List I64) (m p : I64)
    (n : Nat) (h : scan false xs prev mn mx nb = .ok (ds, m, n, p)) :
    ∀ d ∈ diffs prev xs, m.toInt ≤ d.toInt := by
  obtain ⟨m', M, n', e, _, _, h4, _⟩ := scan_spec xs prev mn mx nb
  rw [e] at h
  simp only [Res.ok.injEq, Prod.mk.injEq] at h
  obtain ⟨_, rfl, _, _⟩ := h
  exact fun d hd => (h4 d hd).1

theorem blocks_checked (fuel : Nat) (xs : List I64) (prev : I64) (deltas : List I64)
    (hs : SmallFrom prev xs) :
    blocks true fuel xs prev deltas = blocks false fuel xs prev deltas := by
  induction fuel generalizing xs prev deltas with
  | zero => cases xs <;> rfl
  | succ fuel ih =>
    rw [blocks, blocks]
    split
    · rfl
    · rename_i hx
      rw [← List.take_append_drop 128 xs] at hs
      obtain ⟨s1, s2⟩ := smallFrom_append _ _ _ hs
      rw [scan_checked _ _ _ _ _ s1 (by decide) (by decide)]
      obtain ⟨m, M, n, e, _, _, h4, _⟩ := scan_spec (xs.take 128) prev
        (BitVec.ofNat 64 (2 ^ 63 - 1)) (BitVec.ofNat 64 (2 ^ 63)) 0
      rw [e]
      simp only [Res.ok_bind]
      have hd := diffs_small _ _ s1
      have hm : -2 ^ 62 ≤ m.toInt ∧ m.toInt < 2 ^ 62 := by
        obtain ⟨d0, hd0⟩ : ∃ d, d ∈ diffs prev (xs.take 128) := by
          cases xs with
          | nil => exact absurd rfl hx
          | cons x xs => exact ⟨_, List.mem_cons_self ..⟩
        rcases scan_min_mem _ _ _ _ _ _ _ _ _ e with h | h
        · have h1 := (h4 d0 hd0).1
          have h2 := hd d0 hd0
          rw [h] at h1 ⊢
          have : (BitVec.ofNat 64 (2 ^ 63 - 1)).toInt = 2 ^ 63 - 1 := by decide
          omega
        · exact hd m h
      rw [relative_checked m _ hm hd, relative_spec]
      simp only [Res.ok_bind]
      rw [ih _ _ _ s2]

theorem encode_checked (xs : List I64) (hs : SmallFrom (xs.headD 0#64) xs.tail) :
    encode true xs = encode false xs := by
  unfold encode
  simp only [blocks_checked _ _ _ _ hs]

end Pq.Delta
