import Verif.Lemmas.HybridRle
/- Helper lemmas: legal run streams and the hybrid RLE encoder. -/
namespace Pq.Rle
open Pq.Spec

/-! ### arbitrary streams -/

theorem ceil8_eq (n : Nat) : ceil8 n = (n + 7) / 8 := by
  unfold ceil8
  by_cases h : n % 8 = 0
  · simp [h]; omega
  · simp [h]; omega

theorem and_one (v : Nat) : (BitVec.ofNat 64 v &&& 1#64 = 1#64) ↔ v % 2 = 1 := by
  rw [← BitVec.toNat_inj, BitVec.toNat_and]
  have := Nat.and_two_pow_sub_one_eq_mod (BitVec.ofNat 64 v).toNat 1
  rw [show (1#64).toNat = 2 ^ 1 - 1 from rfl, this, BitVec.toNat_ofNat]
  omega

theorem Runs.next_panic (n : Nat) (v : List Byte) (h : Runs.next ⟨v, n⟩ = .panic) : BadRun n v := by
  unfold Runs.next at h
  simp only at h
  split at h
  · simp at h
  · split at h
    · simp at h
    · rw [Leb.decode_any] at h
      by_cases ho : Overlong 9 v
      · exact .inl ho
      · rw [if_neg ho] at h
        simp only at h
        split at h
        · simp at h
        · rename_i hne
          split at h
          · simp at h
          · rename_i hodd
            rw [and_one] at hodd
            refine .inr ⟨ho, by omega, List.length_pos_iff.2 hne, ?_⟩
            unfold splitAt' at h
            by_cases hl : ceil8 n ≤ (v.drop (varintPrefix v).length).length
            · rw [if_pos hl] at h; simp at h
            · rw [ceil8_eq] at hl; omega

theorem Runs.next_suffix (d : Runs) (o : Option Encoded) (d' : Runs) (h : d.next = .ok (o, d')) :
    d'.values <:+ d.values := by
  unfold Runs.next at h
  split at h
  · simp only [Res.ok.injEq, Prod.mk.injEq] at h; rw [h.2]; exact List.suffix_refl _
  · split at h
    · simp only [Res.ok.injEq, Prod.mk.injEq] at h; rw [h.2]; exact List.suffix_refl _
    · split at h
      · simp at h
      · simp at h
      · simp only at h
        split at h
        · simp only [Res.ok.injEq, Prod.mk.injEq] at h; rw [← h.2]; exact List.drop_suffix _ _
        · split at h
          · simp only [Res.ok.injEq, Prod.mk.injEq] at h; rw [← h.2]
            exact List.IsSuffix.trans (List.drop_suffix _ _) (List.drop_suffix _ _)
          · unfold splitAt' at h
            split at h
            · rename_i hs
              split at hs
              · simp only [Res.ok.injEq, Prod.mk.injEq] at h hs
                rw [← h.2, ← hs.2]
                exact List.IsSuffix.trans (List.drop_suffix _ _) (List.drop_suffix _ _)
              · simp at hs
            · simp at h
            · simp at h

theorem expand_panic (n f : Nat) (v : List Byte) (rem : Nat) (hf : v.length < f)
    (h : expand n f v rem = .panic) : ∃ s, s <:+ v ∧ BadRun n s := by
  induction f generalizing v rem with
  | zero => omega
  | succ f ih =>
    rw [expand] at h
    split at h
    · simp at h
    · split at h
      · simp at h
      · rename_i run d hr
        have hd := Runs.next_dec _ _ _ hr
        simp only at hd
        cases he : expand n f d.values (rem - (runValues n rem run).length) with
        | err e => exact absurd he (expand_ne_err _ _ _ _ _)
        | ok ys => rw [he] at h; simp [Res.map'] at h
        | panic =>
          obtain ⟨s, h1, h2⟩ := ih _ _ (by omega) he
          exact ⟨s, h1.trans (Runs.next_suffix _ _ _ hr), h2⟩
      · simp at h
      · rename_i hr
        exact ⟨v, List.suffix_refl _, Runs.next_panic n v hr⟩

/-! ### legal streams -/

theorem leBytes_length (k v : Nat) : (leBytes k v).length = k := by simp [leBytes]

theorem leNat_leBytes (k v : Nat) : leNat (leBytes k v) = v % 256 ^ k := by
  induction k generalizing v with
  | zero => simp [leBytes, leNat, Nat.mod_one]
  | succ k ih =>
    have e : leBytes (k + 1) v = BitVec.ofNat 8 v :: leBytes k (v / 256) := by
      unfold leBytes
      rw [List.range_succ_eq_map, List.map_cons, List.map_map]
      congr 1
      · simp
      · apply List.map_congr_left
        intro i _
        simp only [Function.comp_apply, Nat.succ_eq_add_one, Nat.pow_succ, Nat.div_div_eq_div_mul]
        rw [Nat.mul_comm]
    rw [e, leNat, ih, Nat.pow_succ, Nat.mul_comm (256 ^ k), Nat.mod_mul, BitVec.toNat_ofNat]

theorem rleValue_leBytes (n v : Nat) (hn32 : n ≤ 32) (hv : v < 2 ^ n) :
    rleValue (leBytes ((n + 7) / 8) v) = BitVec.ofNat 32 v := by
  unfold rleValue fromLe
  rw [List.take_of_length_le (by rw [leBytes_length]; omega), leNat_leBytes, Nat.mod_eq_of_lt]
  have : (256 : Nat) ^ ((n + 7) / 8) = 2 ^ (8 * ((n + 7) / 8)) := by
    rw [Nat.pow_mul]
  rw [this]
  exact Nat.lt_of_lt_of_le hv (Nat.pow_le_pow_right (by decide) (by omega))

theorem shr1 (v : Nat) (h : v < 2 ^ 64) : (BitVec.ofNat 64 v >>> 1).toNat = v / 2 := by
  rw [BitVec.toNat_ushiftRight, BitVec.toNat_ofNat, Nat.mod_eq_of_lt h]
  simp [Nat.shiftRight_eq_div_pow]

/-- Reading a bit-packed run that is followed by anything. -/
theorem next_packed (n g : Nat) (hn : 0 < n) (h bs rest : List Byte)
    (hh : IsHeader h (2 * g + 1)) (hne : bs ++ rest ≠ []) (hg : g * n < 2 ^ 64) :
    Runs.next ⟨h ++ (bs ++ rest), n⟩ = .ok (some (.bitpacked ((bs ++ rest).take (g * n))),
      ⟨(bs ++ rest).drop (g * n), n⟩) := by
  unfold Runs.next
  simp only
  rw [if_neg (by omega), if_neg (by simp [header_ne_nil hh]), decode_header _ _ _ hh]
  simp only [List.drop_left]
  rw [if_neg hne, if_pos ((and_one _).2 (by omega)), shr1 _ hh.2.2.2]
  rw [show (2 * g + 1) / 2 = g by omega, Nat.mod_eq_of_lt hg]
  have e1 : (bs ++ rest).take (min (g * n) (bs ++ rest).length) = (bs ++ rest).take (g * n) := by
    by_cases hl : g * n ≤ (bs ++ rest).length
    · rw [Nat.min_eq_left hl]
    · rw [Nat.min_eq_right (by omega), List.take_of_length_le (by omega),
        List.take_of_length_le (by omega)]
  have e2 : (bs ++ rest).drop (min (g * n) (bs ++ rest).length) = (bs ++ rest).drop (g * n) := by
    by_cases hl : g * n ≤ (bs ++ rest).length
    · rw [Nat.min_eq_left hl]
    · rw [Nat.min_eq_right (by omega), List.drop_of_length_le (by omega),
        List.drop_of_length_le (by omega)]
  rw [e1, e2]

theorem next_packed_nil (n g : Nat) (hn : 0 < n) (h : List Byte) (hh : IsHeader h (2 * g + 1)) :
    Runs.next ⟨h, n⟩ = .ok (none, ⟨[], n⟩) := by
  have := decode_header h [] _ hh
  rw [List.append_nil] at this
  unfold Runs.next
  simp only
  rw [if_neg (by omega), if_neg (header_ne_nil hh), this]
  simp

theorem next_rle (n c v : Nat) (hn : 0 < n) (h rest : List Byte) (hh : IsHeader h (2 * c)) :
    Runs.next ⟨h ++ (leBytes ((n + 7) / 8) v ++ rest), n⟩ =
      .ok (some (.rle (leBytes ((n + 7) / 8) v) c), ⟨rest, n⟩) := by
  unfold Runs.next
  simp only
  have hpos : 0 < (leBytes ((n + 7) / 8) v).length := by rw [leBytes_length]; omega
  have hne : leBytes ((n + 7) / 8) v ++ rest ≠ [] := by
    intro he
    have := congrArg List.length he
    rw [List.length_append, List.length_nil] at this; omega
  rw [if_neg (by omega), if_neg (by simp [header_ne_nil hh]), decode_header _ _ _ hh]
  simp only [List.drop_left]
  have hodd : ¬ (BitVec.ofNat 64 (2 * c) &&& 1#64 = 1#64) := by rw [and_one]; omega
  rw [if_neg hne, if_neg hodd, shr1 _ hh.2.2.2]
  rw [show 2 * c / 2 = c by omega]
  unfold splitAt'
  rw [ceil8_eq, if_pos (by rw [List.length_append, leBytes_length]; omega)]
  have e1 := leBytes_length ((n + 7) / 8) v
  rw [List.take_append_of_le_length (by omega), List.drop_append_of_le_length (by omega),
    List.take_of_length_le (by omega), List.drop_of_length_le (by omega), List.nil_append]

theorem fieldBV_take (n : Nat) (hn32 : n ≤ 32) (p q : List Byte) (k : Nat)
    (hk : (k + 1) * n ≤ 8 * p.length) :
    Bitpack.fieldBV 4 n (p ++ q) k = Bitpack.fieldBV 4 n p k := by
  apply Bitpack.fieldBV_congr 4 n (by omega)
  intro i hi
  rw [bitAt_append, if_pos]
  rw [Nat.add_mul] at hk; omega

/-- The values of a legal run as `u32`. -/
def runBV (n : Nat) (r : Run) : List U32 := (r.values n).map (BitVec.ofNat 32)

theorem runBV_packed (n g : Nat) (hn : 0 < n) (hn32 : n ≤ 32) (bs : List Byte)
    (hl : bs.length = g * n) (rem : Nat) :
    runValues n rem (.bitpacked bs) = (runBV n (.packed g bs)).take rem := by
  simp only [runValues, runBV, Run.values, fields]
  have e : bs.length * 8 / n = 8 * g := by
    rw [hl, Nat.mul_comm, Nat.mul_comm g n, Nat.mul_left_comm, Nat.mul_div_cancel_left _ hn]
  rw [e, List.map_map, ← List.map_take, List.take_range, Nat.min_comm]
  rfl

theorem take_take_append {α : Type} (vs ws : List α) (rem : Nat) :
    (vs.take rem).take rem ++ ws = vs.take rem ++ ws := by
  rw [List.take_take, Nat.min_self]

theorem expand_nil (n f rem : Nat) : expand n (f + 1) [] rem = .ok (List.replicate rem 0#32) := by
  rw [expand]
  split
  · rename_i h; simp [h]
  · have : Runs.next ⟨[], n⟩ = .ok (none, ⟨[], n⟩) := by
      unfold Runs.next; simp
    rw [this]

/-- `expand` with sufficient fuel. -/
def expandAll (n : Nat) (v : List Byte) (rem : Nat) : Res (List U32) := expand n (v.length + 1) v rem

theorem expandAll_zero (n : Nat) (v : List Byte) : expandAll n v 0 = .ok [] := by
  simp [expandAll, expand]

theorem expandAll_some (n : Nat) (v : List Byte) (rem : Nat) (hr : rem ≠ 0) (run : Encoded) (v' : List Byte)
    (h : Runs.next ⟨v, n⟩ = .ok (some run, ⟨v', n⟩)) :
    expandAll n v rem = (expandAll n v' (rem - (runValues n rem run).length)).map'
          ((runValues n rem run).take rem ++ ·) := by
  have hd := Runs.next_dec _ _ _ h
  simp only at hd
  rw [expandAll, expand, if_neg hr, h]
  simp only
  rw [expandAll, expand_fuel n v.length (v'.length + 1) _ _ (by omega) (by omega)]

theorem expandAll_none (n : Nat) (v : List Byte) (rem : Nat) (d : Runs)
    (h : Runs.next ⟨v, n⟩ = .ok (none, d)) :
    expandAll n v rem = .ok (List.replicate rem 0#32) := by
  rw [expandAll, expand]
  split
  · rename_i h; simp [h]
  · rw [h]

theorem map'_id_nil (rem : Nat) (r : Res (List U32)) : Res.map' (List.take rem [] ++ ·) r = r := by
  cases r <;> simp [Res.map']

theorem map'_map' {α β γ : Type} (f : α → β) (g : β → γ) (r : Res α) :
    (r.map' f).map' g = r.map' (fun x => g (f x)) := by cases r <;> rfl

theorem expandAll_run (n : Nat) (hn : 0 < n) (hn32 : n ≤ 32) (r : Run) (out rest : List Byte)
    (hs : r.Ser n out) (rem : Nat) :
    expandAll n (out ++ rest) rem =
      (expandAll n rest (rem - (runBV n r).length)).map' ((runBV n r).take rem ++ ·) := by
  by_cases hr : rem = 0
  · subst hr; simp [expandAll_zero, Res.map']
  cases r with
  | rle c v =>
    obtain ⟨hv, h, hh, rfl⟩ := hs
    rw [List.append_assoc, expandAll_some n _ rem hr _ _ (next_rle n c v hn h rest hh)]
    have : runValues n rem (.rle (leBytes ((n + 7) / 8) v) c) = runBV n (.rle c v) := by
      simp [runValues, runBV, Run.values, rleValue_leBytes n v hn32 hv]
    rw [this]
  | packed g bs =>
    obtain ⟨hl, hlt, h, hh, rfl⟩ := hs
    by_cases hne : bs ++ rest = []
    · have hb : bs = [] := List.append_eq_nil_iff.1 hne |>.1
      have hrr : rest = [] := List.append_eq_nil_iff.1 hne |>.2
      subst hb; subst hrr
      have hg : g = 0 := by
        rw [List.length_nil] at hl
        rcases Nat.mul_eq_zero.1 hl.symm with h | h <;> omega
      subst hg
      rw [List.append_nil, List.append_nil, expandAll_none n h rem _ (next_packed_nil n 0 hn h hh)]
      simp [runBV, Run.values, fields, expandAll, expand_nil, Res.map']
    · rw [List.append_assoc, expandAll_some n _ rem hr _ _
        (next_packed n g hn h bs rest hh hne (by omega))]
      rw [← hl, List.take_left, List.drop_left, runBV_packed n g hn hn32 bs hl, List.length_take]
      rw [show rem - min rem (runBV n (.packed g bs)).length = rem - (runBV n (.packed g bs)).length by omega]
      congr 1
      funext ws
      exact take_take_append _ _ _

theorem expandAll_stream (n : Nat) (hn : 0 < n) (hn32 : n ≤ 32) (rs : List Run)
    (stream rest : List Byte) (hs : RunStream n rs stream) (rem : Nat) :
    expandAll n (stream ++ rest) rem =
      (expandAll n rest (rem - (rs.flatMap (runBV n)).length)).map'
        ((rs.flatMap (runBV n)).take rem ++ ·) := by
  induction hs generalizing rem with
  | nil =>
    simp only [List.flatMap_nil, List.nil_append, List.length_nil, Nat.sub_zero]
    rw [map'_id_nil]
  | @cons r rs out stream h1 h2 ih =>
    rw [List.append_assoc, expandAll_run n hn hn32 r out _ h1, ih, map'_map', List.flatMap_cons,
      List.length_append, List.take_append, Nat.sub_sub]
    congr 1
    funext ws
    rw [List.append_assoc]

/-! ### encoder -/

theorem header_spec (length : Nat) (h : length < 2 ^ 65) :
    ∃ hd, header length = .ok hd ∧ IsHeader hd (2 * ceil8 length + 1) := by
  have hc : ceil8 length < 2 ^ 63 := by rw [ceil8_eq]; omega
  have e : ((BitVec.ofNat 64 (ceil8 length) <<< 1) ||| 1#64).toNat = 2 * ceil8 length + 1 := by
    rw [BitVec.toNat_or, BitVec.toNat_shiftLeft, BitVec.toNat_ofNat, Nat.mod_eq_of_lt (by omega),
      Nat.shiftLeft_eq, Nat.mod_eq_of_lt (by omega), BitVec.toNat_ofNat]
    have := Nat.two_pow_add_eq_or_of_lt (i := 1) (b := 1) (by decide) (ceil8 length)
    rw [Nat.mul_comm, show 1 % 2 ^ 64 = 1 from rfl]
    simpa using this.symm
  obtain ⟨bs, h0, h1, h2, h3⟩ := Leb.encode_spec ((BitVec.ofNat 64 (ceil8 length) <<< 1) ||| 1#64)
  refine ⟨bs, h0, h1, h3, by rw [h2, e], by omega⟩

theorem overwrite_length {α : Type} (items buffer : List α) (h : items.length ≤ buffer.length) :
    (overwrite items buffer).length = buffer.length := by
  simp [overwrite]; omega

theorem overwrite_getD {α : Type} (items buffer : List α) (h : items.length ≤ buffer.length) (i : Nat)
    (hi : i < items.length) (d : α) : (overwrite items buffer).getD i d = items.getD i d := by
  unfold overwrite
  rw [List.getD_eq_getElem?_getD, List.getElem?_append_left (by rw [List.length_take]; omega),
    List.getElem?_take, if_pos (by omega), List.getD_eq_getElem?_getD]

theorem overwrite_mem {α : Type} (items buffer : List α) (x : α) (hx : x ∈ overwrite items buffer) :
    x ∈ items ∨ x ∈ buffer := by
  rcases List.mem_append.1 hx with h | h
  · exact .inl (List.mem_of_mem_take h)
  · exact .inr (List.mem_of_mem_drop h)

/-- Packing one buffer of 32 fitting values and cutting the first `k` bytes. -/
theorem encodePack_spec (n k : Nat) (hn : 0 < n) (hn32 : n ≤ 32) (buffer : List U32)
    (hl : buffer.length = 32) (hfit : ∀ x ∈ buffer, x.toNat < 2 ^ n) (hk : k ≤ 4 * n) :
    ∃ packed out, Bitpack.encodePack 4 buffer n (List.replicate (4 * 32) 0#8) = .ok packed ∧
      slice packed 0 k = .ok out ∧ out.length = k ∧
      ∀ j, j < 8 * k → bitAt out j = (buffer.getD (j / n) 0).getLsbD (j % n) := by
  obtain ⟨o, h1, h2, h3⟩ := Bitpack.pack_spec 4 n buffer (List.replicate (4 * 32) 0#8) (by omega) hn
    (by omega) (by rw [List.length_replicate]; omega) (by omega) (Bitpack.tame_of_fit 4 n buffer hfit)
  rw [List.length_replicate] at h2 h3
  refine ⟨o, o.take k, ?_, ?_, ?_, ?_⟩
  · unfold Bitpack.encodePack
    rw [if_pos (by rw [hl]; decide), if_neg (by omega), hl]
    simpa using h1
  · unfold slice
    rw [if_pos (by omega)]
    simp
  · rw [List.length_take]; omega
  · intro j hj
    rw [bitAt_take, h3 j (by omega), bitAt_replicate_zero]
    simp [hj]

theorem ceil8_32 (n : Nat) : ceil8 (32 * n) = 4 * n := by rw [ceil8_eq]; omega

theorem encodeBlocks_spec (n : Nat) (hn : 0 < n) (hn32 : n ≤ 32) (c : Nat) (xs buffer : List U32)
    (hc : 32 * c ≤ xs.length) (hl : buffer.length = 32)
    (hfx : ∀ x ∈ xs, x.toNat < 2 ^ n) (hfb : ∀ x ∈ buffer, x.toNat < 2 ^ n) :
    ∃ w b, encodeBlocks n c xs buffer = .ok (w, b, xs.drop (32 * c)) ∧ w.length = 4 * n * c ∧
      b.length = 32 ∧ (∀ x ∈ b, x.toNat < 2 ^ n) ∧
      ∀ j, j < 8 * w.length → bitAt w j = (xs.getD (j / n) 0).getLsbD (j % n) := by
  induction c generalizing xs buffer with
  | zero => exact ⟨[], buffer, by simp [encodeBlocks], by simp, hl, hfb, by simp⟩
  | succ c ih =>
    have htl : (xs.take 32).length = 32 := by rw [List.length_take]; omega
    have hbl := overwrite_length (xs.take 32) buffer (by omega)
    have hbf : ∀ x ∈ overwrite (xs.take 32) buffer, x.toNat < 2 ^ n := by
      intro x hx
      rcases overwrite_mem _ _ _ hx with h | h
      · exact hfx x (List.mem_of_mem_take h)
      · exact hfb x h
    obtain ⟨packed, out, h1, h2, h3, h4⟩ := encodePack_spec n (4 * n) hn hn32
      (overwrite (xs.take 32) buffer) (by omega) hbf (Nat.le_refl _)
    obtain ⟨w, b, g1, g2, g3, g4, g5⟩ := ih (xs.drop 32) (overwrite (xs.take 32) buffer)
      (by rw [List.length_drop]; omega) (by omega)
      (fun x hx => hfx x (List.mem_of_mem_drop hx)) hbf
    refine ⟨out ++ w, b, ?_, ?_, g3, g4, ?_⟩
    · rw [encodeBlocks]
      simp only
      rw [h1]
      simp only
      rw [ceil8_32, h2]
      simp only
      rw [g1]
      simp only [Res.map', List.drop_drop]
      rw [show 32 + 32 * c = 32 * (c + 1) by omega]
    · rw [List.length_append, h3, g2, Nat.mul_add]; omega
    · intro j hj
      rw [List.length_append, h3] at hj
      rw [bitAt_append, h3]
      by_cases hlt : j < 8 * (4 * n)
      · have hq : j / n < 32 := by rw [Nat.div_lt_iff_lt_mul hn]; omega
        rw [if_pos hlt, h4 j hlt, overwrite_getD _ _ (by omega) _ (by omega)]
        simp only [List.getD_eq_getElem?_getD]
        rw [List.getElem?_take, if_pos hq]
      · have e : 8 * (4 * n) = n * 32 := by omega
        have hq : 32 ≤ j / n := by rw [Nat.le_div_iff_mul_le hn]; omega
        rw [if_neg hlt, g5 _ (by omega), List.getD_eq_getElem?_getD, List.getElem?_drop, e,
          Nat.sub_mul_div, Nat.sub_mul_mod (by omega), List.getD_eq_getElem?_getD]
        rw [show 32 + (j / n - 32) = j / n by omega]

theorem bitpackedEncodeU32_spec (n : Nat) (hn : 0 < n) (hn32 : n ≤ 32) (xs : List U32)
    (hfx : ∀ x ∈ xs, x.toNat < 2 ^ n) :
    ∃ w, bitpackedEncodeU32 xs n = .ok w ∧ w.length = ceil8 (xs.length * n) ∧
      ∀ j, j < xs.length * n → bitAt w j = (xs.getD (j / n) 0).getLsbD (j % n) := by
  obtain ⟨w, b, h1, h2, h3, h4, h5⟩ := encodeBlocks_spec n hn hn32 (xs.length / 32) xs
    (List.replicate 32 0#32) (by omega) (by simp) hfx
    (by intro x hx; rw [(List.mem_replicate.1 hx).2]; simp [Nat.two_pow_pos])
  have hr : xs.length - xs.length / 32 * 32 = xs.length % 32 := by omega
  have hlen : xs.length * n = 32 * (xs.length / 32 * n) + xs.length % 32 * n := by
    rw [← Nat.mul_assoc, ← Nat.add_mul]; congr 1; omega
  have hw : 8 * w.length = 32 * (xs.length / 32 * n) := by
    rw [h2, Nat.mul_assoc 4, Nat.mul_comm n]; omega
  unfold bitpackedEncodeU32
  simp only
  rw [h1, hr]
  simp only
  split
  · rename_i hrem
    have hdl : (xs.drop (32 * (xs.length / 32))).length = xs.length % 32 := by
      rw [List.length_drop]; omega
    have htl : ((xs.drop (32 * (xs.length / 32))).take (xs.length % 32)).length = xs.length % 32 := by
      rw [List.length_take]; omega
    have hbl := overwrite_length ((xs.drop (32 * (xs.length / 32))).take (xs.length % 32)) b (by omega)
    have hbf : ∀ x ∈ overwrite ((xs.drop (32 * (xs.length / 32))).take (xs.length % 32)) b,
        x.toNat < 2 ^ n := by
      intro x hx
      rcases overwrite_mem _ _ _ hx with h | h
      · exact hfx x (List.mem_of_mem_drop (List.mem_of_mem_take h))
      · exact h4 x h
    have hmn : xs.length % 32 * n ≤ 32 * n := Nat.mul_le_mul_right _ (by omega)
    obtain ⟨packed, out, g1, g2, g3, g4⟩ := encodePack_spec n (ceil8 (xs.length % 32 * n)) hn hn32 _
      (by omega) hbf (by rw [ceil8_eq]; omega)
    rw [g1]
    simp only
    rw [g2]
    refine ⟨w ++ out, rfl, ?_, ?_⟩
    · rw [List.length_append, g3, ceil8_eq, ceil8_eq]; omega
    · intro j hj
      rw [bitAt_append]
      by_cases hlt : j < 8 * w.length
      · rw [if_pos hlt, h5 j hlt]
      · have hjn : j - 8 * w.length < xs.length % 32 * n := by omega
        have hq : (j - 8 * w.length) / n < xs.length % 32 := by
          rw [Nat.div_lt_iff_lt_mul hn]; exact hjn
        have e : 8 * w.length = n * (32 * (xs.length / 32)) := by
          rw [hw, Nat.mul_left_comm n, Nat.mul_comm n]
        rw [if_neg hlt, g4 _ (by rw [ceil8_eq]; omega), overwrite_getD _ _ (by omega) _ (by omega)]
        simp only [List.getD_eq_getElem?_getD]
        rw [List.getElem?_take, if_pos hq, List.getElem?_drop, e, Nat.sub_mul_div,
          Nat.sub_mul_mod (by omega)]
        have hq2 : 32 * (xs.length / 32) ≤ j / n := by
          rw [Nat.le_div_iff_mul_le hn, Nat.mul_comm]; omega
        rw [show 32 * (xs.length / 32) + (j / n - 32 * (xs.length / 32)) = j / n by omega]
  · rename_i hrem
    have hrem : xs.length % 32 = 0 := by omega
    refine ⟨w, rfl, ?_, ?_⟩
    · rw [ceil8_eq, hlen, hrem]; omega
    · intro j hj
      rw [hlen, hrem] at hj
      exact h5 j (by omega)

/-- One bit-packed run, possibly cut short and followed by anything. -/
theorem decode_single_packed (n g N : Nat) (hn : 0 < n) (hn32 : n ≤ 32) (h body rest : List Byte)
    (hh : IsHeader h (2 * g + 1)) (hb : N * n ≤ 8 * body.length) (hg : body.length ≤ g * n)
    (hlt : g * n < 2 ^ 64) :
    decode (h ++ (body ++ rest)) n N = .ok ((List.range N).map (Bitpack.fieldBV 4 n body)) := by
  rw [decode_eq n hn hn32]
  by_cases hne : body ++ rest = []
  · have hb0 : body = [] := (List.append_eq_nil_iff.1 hne).1
    have hN : N = 0 := by
      rw [hb0] at hb; simp only [List.length_nil, Nat.mul_zero, Nat.le_zero] at hb
      rcases Nat.mul_eq_zero.1 hb with h | h <;> omega
    rw [hne, List.append_nil, next_packed_nil n g hn h hh, if_neg (by simp), hN]
    simp [expand]
  · have hnx := next_packed n g hn h body rest hh hne hlt
    rw [hnx, if_neg (by simp)]
    change expandAll n _ N = _
    by_cases hN : N = 0
    · subst hN; simp [expandAll_zero]
    · rw [expandAll_some n _ N hN _ _ hnx]
      have htake : (body ++ rest).take (g * n) = body ++ rest.take (g * n - body.length) := by
        rw [List.take_append, List.take_of_length_le hg]
      have hcnt : min (((body ++ rest).take (g * n)).length * 8 / n) N = N := by
        rw [htake, List.length_append]
        apply Nat.min_eq_right
        rw [Nat.le_div_iff_mul_le hn]; omega
      have hv : runValues n N (.bitpacked ((body ++ rest).take (g * n))) =
          (List.range N).map (Bitpack.fieldBV 4 n body) := by
        simp only [runValues]
        rw [hcnt, htake]
        apply List.map_congr_left
        intro k hk
        rw [List.mem_range] at hk
        apply fieldBV_take n hn32
        have : (k + 1) * n ≤ N * n := Nat.mul_le_mul_right n hk
        omega
      rw [hv, List.length_map, List.length_range, Nat.sub_self, expandAll_zero]
      simp only [Res.map', List.append_nil]
      rw [List.take_of_length_le (by simp)]


end Pq.Rle
