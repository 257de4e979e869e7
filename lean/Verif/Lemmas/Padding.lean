import Verif.Lemmas.HybridRle2
import Verif.Lemmas.EncodedSize
/-
The bits which the encoders write beyond the values.
-/
namespace Pq.Rle
open Pq.Spec

/-- What the full blocks leave in the buffer: the last of them. -/
theorem encodeBlocks_buffer (n c : Nat) (xs buffer b r : List U32) (w' : List Byte)
    (hc : 32 * c ≤ xs.length) (hl : buffer.length = 32)
    (h : encodeBlocks n c xs buffer = .ok (w', b, r)) :
    b = if c = 0 then buffer else (xs.drop (32 * (c - 1))).take 32 := by
  induction c generalizing xs buffer w' with
  | zero =>
    simp only [encodeBlocks, Res.ok.injEq, Prod.mk.injEq] at h
    rw [if_pos rfl, h.2.1]
  | succ c ih =>
    have htl : (xs.take 32).length = 32 := by rw [List.length_take]; omega
    have hov : overwrite (xs.take 32) buffer = xs.take 32 := by
      unfold overwrite
      rw [List.take_of_length_le (by omega), List.drop_of_length_le (by omega), List.append_nil]
    rw [encodeBlocks] at h
    simp only [hov] at h
    split at h
    · simp at h
    · simp at h
    · split at h
      · simp at h
      · simp at h
      · cases hg : encodeBlocks n c (xs.drop 32) (xs.take 32) with
        | err e => rw [hg] at h; simp [Res.map'] at h
        | panic => rw [hg] at h; simp [Res.map'] at h
        | ok t =>
          obtain ⟨w2, b2, r2⟩ := t
          rw [hg] at h
          simp only [Res.map', Res.ok.injEq, Prod.mk.injEq] at h
          obtain ⟨-, rfl, rfl⟩ := h
          have := ih (xs.drop 32) (xs.take 32) w2 (by rw [List.length_drop]; omega) htl hg
          rw [this, if_neg (show ¬ c + 1 = 0 by omega)]
          by_cases h0 : c = 0
          · subst h0; simp
          · rw [if_neg h0, List.drop_drop]
            congr 2; omega

theorem overwrite_getD_ge {α : Type} (items buffer : List α) (h : items.length ≤ buffer.length) (i : Nat)
    (hi : items.length ≤ i) (d : α) : (overwrite items buffer).getD i d = buffer.getD i d := by
  unfold overwrite
  rw [List.getD_eq_getElem?_getD, List.getElem?_append_right (by rw [List.length_take]; omega),
    List.length_take, Nat.min_eq_right h, List.getElem?_drop, List.getD_eq_getElem?_getD,
    show items.length + (i - items.length) = i by omega]

/-- Every bit the encoder writes. -/
theorem bitpackedEncodeU32_bits (n : Nat) (hn : 0 < n) (hn32 : n ≤ 32) (xs : List U32)
    (hfx : ∀ x ∈ xs, x.toNat < 2 ^ n) :
    ∃ w, bitpackedEncodeU32 xs n = .ok w ∧ w.length = ceil8 (xs.length * n) ∧
      ∀ j, j < 8 * w.length → bitAt w j =
        if j / n < xs.length then (xs.getD (j / n) 0).getLsbD (j % n)
        else if 32 ≤ j / n then (xs.getD (j / n - 32) 0).getLsbD (j % n) else false := by
  obtain ⟨w0, k1, k2, k3⟩ := bitpackedEncodeU32_spec n hn hn32 xs hfx
  refine ⟨w0, k1, k2, fun j hj => ?_⟩
  by_cases hq : j / n < xs.length
  · rw [if_pos hq]
    exact k3 j ((Nat.div_lt_iff_lt_mul hn).1 hq)
  rw [if_neg hq]
  have hjx : xs.length * n ≤ j := (Nat.le_div_iff_mul_le hn).1 (by omega)
  obtain ⟨w, b, h1, h2, h3, h4, h5⟩ := encodeBlocks_spec n hn hn32 (xs.length / 32) xs
    (List.replicate 32 0#32) (by omega) (by simp) hfx
    (by intro x hx; rw [(List.mem_replicate.1 hx).2]; simp [Nat.two_pow_pos])
  have hbuf := encodeBlocks_buffer n (xs.length / 32) xs (List.replicate 32 0#32) b _ w
    (by omega) (by simp) h1
  have hr : xs.length - xs.length / 32 * 32 = xs.length % 32 := by omega
  have hlen : xs.length * n = 32 * (xs.length / 32 * n) + xs.length % 32 * n := by
    rw [← Nat.mul_assoc, ← Nat.add_mul]; congr 1; omega
  have hw : 8 * w.length = 32 * (xs.length / 32 * n) := by
    rw [h2, Nat.mul_assoc 4, Nat.mul_comm n]; omega
  unfold bitpackedEncodeU32 at k1
  simp only at k1
  rw [h1, hr] at k1
  simp only at k1
  by_cases hrem : xs.length % 32 = 0
  · exfalso
    rw [k2, ceil8_eq] at hj
    rw [hrem] at hlen
    omega
  rw [if_pos (by omega)] at k1
  have hdl : (xs.drop (32 * (xs.length / 32))).length = xs.length % 32 := by
    rw [List.length_drop]; omega
  have htl : ((xs.drop (32 * (xs.length / 32))).take (xs.length % 32)).length = xs.length % 32 := by
    rw [List.length_take]; omega
  have hbl := overwrite_length ((xs.drop (32 * (xs.length / 32))).take (xs.length % 32)) b (by omega)
  have hbf : ∀ x ∈ overwrite ((xs.drop (32 * (xs.length / 32))).take (xs.length % 32)) b,
      x.toNat < 2 ^ n := by
    intro x hx
    rcases overwrite_mem _ _ _ hx with h | h
    · exact hfx x (List.mem_of_mem_drop (List.mem_of_mem_take h))
    · exact h4 x h
  have hmn : xs.length % 32 * n ≤ 32 * n := Nat.mul_le_mul_right _ (by omega)
  have hmn1 : ceil8 (xs.length % 32 * n) ≤ 4 * n := by rw [ceil8_eq]; omega
  obtain ⟨packed, out, g1, g2, g3, g4⟩ := encodePack_spec n (ceil8 (xs.length % 32 * n)) hn hn32 _
    (by omega) hbf hmn1
  rw [g1] at k1
  simp only [g2, Res.map', Res.ok.injEq] at k1
  subst k1
  rw [List.length_append, g3] at hj
  have hge : ¬ j < 8 * w.length := by omega
  have e : 8 * w.length = n * (32 * (xs.length / 32)) := by
    rw [hw, Nat.mul_left_comm n, Nat.mul_comm n]
  have hq2 : 32 * (xs.length / 32) ≤ j / n := by omega
  rw [bitAt_append, if_neg hge, g4 _ (by omega), e, Nat.sub_mul_div, Nat.sub_mul_mod (by omega),
    overwrite_getD_ge _ _ (by omega) _ (by omega), hbuf]
  have hlt : j / n < 32 * (xs.length / 32) + 32 := by
    rw [Nat.div_lt_iff_lt_mul hn, Nat.add_mul, Nat.mul_assoc]; omega
  by_cases hc : xs.length / 32 = 0
  · rw [if_pos hc, if_neg (by omega), List.getD_eq_getElem?_getD, List.getElem?_replicate]
    split <;> simp
  · rw [if_neg hc, if_pos (by omega)]
    congr 1
    rw [List.getD_eq_getElem?_getD, List.getElem?_take, if_pos (by omega), List.getElem?_drop,
      List.getD_eq_getElem?_getD,
      show 32 * (xs.length / 32 - 1) + (j / n - 32 * (xs.length / 32)) = j / n - 32 by omega]

end Pq.Rle

namespace Pq.Delta
open Pq.Spec Pq.Bitpack

/-- A miniblock of at most 128 deltas in a buffer of zeros. -/
theorem writeMiniblock_padding (n : Nat) (hn : n ≤ 64) (rel : List I64)
    (hr : rel.length ≤ 128) (hfit : ∀ x ∈ rel, x.toNat < 2 ^ n) (bs : List Byte)
    (h : writeMiniblock n (Rle.overwrite rel (List.replicate 128 0#64)) = .ok bs) :
    bs.length = 16 * n ∧ ∀ j, rel.length * n ≤ j → bitAt bs j = false := by
  have hol : (Rle.overwrite rel (List.replicate 128 0#64)).length = 128 := by
    rw [Rle.overwrite_length _ _ (by simpa using hr), List.length_replicate]
  unfold writeMiniblock at h
  by_cases h0 : 0 < n
  · rw [if_pos h0, hol, Rle.ceil8_eq] at h
    have hz : (128 * n + 7) / 8 = 16 * n := by omega
    rw [hz] at h
    have hall : ∀ x ∈ Rle.overwrite rel (List.replicate 128 0#64), x.toNat < 2 ^ n := by
      intro x hx
      rcases Rle.overwrite_mem _ _ _ hx with h | h
      · exact hfit x h
      · rw [(List.mem_replicate.1 h).2]; simp [Nat.two_pow_pos]
    obtain ⟨o, e1, e2, e3⟩ := encode_prefix 8 n (by decide) h0 hn 128 2
      (Rle.overwrite rel (List.replicate 128 0#64)) (List.replicate (16 * n) 0#8) (by rw [hol])
      (by
        intro i hi
        rw [List.getD_eq_getElem?_getD, List.getElem?_eq_getElem (by omega)]
        exact hall _ (List.getElem_mem _))
      (by rw [List.length_replicate]; omega)
    rw [List.length_replicate] at e2 e3
    have : o = bs := by
      have := e1.symm.trans h
      simpa using this
    subst this
    refine ⟨e2, fun j hj => ?_⟩
    by_cases hjl : j < 8 * (16 * n)
    · have hq : rel.length ≤ j / n := (Nat.le_div_iff_mul_le h0).2 hj
      have hg : (Rle.overwrite rel (List.replicate 128 0#64)).getD (j / n) 0 = 0#64 := by
        rw [Rle.overwrite_getD_ge _ _ (by simpa using hr) _ hq, List.getD_eq_getElem?_getD,
          List.getElem?_replicate]
        split <;> simp
      rw [e3 j hjl (by omega), bitAt_replicate_zero, Bool.false_or]
      exact (congrArg (fun z : I64 => z.getLsbD (j % n)) hg).trans (by simp)
    · exact bitAt_of_ge _ _ (by omega)
  · have hn0 : n = 0 := by omega
    subst hn0
    rw [if_neg (by omega)] at h
    simp only [Res.ok.injEq] at h
    subst h
    exact ⟨rfl, fun j _ => bitAt_of_ge _ _ (by simp)⟩

/-- One block: the bits beyond its deltas are zero. -/
theorem encode_padding (xs : List I64) (h2 : 2 ≤ xs.length) (hl : xs.length ≤ 129) :
    ∃ h1 h2 h3 h4 z minDelta width bytes,
      encode false xs = .ok (h1 ++ h2 ++ h3 ++ h4 ++ (z ++ [BitVec.ofNat 8 width] ++ bytes)) ∧
      IsHeader h1 128 ∧ IsHeader h2 1 ∧ IsHeader h3 xs.length ∧
      IsHeader h4 (zigzagNat (xs.headD 0#64).toInt) ∧ IsHeader z (zigzagNat minDelta) ∧
      width ≤ 64 ∧ bytes.length = 16 * width ∧
      ∀ j, (xs.length - 1) * width ≤ j → bitAt bytes j = false := by
  obtain ⟨h1, a1, b1⟩ := header_ok 128#64
  obtain ⟨h2', a2, b2⟩ := header_ok 1#64
  obtain ⟨h3, a3, b3⟩ := header_ok (BitVec.ofNat 64 xs.length)
  obtain ⟨h4, a4, b4⟩ := zigzag_header_ok (xs.headD 0#64)
  have htl : xs.tail.length = xs.length - 1 := List.length_tail
  have ht : xs.tail.take 128 = xs.tail := List.take_of_length_le (by omega)
  have hd : xs.tail.drop 128 = [] := List.drop_of_length_le (by omega)
  have hne : xs.tail ≠ [] := by
    intro h
    rw [h] at htl
    simp at htl; omega
  obtain ⟨m, M, n, s1, _, _, s4, s5⟩ := scan_spec xs.tail (xs.headD 0#64)
    (BitVec.ofNat 64 (2 ^ 63 - 1)) (BitVec.ofNat 64 (2 ^ 63)) 0
  rw [if_neg hne] at s5
  have hn : n ≤ 64 := by rw [s5]; exact bitLen_le _
  have hrl : ((diffs (xs.headD 0#64) xs.tail).map (· - m)).length = xs.length - 1 := by
    rw [List.length_map, diffs_length, htl]
  have hrf : ∀ x ∈ (diffs (xs.headD 0#64) xs.tail).map (· - m), x.toNat < 2 ^ n := by
    intro x hx
    obtain ⟨d, hd, rfl⟩ := List.mem_map.1 hx
    obtain ⟨a, b⟩ := s4 d hd
    rw [s5]
    exact Nat.lt_of_le_of_lt (sub_toNat_le d m M a b) (lt_bitLen _)
  obtain ⟨z, z1, z2⟩ := zigzag_header_ok m
  obtain ⟨mini, w1, w2, w3⟩ := writeMiniblock_spec n hn _ (List.replicate 128 0#64) (by simp)
    (by rw [hrl]; omega) hrf
  obtain ⟨p1, p2⟩ := writeMiniblock_padding n hn _ (by rw [hrl]; omega) hrf mini w1
  rw [hrl] at p2
  obtain ⟨f, hf⟩ : ∃ f, xs.length = f + 2 := ⟨xs.length - 2, by omega⟩
  refine ⟨h1, h2', h3, h4, z, m.toInt, n, mini, ?_, b1, b2, ?_, b4, z2, hn, p1, p2⟩
  · rw [encode, a1, a2, a3]
    simp only [Res.ok_bind, a4]
    rw [hf, blocks, if_neg hne, ht, s1]
    simp only [Res.ok_bind, relative_spec, z1, w1, hd]
    rw [blocks, if_pos rfl]
    simp only [Res.ok_bind, Res.pure_eq, List.append_nil]
  · rw [BitVec.toNat_ofNat, Nat.mod_eq_of_lt (by omega)] at b3; exact b3

end Pq.Delta
