import Verif.Lemmas.HybridValues
import Verif.Lemmas.EncodedSize
import Verif.Lemmas.DeltaChecked
import Verif.Lemmas.Deserialize2
/-
What decoders give for any bytes is within the bounds of the encoders.
-/
namespace Pq
open Spec

theorem Leb.varintSize_le_prefix (bs : List Byte) (h : bs ≠ []) : varintSize (base128 bs) ≤ bs.length := by
  unfold varintSize
  have hb := Leb.base128_lt bs
  have hl : 0 < bs.length := List.length_pos_iff.2 h
  by_cases h0 : base128 bs = 0
  · rw [h0]; simp; omega
  · have : Nat.log2 (base128 bs) < 7 * bs.length := by
      rw [Nat.log2_lt h0, Nat.pow_mul]
      exact hb
    omega

theorem Leb.varintPrefix_ne_nil (bs : List Byte) (h : bs ≠ []) : varintPrefix bs ≠ [] := by
  cases bs with
  | nil => exact absurd rfl h
  | cons b bs =>
    simp only [varintPrefix]
    split <;> simp

namespace Delta

theorem next_some (ck : Bool) (d d' : Decoder) (x : BitVec 64) (h : d.next ck = .ok (some x, d')) :
    d'.valuesRemaining + 1 = d.valuesRemaining := by
  unfold Decoder.next at h
  split at h
  · simp at h
  · rename_i h0
    simp only at h
    split at h
    · simp only [Res.ok.injEq, Prod.mk.injEq] at h
      obtain ⟨_, rfl⟩ := h
      show d.valuesRemaining - 1 + 1 = _
      omega
    · rw [Res.bind_eq_ok] at h
      obtain ⟨⟨δ, d1⟩, hl, h⟩ := h
      rw [Res.bind_eq_ok] at h
      obtain ⟨v, _, h⟩ := h
      simp only [Res.pure_eq, Res.ok.injEq, Prod.mk.injEq] at h
      obtain ⟨_, rfl⟩ := h
      show d1.valuesRemaining + 1 = _
      have : d1.valuesRemaining = d.valuesRemaining - 1 := by
        unfold Decoder.loadDelta at hl
        split at hl
        · simp at hl
        · rw [Res.bind_eq_ok] at hl
          obtain ⟨⟨o, b⟩, _, hl⟩ := hl
          cases o with
          | some y =>
            simp only [Res.pure_eq, Res.ok.injEq, Prod.mk.injEq] at hl
            obtain ⟨_, rfl⟩ := hl
            rfl
          | none =>
            simp only at hl
            rw [Res.bind_eq_ok] at hl
            obtain ⟨vs, _, hl⟩ := hl
            rw [Res.bind_eq_ok] at hl
            obtain ⟨nx, _, hl⟩ := hl
            rw [Res.bind_eq_ok] at hl
            obtain ⟨⟨o, nx⟩, _, hl⟩ := hl
            cases o with
            | some y =>
              simp only [Res.pure_eq, Res.ok.injEq, Prod.mk.injEq] at hl
              obtain ⟨_, rfl⟩ := hl
              rfl
            | none => simp at hl
      omega

theorem drain_length (ck : Bool) (fuel : Nat) (d d' : Decoder) (xs : List (BitVec 64))
    (h : d.drain ck fuel = .ok (xs, d')) : xs.length ≤ d.valuesRemaining := by
  induction fuel generalizing d xs with
  | zero => simp [Decoder.drain] at h
  | succ fuel ih =>
    rw [Decoder.drain, Res.bind_eq_ok] at h
    obtain ⟨⟨o, d1⟩, h1, h⟩ := h
    cases o with
    | none =>
      simp only [Res.pure_eq, Res.ok.injEq, Prod.mk.injEq] at h
      rw [← h.1]
      exact Nat.zero_le _
    | some x =>
      simp only at h
      rw [Res.bind_eq_ok] at h
      obtain ⟨⟨ys, d2⟩, h2, h⟩ := h
      simp only [Res.pure_eq, Res.ok.injEq, Prod.mk.injEq] at h
      have := ih d1 ys (h.2 ▸ h2)
      have := next_some ck d d1 x h1
      rw [← h.1, List.length_cons]
      omega

theorem tryNew_remaining (ck : Bool) (bytes : List Byte) (d : Decoder) (h : Decoder.tryNew ck bytes = .ok d) :
    d.valuesRemaining < 2 ^ 64 := by
  unfold Decoder.tryNew at h
  rw [Res.bind_eq_ok] at h
  obtain ⟨⟨a, c1⟩, -, h⟩ := h
  rw [Res.bind_eq_ok] at h
  obtain ⟨-, -, h⟩ := h
  rw [Res.bind_eq_ok] at h
  obtain ⟨⟨b, c2⟩, -, h⟩ := h
  rw [Res.bind_eq_ok] at h
  obtain ⟨⟨t, c3⟩, -, h⟩ := h
  rw [Res.bind_eq_ok] at h
  obtain ⟨⟨f, c4⟩, -, h⟩ := h
  rw [Res.bind_eq_ok] at h
  obtain ⟨-, -, h⟩ := h
  rw [Res.bind_eq_ok] at h
  obtain ⟨-, -, h⟩ := h
  rw [Res.bind_eq_ok] at h
  obtain ⟨cb, -, h⟩ := h
  simp only [Res.pure_eq, Res.ok.injEq] at h
  rw [← h]
  exact t.isLt

/-- No bytes are read as 2^64 values or more. -/
theorem decode_length (ck : Bool) (bytes : List Byte) (xs : List (BitVec 64)) (n : Nat)
    (h : decode ck bytes = .ok (xs, n)) : xs.length < 2 ^ 64 := by
  unfold decode at h
  rw [Res.bind_eq_ok] at h
  obtain ⟨d, h1, h⟩ := h
  rw [Res.bind_eq_ok] at h
  obtain ⟨⟨ys, d'⟩, h2, h⟩ := h
  simp only [Res.pure_eq, Res.ok.injEq, Prod.mk.injEq] at h
  rw [← h.1]
  exact Nat.lt_of_le_of_lt (drain_length _ _ _ _ _ h2) (tryNew_remaining _ _ _ h1)

end Delta

namespace DeltaLength

theorem drain_length (ck : Bool) (fuel : Nat) (d d' : Decoder) (xs : List (BitVec 32))
    (h : d.drain ck fuel = .ok (xs, d')) : xs.length ≤ d.lengths.valuesRemaining := by
  induction fuel generalizing d xs with
  | zero => simp [Decoder.drain] at h
  | succ fuel ih =>
    rw [Decoder.drain, Res.bind_eq_ok] at h
    obtain ⟨⟨o, d1⟩, h1, h⟩ := h
    cases o with
    | none =>
      simp only [Res.pure_eq, Res.ok.injEq, Prod.mk.injEq] at h
      rw [← h.1]
      exact Nat.zero_le _
    | some x =>
      simp only at h
      rw [Res.bind_eq_ok] at h
      obtain ⟨⟨ys, d2⟩, h2, h⟩ := h
      simp only [Res.pure_eq, Res.ok.injEq, Prod.mk.injEq] at h
      have h3 := ih d1 ys (h.2 ▸ h2)
      have h4 : d1.lengths.valuesRemaining + 1 = d.lengths.valuesRemaining := by
        unfold Decoder.next at h1
        rw [Res.bind_eq_ok] at h1
        obtain ⟨⟨o, l⟩, hn, h1⟩ := h1
        cases o with
        | none => simp at h1
        | some v =>
          simp only at h1
          split at h1
          · simp at h1
          · simp only [Res.pure_eq, Res.ok.injEq, Prod.mk.injEq] at h1
            rw [← h1.2]
            exact Delta.next_some ck _ _ _ hn
      rw [← h.1, List.length_cons]
      omega

/-- Lengths read from any bytes are less than 2^64, and the strings have less than 2^32 bytes. -/
theorem decode_bounds (ck : Bool) (bytes body : List Byte) (lengths : List (BitVec 32))
    (h : decode ck bytes = .ok (lengths, body)) : lengths.length < 2 ^ 64 ∧ body.length < 2 ^ 32 := by
  unfold decode at h
  rw [Res.bind_eq_ok] at h
  obtain ⟨d, h1, h⟩ := h
  rw [Res.bind_eq_ok] at h
  obtain ⟨⟨ys, d'⟩, h2, h⟩ := h
  rw [Res.bind_eq_ok] at h
  obtain ⟨b, h3, h⟩ := h
  simp only [Res.pure_eq, Res.ok.injEq, Prod.mk.injEq] at h
  obtain ⟨rfl, rfl⟩ := h
  constructor
  · refine Nat.lt_of_le_of_lt (drain_length _ _ _ _ _ h2) ?_
    unfold Decoder.tryNew at h1
    obtain ⟨l, hl, rfl⟩ : ∃ l, Delta.Decoder.tryNew ck bytes = .ok l ∧ d.lengths = l := by
      rw [Res.bind_eq_ok] at h1
      obtain ⟨l, hl, h1⟩ := h1
      simp only [Res.pure_eq, Res.ok.injEq] at h1
      exact ⟨l, hl, by rw [← h1]⟩
    exact Delta.tryNew_remaining _ _ _ hl
  · unfold Decoder.intoValues at h3
    rw [Res.bind_eq_ok] at h3
    obtain ⟨-, -, h3⟩ := h3
    simp only at h3
    unfold slice at h3
    split at h3
    · simp only [Res.ok.injEq] at h3
      rw [← h3]
      have := d'.totalLength.isLt
      simp only [List.length_take, List.length_drop]
      omega
    · simp at h3

end DeltaLength

theorem cut_flatten_length : ∀ (ls : List Nat) (bytes : List Byte), (cut ls bytes).flatten.length ≤ bytes.length
  | [], bytes => by simp [cut]
  | l :: ls, bytes => by
    have := cut_flatten_length ls (bytes.drop l)
    simp only [cut, List.flatten_cons, List.length_append, List.length_take, List.length_drop] at this ⊢
    omega

theorem cut_length : ∀ (ls : List Nat) (bytes : List Byte), (cut ls bytes).length = ls.length
  | [], _ => rfl
  | l :: ls, bytes => by simp [cut, cut_length ls]

namespace PlainBytes

/-- Bytes read as strings only, are these strings followed by less than four bytes. -/
theorem items_canonical (fuel : Nat) (it : BinaryIter) (xs : List (List Byte))
    (h : it.items fuel = some (xs.map Except.ok)) :
    (∀ s ∈ xs, s.length < 2 ^ 32) ∧ ∃ stray, stray.length < 4 ∧ it.values = plainBytes xs ++ stray := by
  induction fuel generalizing it xs with
  | zero => simp [BinaryIter.items] at h
  | succ fuel ih =>
    rw [BinaryIter.items, BinaryIter.next] at h
    by_cases h4 : it.values.length < 4
    · rw [if_pos h4] at h
      simp only [Option.some.injEq] at h
      cases xs with
      | nil => exact ⟨by simp, it.values, h4, by simp [plainBytes]⟩
      | cons x xs => simp at h
    · rw [if_neg h4] at h
      simp only at h
      by_cases hv : (it.values.drop 4).length < leNat (it.values.take 4)
      · rw [if_pos hv] at h
        simp only [Option.map_eq_some_iff] at h
        obtain ⟨ys, -, h⟩ := h
        cases xs with
        | nil => simp at h
        | cons x xs => simp at h
      · rw [if_neg hv] at h
        simp only [Option.map_eq_some_iff] at h
        obtain ⟨ys, h1, h⟩ := h
        cases xs with
        | nil => simp at h
        | cons x xs =>
          simp only [List.map_cons, List.cons.injEq, Except.ok.injEq] at h
          obtain ⟨hx, rfl⟩ := h
          obtain ⟨i1, stray, i2, i3⟩ := ih _ xs h1
          simp only at i3
          have hlen : x.length = leNat (it.values.take 4) := by
            rw [← hx, List.length_take]
            omega
          have ht : (it.values.take 4).length = 4 := by rw [List.length_take]; omega
          have hle : leBytes 4 x.length = it.values.take 4 := by
            have := Deser.leBytes_leNat (it.values.take 4)
            rw [ht] at this
            rw [hlen, this]
          have hlt : x.length < 2 ^ 32 := by
            rw [hlen]
            have := leNat_lt (it.values.take 4)
            rw [ht] at this
            exact this
          refine ⟨?_, stray, i2, ?_⟩
          · intro s hs
            rcases List.mem_cons.1 hs with rfl | hs
            · exact hlt
            · exact i1 s hs
          · simp only [plainBytes, List.flatMap_cons, List.append_assoc]
            rw [hle, show xs.flatMap (fun s => leBytes 4 s.length ++ s) = plainBytes xs from rfl, ← i3, ← hx,
              List.take_append_drop, List.take_append_drop]

end PlainBytes

namespace DeltaByteArray

theorem rebuild_length : ∀ (previous : List Byte) (ps ls : List Nat) (bytes : List Byte),
    (rebuild previous ps ls bytes).length ≤ ps.length
  | _, [], _, _ => by simp [rebuild]
  | _, _ :: _, [], _ => by simp [rebuild]
  | previous, p :: ps, l :: ls, bytes => by
    simp only [rebuild, List.length_cons]
    exact Nat.succ_le_succ (rebuild_length _ ps ls _)

/-- Less than 2^64 prefixes are read from any bytes. -/
theorem decode_count (ck : Bool) (bytes body : List Byte) (ps ls : List (BitVec 32))
    (h : decode ck bytes = .ok (ps, ls, body)) : ps.length < 2 ^ 64 := by
  unfold decode at h
  rw [Res.bind_eq_ok] at h
  obtain ⟨d, h1, h⟩ := h
  rw [Res.bind_eq_ok] at h
  obtain ⟨⟨ys, d'⟩, h2, h⟩ := h
  simp only at h
  rw [Res.bind_eq_ok] at h
  obtain ⟨-, -, h⟩ := h
  rw [Res.bind_eq_ok] at h
  obtain ⟨rest, -, h⟩ := h
  rw [Res.bind_eq_ok] at h
  obtain ⟨⟨a, b⟩, -, h⟩ := h
  simp only [Res.pure_eq, Res.ok.injEq, Prod.mk.injEq] at h
  rw [← h.1, List.length_map]
  exact Nat.lt_of_le_of_lt (Delta.drain_length _ _ _ _ _ h2) (Delta.tryNew_remaining _ _ _ h1)

end DeltaByteArray

namespace Rle

/-- One value of a bit-packed run of a group, whatever the bytes of the group: it has at most 12 bits. -/
theorem packed_value_lt (body : List Byte) (x : U32) (h : decode (3#8 :: body) 12 1 = .ok [x]) :
    x.toNat < 2 ^ 12 := by
  rw [decode_values _ (by decide)] at h
  have hr : readVarint (3#8 :: body) = some (3, body) := by
    simp [readVarint, Overlong, varintPrefix, base128]
  have hv : hybridValues 12 (3#8 :: body) 1 = valuesOfRuns 12 (body.length + 2) (3#8 :: body) 1 ∨
      hybridValues 12 (3#8 :: body) 1 = none := by
    unfold hybridValues
    rw [if_neg (by decide)]
    split
    · exact .inr rfl
    · exact .inl rfl
  rcases hv with hv | hv
  · rw [hv, valuesOfRuns, if_neg (by decide), hr] at h
    simp only at h
    by_cases hb : body = []
    · subst hb
      simp at h
      subst h
      decide
    · obtain ⟨c, cs, rfl⟩ := List.exists_cons_of_ne_nil hb
      rw [if_neg hb, if_pos (by decide)] at h
      cases cs with
      | nil =>
        have e : valuesOfRuns 12 2 [] 1 = some [0] := by decide
        simp [fields, e] at h
        subst h
        decide
      | cons d ds =>
        have e : min ((List.take (3 / 2 * 12 % 2 ^ 64) (c :: d :: ds)).length * 8 / 12) 1 = 1 := by
          simp only [List.length_take, List.length_cons]
          omega
        have h0 : ∀ r bs, valuesOfRuns 12 (r + 1) bs 0 = some [] := by
          intro r bs; rw [valuesOfRuns, if_pos rfl]
        simp only [e, fields, List.range_one, List.map_cons, List.map_nil, List.length_cons, List.length_nil,
          Nat.sub_self, Nat.zero_add, h0, Option.map_some, List.append_nil, Res.ok.injEq, List.cons.injEq,
          and_true] at h
        rw [← h, BitVec.toNat_ofNat]
        exact Nat.lt_of_le_of_lt (Nat.mod_le _ _) (fieldAt_lt _ _ _)
  · rw [hv] at h
    cases h

end Rle

end Pq
