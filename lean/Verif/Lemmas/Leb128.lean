import Verif.Model.Leb128
import Verif.Spec.Leb128
/- Helper lemmas about the LEB128 model. -/
namespace Pq.Leb
open Pq.Spec

theorem byte_and_7f (b : Byte) : (b &&& 0x7F#8).toNat = b.toNat % 128 := by
  rw [BitVec.toNat_and]
  exact Nat.and_two_pow_sub_one_eq_mod b.toNat 7

theorem byte_and_80 (b : Byte) : (b &&& 0x80#8 = 0#8) ↔ b.toNat < 128 := by
  revert b; decide

theorem shl_or_toNat (r : BitVec 64) (x s : Nat) (hr : r.toNat < 2 ^ s)
    (hx : x * 2 ^ s < 2 ^ 64) (y : BitVec 64) (hy : y.toNat = x) :
    (r ||| (y <<< s)).toNat = r.toNat + x * 2 ^ s := by
  rw [BitVec.toNat_or, BitVec.toNat_shiftLeft, hy, Nat.shiftLeft_eq, Nat.mod_eq_of_lt hx,
    Nat.or_comm, Nat.mul_comm x, ← Nat.two_pow_add_eq_or_of_lt hr, Nat.add_comm]

/-- The byte emitted by one step of `encodeInto`. -/
def encByte (v : BitVec 64) : Byte :=
  let byte := v.setWidth 8 &&& ~~~ 128#8
  if v >>> 7 ≠ 0 then byte ||| 128#8 else byte

theorem encByte_toNat (v : BitVec 64) :
    (encByte v).toNat = v.toNat % 128 + (if v.toNat < 128 then 0 else 128) := by
  have h1 : (v.setWidth 8 &&& ~~~ 128#8).toNat = v.toNat % 128 := by
    have : ~~~ 128#8 = 0x7F#8 := by decide
    rw [this, byte_and_7f, BitVec.toNat_setWidth]
    omega
  have h2 : (v >>> 7 = 0) ↔ v.toNat < 128 := by
    constructor
    · intro h
      have := congrArg BitVec.toNat h
      simp [BitVec.toNat_ushiftRight, Nat.shiftRight_eq_div_pow] at this
      omega
    · intro h
      apply BitVec.eq_of_toNat_eq
      simp [BitVec.toNat_ushiftRight, Nat.shiftRight_eq_div_pow]
      omega
  unfold encByte
  simp only [ne_eq, h2]
  by_cases h : v.toNat < 128
  · simp only [h, not_true_eq_false, if_true, if_false, h1, Nat.add_zero]
  · simp only [h, not_false_eq_true, if_true, if_false]
    have : ∀ y : Byte, y.toNat < 128 → (y ||| 128#8).toNat = y.toNat + 128 := by decide
    rw [this _ (by omega), h1]

theorem shr7_toNat (v : BitVec 64) : (v >>> 7).toNat = v.toNat / 128 := by
  simp [BitVec.toNat_ushiftRight, Nat.shiftRight_eq_div_pow]

theorem shr7_eq_zero (v : BitVec 64) : v >>> 7 = 0 ↔ v.toNat < 128 := by
  rw [← BitVec.toNat_inj, shr7_toNat]
  simp

theorem encodeInto_cons (v : BitVec 64) (x : Byte) (c : List Byte) :
    encodeInto v (x :: c) =
      if v.toNat < 128 then .ok (encByte v :: c, 1)
      else (encodeInto (v >>> 7) c).map' fun (c, n) => (encByte v :: c, n + 1) := by
  rw [encodeInto]
  simp only [encByte]
  by_cases h : v >>> 7 = 0
  · have := (shr7_eq_zero v).1 h
    simp [h, this]
  · have := mt (shr7_eq_zero v).2 h
    simp only [h, this, if_false]

/-- Result of encoding into a container with at least `k` bytes, `v < 128^k`. -/
theorem encodeInto_spec (k : Nat) (v : BitVec 64) (c : List Byte)
    (hv : v.toNat < 128 ^ k) (hk : 0 < k) (hc : k ≤ c.length) :
    ∃ bs, IsVarint bs ∧ base128 bs = v.toNat ∧ bs.length ≤ k ∧ bs ≠ [] ∧
      encodeInto v c = .ok (bs ++ c.drop bs.length, bs.length) := by
  induction k generalizing v c with
  | zero => omega
  | succ k ih =>
    cases c with
    | nil => simp at hc
    | cons x c =>
      rw [encodeInto_cons]
      have hb := encByte_toNat v
      by_cases h : v.toNat < 128
      · refine ⟨[encByte v], ?_, ?_, ?_, ?_, ?_⟩
        · simp only [IsVarint]; rw [hb]; simp only [h, if_true]; omega
        · simp only [base128]; rw [hb]; simp only [h, if_true]; omega
        · simp
        · simp
        · simp [h]
      · have hk' : 0 < k := by
          rcases k with _ | k
          · simp at hv; omega
          · omega
        have h7 := shr7_toNat v
        obtain ⟨bs, h1, h2, h3, h4, h5⟩ := ih (v >>> 7) c
          (by rw [h7]; rw [Nat.pow_succ] at hv; omega) hk' (by simpa using hc)
        refine ⟨encByte v :: bs, ?_, ?_, ?_, ?_, ?_⟩
        · cases bs with
          | nil => exact absurd rfl h4
          | cons b bs =>
            simp only [IsVarint]
            refine ⟨?_, h1⟩
            rw [hb]; simp [h]
        · simp only [base128]
          rw [h2, h7, hb]; simp [h]
          omega
        · simpa using h3
        · simp
        · simp [h, h5, Res.map']

/-- Decoding a varint whose value fits in the remaining bits. -/
theorem decodeLoop_varint (bs rest : List Byte) (r : BitVec 64) (s c : Nat)
    (h : IsVarint bs) (hr : r.toNat < 2 ^ s) (hs : s ≤ 63)
    (hv : base128 bs * 2 ^ s < 2 ^ 64)
    (hlen : 2 ^ (7 * (bs.length - 1)) * 2 ^ s < 2 ^ 64) :
    decodeLoop (bs ++ rest) r s c =
      .ok (BitVec.ofNat 64 (r.toNat + base128 bs * 2 ^ s), c + bs.length) := by
  induction bs generalizing r s c with
  | nil => exact absurd h id
  | cons b bs ih =>
    have hb := b.isLt
    have hnp : ¬ (s = 63 ∧ b > 1#8) := by
      rintro ⟨rfl, hgt⟩
      have hgt : 1 < b.toNat := by simpa [BitVec.lt_def] using hgt
      cases bs with
      | nil => simp only [IsVarint] at h; simp only [base128] at hv; omega
      | cons b' bs =>
        have : 2 ^ 7 ≤ 2 ^ (7 * ((b :: b' :: bs).length - 1)) :=
          Nat.pow_le_pow_right (by decide) (by simp; omega)
        omega
    have hx : b.toNat % 128 * 2 ^ s < 2 ^ 64 := by
      refine Nat.lt_of_le_of_lt (Nat.mul_le_mul_right _ ?_) hv
      simp only [base128]; omega
    have hstep : (r ||| ((b &&& 0x7F#8).setWidth 64 <<< s)).toNat
        = r.toNat + (b.toNat % 128) * 2 ^ s := by
      apply shl_or_toNat _ _ _ hr hx
      rw [BitVec.toNat_setWidth, byte_and_7f]
      omega
    rw [List.cons_append, decodeLoop, if_neg hnp]
    cases bs with
    | nil =>
      simp only [IsVarint] at h
      simp only [List.nil_append, (byte_and_80 b).2 h, if_true]
      congr 1
      simp only [Prod.mk.injEq, List.length_singleton, and_true]
      apply BitVec.eq_of_toNat_eq
      have hlt := (r ||| ((b &&& 0x7F#8).setWidth 64 <<< s)).isLt
      rw [hstep] at hlt ⊢
      have e : base128 [b] = b.toNat % 128 := by simp [base128]
      rw [BitVec.toNat_ofNat, e, Nat.mod_eq_of_lt hlt]
    | cons b' bs =>
      have hge : 128 ≤ b.toNat := h.1
      have hvar : IsVarint (b' :: bs) := h.2
      have hn : ¬ (b &&& 0x80#8 = 0#8) := by rw [byte_and_80]; omega
      have hp : 2 ^ (s + 7) = 2 ^ s * 128 := by rw [Nat.pow_add]
      have hle : (b.toNat % 128) * 2 ^ s ≤ 127 * 2 ^ s := Nat.mul_le_mul_right _ (by omega)
      have hlen' : 2 ^ (7 * ((b' :: bs).length - 1)) * 2 ^ (s + 7) < 2 ^ 64 := by
        have e : 7 * ((b :: b' :: bs).length - 1) = 7 * ((b' :: bs).length - 1) + 7 := by
          simp; omega
        rw [e, Nat.pow_add] at hlen
        rw [hp]
        calc _ = 2 ^ (7 * ((b' :: bs).length - 1)) * 2 ^ 7 * 2 ^ s := by
              rw [Nat.mul_comm (2 ^ s), ← Nat.mul_assoc]
          _ < _ := hlen
      have hs' : s + 7 ≤ 63 := by
        have h1 : 1 * 2 ^ (s + 7) ≤ 2 ^ (7 * ((b' :: bs).length - 1)) * 2 ^ (s + 7) :=
          Nat.mul_le_mul_right _ (Nat.one_le_two_pow)
        have : 2 ^ (s + 7) < 2 ^ 64 := by omega
        have := (Nat.pow_lt_pow_iff_right (a := 2) (by decide)).1 this
        omega
      have hv' : base128 (b' :: bs) * 2 ^ (s + 7) < 2 ^ 64 := by
        rw [hp]
        have e : base128 (b :: b' :: bs) = b.toNat % 128 + 128 * base128 (b' :: bs) := rfl
        rw [e, Nat.add_mul] at hv
        have : 128 * base128 (b' :: bs) * 2 ^ s = base128 (b' :: bs) * (2 ^ s * 128) := by
          rw [Nat.mul_comm 128, Nat.mul_assoc, Nat.mul_comm 128]
        omega
      simp only [hn, if_false]
      rw [ih _ _ _ hvar (by rw [hstep, hp]; omega) hs' hv' hlen']
      congr 1
      simp only [Prod.mk.injEq, List.length_cons]
      refine ⟨?_, by omega⟩
      rw [hstep, hp]
      congr 1
      have e : base128 (b :: b' :: bs) = b.toNat % 128 + 128 * base128 (b' :: bs) := rfl
      rw [e, Nat.add_mul]
      have : 128 * base128 (b' :: bs) * 2 ^ s = base128 (b' :: bs) * (2 ^ s * 128) := by
        rw [Nat.mul_comm 128, Nat.mul_assoc, Nat.mul_comm 128]
      omega

end Pq.Leb

namespace Pq.Leb
open Pq.Spec

theorem decodeLoop_any (bs : List Byte) (r : BitVec 64) (n s c : Nat)
    (hn : s + 7 * n = 63) (hr : r.toNat < 2 ^ s) :
    decodeLoop bs r s c =
      if Overlong n bs then .panic
      else .ok (BitVec.ofNat 64 (r.toNat + base128 (varintPrefix bs) * 2 ^ s),
        c + (varintPrefix bs).length) := by
  induction bs generalizing r n s c with
  | nil =>
    cases n <;> simp [decodeLoop, Overlong, varintPrefix, base128]
  | cons b bs ih =>
    have hb := b.isLt
    rw [decodeLoop]
    cases n with
    | zero =>
      have hs : s = 63 := by omega
      subst hs
      by_cases h : 1 < b.toNat
      · have : b > 1#8 := by simpa [BitVec.lt_def] using h
        simp [this, Overlong, h]
      · have h' : ¬ (b > 1#8) := by simpa [BitVec.lt_def] using h
        have h8 : b &&& 0x80#8 = 0#8 := by rw [byte_and_80]; omega
        have hb1 : b.toNat < 128 := by omega
        have hx : b.toNat % 128 * 2 ^ 63 < 2 ^ 64 := by omega
        have hstep : (r ||| ((b &&& 0x7F#8).setWidth 64 <<< 63)).toNat
            = r.toNat + (b.toNat % 128) * 2 ^ 63 := by
          apply shl_or_toNat _ _ _ hr hx
          rw [BitVec.toNat_setWidth, byte_and_7f]
          omega
        simp only [h', and_false, if_false, h8, if_true, Overlong, h, varintPrefix, hb1,
          List.length_singleton]
        congr 2
        apply BitVec.eq_of_toNat_eq
        have hlt := (r ||| ((b &&& 0x7F#8).setWidth 64 <<< 63)).isLt
        rw [hstep] at hlt ⊢
        have e : base128 [b] = b.toNat % 128 := by simp [base128]
        rw [BitVec.toNat_ofNat, e, Nat.mod_eq_of_lt hlt]
    | succ n =>
      have hs : s + 7 ≤ 63 := by omega
      have hp : 2 ^ (s + 7) = 2 ^ s * 128 := by rw [Nat.pow_add]
      have hle : (b.toNat % 128) * 2 ^ s ≤ 127 * 2 ^ s := Nat.mul_le_mul_right _ (by omega)
      have hpp : 2 ^ (s + 7) ≤ 2 ^ 63 := Nat.pow_le_pow_right (by decide) hs
      have hstep : (r ||| ((b &&& 0x7F#8).setWidth 64 <<< s)).toNat
          = r.toNat + (b.toNat % 128) * 2 ^ s := by
        apply shl_or_toNat _ _ _ hr (by omega)
        rw [BitVec.toNat_setWidth, byte_and_7f]
        omega
      have hnp : ¬ (s = 63 ∧ b > 1#8) := by omega
      rw [if_neg hnp]
      by_cases h : b.toNat < 128
      · have hn : ¬ (128 ≤ b.toNat) := by omega
        have hlt := (r ||| ((b &&& 0x7F#8).setWidth 64 <<< s)).isLt
        have e : base128 [b] = b.toNat % 128 := by simp [base128]
        simp only [(byte_and_80 b).2 h, if_true, Overlong, hn, false_and, if_false, varintPrefix, h,
          List.length_singleton]
        congr 2
        apply BitVec.eq_of_toNat_eq
        rw [hstep] at hlt ⊢
        rw [BitVec.toNat_ofNat, e, Nat.mod_eq_of_lt hlt]
      · have hn : ¬ (b &&& 0x80#8 = 0#8) := by rw [byte_and_80]; omega
        have hge : 128 ≤ b.toNat := by omega
        simp only [hn, if_false, Overlong, hge, true_and, varintPrefix, h, List.length_cons]
        rw [ih _ n _ _ (by omega) (by rw [hstep, hp]; omega)]
        congr 1
        congr 2
        · rw [hstep, hp]
          congr 1
          have e : base128 (b :: varintPrefix bs)
            = b.toNat % 128 + 128 * base128 (varintPrefix bs) := rfl
          rw [e, Nat.add_mul]
          have : 128 * base128 (varintPrefix bs) * 2 ^ s
              = base128 (varintPrefix bs) * (2 ^ s * 128) := by
            rw [Nat.mul_comm 128, Nat.mul_assoc, Nat.mul_comm 128]
          omega
        · omega

theorem varintPrefix_isPrefix (bs : List Byte) : varintPrefix bs <+: bs := by
  induction bs with
  | nil => simp [varintPrefix]
  | cons b bs ih =>
    simp only [varintPrefix]
    split
    · exact ⟨bs, rfl⟩
    · simpa using ih

theorem varintPrefix_length_of_not_overlong (n : Nat) (bs : List Byte) (h : ¬ Overlong n bs) :
    (varintPrefix bs).length ≤ n + 1 := by
  induction bs generalizing n with
  | nil => simp [varintPrefix]
  | cons b bs ih =>
    simp only [varintPrefix]
    split
    · simp
    · cases n with
      | zero => simp only [Overlong] at h; omega
      | succ n =>
        simp only [Overlong, not_and] at h
        have := ih n (h (by omega))
        simpa using this

theorem base128_lt (bs : List Byte) : base128 bs < 128 ^ bs.length := by
  induction bs with
  | nil => simp [base128]
  | cons b bs ih => simp only [base128, List.length_cons, Nat.pow_succ]; omega

theorem base128_lt_of_not_overlong (n : Nat) (bs : List Byte) (h : ¬ Overlong n bs) :
    base128 (varintPrefix bs) < 2 ^ (7 * n + 1) := by
  induction bs generalizing n with
  | nil => simp [varintPrefix, base128]; exact Nat.two_pow_pos _
  | cons b bs ih =>
    cases n with
    | zero =>
      simp only [Overlong] at h
      have : b.toNat < 128 := by omega
      simp only [varintPrefix, this, if_true, base128]
      omega
    | succ n =>
      have hp : 2 ^ (7 * (n + 1) + 1) = 128 * 2 ^ (7 * n + 1) := by
        rw [show 7 * (n + 1) + 1 = 7 + (7 * n + 1) by omega, Nat.pow_add]
      simp only [varintPrefix]
      split
      · simp only [base128]
        have := Nat.two_pow_pos (7 * n + 1)
        omega
      · simp only [Overlong, not_and] at h
        have := ih n (h (by omega))
        simp only [base128]
        omega

theorem decode_any (bs : List Byte) :
    decode bs = if Overlong 9 bs then .panic
      else .ok (BitVec.ofNat 64 (base128 (varintPrefix bs)), (varintPrefix bs).length) := by
  have := decodeLoop_any bs 0 9 0 0 rfl (by simp)
  simpa [decode] using this

theorem varintPrefix_varint (bs rest : List Byte) (h : IsVarint bs) :
    varintPrefix (bs ++ rest) = bs := by
  induction bs with
  | nil => exact absurd h id
  | cons b bs ih =>
    cases bs with
    | nil => simp only [IsVarint] at h; simp [varintPrefix, h]
    | cons b' bs =>
      have h1 := h.1
      have : ¬ b.toNat < 128 := by omega
      simp only [List.cons_append, varintPrefix, this, if_false]
      congr 1
      exact ih h.2

theorem encode_spec (v : BitVec 64) :
    ∃ bs, encode v = .ok bs ∧ IsVarint bs ∧ base128 bs = v.toNat ∧ bs.length ≤ 10 := by
  obtain ⟨bs, h1, h2, h3, _, h5⟩ := encodeInto_spec 10 v (List.replicate 10 0#8)
    (Nat.lt_of_lt_of_le v.isLt (by decide)) (by decide) (by simp)
  refine ⟨bs, ?_, h1, h2, h3⟩
  rw [encode, h5]
  simp [Res.map']

theorem decode_encode (v : BitVec 64) (bs rest : List Byte) (h : encode v = .ok bs) :
    decode (bs ++ rest) = .ok (v, bs.length) := by
  obtain ⟨bs', h0, h1, h2, h3⟩ := encode_spec v
  rw [h0] at h
  cases h
  have := decodeLoop_varint bs rest 0 0 0 h1 (by simp) (by simp)
    (by rw [h2]; simpa using v.isLt)
    (by
      have : 2 ^ (7 * (bs.length - 1)) ≤ 2 ^ 63 := Nat.pow_le_pow_right (by decide) (by omega)
      omega)
  rw [decode, this, h2]
  simp

/-! ### zig-zag -/

theorem sshiftRight_63 (v : BitVec 64) :
    v.sshiftRight 63 = if v.toNat < 2 ^ 63 then 0#64 else BitVec.allOnes 64 := by
  apply BitVec.eq_of_getLsbD_eq
  intro j hj
  have hm : v.msb = !decide (v.toNat < 2 ^ 63) := by
    rw [BitVec.msb_eq_decide]
    by_cases h : v.toNat < 2 ^ 63 <;> simp [h] <;> omega
  have hl : (v.sshiftRight 63).getLsbD j = v.msb := by
    rw [BitVec.getLsbD_sshiftRight]
    by_cases hj0 : j = 0
    · subst hj0; simp [BitVec.msb_eq_getLsbD_last]
    · have : ¬ (63 + j < 64) := by omega
      simp [this]; omega
  rw [hl, hm]
  by_cases h : v.toNat < 2 ^ 63
  · simp only [h, if_true]; simp
  · simp only [h, if_false]; rw [BitVec.getLsbD_allOnes]; simp [hj]

theorem zigzag_toNat' (v : BitVec 64) : (zigzag v).toNat =
    if v.toNat < 2 ^ 63 then 2 * v.toNat else 2 ^ 65 - 1 - 2 * v.toNat := by
  unfold zigzag
  rw [sshiftRight_63]
  have hv := v.isLt
  by_cases h : v.toNat < 2 ^ 63
  · rw [if_pos h, if_pos h, BitVec.xor_zero, BitVec.toNat_shiftLeft, Nat.shiftLeft_eq]
    omega
  · rw [if_neg h, if_neg h, BitVec.xor_allOnes, BitVec.toNat_not, BitVec.toNat_shiftLeft,
      Nat.shiftLeft_eq]
    omega

theorem unzigzag_toNat (u : BitVec 64) : ((u >>> 1) ^^^ (-(u &&& 1#64))).toNat =
    if u.toNat % 2 = 0 then u.toNat / 2 else 2 ^ 64 - 1 - u.toNat / 2 := by
  have h1 : (u &&& 1#64).toNat = u.toNat % 2 := by
    rw [BitVec.toNat_and]; exact Nat.and_two_pow_sub_one_eq_mod u.toNat 1
  have hs : (u >>> 1).toNat = u.toNat / 2 := by
    rw [BitVec.toNat_ushiftRight, Nat.shiftRight_eq_div_pow]
  by_cases h : u.toNat % 2 = 0
  · have : u &&& 1#64 = 0#64 := by apply BitVec.eq_of_toNat_eq; rw [h1, h]; rfl
    rw [this, if_pos h]
    simpa using hs
  · have : u &&& 1#64 = 1#64 := by
      apply BitVec.eq_of_toNat_eq; rw [h1, show u.toNat % 2 = 1 by omega]; rfl
    rw [this, if_neg h, show (-1#64) = BitVec.allOnes 64 by decide, BitVec.xor_allOnes,
      BitVec.toNat_not, hs]

theorem zigzag_inv (v : BitVec 64) : ((zigzag v) >>> 1) ^^^ (-((zigzag v) &&& 1#64)) = v := by
  apply BitVec.eq_of_toNat_eq
  rw [unzigzag_toNat, zigzag_toNat']
  have hv := v.isLt
  by_cases h : v.toNat < 2 ^ 63
  · simp only [h, if_true]
    rw [if_pos (by omega)]; omega
  · simp only [h, if_false]
    rw [if_neg (by omega)]; omega

theorem zigzag_toNat (v : BitVec 64) : (zigzag v).toNat = zigzagNat v.toInt := by
  rw [zigzag_toNat', BitVec.toInt_eq_toNat_cond]
  have hv := v.isLt
  unfold zigzagNat
  by_cases h : v.toNat < 2 ^ 63
  · rw [if_pos h, if_pos (by omega), if_pos (by omega)]; omega
  · rw [if_neg h, if_neg (by omega), if_neg (by omega)]; omega

end Pq.Leb
