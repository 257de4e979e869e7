import Verif.Model.Hash
import Verif.Lemmas.Bloom
import Verif.Lemmas.Statistics
/-
Helper lemmas on xxHash64: every step is invertible, so that words of one size never share a hash.
-/
namespace Pq.Bloom

theorem mul_inj {c d : BitVec 64} (h : c * d = 1#64) {x y : BitVec 64} (e : x * c = y * c) : x = y := by
  have := congrArg (· * d) e
  simpa only [BitVec.mul_assoc, h, BitVec.mul_one] using this

theorem rotl_inj (k : Nat) (hk : k ≤ 64) {x y : BitVec 64} (e : rotl x k = rotl y k) : x = y := by
  apply BitVec.eq_of_getLsbD_eq
  intro i hi
  by_cases h : i + k < 64
  · have := congrArg (fun z => z.getLsbD (i + k)) e
    have h2 : ¬ (64 - k + (i + k) < 64) := by omega
    simp only [rotl, BitVec.getLsbD_or, BitVec.getLsbD_shiftLeft, BitVec.getLsbD_ushiftRight,
      BitVec.getLsbD_of_ge _ _ (show 64 ≤ 64 - k + (i + k) by omega), h] at this
    simpa using this
  · have := congrArg (fun z => z.getLsbD (i + k - 64)) e
    have h2 : i + k - 64 < k := by omega
    have h3 : 64 - k + (i + k - 64) = i := by omega
    simp only [rotl, BitVec.getLsbD_or, BitVec.getLsbD_shiftLeft, BitVec.getLsbD_ushiftRight, h2, h3] at this
    simpa using this

theorem xorshift_inj (k : Nat) (hk : 0 < k) {x y : BitVec 64}
    (e : x ^^^ (x >>> k) = y ^^^ (y >>> k)) : x = y := by
  have key : ∀ n i, 64 - i ≤ n → x.getLsbD i = y.getLsbD i := by
    intro n
    induction n with
    | zero => intro i hi; rw [BitVec.getLsbD_of_ge _ _ (by omega), BitVec.getLsbD_of_ge _ _ (by omega)]
    | succ n ih =>
      intro i hi
      have h1 := congrArg (fun z => z.getLsbD i) e
      have h2 : x.getLsbD (k + i) = y.getLsbD (k + i) := by
        by_cases h : 64 ≤ k + i
        · rw [BitVec.getLsbD_of_ge _ _ h, BitVec.getLsbD_of_ge _ _ h]
        · exact ih _ (by omega)
      simp only [BitVec.getLsbD_xor, BitVec.getLsbD_ushiftRight, h2] at h1
      simpa using h1
  exact BitVec.eq_of_getLsbD_eq fun i _ => key 64 i (by omega)

theorem xor_inj_left {h x y : BitVec 64} (e : h ^^^ x = h ^^^ y) : x = y := by
  have := congrArg (h ^^^ ·) e
  simpa [← BitVec.xor_assoc] using this

theorem xor_inj_right {h x y : BitVec 64} (e : x ^^^ h = y ^^^ h) : x = y := by
  rw [BitVec.xor_comm x, BitVec.xor_comm y] at e
  exact xor_inj_left e

theorem add_inj {h x y : BitVec 64} (e : x + h = y + h) : x = y := by
  exact (BitVec.add_left_inj h).1 e

theorem inv1 : PRIME1 * 614540362697595703#64 = 1#64 := by decide
theorem inv2 : PRIME2 * 839798700976720815#64 = 1#64 := by decide

theorem inv3 : PRIME3 * 16855272203555305545#64 = 1#64 := by decide

theorem xxRound_inj {a x y : BitVec 64} (e : xxRound a x = xxRound a y) : x = y := by
  have := rotl_inj 31 (by decide) (mul_inj inv1 e)
  rw [BitVec.add_comm a, BitVec.add_comm a] at this
  exact mul_inj inv2 (add_inj this)

theorem xxWord_inj {h x y : BitVec 64} (e : xxWord h x = xxWord h y) : x = y :=
  xxRound_inj (xor_inj_left (rotl_inj 27 (by decide) (mul_inj inv1 (add_inj e))))

theorem xxHalf_inj {h x y : BitVec 64} (e : xxHalf h x = xxHalf h y) : x = y :=
  mul_inj inv1 (xor_inj_left (rotl_inj 23 (by decide) (mul_inj inv2 (add_inj e))))

theorem xxAvalanche_inj {x y : BitVec 64} (e : xxAvalanche x = xxAvalanche y) : x = y :=
  xorshift_inj 33 (by decide) (mul_inj inv2 (xorshift_inj 29 (by decide)
    (mul_inj inv3 (xorshift_inj 32 (by decide) e))))

theorem chunksExact_one (k : Nat) (s : List Byte) (hk : 0 < k) (h : s.length = k) :
    Deser.chunksExact k s = [s] := by
  rw [Deser.chunksExact, h, Nat.div_self hk]
  simp [← h]

theorem chunksExact_none (k : Nat) (s : List Byte) (h : s.length < k) :
    Deser.chunksExact k s = [] := by
  rw [Deser.chunksExact, Nat.div_eq_of_lt h]
  rfl

/-- The hash of a word of 8 bytes. -/
theorem xxh64_eight (s : List Byte) (seed : BitVec 64) (h : s.length = 8) :
    xxh64 s seed = xxAvalanche (xxWord (seed + PRIME5 + 8#64) (fromLe 64 s)) := by
  simp [xxh64, xxStart, xxTail, h, chunksExact_one 8 s (by decide) h, List.drop_of_length_le]

/-- The hash of a word of 4 bytes. -/
theorem xxh64_four (s : List Byte) (seed : BitVec 64) (h : s.length = 4) :
    xxh64 s seed = xxAvalanche (xxHalf (seed + PRIME5 + 4#64) (fromLe 64 s)) := by
  simp [xxh64, xxStart, xxTail, h, chunksExact_none 8 s (by omega), List.drop_of_length_le,
    List.take_of_length_le]

theorem hashNative_eight (x : BitVec (8 * 8)) :
    hashNative 8 x = xxAvalanche (xxWord (SEED + PRIME5 + 8#64) x) := by
  rw [hashNative, nativeToLe, xxh64_eight _ _ (toLe_length 8 x)]
  exact congrArg _ (congrArg _ (fromLe_toLe 8 x))

theorem hashNative_four (x : BitVec (8 * 4)) :
    hashNative 4 x = xxAvalanche (xxHalf (SEED + PRIME5 + 4#64) (BitVec.setWidth 64 x)) := by
  rw [hashNative, nativeToLe, xxh64_four _ _ (toLe_length 4 x)]
  refine congrArg _ (congrArg _ ?_)
  rw [fromLe, Deser.leNat_toLe]
  exact BitVec.ofNat_toNat 64 x

theorem toLe_eq_leBytes (b : Nat) (x : BitVec (8 * b)) : toLe b x = Spec.leBytes b x.toNat := by
  simp only [toLe, Spec.leBytes]
  apply List.map_congr_left
  intro k _
  apply BitVec.eq_of_toNat_eq
  simp only [BitVec.extractLsb'_toNat, BitVec.toNat_ofNat, Nat.shiftRight_eq_div_pow]
  rw [show (256 : Nat) ^ k = 2 ^ (8 * k) by rw [show (256 : Nat) = 2 ^ 8 from rfl, ← Nat.pow_mul]]

/-- Floats that are equal and not zero have the same pattern. -/
theorem float_eq (e m : Nat) (x y : BitVec (1 + e + m)) (a : Int) (hx : Spec.floatVal e m x = some a)
    (hy : Spec.floatVal e m y = some a) (ha : a ≠ 0) : x = y := by
  rw [floatVal_eq] at hx hy
  have hm := magnitude_strictMono m
  split at hx
  · cases hx
  split at hy
  · cases hy
  have hx := Option.some.inj hx
  have hy := Option.some.inj hy
  apply BitVec.eq_of_toNat_eq
  by_cases h1 : x.toNat < 2 ^ (e + m) <;> by_cases h2 : y.toNat < 2 ^ (e + m)
  · rw [if_pos h1] at hx
    rw [if_pos h2] at hy
    have := hm.injective (a₁ := lowBits e m x) (a₂ := lowBits e m y) (by omega)
    simpa [lowBits, h1, h2] using this
  · rw [if_pos h1] at hx
    rw [if_neg h2] at hy
    omega
  · rw [if_neg h1] at hx
    rw [if_pos h2] at hy
    omega
  · rw [if_neg h1] at hx
    rw [if_neg h2] at hy
    have := hm.injective (a₁ := lowBits e m x) (a₂ := lowBits e m y) (by omega)
    simp only [lowBits, h1, h2, if_false] at this
    omega

end Pq.Bloom
