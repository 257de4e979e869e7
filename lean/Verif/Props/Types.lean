import Verif.Lemmas.Types
import Verif.Lemmas.Util
/-
Properties C29–C31 (native types, binary ordering, level widths).
-/
namespace Pq.Props
open Pq.Spec Pq.Deser

/-! ### C29 -/

/-- **C29** every bit pattern of a native type of `b` bytes (i32/f32: 4, i64/f64: 8): the bytes
are the `b` little-endian bytes of the pattern, decoding them returns the value; and conversely
every `b` bytes are the serialisation of the value they decode to. -/
theorem C29_native (b : Nat) (x : BitVec (8 * b)) :
    nativeToLe b x = leBytes b x.toNat ∧ nativeDecode b (nativeToLe b x) = .ok x ∧
    ∀ chunk : List Byte, chunk.length = b → ∃ y, nativeDecode b chunk = .ok y ∧ nativeToLe b y = chunk := by
  refine ⟨?_, ?_, ?_⟩
  · apply leNat_inj
    · rw [nativeToLe, toLe_length, Rle.leBytes_length]
    · rw [nativeToLe, leNat_toLe, Rle.leNat_leBytes]
      have := x.isLt
      rw [Nat.mod_eq_of_lt]
      rwa [show (256 : Nat) ^ b = 2 ^ (8 * b) by rw [show (256 : Nat) = 2 ^ 8 from rfl, ← Nat.pow_mul]]
  · simp [nativeDecode, nativeToLe, toLe_length, fromLe_toLe]
  · rintro chunk rfl
    exact ⟨_, by simp only [nativeDecode, if_true], Deser.toLe_fromLe chunk⟩

/-- **C29** int96: three little-endian words. -/
theorem C29_int96 (x : Int96) :
    int96ToLe x = leBytes 4 x.w0.toNat ++ leBytes 4 x.w1.toNat ++ leBytes 4 x.w2.toNat ∧
    int96Decode (int96ToLe x) = .ok x ∧
    ∀ chunk : List Byte, chunk.length = 12 → ∃ y, int96Decode chunk = .ok y ∧ int96ToLe y = chunk := by
  refine ⟨?_, ?_, ?_⟩
  · have h : ∀ w : BitVec 32, leBytes 4 w.toNat =
        [(toLe 4 w).getD 0 0, (toLe 4 w).getD 1 0, (toLe 4 w).getD 2 0, (toLe 4 w).getD 3 0] := by
      intro w
      rw [← (C29_native 4 w).1]; rfl
    rw [h, h, h]; rfl
  · simp only [int96Decode, int96_from_to]
    exact if_pos rfl
  · intro chunk h
    exact ⟨_, by simp only [int96Decode, h, if_true], int96_to_from chunk h⟩

/-- **C29** a chunk of the wrong size panics (`unreachable!`): the callers cut exact chunks. -/
theorem C29_wrong_size (b : Nat) (chunk : List Byte) (h : chunk.length ≠ b) :
    nativeDecode b chunk = .panic ∧ (b = 12 → int96Decode chunk = .panic) := by
  refine ⟨by simp [nativeDecode, h], ?_⟩
  rintro rfl
  simp [int96Decode, h]

example : nativeToLe 4 0x01020304#32 = [4, 3, 2, 1] := by decide
example : ([1, 2, 3] : List Byte).length ≠ 4 := by decide
example : int96ToLe ⟨1#32, 2#32, 0x01020304#32⟩ = [1, 0, 0, 0, 2, 0, 0, 0, 4, 3, 2, 1] := by decide

/-- Nanoseconds since 1970-01-01 of an int96 timestamp: a julian day (in `w2`) and the nanoseconds
of the day. -/
def ns96 (x : Int96) : Int :=
  ((x.w2.toNat : Int) - 2440588) * 86400 * 1000000000 + (x.w1.toNat * 2 ^ 32 + x.w0.toNat : Nat)

/-- **C29** int96 timestamps: for every timestamp whose nanoseconds fit in an `i64` the conversion
is `(day - 2440588) * 86400 * 10^9 + nanoseconds of the day`. -/
theorem C29_int96_ns (x : Int96)
    (h : -(2 ^ 63) ≤ ((x.w2.toNat : Int) - 2440588) * 86400 * 1000000000 + (x.w1.toNat * 2 ^ 32 + x.w0.toNat : Nat))
    (h' : ((x.w2.toNat : Int) - 2440588) * 86400 * 1000000000 + (x.w1.toNat * 2 ^ 32 + x.w0.toNat : Nat) < 2 ^ 63) :
    (int96ToNs x).toInt =
      ((x.w2.toNat : Int) - 2440588) * 86400 * 1000000000 + (x.w1.toNat * 2 ^ 32 + x.w0.toNat : Nat) := by
  have key : int96ToNs x = BitVec.ofInt 64
      (((x.w2.toNat : Int) - 2440588) * 86400 * 1000000000 + (x.w1.toNat * 2 ^ 32 + x.w0.toNat : Nat)) := by
    have e1 : ∀ w : BitVec 32, w.setWidth 64 = BitVec.ofInt 64 w.toNat := by
      intro w
      apply BitVec.eq_of_toNat_eq
      simp
    have e2 : ∀ w : BitVec 64, w <<< 32 = w * BitVec.ofInt 64 4294967296 := by
      intro w
      rw [BitVec.shiftLeft_eq_mul_twoPow, show BitVec.twoPow 64 32 = 4294967296#64 by decide,
        show BitVec.ofInt 64 4294967296 = 4294967296#64 by simp]
    unfold int96ToNs
    simp only [e1, e2]
    rw [show (2440588#64 : BitVec 64) = BitVec.ofInt 64 2440588 by simp,
      show (86400#64 : BitVec 64) = BitVec.ofInt 64 86400 by simp,
      show (1000000000#64 : BitVec 64) = BitVec.ofInt 64 1000000000 by simp]
    rw [show BitVec.ofInt 64 (x.w2.toNat : Int) - BitVec.ofInt 64 2440588 = BitVec.ofInt 64 ((x.w2.toNat : Int) - 2440588) by
      rw [Int.sub_eq_add_neg, BitVec.ofInt_add, BitVec.ofInt_neg, BitVec.sub_eq_add_neg]]
    rw [← BitVec.ofInt_mul, ← BitVec.ofInt_mul, ← BitVec.ofInt_mul, ← BitVec.ofInt_add, ← BitVec.ofInt_add]
    refine congrArg (BitVec.ofInt 64) ?_
    omega
  rw [key, BitVec.toInt_ofInt, Int.bmod_eq_of_le (by omega) (by omega)]

example : -(2 ^ 63) ≤ (((2451545#32).toNat : Int) - 2440588) * 86400 * 1000000000 + ((0#32).toNat * 2 ^ 32 + (1000000000#32).toNat : Nat) ∧
    (((2451545#32).toNat : Int) - 2440588) * 86400 * 1000000000 + ((0#32).toNat * 2 ^ 32 + (1000000000#32).toNat : Nat) < 2 ^ 63 := by
  decide
-- 2000-01-01T00:00:01 UTC
example : int96ToNs ⟨1000000000#32, 0#32, 2451545#32⟩ = 946684801000000000#64 := by decide

/-- **C29** int96 timestamps are ordered by their nanoseconds. -/
theorem C29_int96_order (x y : Int96) (hx : ns96 x < 2 ^ 63) (hx' : -(2 ^ 63) ≤ ns96 x)
    (hy : ns96 y < 2 ^ 63) (hy' : -(2 ^ 63) ≤ ns96 y) :
    (int96Ord x y = .lt ↔ ns96 x < ns96 y) ∧ (int96Ord x y = .gt ↔ ns96 y < ns96 x) ∧
    (int96Ord x y = .eq ↔ ns96 x = ns96 y) := by
  have e1 : (int96ToNs x).toInt = ns96 x := C29_int96_ns x hx' hx
  have e2 : (int96ToNs y).toInt = ns96 y := C29_int96_ns y hy' hy
  unfold int96Ord intOrd
  rw [e1, e2]
  exact ⟨compare_lt_iff_lt, compare_gt_iff_gt, compare_eq_iff_eq⟩

example : ns96 ⟨5#32, 0#32, 2440588#32⟩ = 5 ∧ ns96 ⟨0#32, 0#32, 2440587#32⟩ = -86400000000000 := by decide

/-! ### C30 -/

/-- Lexicographic order of byte strings, unsigned bytes; a proper prefix is smaller. -/
def lexCompare : List Byte → List Byte → Ordering
  | [], [] => .eq
  | [], _ :: _ => .lt
  | _ :: _, [] => .gt
  | a :: as, b :: bs => if a.toNat < b.toNat then .lt else if b.toNat < a.toNat then .gt else lexCompare as bs

/-- **C30** is violated: a string and its proper extension compare equal, and consequently the
relation "equal" is not transitive. -/
theorem C30_violated : ordBinary [1] [1, 2] = .eq ∧ lexCompare [1] [1, 2] = .lt ∧
    ordBinary [1, 2] [1] = .eq ∧ ordBinary [1] [1, 3] = .eq ∧ ordBinary [1, 2] [1, 3] = .lt := by decide

/-- **C30**, exactly: the comparison is the lexicographic order, except that it answers `Equal`
when both strings are non-empty and one is a proper prefix of the other. Missing: these pairs. -/
theorem C30_lex_partial (a b : List Byte) :
    ordBinary a b = if a ≠ [] ∧ b ≠ [] ∧ (a <+: b ∨ b <+: a) then .eq else lexCompare a b := by
  have loop : ∀ a b : List Byte, ordBinaryLoop (a.zip b) =
      if a <+: b ∨ b <+: a then .eq else lexCompare a b := by
    intro a
    induction a with
    | nil => intro b; simp [ordBinaryLoop]
    | cons x a ih =>
      intro b
      cases b with
      | nil => simp [ordBinaryLoop]
      | cons y b =>
        simp only [List.zip_cons_cons, ordBinaryLoop, List.cons_prefix_cons, lexCompare]
        by_cases hxy : x = y
        · subst hxy
          rw [show compare x.toNat x.toNat = .eq from Nat.compare_eq_eq.2 rfl]
          simp only [ih, true_and, Nat.lt_irrefl, if_false]
        · have hne : x.toNat ≠ y.toNat := fun h => hxy (BitVec.eq_of_toNat_eq h)
          rw [if_neg (by rintro (h | h); exacts [hxy h.1, hxy h.1.symm])]
          rcases Nat.lt_or_ge x.toNat y.toNat with h | h
          · rw [Nat.compare_eq_lt.2 h, if_pos h]
          · rw [Nat.compare_eq_gt.2 (by omega), if_neg (by omega), if_pos (by omega)]
  unfold ordBinary
  cases a with
  | nil => cases b <;> simp [lexCompare]
  | cons x a =>
    cases b with
    | nil => simp [lexCompare]
    | cons y b =>
      simp only [List.isEmpty_cons, ne_eq, reduceCtorEq, not_false_eq_true, true_and]
      exact loop (x :: a) (y :: b)

/-- **C30** the comparison is antisymmetric on every pair. -/
theorem C30_swap (a b : List Byte) : ordBinary b a = (ordBinary a b).swap := by
  have loop : ∀ a b : List Byte, ordBinaryLoop (b.zip a) = (ordBinaryLoop (a.zip b)).swap := by
    intro a
    induction a with
    | nil => intro b; simp [ordBinaryLoop]
    | cons x a ih =>
      intro b
      cases b with
      | nil => simp [ordBinaryLoop]
      | cons y b =>
        simp only [List.zip_cons_cons, ordBinaryLoop]
        rcases Nat.lt_trichotomy x.toNat y.toNat with h | h | h
        · rw [Nat.compare_eq_gt.2 h, Nat.compare_eq_lt.2 h]; rfl
        · rw [Nat.compare_eq_eq.2 h, Nat.compare_eq_eq.2 h.symm]; exact ih b
        · rw [Nat.compare_eq_lt.2 h, Nat.compare_eq_gt.2 h]; rfl
  unfold ordBinary
  cases a with
  | nil => cases b <;> rfl
  | cons x a => cases b with
    | nil => rfl
    | cons y b => exact loop (x :: a) (y :: b)

/-- **C30** on strings of one common length (e.g. fixed-length byte arrays) the comparison is the
lexicographic order, a total order: equal only for equal strings, transitive. -/
theorem C30_same_length_partial (n : Nat) (a b c : List Byte) (ha : a.length = n) (hb : b.length = n)
    (hc : c.length = n) :
    ordBinary a b = lexCompare a b ∧ (ordBinary a b = .eq ↔ a = b) ∧
    (ordBinary a b = .lt → ordBinary b c = .lt → ordBinary a c = .lt) := by
  have heq : ∀ a : List Byte, lexCompare a a = .eq := by
    intro a; induction a with
    | nil => rfl
    | cons x a ih => simp [lexCompare, ih]
  have e : ∀ a b : List Byte, a.length = b.length → ordBinary a b = lexCompare a b := by
    intro a b h
    rw [C30_lex_partial]
    split
    · rename_i hp
      have : a = b := by
        rcases hp.2.2 with h1 | h1
        · exact h1.eq_of_length h
        · exact (h1.eq_of_length h.symm).symm
      rw [this, heq]
    · rfl
  have hinj : ∀ a b : List Byte, lexCompare a b = .eq → a = b := by
    intro a
    induction a with
    | nil => intro b; cases b <;> simp [lexCompare]
    | cons x a ih =>
      intro b
      cases b with
      | nil => simp [lexCompare]
      | cons y b =>
        simp only [lexCompare]
        split
        · simp
        · split
          · simp
          · intro h
            rw [ih b h, BitVec.eq_of_toNat_eq (show x.toNat = y.toNat by omega)]
  have htr : ∀ a b c : List Byte, lexCompare a b = .lt → lexCompare b c = .lt → lexCompare a c = .lt := by
    intro a
    induction a with
    | nil =>
      intro b c h1 h2
      cases b with
      | nil => simp [lexCompare] at h1
      | cons y b => cases c with
        | nil => simp [lexCompare] at h2
        | cons z c => rfl
    | cons x a ih =>
      intro b c h1 h2
      cases b with
      | nil => simp [lexCompare] at h1
      | cons y b =>
        cases c with
        | nil => simp [lexCompare] at h2
        | cons z c =>
          simp only [lexCompare] at h1 h2 ⊢
          by_cases hxy : x.toNat < y.toNat
          · by_cases hyz : z.toNat < y.toNat
            · rw [if_neg (by omega), if_pos hyz] at h2; simp at h2
            · rw [if_pos (by omega)]
          · rw [if_neg hxy] at h1
            by_cases hyx : y.toNat < x.toNat
            · rw [if_pos hyx] at h1; simp at h1
            · rw [if_neg hyx] at h1
              have : x.toNat = y.toNat := by omega
              rw [this]
              by_cases hyz : y.toNat < z.toNat
              · rw [if_pos hyz]
              · rw [if_neg hyz] at h2 ⊢
                by_cases hzy : z.toNat < y.toNat
                · rw [if_pos hzy] at h2; simp at h2
                · rw [if_neg hzy] at h2 ⊢
                  exact ih b c h1 h2
  refine ⟨e a b (by omega), ?_, ?_⟩
  · rw [e a b (by omega)]
    exact ⟨hinj a b, by rintro rfl; exact heq a⟩
  · rw [e a b (by omega), e b c (by omega), e a c (by omega)]
    exact htr a b c

example : ([1, 2] : List Byte).length = 2 ∧ ([1, 3] : List Byte).length = 2 ∧ ([2, 0] : List Byte).length = 2 := by decide
example : ordBinary [1, 2, 3] [1, 3, 0] = .lt ∧ ordBinary [] [0] = .lt ∧ ordBinary [255] [1, 7] = .gt := by decide

/-! ### C31 -/

/-- **C31** for every non-negative maximum level the width suffices for all levels up to the
maximum and no smaller width does. -/
theorem C31_bit_width (m : BitVec 16) (hm : 0 ≤ m.toInt) :
    (∀ level : Nat, (level : Int) ≤ m.toInt → level < 2 ^ getBitWidth m) ∧
    ∀ w, (∀ level : Nat, (level : Int) ≤ m.toInt → level < 2 ^ w) → getBitWidth m ≤ w := by
  have hspec := getBitWidth_spec m
  have hnat : m.toInt = m.toNat := by
    rw [BitVec.toInt_eq_toNat_cond] at hm ⊢
    split
    · rfl
    · rename_i h
      rw [if_neg h] at hm
      have := m.isLt
      omega
  refine ⟨?_, ?_⟩
  · intro level hl
    have := hspec.1
    omega
  · intro w hw
    rw [hnat] at hw
    have h1 := hw m.toNat (by omega)
    by_cases h0 : getBitWidth m = 0
    · omega
    · have h2 := hspec.2 h0
      have h3 : 2 ^ (getBitWidth m - 1) < 2 ^ w := by omega
      have := (Nat.pow_lt_pow_iff_right (by decide : 1 < 2)).1 h3
      omega

example : 0 ≤ (5#16).toInt ∧ getBitWidth 5#16 = 3 ∧ getBitWidth 0#16 = 0 ∧ getBitWidth 8#16 = 4 := by decide

end Pq.Props
