import Verif.Lemmas.DeltaEncode
/-
When the encoder of DELTA_BINARY_PACKED aborts in a build with overflow checks.
-/
namespace Pq.Delta

/-- The differences, as integers. -/
def jumpsFrom (prev : I64) : List I64 → List Int
  | [] => []
  | x :: xs => (x.toInt - prev.toInt) :: jumpsFrom x xs

theorem jumpsFrom_length (prev : I64) (xs : List I64) : (jumpsFrom prev xs).length = xs.length := by
  induction xs generalizing prev with
  | nil => rfl
  | cons x xs ih => simp [jumpsFrom, ih]

theorem jumpsFrom_append (prev : I64) (xs ys : List I64) :
    jumpsFrom prev (xs ++ ys) = jumpsFrom prev xs ++ jumpsFrom (xs.getLastD prev) ys := by
  induction xs generalizing prev with
  | nil => rfl
  | cons x xs ih =>
    simp only [List.cons_append, jumpsFrom, ih]
    cases xs <;> rfl

theorem jumpsFrom_zip (prev : I64) (xs : List I64) :
    jumpsFrom prev xs = ((prev :: xs).zip xs).map fun p => p.2.toInt - p.1.toInt := by
  induction xs generalizing prev with
  | nil => rfl
  | cons x xs ih => rw [jumpsFrom, ih, List.zip_cons_cons, List.map_cons]

/-- No two of them are 2^63 apart. -/
def Tight (l : List Int) : Prop := ∀ a ∈ l, ∀ b ∈ l, a - b < 2 ^ 63

/-- All fit an `i64`. -/
def Fit (l : List Int) : Prop := ∀ a ∈ l, -2 ^ 63 ≤ a ∧ a < 2 ^ 63

theorem subI_overflow (a b : I64) (h : ¬ (-2 ^ 63 ≤ a.toInt - b.toInt ∧ a.toInt - b.toInt < 2 ^ 63)) :
    subI true a b = .panic := by
  unfold subI
  rw [if_pos]
  simp only [Bool.true_and, BitVec.ssubOverflow, ge_iff_le, Bool.or_eq_true, decide_eq_true_eq]
  omega

/-- What `scan` has seen so far. -/
def Seen (acc : List Int) (mn mx : I64) : Prop :=
  (acc = [] ∧ mn.toInt = 2 ^ 63 - 1 ∧ mx.toInt = -2 ^ 63) ∨
  (mn.toInt ∈ acc ∧ mx.toInt ∈ acc ∧ ∀ a ∈ acc, mn.toInt ≤ a ∧ a ≤ mx.toInt)

theorem Seen.step {acc : List Int} {mn mx d : I64} (h : Seen acc mn mx) :
    (if d.slt mn then d else mn).toInt ∈ acc ++ [d.toInt] ∧
    (if mx.slt d then d else mx).toInt ∈ acc ++ [d.toInt] ∧
    ∀ a ∈ acc ++ [d.toInt], (if d.slt mn then d else mn).toInt ≤ a ∧
      a ≤ (if mx.slt d then d else mx).toInt := by
  have hd1 := d.toInt_lt
  have hd2 := d.le_toInt
  simp only [Nat.add_one_sub_one] at hd1 hd2
  have h1 : (if d.slt mn then d else mn).toInt = min d.toInt mn.toInt := by
    by_cases hs : d.toInt < mn.toInt
    · rw [if_pos (BitVec.slt_iff_toInt_lt.2 hs)]; omega
    · rw [if_neg (mt BitVec.slt_iff_toInt_lt.1 hs)]; omega
  have h2 : (if mx.slt d then d else mx).toInt = max d.toInt mx.toInt := by
    by_cases hs : mx.toInt < d.toInt
    · rw [if_pos (BitVec.slt_iff_toInt_lt.2 hs)]; omega
    · rw [if_neg (mt BitVec.slt_iff_toInt_lt.1 hs)]; omega
  rw [h1, h2]
  rcases h with ⟨rfl, e1, e2⟩ | ⟨m1, m2, m3⟩
  · simp only [List.nil_append, List.mem_singleton]
    refine ⟨by omega, by omega, ?_⟩
    rintro a rfl
    omega
  · refine ⟨?_, ?_, ?_⟩
    · rcases Int.le_total d.toInt mn.toInt with h | h
      · rw [Int.min_eq_left h]; simp
      · rw [Int.min_eq_right h]; simp [m1]
    · rcases Int.le_total d.toInt mx.toInt with h | h
      · rw [Int.max_eq_right h]; simp [m2]
      · rw [Int.max_eq_left h]; simp
    · intro a ha
      rcases List.mem_append.1 ha with ha | ha
      · have := m3 a ha; omega
      · rw [List.mem_singleton.1 ha]; omega

theorem scan_iff (xs : List I64) (prev mn mx : I64) (nb : Nat) (acc : List Int) (hs : Seen acc mn mx)
    (ht : Tight acc) :
    (Fit (jumpsFrom prev xs) ∧ Tight (acc ++ jumpsFrom prev xs) →
      scan true xs prev mn mx nb = scan false xs prev mn mx nb) ∧
    (¬ (Fit (jumpsFrom prev xs) ∧ Tight (acc ++ jumpsFrom prev xs)) → scan true xs prev mn mx nb = .panic) := by
  induction xs generalizing prev mn mx nb acc with
  | nil =>
    refine ⟨fun _ => rfl, fun h => absurd ⟨?_, ?_⟩ h⟩
    · intro a ha; cases ha
    · rw [jumpsFrom, List.append_nil]; exact ht
  | cons x xs ih =>
    by_cases h1 : -2 ^ 63 ≤ x.toInt - prev.toInt ∧ x.toInt - prev.toInt < 2 ^ 63
    · obtain ⟨t1, t2⟩ := subI_true x prev h1
      rw [scan, scan, t1, subI_false]
      simp only [Res.ok_bind]
      generalize hd : x - prev = d at *
      obtain ⟨s1, s2, s3⟩ := hs.step (d := d)
      generalize (if d.slt mn then d else mn) = mn' at *
      generalize (if mx.slt d then d else mx) = mx' at *
      have ej : acc ++ jumpsFrom prev (x :: xs) = acc ++ [d.toInt] ++ jumpsFrom x xs := by
        rw [jumpsFrom, t2, List.append_assoc, List.singleton_append]
      rw [ej]
      have ef : Fit (jumpsFrom prev (x :: xs)) ↔ Fit (jumpsFrom x xs) := by
        simp only [Fit, jumpsFrom, List.forall_mem_cons]
        exact ⟨fun h => h.2, fun h => ⟨h1, h⟩⟩
      rw [ef]
      by_cases h2 : mx'.toInt - mn'.toInt < 2 ^ 63
      · have h3 := s3 _ s1
        have ht' : Tight (acc ++ [d.toInt]) := by
          intro a ha b hb
          have := s3 a ha
          have := s3 b hb
          omega
        rw [(subI_true mx' mn' (by omega)).1, subI_false]
        simp only [Res.ok_bind]
        obtain ⟨i1, i2⟩ := ih x mn' mx' (bitLen (mx' - mn')) (acc ++ [d.toInt]) (.inr ⟨s1, s2, s3⟩) ht'
        refine ⟨fun h => ?_, fun h => ?_⟩
        · rw [i1 h]
        · rw [i2 h]; rfl
      · rw [subI_overflow mx' mn' (by omega)]
        refine ⟨fun h => absurd (h.2 _ (List.mem_append_left _ s2) _ (List.mem_append_left _ s1)) h2,
          fun _ => rfl⟩
    · rw [scan, subI_overflow x prev h1]
      refine ⟨fun h => absurd (h.1 _ List.mem_cons_self) h1, fun _ => rfl⟩

theorem diffs_toInt (prev : I64) (xs : List I64) (h : Fit (jumpsFrom prev xs)) :
    (diffs prev xs).map BitVec.toInt = jumpsFrom prev xs := by
  induction xs generalizing prev with
  | nil => rfl
  | cons x xs ih =>
    simp only [Fit, jumpsFrom, List.forall_mem_cons] at h
    rw [diffs, List.map_cons, ih x h.2, (subI_true x prev h.1).2]
    rfl

theorem relative_fine (m : I64) (vs : List I64)
    (hv : ∀ d ∈ vs, m.toInt ≤ d.toInt ∧ d.toInt - m.toInt < 2 ^ 63) :
    relative true m vs = relative false m vs := by
  induction vs with
  | nil => rfl
  | cons v vs ih =>
    have h := hv v List.mem_cons_self
    rw [relative, relative, (subI_true v m (by omega)).1, subI_false,
      ih fun d hd => hv d (List.mem_cons_of_mem _ hd)]

/-- Within each block of 128, the differences fit and no two are 2^63 apart. -/
def BlocksTight : Nat → List Int → Prop
  | 0, l => l = []
  | fuel + 1, l => l = [] ∨ (Fit (l.take 128) ∧ Tight (l.take 128) ∧ BlocksTight fuel (l.drop 128))

theorem blocksTight_succ (fuel : Nat) (xs : List I64) (prev : I64) (hx : xs ≠ []) :
    BlocksTight (fuel + 1) (jumpsFrom prev xs) ↔
      (Fit (jumpsFrom prev (xs.take 128)) ∧ Tight (jumpsFrom prev (xs.take 128))) ∧
      BlocksTight fuel (jumpsFrom ((xs.take 128).getLastD prev) (xs.drop 128)) := by
  have hj : jumpsFrom prev xs ≠ [] := by
    intro h
    have := jumpsFrom_length prev xs
    rw [h] at this
    exact hx (List.eq_nil_of_length_eq_zero this.symm)
  have ea : jumpsFrom prev xs = jumpsFrom prev (xs.take 128) ++
      jumpsFrom ((xs.take 128).getLastD prev) (xs.drop 128) := by
    rw [← jumpsFrom_append, List.take_append_drop]
  have hlen : (jumpsFrom prev (xs.take 128)).length = (xs.take 128).length := jumpsFrom_length _ _
  have et : (jumpsFrom prev xs).take 128 = jumpsFrom prev (xs.take 128) := by
    rw [ea]
    rcases Nat.le_total 128 xs.length with h | h
    · rw [List.take_append_of_le_length (by rw [hlen, List.length_take]; omega), List.take_of_length_le]
      rw [hlen, List.length_take]; omega
    · rw [List.drop_of_length_le h, jumpsFrom, List.append_nil, List.take_of_length_le]
      rw [hlen, List.length_take]; omega
  have ed : (jumpsFrom prev xs).drop 128 = jumpsFrom ((xs.take 128).getLastD prev) (xs.drop 128) := by
    rcases Nat.le_total 128 xs.length with h | h
    · rw [ea, List.drop_append_of_le_length (by rw [hlen, List.length_take]; omega),
        List.drop_of_length_le (by rw [hlen, List.length_take]; omega), List.nil_append]
    · rw [List.drop_of_length_le (by rw [jumpsFrom_length]; exact h), List.drop_of_length_le h]
      rfl
  rw [BlocksTight, et, ed, and_assoc]
  exact ⟨fun h => h.resolve_left hj, .inr⟩

theorem blocks_iff (fuel : Nat) (xs : List I64) (prev : I64) (deltas : List I64) (hf : xs.length ≤ fuel)
    (hl : deltas.length = 128) :
    (BlocksTight fuel (jumpsFrom prev xs) →
      blocks true fuel xs prev deltas = blocks false fuel xs prev deltas) ∧
    (¬ BlocksTight fuel (jumpsFrom prev xs) → blocks true fuel xs prev deltas = .panic) := by
  induction fuel generalizing xs prev deltas with
  | zero =>
    cases xs with
    | nil => exact ⟨fun _ => rfl, fun h => absurd rfl h⟩
    | cons x xs => simp at hf
  | succ fuel ih =>
    rw [blocks, blocks]
    by_cases hx : xs = []
    · rw [if_pos hx, if_pos hx]
      exact ⟨fun _ => rfl, fun h => absurd (.inl (by rw [hx]; rfl)) h⟩
    · rw [if_neg hx, if_neg hx]
      rw [blocksTight_succ fuel xs prev hx]
      obtain ⟨c1, c2⟩ := scan_iff (xs.take 128) prev (BitVec.ofNat 64 (2 ^ 63 - 1)) (BitVec.ofNat 64 (2 ^ 63)) 0
        [] (.inl ⟨rfl, by decide, by decide⟩) (by intro a ha; cases ha)
      rw [List.nil_append] at c1 c2
      by_cases hc : Fit (jumpsFrom prev (xs.take 128)) ∧ Tight (jumpsFrom prev (xs.take 128))
      · rw [c1 hc]
        obtain ⟨m, M, n, e, _, _, h4, h5⟩ := scan_spec (xs.take 128) prev
          (BitVec.ofNat 64 (2 ^ 63 - 1)) (BitVec.ofNat 64 (2 ^ 63)) 0
        rw [e]
        simp only [Res.ok_bind]
        have hdi := diffs_toInt _ _ hc.1
        have hmem : ∀ d ∈ diffs prev (xs.take 128), d.toInt ∈ jumpsFrom prev (xs.take 128) :=
          fun d hd => hdi ▸ List.mem_map_of_mem hd
        have hr : relative true m (diffs prev (xs.take 128)) = relative false m (diffs prev (xs.take 128)) := by
          refine relative_fine _ _ fun d hd => ⟨(h4 d hd).1, ?_⟩
          rcases scan_min_mem _ _ _ _ _ _ _ _ _ e with h | h
          · have h1 := (h4 d hd).1
            have h2 := d.toInt_lt
            simp only [Nat.add_one_sub_one] at h2
            have h3 : m.toInt = 2 ^ 63 - 1 := by rw [h]; decide
            omega
          · exact hc.2 _ (hmem d hd) _ (hmem m h)
        rw [hr, relative_spec]
        simp only [Res.ok_bind]
        obtain ⟨i1, i2⟩ := ih (xs.drop 128) ((xs.take 128).getLastD prev)
          (Rle.overwrite ((diffs prev (xs.take 128)).map (· - m)) deltas)
          (by
            have : 0 < xs.length := List.length_pos_iff.2 hx
            rw [List.length_drop]; omega)
          (by
            rw [Rle.overwrite_length, hl]
            rw [List.length_map, diffs_length, List.length_take, hl]; omega)
        obtain ⟨z, hz, -⟩ := zigzag_header_ok m
        rw [hz]
        simp only [Res.ok_bind]
        refine ⟨fun h => ?_, fun h => ?_⟩
        · rw [i1 h.2]
        · rw [i2 fun h' => h ⟨hc, h'⟩]
          have htl : (xs.take 128).length = min 128 xs.length := List.length_take
          have hxl : 0 < xs.length := List.length_pos_iff.2 hx
          rw [if_neg (by intro h; rw [h] at htl; simp at htl; omega)] at h5
          obtain ⟨mini, w1, -, -⟩ := writeMiniblock_spec n (by rw [h5]; exact bitLen_le _)
            ((diffs prev (xs.take 128)).map (· - m)) deltas hl
            (by rw [List.length_map, diffs_length]; omega)
            (by
              intro x hx
              obtain ⟨d, hd, rfl⟩ := List.mem_map.1 hx
              obtain ⟨a, b⟩ := h4 d hd
              rw [h5]
              exact Nat.lt_of_le_of_lt (sub_toNat_le d m M a b) (lt_bitLen _))
          rw [w1]
          rfl
      · rw [c2 hc]
        exact ⟨fun h => absurd h.1 hc, fun _ => rfl⟩

theorem blocksTight_iff (fuel : Nat) (l : List Int) (hf : l.length ≤ fuel) :
    BlocksTight fuel l ↔ ∀ i j (hi : i < l.length) (hj : j < l.length), i / 128 = j / 128 →
      (-2 ^ 63 ≤ l[i] ∧ l[i] < 2 ^ 63) ∧ l[i] - l[j] < 2 ^ 63 := by
  induction fuel generalizing l with
  | zero =>
    have : l = [] := List.eq_nil_of_length_eq_zero (by omega)
    subst this
    exact ⟨fun _ i j hi => absurd hi (by simp), fun _ => rfl⟩
  | succ fuel ih =>
    by_cases h0 : l = []
    · subst h0
      exact ⟨fun _ i j hi => absurd hi (by simp), fun _ => .inl rfl⟩
    have hp : 0 < l.length := List.length_pos_iff.2 h0
    rw [BlocksTight, ih _ (by rw [List.length_drop]; omega)]
    constructor
    · rintro (h | ⟨h1, h2, h3⟩)
      · exact absurd h h0
      · intro i j hi hj hij
        by_cases hi' : i < 128
        · have hj' : j < 128 := by omega
          have mi : l[i] ∈ l.take 128 := List.mem_take_iff_getElem.2 ⟨i, by omega, rfl⟩
          have mj : l[j] ∈ l.take 128 := List.mem_take_iff_getElem.2 ⟨j, by omega, rfl⟩
          exact ⟨h1 _ mi, h2 _ mi _ mj⟩
        · have hj' : 128 ≤ j := by omega
          have := h3 (i - 128) (j - 128) (by rw [List.length_drop]; omega) (by rw [List.length_drop]; omega)
            (by omega)
          simp only [List.getElem_drop, Nat.add_sub_cancel' (Nat.not_lt.1 hi'), Nat.add_sub_cancel' hj'] at this
          exact this
    · intro h
      refine .inr ⟨?_, ?_, ?_⟩
      · intro a ha
        obtain ⟨i, hi, rfl⟩ := List.mem_take_iff_getElem.1 ha
        exact (h i i (by omega) (by omega) rfl).1
      · intro a ha b hb
        obtain ⟨i, hi, rfl⟩ := List.mem_take_iff_getElem.1 ha
        obtain ⟨j, hj, rfl⟩ := List.mem_take_iff_getElem.1 hb
        exact (h i j (by omega) (by omega) (by omega)).2
      · intro i j hi hj hij
        rw [List.length_drop] at hi hj
        simp only [List.getElem_drop]
        exact h (128 + i) (128 + j) (by omega) (by omega) (by omega)

theorem encode_iff (xs : List I64) :
    (BlocksTight xs.length (jumpsFrom (xs.headD 0#64) xs.tail) → encode true xs = encode false xs) ∧
    (¬ BlocksTight xs.length (jumpsFrom (xs.headD 0#64) xs.tail) → encode true xs = .panic) := by
  obtain ⟨i1, i2⟩ := blocks_iff xs.length xs.tail (xs.headD 0#64) (List.replicate 128 0#64) (by simp) (by simp)
  unfold encode
  refine ⟨fun h => by simp only [i1 h], fun h => ?_⟩
  obtain ⟨h1, a1, -⟩ := header_ok 128#64
  obtain ⟨h2, a2, -⟩ := header_ok 1#64
  obtain ⟨h3, a3, -⟩ := header_ok (BitVec.ofNat 64 xs.length)
  obtain ⟨h4, a4, -⟩ := zigzag_header_ok (xs.headD 0#64)
  simp only [i2 h, a1, a2, a3, a4, Res.ok_bind]
  rfl

end Pq.Delta
