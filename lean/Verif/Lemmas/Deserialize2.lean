import Verif.Lemmas.Deserialize
import Verif.Spec.Page
/- Helper lemmas about `deserialize`: runs of levels, pages, fixed-width values. -/
namespace Pq.Deser
open Pq.Spec

theorem Yields.sim {σ τ α : Type} {f : σ → Res (Option α × σ)} {g : τ → Res (Option α × τ)}
    (φ : σ → τ) (h : ∀ s o s', f s = .ok (o, s') → g (φ s) = .ok (o, φ s')) {s : σ} {xs : List α}
    (hy : Yields f s xs) : Yields g (φ s) xs := by
  induction hy with
  | done h1 => exact .done (h _ _ _ h1)
  | item h1 _ ih => exact .item (h _ _ _ h1) ih

theorem fieldAt_one (bs : List Byte) (k : Nat) : fieldAt bs 1 k = if bitAt bs k then 1 else 0 := by
  unfold fieldAt
  simp

theorem runStream_nil {n : Nat} {rs : List Run} (h : RunStream n rs []) : rs = [] := by
  generalize hs : ([] : List Byte) = stream at h
  cases h with
  | nil => rfl
  | @cons r rs out stream h1 h2 =>
    exfalso
    have hout : out = [] := by
      have := hs.symm
      exact (List.append_eq_nil_iff.1 this).1
    cases r with
    | rle c v =>
      obtain ⟨_, h, hh, he⟩ := h1
      rw [hout] at he
      exact Rle.header_ne_nil hh (List.append_eq_nil_iff.1 he.symm).1
    | packed g bs =>
      obtain ⟨_, _, h, hh, he⟩ := h1
      rw [hout] at he
      exact Rle.header_ne_nil hh (List.append_eq_nil_iff.1 he.symm).1

theorem values_bits (g k : Nat) (bs : List Byte) (hk : k ≤ 8 * g) :
    (((Run.packed g bs).values 1).take k).map (· == 1) = (List.range k).map (bitAt bs) := by
  apply List.ext_getElem
  · simp [Run.values, fields]; omega
  · intro i h1 h2
    simp only [Run.values, fields, List.getElem_map, List.getElem_take, List.getElem_range,
      fieldAt_one]
    cases bitAt bs i <;> rfl

/-- The runs handed out for a legal stream of one-bit levels: not more than it has. -/
theorem runIter_yields_runs (rs : List Run) (stream : List Byte) (hs : RunStream 1 rs stream) :
    ∀ length consumed, consumed ≤ length →
    ∃ encs, Yields RunIter.next { iter := ⟨stream, 1⟩, length, consumed } encs ∧
      (∀ e ∈ encs, RunOk e) ∧
      encs.flatMap runBits = ((rs.flatMap (Run.values 1)).take (length - consumed)).map (· == 1) ∧ encs.length ≤ rs.length := by
  induction hs with
  | nil =>
    intro length consumed hc
    refine ⟨[], ?_, by simp, by simp, by simp⟩
    by_cases h : consumed = length
    · exact .done (by simp only [RunIter.next, if_pos h]; rfl)
    · exact .done (by simp only [RunIter.next, if_neg h, Rle.Runs.next]; rfl)
  | @cons r rs out stream h1 h2 ih =>
    intro length consumed hc
    by_cases h : consumed = length
    · exact ⟨[], .done (by simp only [RunIter.next, if_pos h]; rfl), by simp, by simp [h], by simp⟩
    · cases r with
      | rle c v =>
        obtain ⟨hv, hd, hh, rfl⟩ := h1
        have hnx := Rle.next_rle 1 c v (by omega) hd stream hh
        obtain ⟨encs, e1, e2, e3, e4⟩ := ih length (consumed + min c (length - consumed)) (by omega)
        have hb : leBytes ((1 + 7) / 8) v = [BitVec.ofNat 8 v] := by simp [leBytes]
        refine ⟨.repeated (v == 1) (min c (length - consumed)) :: encs, .item ?_ e1, ?_, ?_, by simpa using e4⟩
        · rw [hb] at hnx
          simp only [RunIter.next, if_neg h, List.append_assoc, hb, hnx, RunIter.len]
          have : ((BitVec.ofNat 8 v) == 1#8) = (v == 1) := by
            have : v = 0 ∨ v = 1 := by omega
            rcases this with rfl | rfl <;> rfl
          rw [this]
        · intro e he
          rcases List.mem_cons.1 he with rfl | he
          · trivial
          · exact e2 e he
        · rw [List.flatMap_cons, e3, List.flatMap_cons, List.take_append, List.map_append]
          simp only [runBits, Run.values, List.take_replicate, List.map_replicate, List.length_replicate]
          rw [Nat.min_comm, show length - (consumed + min (length - consumed) c) = length - consumed - c by omega]
      | packed g bs =>
        obtain ⟨hl, hlt, hd, hh, rfl⟩ := h1
        rw [Nat.mul_one] at hl
        by_cases hne : bs ++ stream = []
        · obtain ⟨hb0, hs0⟩ := List.append_eq_nil_iff.1 hne
          subst hb0 hs0
          have hrs := runStream_nil h2
          subst hrs
          have hg : g = 0 := by simpa using hl.symm
          subst hg
          have hnx := Rle.next_packed_nil 1 0 (by omega) hd hh
          refine ⟨[], .done (by simp only [RunIter.next, if_neg h, List.append_nil, hnx]; rfl), by simp, by simp [Run.values, fields], by simp⟩
        · have hnx := Rle.next_packed 1 g (by omega) hd bs stream hh hne (by omega)
          rw [Nat.mul_one, ← hl, List.take_left, List.drop_left] at hnx
          obtain ⟨encs, e1, e2, e3, e4⟩ := ih length (consumed + min (bs.length * 8) (length - consumed)) (by omega)
          refine ⟨.bitmap bs (min (bs.length * 8) (length - consumed)) :: encs, .item ?_ e1, ?_, ?_, by simpa using e4⟩
          · simp only [RunIter.next, if_neg h, List.append_assoc, hnx, RunIter.len]
          · intro e he
            rcases List.mem_cons.1 he with rfl | he
            · simp only [RunOk]; omega
            · exact e2 e he
          · rw [List.flatMap_cons, e3, List.flatMap_cons, List.take_append, List.map_append]
            have hvl : ((Run.packed g bs).values 1).length = bs.length * 8 := by
              simp [Run.values, fields]; omega
            rw [hvl, show length - (consumed + min (bs.length * 8) (length - consumed)) = length - consumed - bs.length * 8 by omega]
            congr 1
            simp only [runBits]
            rw [← values_bits g _ bs (by omega)]
            congr 1
            by_cases hx : length - consumed ≤ bs.length * 8
            · rw [Nat.min_eq_right hx]
            · rw [Nat.min_eq_left (by omega), List.take_of_length_le (by omega),
                List.take_of_length_le (by omega)]

/-- The runs handed out for a legal stream of one-bit levels. -/
theorem runIter_yields (rs : List Run) (stream : List Byte) (hs : RunStream 1 rs stream)
    (length consumed : Nat) (hc : consumed ≤ length) :
    ∃ encs, Yields RunIter.next { iter := ⟨stream, 1⟩, length, consumed } encs ∧
      (∀ e ∈ encs, RunOk e) ∧
      encs.flatMap runBits = ((rs.flatMap (Run.values 1)).take (length - consumed)).map (· == 1) := by
  obtain ⟨encs, h1, h2, h3, -⟩ := runIter_yields_runs rs stream hs length consumed hc
  exact ⟨encs, h1, h2, h3⟩

/-- With a current run, the boolean iterator gives its booleans and ends. -/
theorem boolState_yields {σ : Type} (run : σ → Res (Option Encoded × σ)) (s : σ) (e : Encoded)
    (he : RunOk e) : ∃ st, BoolState.ofRun e = .ok st ∧
      Yields (BoolIter.next run) { iter := s, currentRun := some st } (runBits e) := by
  cases e with
  | repeated b n =>
    refine ⟨_, rfl, ?_⟩
    induction n with
    | zero => exact .done rfl
    | succ n ih => exact .item rfl (ih trivial)
  | bitmap bytes n =>
    simp only [RunOk] at he
    obtain ⟨it, h1, h2⟩ := Bitmap.collect_eq bytes 0 n (by omega)
    refine ⟨.bitmap it, by simp [BoolState.ofRun, h1, Res.map'], ?_⟩
    have hy := Yields.of_drain _ h2
    have := Yields.sim (g := BoolIter.next run)
      (fun it => ({ iter := s, currentRun := some (.bitmap it) } : BoolIter σ)) (by
        intro a o a' h
        simp only [Res.ok.injEq] at h
        simp only [BoolIter.next, BoolState.next, h]) hy
    simpa [runBits] using this

theorem boolIter_yields {σ : Type} (run : σ → Res (Option Encoded × σ)) (s : σ) (es : List Encoded)
    (hy : Yields run s es) (hok : ∀ e ∈ es, RunOk e) :
    Yields (BoolIter.next run) (BoolIter.new s) (es.head?.elim [] runBits) := by
  cases hy with
  | done h => exact .done (by simp only [BoolIter.next, BoolIter.new, h]; rfl)
  | @item _ s' e es h1 h2 =>
    obtain ⟨st, g1, g2⟩ := boolState_yields run s' e (hok e (by simp))
    simp only [List.head?_cons, Option.elim_some]
    have hstep : BoolIter.next run (BoolIter.new s) = BoolIter.next run { iter := s', currentRun := some st } := by
      simp only [BoolIter.next, BoolIter.new, h1, g1]
    generalize runBits e = bits at g2
    cases g2 with
    | done h => exact .done (by rw [hstep]; exact h)
    | item h h' => exact .item (by rw [hstep]; exact h) h'

/-- The single run written by `encode_bool`. -/
theorem runIter_encodeBool (xs : List Bool) (hlen : xs.length < 2 ^ 63) :
    ∃ lv, Rle.encodeBool xs = .ok lv ∧ ∃ es, Yields RunIter.next (RunIter.new ⟨lv, 1⟩ xs.length) es ∧
      (∀ e ∈ es, RunOk e) ∧ es.flatMap runBits = xs ∧ es.head?.elim [] runBits = xs := by
  obtain ⟨h, h1, h2⟩ := Rle.header_spec xs.length (by omega)
  rw [Rle.ceil8_eq] at h2
  have hbl := Bitmap.encodeBool_length xs
  rw [Rle.ceil8_eq] at hbl
  refine ⟨h ++ Bitmap.encodeBool xs, by unfold Rle.encodeBool; rw [h1]; rfl, ?_⟩
  by_cases hx : xs = []
  · subst hx
    exact ⟨[], .done (by simp [RunIter.next, RunIter.new]; rfl), by simp, rfl, rfl⟩
  · have hpos : 0 < xs.length := List.length_pos_iff.2 hx
    have hne : Bitmap.encodeBool xs ++ [] ≠ [] := by
      intro he
      have := congrArg List.length he
      rw [List.length_append, List.length_nil] at this; omega
    have hnx := Rle.next_packed 1 ((xs.length + 7) / 8) (by omega) h _ [] h2 hne (by omega)
    rw [Nat.mul_one, ← hbl, List.take_left, List.drop_left, List.append_nil] at hnx
    have hmin : min ((Bitmap.encodeBool xs).length * 8) (xs.length - 0) = xs.length := by omega
    have hbits : runBits (.bitmap (Bitmap.encodeBool xs) xs.length) = xs := by
      apply List.ext_getElem
      · simp [runBits]
      · intro i h4 h5
        simp [runBits, Bitmap.bitAt_encodeBool, h5]
    refine ⟨[.bitmap (Bitmap.encodeBool xs) xs.length],
      .item (s' := { iter := ⟨[], 1⟩, length := xs.length, consumed := xs.length }) ?_
        (.done (by simp only [RunIter.next, if_true]; rfl)), ?_, ?_, ?_⟩
    · have h0 : ¬ ((RunIter.new ⟨h ++ Bitmap.encodeBool xs, 1⟩ xs.length).consumed =
          (RunIter.new ⟨h ++ Bitmap.encodeBool xs, 1⟩ xs.length).length) := by
        simp only [RunIter.new]; omega
      unfold RunIter.next
      rw [if_neg h0]
      simp only [RunIter.new, RunIter.len, hnx, hmin, Nat.zero_add]
    · simp only [List.mem_singleton, forall_eq, RunOk]; omega
    · simp only [List.flatMap_cons, List.flatMap_nil, List.append_nil, hbits]
    · simp only [List.head?_cons, Option.elim_some, hbits]

/-! ### pages -/

theorem take4_leBytes (n : Nat) (hn : n < 2 ^ 32) (rest : List Byte) :
    getLength (leBytes 4 n ++ rest) = some n := by
  have hl := Rle.leBytes_length 4 n
  unfold getLength
  rw [if_pos (by rw [List.length_append, hl]; omega)]
  congr 1
  rw [List.take_append_of_le_length (by omega), List.take_of_length_le (by omega), Rle.leNat_leBytes]
  exact Nat.mod_eq_of_lt (by omega)

theorem leNat_lt (bs : List Byte) : leNat bs < 256 ^ bs.length := by
  induction bs with
  | nil => simp [leNat]
  | cons b bs ih =>
    have := b.isLt
    simp only [leNat, List.length_cons, Nat.pow_succ]
    omega

theorem leBytes_leNat (bs : List Byte) : leBytes bs.length (leNat bs) = bs := by
  apply List.ext_getElem
  · simp [leBytes]
  · intro i h1 h2
    simp only [leBytes, List.getElem_map, List.getElem_range]
    clear h1
    induction bs generalizing i with
    | nil => simp at h2
    | cons b bs ih =>
      have hb := b.isLt
      cases i with
      | zero =>
        simp only [leNat, Nat.pow_zero, Nat.div_one, List.getElem_cons_zero]
        apply BitVec.eq_of_toNat_eq
        simp only [BitVec.toNat_ofNat]; omega
      | succ i =>
        simp only [List.getElem_cons_succ]
        rw [← ih i (by simpa using h2)]
        congr 1
        rw [leNat, Nat.pow_succ, Nat.mul_comm (256 ^ i) 256, ← Nat.div_div_eq_div_mul]
        congr 1; omega

theorem splitLevelsV1_iff (buffer levels rest : List Byte) (has : Bool) :
    splitLevelsV1 buffer has = .ok (levels, rest) ↔ PrefixedV1 has levels rest buffer := by
  unfold splitLevelsV1 PrefixedV1
  cases has with
  | false =>
    simp only [Bool.false_eq_true, if_false, Res.ok.injEq, Prod.mk.injEq]
    constructor
    · rintro ⟨rfl, rfl⟩; exact ⟨rfl, rfl⟩
    · rintro ⟨rfl, rfl⟩; exact ⟨rfl, rfl⟩
  | true =>
    simp only [if_true]
    constructor
    · intro h
      split at h
      · simp at h
      · rename_i n hg
        split at h
        · rename_i hn
          simp only [Res.ok.injEq, Prod.mk.injEq] at h
          obtain ⟨rfl, rfl⟩ := h
          unfold getLength at hg
          split at hg
          · rename_i h4
            simp only [Option.some.injEq] at hg
            have hlt := leNat_lt (buffer.take 4)
            have hl4 : (buffer.take 4).length = 4 := by rw [List.length_take]; omega
            rw [hl4, hg] at hlt
            have hll : ((buffer.drop 4).take n).length = n := by
              rw [List.length_take, List.length_drop]; omega
            refine ⟨by rw [hll]; omega, ?_⟩
            have := leBytes_leNat (buffer.take 4)
            rw [hl4, hg] at this
            rw [hll, this, List.append_assoc, ← List.drop_drop, List.take_append_drop, List.take_append_drop]
          · simp at hg
        · simp at h
    · rintro ⟨hl, rfl⟩
      rw [List.append_assoc, take4_leBytes _ hl]
      simp only
      have h4 := Rle.leBytes_length 4 levels.length
      rw [if_pos (by simp only [List.length_append, h4]; omega)]
      rw [show 4 + levels.length = (leBytes 4 levels.length).length + levels.length by omega,
        ← List.drop_drop, List.drop_left, List.drop_left]
      congr 2
      have : (leBytes 4 levels.length ++ (levels ++ rest)).drop 4 = levels ++ rest := by
        conv_lhs => rw [show 4 = (leBytes 4 levels.length).length by omega]
        rw [h4, List.drop_left' h4]
      rw [this, List.take_left]

theorem splitLevelsV1_ne_panic (buffer : List Byte) (has : Bool) :
    splitLevelsV1 buffer has ≠ .panic ∧ ∀ e, splitLevelsV1 buffer has = .err e → e = .oos := by
  unfold splitLevelsV1
  constructor
  · repeat' split
    all_goals simp
  · intro e
    repeat' split
    all_goals simp
    all_goals (intro h; exact h.symm)

theorem splitBufferV1_iff (buffer rep def' values : List Byte) (hasRep hasDef : Bool) :
    splitBufferV1 buffer hasRep hasDef = .ok (rep, def', values) ↔
      ∃ rest, PrefixedV1 hasRep rep rest buffer ∧ PrefixedV1 hasDef def' values rest := by
  unfold splitBufferV1
  rw [Res.bind_eq_ok]
  constructor
  · rintro ⟨⟨r, rest⟩, h1, h2⟩
    rw [Res.bind_eq_ok] at h2
    obtain ⟨⟨d, v⟩, h3, h4⟩ := h2
    simp only [Res.ok.injEq, Prod.mk.injEq] at h4
    obtain ⟨rfl, rfl, rfl⟩ := h4
    exact ⟨rest, (splitLevelsV1_iff ..).1 h1, (splitLevelsV1_iff ..).1 h3⟩
  · rintro ⟨rest, h1, h2⟩
    refine ⟨(rep, rest), (splitLevelsV1_iff ..).2 h1, ?_⟩
    rw [Res.bind_eq_ok]
    exact ⟨(def', values), (splitLevelsV1_iff ..).2 h2, rfl⟩

theorem splitBufferV1_ne_panic (buffer : List Byte) (hasRep hasDef : Bool) :
    splitBufferV1 buffer hasRep hasDef ≠ .panic ∧
      ∀ e, splitBufferV1 buffer hasRep hasDef = .err e → e = .oos := by
  unfold splitBufferV1
  cases h1 : splitLevelsV1 buffer hasRep with
  | panic => exact absurd h1 (splitLevelsV1_ne_panic _ _).1
  | err e => simpa using (splitLevelsV1_ne_panic _ _).2 e h1
  | ok p =>
    obtain ⟨r, rest⟩ := p
    simp only [Res.ok_bind]
    cases h2 : splitLevelsV1 rest hasDef with
    | panic => exact absurd h2 (splitLevelsV1_ne_panic _ _).1
    | err e => simpa using (splitLevelsV1_ne_panic _ _).2 e h2
    | ok p => simp

theorem splitBufferV2_eq (buffer : List Byte) (r d : Nat) :
    splitBufferV2 buffer r d =
      if r + d ≤ buffer.length then
        .ok (buffer.take r, (buffer.drop r).take d, buffer.drop (r + d))
      else .panic := by
  unfold splitBufferV2 slice
  by_cases h : r + d ≤ buffer.length
  · rw [if_pos h, if_pos ⟨by omega, by omega⟩, Res.ok_bind, if_pos ⟨by omega, by omega⟩, Res.ok_bind,
      if_pos ⟨by omega, by omega⟩, Res.ok_bind]
    simp only [List.drop_zero, Nat.sub_zero, Nat.add_sub_cancel_left]
    rw [List.take_of_length_le (l := buffer.drop (r + d)) (by rw [List.length_drop])]
  · rw [if_neg h]
    by_cases h1 : 0 ≤ r ∧ r ≤ buffer.length
    · rw [if_pos h1, Res.ok_bind, if_neg (by omega), Res.panic_bind]
    · rw [if_neg h1, Res.panic_bind]

/-! ### fixed-width values -/

theorem chunksExact_flatten {α : Type} (k : Nat) (hk : 0 < k) (xs : List α) :
    (chunksExact k xs).flatten = xs.take (xs.length / k * k) := by
  unfold chunksExact
  have : ∀ n, n * k ≤ xs.length →
      ((List.range n).map fun i => (xs.drop (i * k)).take k).flatten = xs.take (n * k) := by
    intro n
    induction n with
    | zero => simp
    | succ n ih =>
      intro h
      rw [Nat.succ_mul] at h
      rw [List.range_succ, List.map_append, List.flatten_append, ih (by omega), Nat.succ_mul, List.take_add]
      simp
  exact this _ (Nat.div_mul_le_self _ _)

theorem chunksExact_mem {α : Type} (k : Nat) (xs : List α) (c : List α)
    (h : c ∈ chunksExact k xs) : c.length = k := by
  unfold chunksExact at h
  simp only [List.mem_map, List.mem_range] at h
  obtain ⟨i, hi, rfl⟩ := h
  rw [List.length_take, List.length_drop]
  have h1 : (i + 1) * k ≤ xs.length / k * k := Nat.mul_le_mul_right k hi
  have h2 := Nat.div_mul_le_self xs.length k
  rw [Nat.succ_mul] at h1
  omega

theorem chunksExact_length {α : Type} (k : Nat) (xs : List α) :
    (chunksExact k xs).length = xs.length / k := by simp [chunksExact]

theorem leNat_toLe (b : Nat) (x : BitVec (8 * b)) : leNat (toLe b x) = x.toNat := by
  have h : toLe b x = leBytes b x.toNat := by
    simp only [toLe, leBytes]
    apply List.map_congr_left
    intro k _
    apply BitVec.eq_of_toNat_eq
    simp only [BitVec.extractLsb'_toNat, BitVec.toNat_ofNat, Nat.shiftRight_eq_div_pow]
    rw [show (256 : Nat) ^ k = 2 ^ (8 * k) by rw [show (256 : Nat) = 2 ^ 8 from rfl, ← Nat.pow_mul]]
  rw [h, Rle.leNat_leBytes]
  apply Nat.mod_eq_of_lt
  have := x.isLt
  rwa [show (256 : Nat) ^ b = 2 ^ (8 * b) by rw [show (256 : Nat) = 2 ^ 8 from rfl, ← Nat.pow_mul]]

theorem toLe_length (b : Nat) (x : BitVec (8 * b)) : (toLe b x).length = b := by simp [toLe]

theorem fromLe_toLe (b : Nat) (x : BitVec (8 * b)) : fromLe (8 * b) (toLe b x) = x := by
  unfold fromLe
  rw [leNat_toLe]
  simp

theorem leNat_inj {a b : List Byte} (hl : a.length = b.length) (h : leNat a = leNat b) : a = b := by
  rw [← leBytes_leNat a, ← leBytes_leNat b, hl, h]

theorem toLe_fromLe (bs : List Byte) : toLe bs.length (fromLe (8 * bs.length) bs) = bs := by
  apply leNat_inj (by rw [toLe_length])
  rw [leNat_toLe]
  unfold fromLe
  have := leNat_lt bs
  rw [show (256 : Nat) ^ bs.length = 2 ^ (8 * bs.length) by
    rw [show (256 : Nat) = 2 ^ 8 from rfl, ← Nat.pow_mul]] at this
  rw [BitVec.toNat_ofNat, Nat.mod_eq_of_lt this]

end Pq.Deser
