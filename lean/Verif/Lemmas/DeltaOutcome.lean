import Verif.Lemmas.DeltaSound
import Verif.Lemmas.HybridValues
import Verif.Lemmas.DeltaTrunc2
import Verif.Spec.DeltaOutcome
/- Helper lemmas: how decoding arbitrary bytes as a delta stream ends. -/
namespace Pq.Delta
open Pq.Spec Pq.Bitpack
open Pq.Rle (readVarint_decode readVarint_some)

theorem outcome_bind {α β : Type} (a : Res α) (f : α → Res β) :
    outcome (a >>= f) = match a with
      | .ok x => outcome (f x)
      | .err _ => .refused
      | .panic => .aborts := by
  cases a <;> rfl

theorem outcome_map {α β : Type} (a : Res α) (f : α → β) : outcome (a.map' f) = outcome a := by
  cases a <;> rfl

/-- `advance`: how it ends, and the new state. -/
theorem advance_outcome {v : Nat} (hv : 0 < v) (hv8 : v % 8 = 0) (hmax : v * 255 < 2 ^ 64) (b : Block)
    (hvpm : b.vpm = v) (w : Byte) (ws : List Byte) (hw : b.bitwidths = w :: ws) :
    (b.values.length < v * w.toNat / 8 → ∃ e, b.advance false = .err e) ∧
    (¬ b.values.length < v * w.toNat / 8 → 64 < w.toNat → b.advance false = .panic) ∧
    (¬ b.values.length < v * w.toNat / 8 → ¬ 64 < w.toNat → ∃ b', b.advance false = .ok b' ∧
      b'.bitwidths = ws ∧ b'.values = b.values.drop (v * w.toNat / 8) ∧ b'.remaining = b.remaining ∧
      b'.consumed = b.consumed + v * w.toNat / 8 ∧ b'.currentIndex = 0) := by
  obtain ⟨minDelta, vpm, bws, vals, rem, ci, mini, cons⟩ := b
  simp only at hvpm hw
  subst hvpm hw
  have hwm : vpm * w.toNat < 2 ^ 64 :=
    Nat.lt_of_le_of_lt (Nat.mul_le_mul_left vpm (by have := w.isLt; omega)) hmax
  have hcl : ceil8 (vpm * w.toNat) = vpm * w.toNat / 8 := by
    rw [Rle.ceil8_eq]
    obtain ⟨u, rfl⟩ : ∃ u, vpm = 8 * u := ⟨vpm / 8, by omega⟩
    rw [Nat.mul_assoc]; omega
  have h8 : 8 * (vpm * w.toNat / 8) = vpm * w.toNat := by
    obtain ⟨u, rfl⟩ : ∃ u, vpm = 8 * u := ⟨vpm / 8, by omega⟩
    rw [Nat.mul_assoc]; omega
  unfold Block.advance
  simp only
  by_cases hw0 : 0 < w.toNat
  · rw [if_pos hw0, if_neg (by simp), Nat.mod_eq_of_lt hwm, hcl]
    refine ⟨fun h => ⟨_, if_pos h⟩, fun h h64 => ?_, fun h h64 => ?_⟩
    · rw [if_neg h]
      have hne : vals.take (vpm * w.toNat / 8) ≠ [] := by
        intro he
        have := congrArg List.length he
        have := Nat.mul_pos hv hw0
        rw [List.length_take, List.length_nil] at *
        omega
      split
      · rename_i d hd
        exact absurd hd (bitpack_tryNew_wide _ _ _ h64 hne d)
      · rfl
    · rw [if_neg h]
      have hlt : (vals.take (vpm * w.toNat / 8)).length = vpm * w.toNat / 8 := by
        rw [List.length_take]; omega
      obtain ⟨d, hd1, -, -, -⟩ := tryNew_inv 8 w.toNat (min rem vpm) (by simp) hw0 (by omega)
        (vals.take (vpm * w.toNat / 8))
        (by rw [hlt, h8]; exact Nat.mul_le_mul_right _ (by omega))
      rw [hd1]
      exact ⟨_, rfl, rfl, rfl, rfl, rfl, rfl⟩
  · have hz : w.toNat = 0 := by omega
    rw [if_neg hw0]
    simp only [hz, Nat.mul_zero, Nat.zero_div]
    exact ⟨by simp, fun _ h => absurd h (by omega), fun _ _ => ⟨_, rfl, rfl, by simp, rfl, rfl, rfl⟩⟩

/-- What `endOfMinis` says of a block between two items. -/
def endOfBlock (v : Nat) (next : List Byte → Outcome) (b : Block) : Outcome :=
  endOfMinis v next b.bitwidths b.values (b.remaining - min b.remaining (v - b.currentIndex))

/-- `advance` with values remaining. -/
theorem advance_end {v : Nat} (hv : 0 < v) (hv8 : v % 8 = 0) (hmax : v * 255 < 2 ^ 64) (b : Block)
    (hvpm : b.vpm = v) (hr : 0 < b.remaining) (next : List Byte → Outcome) :
    match b.advance false with
    | .ok b' => endOfMinis v next b.bitwidths b.values b.remaining = endOfBlock v next b' ∧
        b'.remaining = b.remaining ∧ (∃ cur, Good v b' cur) ∧
        ∀ vs : List Byte, b.values = vs.drop b.consumed → b'.values = vs.drop b'.consumed
    | .err _ => endOfMinis v next b.bitwidths b.values b.remaining = .refused
    | .panic => endOfMinis v next b.bitwidths b.values b.remaining = .aborts := by
  obtain ⟨r, hr'⟩ : ∃ r, b.remaining = r + 1 := ⟨b.remaining - 1, by omega⟩
  cases hw : b.bitwidths with
  | nil =>
    have : b.advance false = .panic := by unfold Block.advance; rw [hw]
    rw [this, hr']
    rfl
  | cons w ws =>
    obtain ⟨h1, h2, h3⟩ := advance_outcome hv hv8 hmax b hvpm w ws hw
    rw [hr', endOfMinis]
    by_cases hl : b.values.length < v * w.toNat / 8
    · obtain ⟨e, he⟩ := h1 hl
      rw [he]
      simp only [if_pos hl]
    · by_cases h64 : 64 < w.toNat
      · rw [h2 hl h64]
        simp only [if_neg hl, if_pos h64]
      · obtain ⟨b', hb, e1, e2, e3, e4, e5⟩ := h3 hl h64
        obtain ⟨-, -, cur, hg, -⟩ := advance_inv hv hv8 hmax b b' hb hvpm hr
        rw [hb]
        simp only [if_neg hl, if_neg h64]
        refine ⟨?_, by omega, ⟨cur, hg⟩, ?_⟩
        · rw [endOfBlock, e1, e2, e3, e5, hr']
          congr 1
          omega
        · intro vs hvs
          rw [e2, e4, hvs, List.drop_drop]

/-- `next` of a block with values remaining. -/
theorem block_next_end {v : Nat} (hv : 0 < v) (hv8 : v % 8 = 0) (hmax : v * 255 < 2 ^ 64) (b : Block)
    (cur : List I64) (hg : Good v b cur) (hr : 0 < b.remaining) (next : List Byte → Outcome) :
    match b.next false with
    | .ok (some _, b') => endOfBlock v next b' = endOfBlock v next b ∧ b'.remaining = b.remaining - 1 ∧
        (∃ cur', Good v b' cur') ∧ ∀ vs : List Byte, b.values = vs.drop b.consumed → b'.values = vs.drop b'.consumed
    | .ok (none, _) => False
    | .err _ => endOfBlock v next b = .refused
    | .panic => endOfBlock v next b = .aborts := by
  have hinv := fun b' δ => next_inv hv hv8 hmax b b' δ cur hg
  obtain ⟨h1, h2, h3, h4⟩ := hg
  have hci := h3 hr
  have hm : ∃ c mini', miniNext b.mini = .ok (c, mini') := by
    rcases h1 with ⟨g1, _⟩ | ⟨d, q, w, g1, g2, g3, g4, g5, g6⟩
    · exact ⟨_, _, by rw [g1]; rfl⟩
    · obtain ⟨d', q', n1, -⟩ := next_spec w (by simp) g3 g4 d q g2 (by rw [g5]; omega)
      simp only [g1, miniNext, n1, Res.map']
      exact ⟨_, _, rfl⟩
  obtain ⟨c, mini', hm⟩ := hm
  by_cases hadv : 0 < b.remaining - 1 ∧ b.currentIndex + 1 = b.vpm
  · have hn : b.next false = (Block.advance false
        { b with mini := mini', currentIndex := b.currentIndex + 1, remaining := b.remaining - 1 }).map'
        fun b' => (some (b.minDelta + c), b') := by
      unfold Block.next
      rw [if_neg (by omega), hm]
      simp only [Res.ok_bind, addI_false]
      rw [if_pos hadv]
    rw [hn]
    have ha := advance_end hv hv8 hmax
      { b with mini := mini', currentIndex := b.currentIndex + 1, remaining := b.remaining - 1 } h2 hadv.1 next
    simp only at ha
    have he : endOfBlock v next b = endOfMinis v next b.bitwidths b.values (b.remaining - 1) := by
      rw [endOfBlock]; congr 1; omega
    generalize Block.advance false _ = a at ha ⊢
    cases a with
    | ok b' =>
      simp only at ha
      simp only [Res.map']
      exact ⟨by rw [he, ha.1], ha.2⟩
    | err e => simp only at ha; simp only [Res.map']; rw [he, ha]
    | panic => simp only at ha; simp only [Res.map']; rw [he, ha]
  · have hn : b.next false = .ok (some (b.minDelta + c),
        { b with mini := mini', currentIndex := b.currentIndex + 1, remaining := b.remaining - 1 }) := by
      unfold Block.next
      rw [if_neg (by omega), hm]
      simp only [Res.ok_bind, addI_false]
      rw [if_neg hadv]
    obtain ⟨-, -, -, cur', hg', -⟩ := hinv _ _ hn
    rw [hn]
    simp only
    refine ⟨?_, trivial, ⟨cur', hg'⟩, fun _ h => h⟩
    simp only [endOfBlock]
    congr 1
    omega

/-- `try_new` of a block with values to read. -/
theorem block_tryNew_end {M v r : Nat} (hM : 0 < M) (hv : 0 < v) (hv8 : v % 8 = 0) (hmax : v * 255 < 2 ^ 64)
    (hr : 0 < r) (vs : List Byte) (n : Nat) :
    match Block.tryNew false vs M v r with
    | .ok b => endOfBlocks M v (n + 1) r vs = endOfBlock v (endOfBlocks M v n (r - M * v)) b ∧
        b.remaining = min r (M * v) ∧ (∃ cur, Good v b cur) ∧ b.values = vs.drop b.consumed ∧
        b.consumed ≤ vs.length
    | .err _ => endOfBlocks M v (n + 1) r vs = .refused
    | .panic => endOfBlocks M v (n + 1) r vs = .aborts := by
  have hMv : 0 < M * v := Nat.mul_pos hM hv
  have hv0 := hv
  obtain ⟨r, rfl⟩ : ∃ r', r = r' + 1 := ⟨r - 1, by omega⟩
  have hinv := fun b => Block.tryNew_inv (r := r + 1) hv hM hv8 hmax hr vs b
  unfold Block.tryNew Leb.zigzagDecode at hinv ⊢
  rw [readVarint_decode] at hinv ⊢
  rw [endOfBlocks]
  cases hv : readVarint vs with
  | none => rfl
  | some p =>
    obtain ⟨m, rest⟩ := p
    obtain ⟨-, rfl⟩ := readVarint_some hv
    simp only [hv, Res.map', Res.ok_bind] at hinv ⊢
    by_cases hl : (vs.drop (varintPrefix vs).length).length < M
    · simp only [if_pos hl]
    · simp only [if_neg hl] at hinv ⊢
      have ha := advance_end hv0 hv8 hmax
        { minDelta := (BitVec.ofNat 64 m >>> 1) ^^^ (-(BitVec.ofNat 64 m &&& 1#64)), vpm := v,
          bitwidths := (vs.drop (varintPrefix vs).length).take M
          values := (vs.drop (varintPrefix vs).length).drop M, remaining := min (r + 1) (M * v), currentIndex := 0
          mini := none, consumed := (varintPrefix vs).length + M } rfl (by simp only; omega)
        (endOfBlocks M v n (r + 1 - M * v))
      simp only at ha
      generalize Block.advance false _ = a at ha hinv ⊢
      cases a with
      | ok b =>
        simp only at ha ⊢
        obtain ⟨h1, h2, h3, h4⟩ := ha
        obtain ⟨-, h5, -⟩ := hinv b rfl
        exact ⟨h1, h2, h3, h4 vs (by rw [List.drop_drop]), by omega⟩
      | err e => exact ha
      | panic => exact ha

/-- Draining a decoder. -/
theorem drain_end {M v : Nat} (hM : 0 < M) (hv : 0 < v) (hv8 : v % 8 = 0) (hmax : v * 255 < 2 ^ 64) (r : Nat) :
    ∀ (d : Decoder) (b : Block) (cur : List I64) (n f : Nat), d.currentBlock = some b → d.numMiniBlocks = M →
      d.vpm = v → Good v b cur → d.valuesRemaining = r + 1 → b.remaining ≤ r → b.values = d.values.drop b.consumed →
      b.consumed ≤ d.values.length → r - b.remaining ≤ n → r + 2 ≤ f →
      outcome (d.drain false f) = endOfBlock v (endOfBlocks M v n (r - b.remaining)) b := by
  induction r with
  | zero =>
    intro d b cur n f hb hdM hdv hg hr hbr hval hcl hn hf
    obtain ⟨f, rfl⟩ : ∃ f', f = f' + 2 := ⟨f - 2, by omega⟩
    have hb0 : b.remaining = 0 := by omega
    rw [endOfBlock, hb0]
    simp [Decoder.drain, Decoder.next, hr, endOfMinis, endOfBlocks, outcome]
  | succ r ih =>
    intro d b cur n f hb hdM hdv hg hr hbr hval hcl hn hf
    obtain ⟨f, rfl⟩ : ∃ f', f = f' + 1 := ⟨f - 1, by omega⟩
    have hd : d.drain false (f + 1) = (({ d with valuesRemaining := r + 1 } : Decoder).loadDelta false >>= fun p =>
        (Decoder.drain false f { p.2 with nextValue := p.2.nextValue + p.1 }) >>= fun q =>
          .ok (d.nextValue :: q.1, q.2)) := by
      rw [Decoder.drain, Decoder.next]
      rw [if_neg (by omega), hr]
      simp only [Nat.add_sub_cancel]
      rw [if_neg (by omega)]
      generalize Decoder.loadDelta false _ = a
      cases a <;> simp [addI_false]
    rw [hd, outcome_bind]
    unfold Decoder.loadDelta
    simp only [hb]
    by_cases hb0 : b.remaining = 0
    · have hnn : b.next false = .ok (none, b) := by unfold Block.next; rw [if_pos hb0]
      rw [hnn]
      have hs : slice d.values b.consumed d.values.length = .ok b.values := by
        unfold slice
        rw [hval]
        simp [hcl]
      simp only [Res.ok_bind, hs]
      obtain ⟨n, rfl⟩ : ∃ n', n = n' + 1 := ⟨n - 1, by omega⟩
      have he : endOfBlock v (endOfBlocks M v (n + 1) (r + 1 - b.remaining)) b =
          endOfBlocks M v (n + 1) (r + 1) b.values := by
        rw [endOfBlock, hb0]; simp [endOfMinis]
      rw [he]
      have hMv : 0 < M * v := Nat.mul_pos hM hv
      have ht := block_tryNew_end hM hv hv8 hmax (Nat.succ_pos r) b.values n
      have hdd : Block.tryNew false b.values d.numMiniBlocks d.vpm (r + 1) = Block.tryNew false b.values M v (r + 1) := by
        rw [hdM, hdv]
      rw [hdd]
      simp only [Nat.succ_eq_add_one] at ht
      cases hB : Block.tryNew false b.values M v (r + 1) with
      | err e => rw [hB] at ht; simp only at ht; rw [ht]; rfl
      | panic => rw [hB] at ht; simp only at ht; rw [ht]; rfl
      | ok b2 =>
        rw [hB] at ht
        simp only at ht
        obtain ⟨h1, h2, ⟨cur2, h3⟩, h4, h5⟩ := ht
        rw [h1]
        simp only [Res.ok_bind]
        have hk := block_next_end hv hv8 hmax b2 cur2 h3 (by omega) (endOfBlocks M v n (r + 1 - M * v))
        have hinv := fun b' δ => next_inv hv hv8 hmax b2 b' δ cur2 h3
        cases hN : b2.next false with
        | err e => rw [hN] at hk; simp only at hk; rw [hk]; rfl
        | panic => rw [hN] at hk; simp only at hk; rw [hk]; rfl
        | ok p =>
          obtain ⟨o, b3⟩ := p
          rw [hN] at hk
          cases o with
          | none => simp only at hk
          | some x =>
            simp only at hk
            obtain ⟨k1, k2, ⟨cur3, k3⟩, k4⟩ := hk
            obtain ⟨-, -, k5, -⟩ := hinv b3 x hN
            simp only [Res.ok_bind, Res.pure_eq, outcome_bind]
            rw [← k1]
            have h6 : b2.consumed + b2.values.length = b.values.length := by
              rw [h4, List.length_drop]; omega
            have := ih { d with valuesRemaining := r + 1, values := b.values, consumed := d.consumed + b.consumed,
                                currentBlock := some b3, nextValue := d.nextValue + x } b3 cur3 n f rfl hdM hdv k3
              rfl (by omega) (k4 _ h4) (by simp only; omega) (by omega) (by omega)
            rw [show r - b3.remaining = r + 1 - M * v by omega] at this
            rw [← this]
            generalize Decoder.drain false f _ = a
            cases a <;> rfl
    · have hk := block_next_end hv hv8 hmax b cur hg (by omega) (endOfBlocks M v n (r + 1 - b.remaining))
      have hinv := fun b' δ => next_inv hv hv8 hmax b b' δ cur hg
      cases hN : b.next false with
      | err e => rw [hN] at hk; simp only at hk; rw [hk]; rfl
      | panic => rw [hN] at hk; simp only at hk; rw [hk]; rfl
      | ok p =>
        obtain ⟨o, b3⟩ := p
        rw [hN] at hk
        cases o with
        | none => simp only at hk
        | some x =>
          simp only at hk
          obtain ⟨k1, k2, ⟨cur3, k3⟩, k4⟩ := hk
          obtain ⟨-, -, k5, -⟩ := hinv b3 x hN
          simp only [Res.ok_bind, Res.pure_eq, outcome_bind]
          rw [← k1]
          have h6 : b.consumed + b.values.length = d.values.length := by
            rw [hval, List.length_drop]; omega
          have := ih { d with valuesRemaining := r + 1, currentBlock := some b3, nextValue := d.nextValue + x }
            b3 cur3 n f rfl hdM hdv k3 rfl (by omega) (k4 _ hval) (by simp only; omega) (by omega) (by omega)
          rw [show r - b3.remaining = r + 1 - b.remaining by omega] at this
          rw [← this]
          generalize Decoder.drain false f _ = a
          cases a <;> rfl

/-- `try_new` of a block of miniblocks without values. -/
theorem block_tryNew_zero {M r : Nat} (hM : 0 < M) (vs : List Byte) (n r' : Nat) :
    match Block.tryNew false vs M 0 r with
    | .ok b => endOfBlocks M 0 (n + 1) (r' + 1) vs = endOfBlocks M 0 n (r' + 1) b.values ∧
        b.remaining = 0 ∧ b.values = vs.drop b.consumed ∧ b.consumed ≤ vs.length
    | .err _ => endOfBlocks M 0 (n + 1) (r' + 1) vs = .refused
    | .panic => endOfBlocks M 0 (n + 1) (r' + 1) vs = .aborts := by
  unfold Block.tryNew Leb.zigzagDecode
  rw [readVarint_decode, endOfBlocks]
  cases hv : readVarint vs with
  | none => rfl
  | some p =>
    obtain ⟨m, rest⟩ := p
    obtain ⟨-, rfl⟩ := readVarint_some hv
    simp only [Res.map', Res.ok_bind]
    by_cases hl : (vs.drop (varintPrefix vs).length).length < M
    · simp only [if_pos hl]
    · simp only [if_neg hl]
      rw [List.length_drop] at hl
      generalize hw : (vs.drop (varintPrefix vs).length).take M = ws
      cases ws with
      | nil =>
        have := congrArg List.length hw
        rw [List.length_take, List.length_drop, List.length_nil] at this
        omega
      | cons w ws =>
        have h0 : ceil8 0 = 0 := rfl
        simp only [Block.advance, Nat.mul_zero, Nat.zero_mul, Nat.zero_mod, Bool.false_and, Nat.min_zero,
          Bool.false_eq_true, if_false, endOfMinis, Nat.sub_zero]
        by_cases hw0 : 0 < w.toNat
        · have hw' : w.toNat ≠ 0 := by omega
          simp [hw0, h0, Bitpack.Decoder.tryNew, hw', List.drop_drop]
          omega
        · simp [hw0, List.drop_drop]
          omega

/-- The first `next` after `try_new`, with miniblocks without values. -/
theorem zero_end {M r : Nat} (hM : 0 < M) (vs : List Byte) (mk : Block → Decoder) (f : Nat)
    (hmk : ∀ b, (mk b).currentBlock = some b ∧ (mk b).numMiniBlocks = M ∧ (mk b).vpm = 0 ∧ (mk b).values = vs ∧
      (mk b).valuesRemaining = r + 2) :
    outcome (Block.tryNew false vs M 0 (r + 1) >>= fun b => (mk b).drain false (f + 1)) =
      endOfBlocks M 0 2 (r + 1) vs := by
  have h := block_tryNew_zero (r := r + 1) hM vs 1 r
  rw [outcome_bind]
  cases hB : Block.tryNew false vs M 0 (r + 1) with
  | err e => rw [hB] at h; simp only at h; rw [h]
  | panic => rw [hB] at h; simp only at h; rw [h]
  | ok b =>
    rw [hB] at h
    simp only at h ⊢
    obtain ⟨h1, h2, h3, h4⟩ := h
    obtain ⟨m1, m2, m3, m4, m5⟩ := hmk b
    rw [h1, Decoder.drain, outcome_bind, Decoder.next, if_neg (by omega), m5]
    simp only [show r + 2 - 1 = r + 1 by omega]
    rw [if_neg (by omega)]
    unfold Decoder.loadDelta
    have hnn : b.next false = .ok (none, b) := by unfold Block.next; rw [if_pos h2]
    have hs : slice vs b.consumed vs.length = .ok b.values := by
      unfold slice
      rw [h3]
      simp [h4]
    simp only [m1, hnn, Res.ok_bind, m4, hs, m2, m3]
    have h' := block_tryNew_zero (r := r + 1) hM b.values 0 r
    cases hB' : Block.tryNew false b.values M 0 (r + 1) with
    | err e => rw [hB'] at h'; simp only at h'; rw [h']; rfl
    | panic => rw [hB'] at h'; simp only at h'; rw [h']; rfl
    | ok b' =>
      rw [hB'] at h'
      simp only at h'
      have hnn' : b'.next false = .ok (none, b') := by unfold Block.next; rw [if_pos h'.2.1]
      simp only [Res.ok_bind, hnn']
      rw [h'.1]
      rfl

/-- Decoding arbitrary bytes. -/
theorem decode_end (bytes : List Byte) (hsize : ∀ size rest, readVarint bytes = some (size, rest) → size < 2 ^ 56) :
    outcome (decode false bytes) = endOfDelta bytes := by
  have hz : ∀ bs, Leb.zigzagDecode bs = (Leb.decode bs).map'
      fun (u, c) => ((u >>> 1) ^^^ (-(u &&& 1#64)), c) := fun _ => rfl
  unfold decode Decoder.tryNew endOfDelta
  rw [readVarint_decode]
  cases h1 : readVarint bytes with
  | none => rfl
  | some p =>
    obtain ⟨size, rest1⟩ := p
    have hs := hsize _ _ h1
    obtain ⟨hs', rfl⟩ := readVarint_some h1
    simp only [Res.ok_bind, BitVec.toNat_ofNat, Nat.mod_eq_of_lt hs']
    by_cases a1 : size % 128 = 0
    case neg =>
      have : Res.assert (size % 128 == 0) = .panic := by simp [Res.assert, a1]
      rw [this]
      simp only [a1, false_and, if_false]
      split
      · rfl
      · split
        · rfl
        · split <;> rfl
    case pos =>
    have a1' : Res.assert (size % 128 == 0) = .ok () := by simp [Res.assert, a1]
    rw [a1']
    simp only [Res.ok_bind]
    rw [readVarint_decode]
    cases h2 : readVarint (bytes.drop (varintPrefix bytes).length) with
    | none => rfl
    | some p =>
    obtain ⟨minis, rest2⟩ := p
    obtain ⟨hm', rfl⟩ := readVarint_some h2
    simp only [Res.ok_bind, BitVec.toNat_ofNat, Nat.mod_eq_of_lt hm']
    rw [readVarint_decode]
    generalize List.drop _ (List.drop _ bytes) = bytes2
    cases h3 : readVarint bytes2 with
    | none => rfl
    | some p =>
    obtain ⟨count, rest3⟩ := p
    obtain ⟨hc', rfl⟩ := readVarint_some h3
    simp only [Res.ok_bind, BitVec.toNat_ofNat, Nat.mod_eq_of_lt hc']
    generalize List.drop _ bytes2 = bytes3
    rw [hz, readVarint_decode]
    cases h4 : readVarint bytes3 with
    | none => rfl
    | some p =>
    obtain ⟨first, rest4⟩ := p
    obtain ⟨-, rfl⟩ := readVarint_some h4
    simp only [Res.ok_bind, Res.map']
    generalize List.drop _ bytes3 = bytes4
    by_cases a2 : minis = 0
    · have h0 : Res.assert (minis != 0) = .panic := by simp [Res.assert, a2]
      have hn : ¬ (size % 128 = 0 ∧ minis ≠ 0 ∧ size / minis % 8 = 0) := fun h => h.2.1 a2
      rw [h0, if_neg hn]
      rfl
    have a2' : Res.assert (minis != 0) = .ok () := by simp [Res.assert, a2]
    rw [a2']
    by_cases a3 : size / minis % 8 = 0
    case neg =>
      have h0 : Res.assert (size / minis % 8 == 0) = .panic := by simp [Res.assert, a3]
      have hn : ¬ (size % 128 = 0 ∧ minis ≠ 0 ∧ size / minis % 8 = 0) := fun h => a3 h.2.2
      rw [h0, if_neg hn]
      rfl
    have a3' : Res.assert (size / minis % 8 == 0) = .ok () := by simp [Res.assert, a3]
    have hp : size % 128 = 0 ∧ minis ≠ 0 ∧ size / minis % 8 = 0 := ⟨a1, a2, a3⟩
    rw [a3', if_pos hp]
    simp only [Res.ok_bind]
    by_cases hc : 1 < count
    · rw [if_pos hc]
      obtain ⟨r, rfl⟩ : ∃ r, count = r + 2 := ⟨count - 2, by omega⟩
      rw [show r + 2 - 1 = r + 1 by omega]
      generalize BitVec.ofNat 64 first >>> 1 ^^^ -(BitVec.ofNat 64 first &&& 1#64) = x
      generalize (varintPrefix bytes).length + _ + _ + _ = k
      have hmain : ∀ o, (outcome (Block.tryNew false bytes4 minis (size / minis) (r + 1) >>= fun b =>
          Decoder.drain false (r + 3) (Decoder.mk minis (size / minis) (r + 2) x bytes4 (some b) k)) = o) →
          outcome (do
            let d ← (do
              let current_block ← (Block.tryNew false bytes4 minis (size / minis) (r + 1)).map' some
              return Decoder.mk minis (size / minis) (r + 2) x bytes4 current_block k)
            let (xs, d) ← d.drain false (d.valuesRemaining + 1)
            return (xs, d.consumedBytes) : Res (List I64 × Nat)) = o := by
        rintro o rfl
        cases Block.tryNew false bytes4 minis (size / minis) (r + 1) with
        | ok b =>
          simp only [Res.map', Res.ok_bind, Res.pure_eq]
          rw [outcome_bind]
          generalize Decoder.drain false _ _ = a
          cases a <;> rfl
        | err e => rfl
        | panic => rfl
      refine hmain _ ?_
      by_cases hv : size / minis = 0
      · rw [if_pos hv, hv]
        exact zero_end (by omega) bytes4 _ _ fun b => ⟨rfl, rfl, rfl, rfl, rfl⟩
      · rw [if_neg hv]
        have hv0 : 0 < size / minis := Nat.pos_of_ne_zero hv
        have hM : 0 < minis := by omega
        have hmax : size / minis * 255 < 2 ^ 64 := by
          have : size / minis ≤ size := Nat.div_le_self _ _
          omega
        have hMv : 0 < minis * (size / minis) := Nat.mul_pos hM hv0
        have ht := block_tryNew_end hM hv0 a3 hmax (Nat.succ_pos r) bytes4 r
        simp only [Nat.succ_eq_add_one] at ht
        rw [outcome_bind]
        cases hB : Block.tryNew false bytes4 minis (size / minis) (r + 1) with
        | err e => rw [hB] at ht; simp only at ht; rw [ht]
        | panic => rw [hB] at ht; simp only at ht; rw [ht]
        | ok b =>
          rw [hB] at ht
          simp only at ht ⊢
          obtain ⟨t1, t2, ⟨cur, t3⟩, t4, t5⟩ := ht
          rw [t1, show r + 1 - minis * (size / minis) = r + 1 - b.remaining by omega]
          exact drain_end hM hv0 a3 hmax (r + 1) _ b cur r (r + 3) rfl rfl rfl t3 rfl (by omega) t4 t5 (by omega)
            (by omega)
    · rw [if_neg hc, show count - 1 = 0 by omega, endOfBlocks]
      have : count = 0 ∨ count = 1 := by omega
      rcases this with rfl | rfl
      · simp [Decoder.drain, Decoder.next, outcome]
      · simp [Decoder.drain, Decoder.next, outcome]

end Pq.Delta

namespace Pq
open Spec

theorem DeltaLength.drain_map (fuel : Nat) (l : Delta.Decoder) (values : List Byte) (t : BitVec 32) :
    DeltaLength.Decoder.drain false fuel { values, lengths := l, totalLength := t } =
      (l.drain false fuel).map' fun p => (p.1.map (BitVec.setWidth 32),
        { values, lengths := p.2, totalLength := (p.1.map (BitVec.setWidth 32)).foldl (· + ·) t }) := by
  induction fuel generalizing l t with
  | zero => rfl
  | succ fuel ih =>
    rw [Delta.Decoder.drain, DeltaLength.Decoder.drain, DeltaLength.Decoder.next]
    simp only
    cases l.next false with
    | err e => rfl
    | panic => rfl
    | ok r =>
      obtain ⟨o, l1⟩ := r
      cases o with
      | none => rfl
      | some x =>
        simp only [Res.ok_bind, Bool.false_and, Bool.false_eq_true, if_false, Res.pure_eq]
        rw [ih]
        cases l1.drain false fuel <;> rfl

theorem foldl_add_mod (xs : List (BitVec 32)) (t : BitVec 32) :
    (xs.foldl (· + ·) t).toNat = (t.toNat + (xs.map BitVec.toNat).sum) % 2 ^ 32 := by
  induction xs generalizing t with
  | nil => simp [Nat.mod_eq_of_lt t.isLt]
  | cons x xs ih =>
    rw [List.foldl_cons, ih, List.map_cons, List.sum_cons, BitVec.toNat_add]
    omega

/-- The strings of a DELTA_LENGTH_BYTE_ARRAY stream of arbitrary bytes, in terms of its lengths. -/
theorem DeltaLength.decode_any (bytes : List Byte) :
    DeltaLength.decode false bytes = Delta.decode false bytes >>= fun p =>
      let lengths := p.1.map (BitVec.setWidth 32)
      let total := (lengths.map BitVec.toNat).sum % 2 ^ 32
      if p.2 + total ≤ bytes.length then .ok (lengths, (bytes.drop p.2).take total) else .panic := by
  unfold DeltaLength.decode DeltaLength.Decoder.tryNew Delta.decode
  cases Delta.Decoder.tryNew false bytes with
  | err e => rfl
  | panic => rfl
  | ok d =>
    simp only [Res.ok_bind, Res.pure_eq]
    rw [DeltaLength.drain_map]
    cases hd : d.drain false (d.valuesRemaining + 1) with
    | err e => rfl
    | panic => rfl
    | ok p =>
      obtain ⟨xs, d'⟩ := p
      have p4 := Delta.drain_remaining _ _ _ _ _ hd
      have ha : Res.assert ((0 : Nat) == 0) = .ok () := rfl
      simp only [Res.ok_bind, Res.map', DeltaLength.Decoder.intoValues, p4, ha, foldl_add_mod, BitVec.toNat_zero,
        Nat.zero_add, slice, Nat.add_sub_cancel_left]
      split
      · rename_i h; rw [if_pos h.2]; rfl
      · rename_i h; rw [if_neg fun h' => h ⟨by omega, h'⟩]; rfl

/-- A DELTA_BYTE_ARRAY stream of arbitrary bytes, in terms of its prefix lengths and the rest. -/
theorem DeltaByteArray.decode_any (bytes : List Byte) :
    DeltaByteArray.decode false bytes = Delta.decode false bytes >>= fun p =>
      if p.2 ≤ bytes.length then
        (DeltaLength.decode false (bytes.drop p.2)).map' fun q => (p.1.map (BitVec.setWidth 32), q.1, q.2)
      else .panic := by
  unfold DeltaByteArray.decode Delta.decode
  cases Delta.Decoder.tryNew false bytes with
  | err e => rfl
  | panic => rfl
  | ok d =>
    simp only [Res.ok_bind, Res.pure_eq]
    cases hd : d.drain false (d.valuesRemaining + 1) with
    | err e => rfl
    | panic => rfl
    | ok p =>
      obtain ⟨xs, d'⟩ := p
      have p4 := Delta.drain_remaining _ _ _ _ _ hd
      have ha : Res.assert ((0 : Nat) == 0) = .ok () := rfl
      simp only [Res.ok_bind, p4, ha, slice]
      split
      · rename_i h
        rw [if_pos h.1, List.take_of_length_le (by simp)]
        simp only [Res.ok_bind]
        cases DeltaLength.decode false _ <;> rfl
      · rename_i h; rw [if_neg fun h' => h ⟨h', Nat.le_refl _⟩]; rfl

end Pq
