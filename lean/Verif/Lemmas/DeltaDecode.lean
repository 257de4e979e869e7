import Verif.Model.Delta
import Verif.Spec.Delta
import Verif.Lemmas.HybridRle2
import Verif.Lemmas.Bitpacked2
/- Helper lemmas: the delta decoder on legal streams. -/
namespace Pq.Delta
open Pq.Spec Pq.Bitpack

theorem addI_false (a b : I64) : addI false a b = .ok (a + b) := rfl
theorem subI_false (a b : I64) : subI false a b = .ok (a - b) := rfl

/-- The miniblocks that are still to be read from `(ws, vs)` for `rem` values: the fields `fs`
and the number of bytes `k`. -/
inductive Future (v : Nat) : List Byte → List Byte → Nat → List I64 → Nat → Prop where
  | done {ws vs : List Byte} : Future v ws vs 0 [] 0
  | step {w : Byte} {ws bs vs : List Byte} {rem : Nat} {fs : List I64} {k : Nat} :
      0 < rem → w.toNat ≤ 64 → 8 * bs.length = v * w.toNat → v * w.toNat < 2 ^ 64 →
      Future v ws vs (rem - v) fs k →
      Future v (w :: ws) (bs ++ vs) rem
        ((List.range (min rem v)).map (fieldBV 8 w.toNat bs) ++ fs) (bs.length + k)

/-- The values still to be read from the current miniblock. -/
def CurPend (b : Block) (cur : List I64) : Prop :=
  (b.mini = none ∧ cur = List.replicate cur.length 0#64) ∨
  ∃ d q w, b.mini = some d ∧ Inv d w q ∧ 0 < w ∧ w ≤ 64 ∧ d.remaining = cur.length ∧
    cur = (List.range d.remaining).map fun k => fieldBV 8 w q (d.idx + k)

/-- Meaning of a block state: the deltas `ds` are still to come and `fin` bytes will have been
consumed at its end. -/
def BSem (v : Nat) (b : Block) (ds : List I64) (fin : Nat) : Prop :=
  ∃ cur fs k, CurPend b cur ∧ b.vpm = v ∧ (0 < b.remaining → b.currentIndex < v) ∧
    cur.length = min b.remaining (v - b.currentIndex) ∧
    Future v b.bitwidths b.values (b.remaining - cur.length) fs k ∧
    ds = (cur ++ fs).map (b.minDelta + ·) ∧ fin = b.consumed + k

theorem Future.length {v : Nat} {ws vs : List Byte} {rem k : Nat} {fs : List I64}
    (hF : Future v ws vs rem fs k) : fs.length = rem := by
  induction hF with
  | done => rfl
  | step h1 h2 h3 h4 _ ih => simp [ih]; omega

theorem Future.zero {v : Nat} {ws vs : List Byte} {rem k : Nat} {fs : List I64}
    (hF : Future v ws vs rem fs k) (h : rem = 0) : k = 0 := by
  cases hF with
  | done => rfl
  | step h1 h2 h3 h4 _ => omega

theorem deltaBlocks_zero {M v r : Nat} {out : List Byte} {ds : List I64}
    (h : DeltaBlocks M v r out ds) (hr : r = 0) : out = [] := by
  cases h with
  | nil => rfl
  | cons h1 h2 h3 h4 => omega

theorem BSem.length {v : Nat} {b : Block} {ds : List I64} {fin : Nat} (h : BSem v b ds fin) :
    ds.length = b.remaining := by
  obtain ⟨cur, fs, k, _, _, _, h4, h5, h6, _⟩ := h
  have := h5.length
  subst h6
  simp [this]; omega

theorem fieldBV_zero (bs : List Byte) (k : Nat) : fieldBV 8 0 bs k = 0#64 := by
  simp [fieldBV, fieldAt]

theorem advance_spec {v : Nat} (hv : 0 < v) (b : Block) (fs : List I64) (k : Nat)
    (hvpm : b.vpm = v) (hr : 0 < b.remaining)
    (hF : Future v b.bitwidths b.values b.remaining fs k) :
    ∃ b', b.advance false = .ok b' ∧ BSem v b' (fs.map (b.minDelta + ·)) (b.consumed + k) ∧
      b'.remaining = b.remaining := by
  obtain ⟨minDelta, vpm, bws, vals, rem, ci, mini, cons⟩ := b
  simp only at hvpm hr hF
  subst hvpm
  generalize hrem : rem = r0 at hF
  cases hF with
  | done => omega
  | @step w ws bs vs _ fs' k' h1 h2 h3 h4 hF' =>
    subst hrem
    unfold Block.advance
    simp only
    by_cases hw : 0 < w.toNat
    · have hml : ceil8 ((vpm * w.toNat) % 2 ^ 64) = bs.length := by
        rw [Nat.mod_eq_of_lt h4, ← h3, Rle.ceil8_eq]; omega
      rw [if_pos hw, hml, if_neg (by simp), if_neg (by rw [List.length_append]; omega), List.take_left,
        List.drop_left]
      obtain ⟨d, hd1, hd2, hd3, hd4⟩ := tryNew_inv 8 w.toNat (min rem vpm) (by simp) hw h2 bs
        (by rw [h3]; exact Nat.mul_le_mul_right _ (by omega))
      rw [hd1]
      refine ⟨_, rfl, ⟨(List.range (min rem vpm)).map (fieldBV 8 w.toNat bs), fs', k', ?_, rfl,
        fun _ => hv, by simp, ?_, rfl, by simp only; omega⟩, rfl⟩
      · right
        refine ⟨d, bs, w.toNat, rfl, hd2, hw, h2, by simp [hd3], ?_⟩
        rw [hd3, hd4]; simp
      · simp only [List.length_map, List.length_range]
        rw [show rem - min rem vpm = rem - vpm by omega]; exact hF'
    · have hw0 : w.toNat = 0 := by omega
      have hb0 : bs = [] := by
        rw [hw0] at h3; exact List.eq_nil_of_length_eq_zero (by omega)
      subst hb0
      rw [if_neg hw]
      refine ⟨_, rfl, ⟨(List.range (min rem vpm)).map (fieldBV 8 w.toNat []), fs', k', ?_, rfl,
        fun _ => hv, by simp, ?_, rfl, by simp⟩, rfl⟩
      · left
        refine ⟨rfl, ?_⟩
        apply List.ext_getElem
        · simp
        · intro i _ _
          simp only [List.getElem_replicate, List.getElem_map, hw0, fieldBV_zero]
      · simp only [List.length_map, List.length_range]
        rw [show rem - min rem vpm = rem - vpm by omega]; simpa using hF'

theorem Block.next_nil {v : Nat} (ck : Bool) (b : Block) (fin : Nat) (h : BSem v b [] fin) :
    b.next ck = .ok (none, b) ∧ b.consumed = fin := by
  have hr : b.remaining = 0 := by simpa using h.length.symm
  obtain ⟨cur, fs, k, _, _, _, h4, h5, h6, h7⟩ := h
  constructor
  · simp [Block.next, hr]
  · have := h5.zero (by omega)
    omega

theorem Block.next_cons {v : Nat} (hv : 0 < v) (b : Block) (δ : I64) (ds : List I64) (fin : Nat)
    (h : BSem v b (δ :: ds) fin) :
    ∃ b', b.next false = .ok (some δ, b') ∧ BSem v b' ds fin := by
  have hr : b.remaining = ds.length + 1 := by simpa using h.length.symm
  obtain ⟨cur, fs, k, h1, h2, h3, h4, h5, h6, h7⟩ := h
  have hci := h3 (by omega)
  have hcl : 0 < cur.length := by omega
  obtain ⟨c, cur', rfl⟩ : ∃ c cur', cur = c :: cur' := by
    cases cur with
    | nil => simp at hcl
    | cons c cur' => exact ⟨c, cur', rfl⟩
  simp only [List.cons_append, List.map_cons, List.cons.injEq] at h6
  obtain ⟨h6a, h6b⟩ := h6
  simp only [List.length_cons] at h4 h5 hcl
  -- the current miniblock yields `c`
  obtain ⟨mini', hm1, hm2⟩ : ∃ mini',
      miniNext b.mini = .ok (c, mini') ∧
      ∀ b' : Block, b'.mini = mini' → CurPend b' cur' := by
    rcases h1 with ⟨g1, g2⟩ | ⟨d, q, w, g1, g2, g3, g4, g5, g6⟩
    · simp only [List.length_cons, List.replicate_succ, List.cons.injEq] at g2
      refine ⟨none, ?_, fun b' hb' => .inl ⟨hb', g2.2⟩⟩
      rw [g1, g2.1]; rfl
    · obtain ⟨d', q', n1, n2, n3, n4⟩ := next_spec w (by simp) g3 g4 d q g2
        (by rw [g5]; simp)
      refine ⟨some d', ?_, fun b' hb' => .inr ⟨d', q', w, hb', n2, g3, g4, ?_, ?_⟩⟩
      · rw [g1]
        simp only [miniNext, n1, Res.map']
        rw [g5, List.length_cons, List.range_succ_eq_map, List.map_cons, List.cons.injEq] at g6
        rw [g6.1]; rfl
      · rw [n3, g5]; simp
      · rw [g5, List.length_cons, List.range_succ_eq_map, List.map_cons, List.cons.injEq] at g6
        have g7 : cur' = _ := g6.2
        have g8 : d'.remaining = cur'.length := by rw [n3, g5]; simp
        rw [g8, g7, List.length_map, List.length_map, List.length_range, List.map_map]
        apply List.map_congr_left
        intro i _
        simp only [Function.comp_apply, n4]
        congr 1; omega
  unfold Block.next
  rw [if_neg (by omega), hm1]
  simp only [Res.ok_bind, addI_false]
  by_cases hadv : 0 < b.remaining - 1 ∧ b.currentIndex + 1 = b.vpm
  · rw [if_pos hadv]
    have hc0 : cur' = [] := List.eq_nil_of_length_eq_zero (by omega)
    subst hc0
    obtain ⟨b', e1, e2, e3⟩ := advance_spec hv
      { b with mini := mini', currentIndex := b.currentIndex + 1, remaining := b.remaining - 1 }
      fs k h2 hadv.1 (by simpa using h5)
    rw [e1]
    refine ⟨b', by rw [h6a]; rfl, ?_⟩
    rw [h6b, h7]; simpa using e2
  · rw [if_neg hadv]
    subst h6a
    refine ⟨_, rfl, cur', fs, k, hm2 _ rfl, h2, ?_, ?_, ?_, h6b, h7⟩
    · simp only; intro h0; omega
    · simp only; omega
    · simp only
      rw [show b.remaining - 1 - cur'.length = b.remaining - (cur'.length + 1) by omega]
      exact h5

/-! ### blocks -/

theorem decode_zigzag_header (h rest : List Byte) (x : I64) (hh : IsHeader h (zigzagNat x.toInt)) :
    Leb.zigzagDecode (h ++ rest) = .ok (x, h.length) := by
  rw [Leb.zigzagDecode, Rle.decode_header h rest _ hh]
  simp only [Res.map']
  congr 2
  rw [← Leb.zigzag_toNat, BitVec.ofNat_toNat, BitVec.setWidth_eq]
  exact Leb.zigzag_inv x

theorem future_of_minis (v : Nat) (hv : 0 < v) (minis : List MiniBlock) (r : Nat) (ws widths suf : List Byte)
    (hlen : minis.length = (r + v - 1) / v) (hw : ws.map BitVec.toNat = minis.map MiniBlock.width)
    (hok : ∀ m ∈ minis, m.Ok v) :
    Future v (ws ++ widths) (minis.flatMap MiniBlock.bytes ++ suf) r
      ((minis.flatMap fun m => (List.range v).map (fieldBV 8 m.width m.bytes)).take r)
      (minis.flatMap MiniBlock.bytes).length := by
  induction minis generalizing r ws with
  | nil =>
    have : r = 0 := by
      rcases Nat.eq_zero_or_pos r with h | h
      · exact h
      · have : 0 < (r + v - 1) / v := Nat.div_pos (by omega) hv
        simp at hlen; omega
    subst this
    exact Future.done
  | cons m ms ih =>
    have hr : 0 < r := by
      rcases Nat.eq_zero_or_pos r with h | h
      · subst h; rw [Nat.zero_add, Nat.div_eq_of_lt (by omega)] at hlen; simp at hlen
      · exact h
    cases ws with
    | nil => simp at hw
    | cons w ws =>
      simp only [List.map_cons, List.cons.injEq] at hw
      obtain ⟨hw1, hw2⟩ := hw
      obtain ⟨o1, o2, o3⟩ := hok m (List.mem_cons_self ..)
      have := ih (r - v) ws (by
          simp only [List.length_cons] at hlen
          by_cases hrv : v ≤ r
          · rw [show r + v - 1 = (r - v + v - 1) + v by omega, Nat.add_div_right _ hv] at hlen
            omega
          · rw [show r + v - 1 = (r - 1) + v by omega, Nat.add_div_right _ hv,
              Nat.div_eq_of_lt (by omega)] at hlen
            rw [show r - v = 0 by omega, Nat.div_eq_of_lt (by omega)]; omega) hw2
          (fun m' h => hok m' (List.mem_cons_of_mem _ h))
      rw [← hw1] at o1 o2 o3
      have hs := Future.step (w := w) hr o1 o2 o3 this
      rw [List.flatMap_cons, List.flatMap_cons, List.append_assoc, List.cons_append,
        List.length_append, List.take_append, List.length_map, List.length_range, ← hw1,
        ← List.map_take, List.take_range]
      exact hs

theorem Block.tryNew_spec (M v r : Nat) (hv : 0 < v) (hM : 0 < M) (hr : 0 < r)
    (minDelta : I64) (minis : List MiniBlock)
    (out suf : List Byte) (hlen : minis.length = (min r (M * v) + v - 1) / v)
    (hs : BlockSer M v minDelta minis out) :
    ∃ b, Block.tryNew false (out ++ suf) M v r = .ok b ∧
      BSem v b ((minis.flatMap (MiniBlock.deltas v minDelta)).take (min r (M * v))) out.length := by
  obtain ⟨h, widths, h1, h2, h3, h4, h5, rfl⟩ := hs
  unfold Block.tryNew
  rw [List.append_assoc, List.append_assoc, decode_zigzag_header h _ minDelta h1]
  simp only [Res.ok_bind, List.drop_left]
  rw [if_neg (by rw [List.length_append]; omega), ← h2, List.take_left, List.drop_left]
  have hMv : 0 < M * v := Nat.mul_pos hM hv
  have hF := future_of_minis v hv minis (min r (M * v)) (widths.take minis.length)
    (widths.drop minis.length) suf hlen h4 h5
  rw [List.take_append_drop] at hF
  obtain ⟨b', e1, e2, e3⟩ := advance_spec hv
    { minDelta := minDelta, vpm := v, bitwidths := widths,
      values := minis.flatMap MiniBlock.bytes ++ suf, remaining := min r (widths.length * v),
      currentIndex := 0, mini := none, consumed := h.length + widths.length }
    _ _ rfl (by rw [h2]; simp only; omega) (by rw [h2]; exact hF)
  refine ⟨b', e1, ?_⟩
  rw [List.length_append, List.length_append, h2]
  simp only [h2] at e2
  have e4 : (minis.flatMap (MiniBlock.deltas v minDelta)).take (min r (M * v)) =
      ((minis.flatMap fun m => (List.range v).map (fieldBV 8 m.width m.bytes)).take
        (min r (M * v))).map (minDelta + ·) := by
    rw [List.map_take, List.map_flatMap]
    congr 2
    funext m
    simp only [MiniBlock.deltas, fields, List.map_map]
    apply List.map_congr_left
    intro i _
    rfl
  rw [e4]
  exact e2

theorem deltaBlocks_length {M v r : Nat} {out : List Byte} {ds : List I64}
    (h : DeltaBlocks M v r out ds) (hv : 0 < v) : ds.length = r := by
  induction h with
  | nil => rfl
  | @cons r minDelta minis out rest ds h1 h2 h3 h4 ih =>
    rw [List.length_append, ih, List.length_take, List.length_flatMap]
    have : (minis.map fun a => (MiniBlock.deltas v minDelta a).length).sum = minis.length * v := by
      clear h2 h3
      induction minis with
      | nil => simp
      | cons m ms ih =>
        rw [List.map_cons, List.sum_cons, ih, List.length_cons, Nat.add_mul]
        simp [MiniBlock.deltas, fields]; omega
    rw [this, h2]
    have h5 := Nat.div_add_mod (min r (M * v) + v - 1) v
    have h6 := Nat.mod_lt (min r (M * v) + v - 1) hv
    rw [Nat.mul_comm] at h5
    omega

/-! ### the decoder -/

/-- Meaning of a decoder state: the values `xs` are to come, and `fin` will be reported as
consumed at the end. -/
def DSem (M v : Nat) (d : Decoder) (xs : List I64) (fin : Nat) : Prop :=
  d.numMiniBlocks = M ∧ d.vpm = v ∧ d.valuesRemaining = xs.length ∧
  ∃ ds body suf ds' finb, (xs = [] ∧ ds = [] ∧ ds' = [] ∨ xs = prefixSums d.nextValue (ds ++ ds')) ∧
    (d.currentBlock = none ∧ ds = [] ∧ finb = 0 ∨
      ∃ b, d.currentBlock = some b ∧ BSem v b ds finb) ∧
    (d.currentBlock = none → ds' = []) ∧
    finb ≤ d.values.length ∧ d.values.drop finb = body ++ suf ∧
    DeltaBlocks M v ds'.length body ds' ∧ fin = d.consumed + finb + body.length

theorem prefixSums_length (f : I64) (ds : List I64) : (prefixSums f ds).length = ds.length + 1 := by
  induction ds generalizing f with
  | nil => rfl
  | cons d ds ih => simp [prefixSums, ih]

theorem next_nil {M v : Nat} (ck : Bool) (d : Decoder) (fin : Nat) (h : DSem M v d [] fin) :
    d.next ck = .ok (none, d) ∧ d.consumedBytes = fin := by
  obtain ⟨_, _, h3, ds, body, suf, ds', finb, h4, h5, _, _, _, h8, h9⟩ := h
  have hz : ds = [] ∧ ds' = [] := by
    rcases h4 with ⟨_, a, b⟩ | h4
    · exact ⟨a, b⟩
    · have := congrArg List.length h4; rw [prefixSums_length] at this; simp at this
  obtain ⟨rfl, rfl⟩ := hz
  constructor
  · simp [Decoder.next, h3]
  · have hb : body = [] := deltaBlocks_zero h8 rfl
    subst hb
    unfold Decoder.consumedBytes
    rcases h5 with ⟨a, _, c⟩ | ⟨b, a, c⟩
    · rw [a]; simp; simp at h9; omega
    · rw [a]
      have := (Block.next_nil ck b finb c).2
      simp only; simp at h9; omega

theorem next_cons {M v : Nat} (hv : 0 < v) (hM : 0 < M) (d : Decoder) (x : I64) (xs : List I64) (fin : Nat)
    (h : DSem M v d (x :: xs) fin) :
    ∃ d', d.next false = .ok (some x, d') ∧ DSem M v d' xs fin := by
  obtain ⟨h1, h2, h3, ds, body, suf, ds', finb, h4, h5, h5', h6, h7, h8, h9⟩ := h
  replace h4 : x :: xs = prefixSums d.nextValue (ds ++ ds') := by
    rcases h4 with ⟨a, _⟩ | h4
    · simp at a
    · exact h4
  have hlen : xs.length = (ds ++ ds').length := by
    have := congrArg List.length h4
    rw [prefixSums_length] at this; simpa using this
  simp only [List.length_cons] at h3
  unfold Decoder.next
  rw [if_neg (by omega)]
  simp only
  rw [show d.valuesRemaining - 1 = xs.length by omega]
  cases ds with
  | cons δ ds =>
    simp only [List.cons_append, prefixSums, List.cons.injEq] at h4
    obtain ⟨rfl, rfl⟩ := h4
    rcases h5 with ⟨_, b, _⟩ | ⟨b, hb, hs⟩
    · simp at b
    · obtain ⟨b', e1, e2⟩ := Block.next_cons hv b δ ds finb hs
      rw [if_neg (by rw [prefixSums_length]; omega)]
      simp only [Decoder.loadDelta, hb, e1, Res.ok_bind, Res.pure_eq, addI_false]
      refine ⟨_, rfl, h1, h2, rfl, ds, body, suf, ds', finb, .inr rfl, .inr ⟨b', rfl, e2⟩,
        fun h => by simp at h, h6, h7, h8, h9⟩
  | nil =>
    cases ds' with
    | nil =>
      simp only [List.append_nil, prefixSums, List.cons.injEq] at h4
      obtain ⟨rfl, rfl⟩ := h4
      rw [if_pos List.length_nil]
      exact ⟨_, rfl, h1, h2, rfl, [], body, suf, [], finb, .inl ⟨rfl, rfl, rfl⟩, h5, h5', h6, h7, h8, h9⟩
    | cons δ ds' =>
      simp only [List.nil_append, prefixSums, List.cons.injEq] at h4
      obtain ⟨rfl, rfl⟩ := h4
      rcases h5 with ⟨a, _, _⟩ | ⟨b, hb, hs⟩
      · have := h5' a; simp at this
      · obtain ⟨n1, n2⟩ := Block.next_nil false b finb hs
        rw [if_neg (by rw [prefixSums_length]; omega)]
        simp only [Decoder.loadDelta, hb, n1, Res.ok_bind]
        have hsl : slice d.values b.consumed d.values.length = .ok (body ++ suf) := by
          rw [slice, if_pos ⟨by omega, Nat.le_refl _⟩, n2, h7]
          congr 1
          rw [← h7, List.take_of_length_le (by rw [List.length_drop]; omega)]
        rw [hsl]
        simp only [Res.ok_bind, h1, h2]
        have hL : (prefixSums (d.nextValue + δ) ds').length = (δ :: ds').length := by
          rw [prefixSums_length]; rfl
        rw [hL]
        generalize hD : δ :: ds' = D at h8
        generalize hr : D.length = r at h8
        cases h8 with
        | nil => simp at hD
        | @cons _ minDelta minis out rest ds2 c1 c2 c3 c4 =>
          obtain ⟨nb, t1, t2⟩ := Block.tryNew_spec M v r hv hM c1 minDelta minis out (rest ++ suf) c2 c3
          rw [List.append_assoc, t1]
          simp only [Res.ok_bind]
          generalize hF : (minis.flatMap (MiniBlock.deltas v minDelta)).take (min r (M * v)) = F at *
          cases F with
          | nil =>
            have hl2 := deltaBlocks_length c4 hv
            have hMv : 0 < M * v := Nat.mul_pos hM hv
            rw [List.nil_append] at hr hD
            omega
          | cons f F =>
            simp only [List.cons_append, List.cons.injEq] at hD
            obtain ⟨rfl, rfl⟩ := hD
            obtain ⟨nb', u1, u2⟩ := Block.next_cons hv nb δ F out.length t2
            rw [u1]
            simp only [Res.ok_bind, Res.pure_eq, addI_false]
            refine ⟨_, rfl, rfl, rfl, ?_, F, rest, suf, ds2, out.length, .inr rfl,
              .inr ⟨nb', rfl, u2⟩, fun h => by simp at h, ?_, ?_, ?_, ?_⟩
            · simp only [prefixSums_length, ← hr]; simp
            · simp
            · simp
            · have hl2 := deltaBlocks_length c4 hv
              rw [hl2]; exact c4
            · simp only
              rw [h9, n2, List.length_append]; omega

theorem drain_spec {M v : Nat} (hv : 0 < v) (hM : 0 < M) (xs : List I64) (fuel : Nat)
    (hf : xs.length < fuel) (d : Decoder) (fin : Nat) (h : DSem M v d xs fin) :
    ∃ d', d.drain false fuel = .ok (xs, d') ∧ d'.consumedBytes = fin := by
  induction xs generalizing d fuel with
  | nil =>
    cases fuel with
    | zero => simp at hf
    | succ fuel =>
      obtain ⟨h1, h2⟩ := next_nil false d fin h
      exact ⟨d, by rw [Decoder.drain, h1]; rfl, h2⟩
  | cons x xs ih =>
    cases fuel with
    | zero => simp at hf
    | succ fuel =>
      obtain ⟨d1, h1, h2⟩ := next_cons hv hM d x xs fin h
      obtain ⟨d2, h3, h4⟩ := ih fuel (by simpa using hf) d1 h2
      exact ⟨d2, by rw [Decoder.drain, h1]; simp only [Res.ok_bind, h3]; rfl, h4⟩

/-- The decoder on any legal stream, followed by anything. -/
theorem decode_stream (B M : Nat) (xs : List I64) (out suf : List Byte)
    (h : DeltaStream B M xs out) : decode false (out ++ suf) = .ok (xs, out.length) := by
  obtain ⟨h1, h2, h3, h4, body, first, ds, v, hM, hB, rfl, hv8, hv, i1, i2, i3, i4, rfl, hb, hx⟩ := h
  have hdl := deltaBlocks_length hb hv
  have key : ∃ d, Decoder.tryNew false (h1 ++ h2 ++ h3 ++ h4 ++ body ++ suf) = .ok d ∧
      DSem M v d xs (h1 ++ h2 ++ h3 ++ h4 ++ body).length := by
    unfold Decoder.tryNew
    simp only [List.append_assoc]
    rw [Rle.decode_header h1 _ _ i1]
    simp only [Res.ok_bind, List.drop_left]
    rw [Rle.decode_header h2 _ _ i2]
    simp only [Res.ok_bind, List.drop_left]
    rw [Rle.decode_header h3 _ _ i3]
    simp only [Res.ok_bind, List.drop_left]
    rw [decode_zigzag_header h4 _ _ i4]
    simp only [Res.ok_bind, List.drop_left]
    have e1 : (BitVec.ofNat 64 (M * v)).toNat = M * v := by
      rw [BitVec.toNat_ofNat, Nat.mod_eq_of_lt i1.2.2.2]
    have e2 : (BitVec.ofNat 64 M).toNat = M := by
      rw [BitVec.toNat_ofNat, Nat.mod_eq_of_lt i2.2.2.2]
    have e3 : (BitVec.ofNat 64 xs.length).toNat = xs.length := by
      rw [BitVec.toNat_ofNat, Nat.mod_eq_of_lt i3.2.2.2]
    rw [e1, e2, e3, Nat.mul_div_cancel_left v hM]
    have a1 : Res.assert (M * v % 128 == 0) = .ok () := by simp [Res.assert, hB]
    have a2 : Res.assert (M != 0) = .ok () := by
      have : M ≠ 0 := by omega
      simp [Res.assert, this]
    have a3 : Res.assert (v % 8 == 0) = .ok () := by simp [Res.assert, hv8]
    rw [a1, a2, a3]
    simp only [Res.ok_bind]
    by_cases hl : 1 < xs.length
    · rw [if_pos hl]
      have hx' : xs = prefixSums first ds := by
        rcases hx with ⟨rfl, _⟩ | h
        · simp at hl
        · exact h
      generalize hr : xs.length - 1 = r at *
      cases hb with
      | nil => omega
      | @cons _ minDelta minis out rest ds2 c1 c2 c3 c4 =>
        obtain ⟨nb, t1, t2⟩ := Block.tryNew_spec M v r hv hM c1 minDelta minis out (rest ++ suf) c2 c3
        rw [List.append_assoc, t1]
        refine ⟨_, rfl, rfl, rfl, rfl, _, rest, suf, ds2, out.length, .inr hx', .inr ⟨nb, rfl, t2⟩,
          fun h => by simp at h, by simp, by simp, ?_, ?_⟩
        · rw [deltaBlocks_length c4 hv]; exact c4
        · simp only [List.length_append]; omega
    · rw [if_neg hl]
      rw [show xs.length - 1 = 0 by omega] at hb hdl
      have hds : ds = [] := List.eq_nil_of_length_eq_zero hdl
      subst hds
      have hbd : body = [] := deltaBlocks_zero hb rfl
      subst hbd
      refine ⟨_, rfl, rfl, rfl, rfl, [], [], suf, [], 0, ?_, .inl ⟨rfl, rfl, rfl⟩, fun _ => rfl,
        by simp, by simp, .nil, ?_⟩
      · rcases hx with ⟨a, b⟩ | h
        · exact .inl ⟨a, rfl, rfl⟩
        · exact .inr h
      · simp only [List.length_append, List.length_nil]; omega
  obtain ⟨d, k1, k2⟩ := key
  have hvr : d.valuesRemaining = xs.length := k2.2.2.1
  obtain ⟨d', r1, r2⟩ := drain_spec hv hM xs (d.valuesRemaining + 1) (by omega) d _ k2
  unfold decode
  rw [k1]
  simp only [Res.ok_bind, r1, Res.pure_eq, r2]

end Pq.Delta
