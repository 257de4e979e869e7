import Verif.Lemmas.DeltaTrunc
/- Helper lemmas: what the delta decoder accepts is a legal stream. -/
namespace Pq.Delta
open Pq.Spec Pq.Bitpack

/-! ### miniblocks -/

theorem decodePack_wide (packed : List Byte) (n : Nat) (hn : 64 < n) :
    Bitpack.decodePack 8 packed n = .panic := by
  unfold Bitpack.decodePack Bitpack.unpack
  split
  · split
    · rfl
    · rfl
  · rfl

theorem bitpack_tryNew_wide (packed : List Byte) (n len : Nat) (hn : 64 < n) (hp : packed ≠ [])
    (d : Bitpack.Decoder 8) : Bitpack.Decoder.tryNew 8 packed n len ≠ .ok d := by
  unfold Bitpack.Decoder.tryNew
  simp only
  rw [if_neg (by omega)]
  rw [if_neg hp, decodePack_wide _ _ hn]
  split <;> simp

/-- The state of a block between two items; `cur` are the values still to be read from the
current miniblock. -/
def Good (v : Nat) (b : Block) (cur : List I64) : Prop :=
  CurPend b cur ∧ b.vpm = v ∧ (0 < b.remaining → b.currentIndex < v) ∧
    cur.length = min b.remaining (v - b.currentIndex)

/-- `BSem` for given values of the current miniblock. -/
def BSemC (v : Nat) (b : Block) (cur ds : List I64) (fin : Nat) : Prop :=
  ∃ fs k, Future v b.bitwidths b.values (b.remaining - cur.length) fs k ∧
    ds = (cur ++ fs).map (b.minDelta + ·) ∧ fin = b.consumed + k

theorem advance_inv {v : Nat} (hv : 0 < v) (hv8 : v % 8 = 0) (hmax : v * 255 < 2 ^ 64) (b b' : Block)
    (h : b.advance false = .ok b') (hvpm : b.vpm = v) (hr : 0 < b.remaining) :
    b'.remaining = b.remaining ∧
    b'.consumed + b'.values.length = b.consumed + b.values.length ∧
    ∃ cur, Good v b' cur ∧ ∀ ds fin, BSemC v b' cur ds fin →
      ∃ fs k, Future v b.bitwidths b.values b.remaining fs k ∧
        ds = fs.map (b.minDelta + ·) ∧ fin = b.consumed + k := by
  obtain ⟨minDelta, vpm, bws, vals, rem, ci, mini, cons⟩ := b
  simp only at hvpm hr
  subst hvpm
  unfold Block.advance at h
  simp only at h
  cases bws with
  | nil => simp at h
  | cons w ws =>
    simp only at h
    have hwm : vpm * w.toNat < 2 ^ 64 :=
      Nat.lt_of_le_of_lt (Nat.mul_le_mul_left vpm (by have := w.isLt; omega)) hmax
    have hcl : 8 * ceil8 (vpm * w.toNat) = vpm * w.toNat := by
      rw [Rle.ceil8_eq]
      obtain ⟨u, rfl⟩ : ∃ u, vpm = 8 * u := ⟨vpm / 8, by omega⟩
      rw [Nat.mul_assoc]; omega
    split at h
    · rename_i hw
      rw [if_neg (by simp), Nat.mod_eq_of_lt hwm] at h
      split at h
      · simp at h
      · rename_i hl
        have hmp : 0 < ceil8 (vpm * w.toNat) := by
          have := Nat.mul_pos hv hw; omega
        have hne : vals.take (ceil8 (vpm * w.toNat)) ≠ [] := by
          intro he
          have := congrArg List.length he
          rw [List.length_take, List.length_nil] at this; omega
        have hw64 : w.toNat ≤ 64 := by
          by_cases hw64 : w.toNat ≤ 64
          · exact hw64
          · exfalso
            split at h
            · rename_i d hd
              exact bitpack_tryNew_wide _ _ _ (by omega) hne d hd
            · simp at h
        have hlt : (vals.take (ceil8 (vpm * w.toNat))).length = ceil8 (vpm * w.toNat) := by
          rw [List.length_take]; omega
        obtain ⟨d, hd1, hd2, hd3, hd4⟩ := tryNew_inv 8 w.toNat (min rem vpm) (by simp) hw hw64
          (vals.take (ceil8 (vpm * w.toNat)))
          (by rw [hlt, hcl]; exact Nat.mul_le_mul_right _ (by omega))
        rw [hd1] at h
        simp only [Res.ok.injEq] at h
        subst h
        refine ⟨rfl, by simp only [List.length_drop]; omega,
          (List.range (min rem vpm)).map (fieldBV 8 w.toNat (vals.take (ceil8 (vpm * w.toNat)))),
          ⟨?_, rfl, fun _ => hv, by simp⟩, ?_⟩
        · right
          refine ⟨d, _, w.toNat, rfl, hd2, hw, hw64, by simp [hd3], ?_⟩
          rw [hd3, hd4]; simp
        · rintro ds fin ⟨fs, k, g1, g2, g3⟩
          simp only [List.length_map, List.length_range] at g1 g2 g3
          rw [show rem - min rem vpm = rem - vpm by omega] at g1
          have := Future.step (w := w) hr hw64 (by rw [hlt, hcl]) hwm g1
          rw [List.take_append_drop, hlt] at this
          exact ⟨_, _, this, g2, by simp only; omega⟩
    · rename_i hw
      have hw0 : w.toNat = 0 := by omega
      simp only [Res.ok.injEq] at h
      subst h
      refine ⟨rfl, rfl, (List.range (min rem vpm)).map (fieldBV 8 w.toNat []),
        ⟨?_, rfl, fun _ => hv, by simp⟩, ?_⟩
      · left
        refine ⟨rfl, ?_⟩
        apply List.ext_getElem
        · simp
        · intro i _ _
          simp only [List.getElem_replicate, List.getElem_map, hw0, fieldBV_zero]
      · rintro ds fin ⟨fs, k, g1, g2, g3⟩
        simp only [List.length_map, List.length_range] at g1 g2 g3
        rw [show rem - min rem vpm = rem - vpm by omega] at g1
        have := Future.step (w := w) (bs := []) hr (by omega) (by simp [hw0]) hwm g1
        exact ⟨_, _, this, g2, by simp only [List.length_nil]; omega⟩

theorem next_inv_none {b b' : Block} {ck : Bool} (h : b.next ck = .ok (none, b')) :
    b' = b ∧ b.remaining = 0 := by
  unfold Block.next at h
  split at h
  · rename_i h0
    simp only [Res.ok.injEq, Prod.mk.injEq, true_and] at h
    exact ⟨h.symm, h0⟩
  · rw [Res.bind_eq_ok] at h
    obtain ⟨⟨x, mini⟩, _, h⟩ := h
    rw [Res.bind_eq_ok] at h
    obtain ⟨r, _, h⟩ := h
    simp only at h
    split at h
    · generalize Block.advance ck _ = a at h
      cases a <;> simp [Res.map'] at h
    · simp at h

theorem next_inv {v : Nat} (hv : 0 < v) (hv8 : v % 8 = 0) (hmax : v * 255 < 2 ^ 64) (b b' : Block)
    (δ : I64) (cur : List I64) (hg : Good v b cur) (h : b.next false = .ok (some δ, b')) :
    0 < b.remaining ∧ b'.remaining = b.remaining - 1 ∧
    b'.consumed + b'.values.length = b.consumed + b.values.length ∧
    ∃ cur', Good v b' cur' ∧ ∀ ds fin, BSemC v b' cur' ds fin → BSemC v b cur (δ :: ds) fin := by
  obtain ⟨h1, h2, h3, h4⟩ := hg
  unfold Block.next at h
  split at h
  · simp at h
  · rename_i hr
    have hr' : 0 < b.remaining := by omega
    have hci := h3 hr'
    have hcl : 0 < cur.length := by omega
    obtain ⟨c, cur', rfl⟩ : ∃ c cur', cur = c :: cur' := by
      cases cur with
      | nil => simp at hcl
      | cons c cur' => exact ⟨c, cur', rfl⟩
    simp only [List.length_cons] at h4 hcl
    obtain ⟨mini', hm1, hm2⟩ : ∃ mini',
        miniNext b.mini = .ok (c, mini') ∧
        ∀ b' : Block, b'.mini = mini' → CurPend b' cur' := by
      rcases h1 with ⟨g1, g2⟩ | ⟨d, q, w, g1, g2, g3, g4, g5, g6⟩
      · simp only [List.length_cons, List.replicate_succ, List.cons.injEq] at g2
        refine ⟨none, ?_, fun b' hb' => .inl ⟨hb', g2.2⟩⟩
        rw [g1, g2.1]; rfl
      · obtain ⟨d', q', n1, n2, n3, n4⟩ := next_spec w (by simp) g3 g4 d q g2
          (by rw [g5]; simp)
        refine ⟨some d', ?_, fun b' hb' => .inr ⟨d', q', w, hb', n2, g3, g4, ?_, ?_⟩⟩
        · rw [g1]
          simp only [miniNext, n1, Res.map']
          rw [g5, List.length_cons, List.range_succ_eq_map, List.map_cons, List.cons.injEq] at g6
          rw [g6.1]; rfl
        · rw [n3, g5]; simp
        · rw [g5, List.length_cons, List.range_succ_eq_map, List.map_cons, List.cons.injEq] at g6
          have g7 : cur' = _ := g6.2
          have g8 : d'.remaining = cur'.length := by rw [n3, g5]; simp
          rw [g8, g7, List.length_map, List.length_map, List.length_range, List.map_map]
          apply List.map_congr_left
          intro i _
          simp only [Function.comp_apply, n4]
          congr 1; omega
    rw [hm1] at h
    simp only [Res.ok_bind, addI_false] at h
    split at h
    · rename_i hadv
      have hc0 : cur' = [] := List.eq_nil_of_length_eq_zero (by omega)
      subst hc0
      generalize ha : Block.advance false
        { b with mini := mini', currentIndex := b.currentIndex + 1, remaining := b.remaining - 1 } = a at h
      cases a with
      | err e => simp [Res.map'] at h
      | panic => simp [Res.map'] at h
      | ok b1 =>
        simp only [Res.map', Res.ok.injEq, Prod.mk.injEq, Option.some.injEq] at h
        obtain ⟨rfl, rfl⟩ := h
        obtain ⟨k1, k2, cur1, k3, k4⟩ := advance_inv hv hv8 hmax _ b1 ha h2 hadv.1
        refine ⟨hr', k1, k2, cur1, k3, ?_⟩
        intro ds fin hs
        obtain ⟨fs, k, m1, m2, m3⟩ := k4 ds fin hs
        exact ⟨fs, k, m1, by rw [m2]; rfl, m3⟩
    · rename_i hadv
      simp only [Res.ok.injEq, Prod.mk.injEq, Option.some.injEq] at h
      obtain ⟨rfl, rfl⟩ := h
      refine ⟨hr', rfl, rfl, cur', ⟨hm2 _ rfl, h2, ?_, ?_⟩, ?_⟩
      · simp only; intro h0; omega
      · simp only; omega
      · rintro ds fin ⟨fs, k, m1, m2, m3⟩
        simp only at m1 m2 m3
        refine ⟨fs, k, ?_, by rw [m2]; rfl, m3⟩
        rw [List.length_cons, show b.remaining - (cur'.length + 1) = b.remaining - 1 - cur'.length by omega]
        exact m1

/-! ### blocks -/

theorem varintPrefix_complete (vs : List Byte) (h : (varintPrefix vs).length < vs.length) :
    IsVarint (varintPrefix vs) := by
  induction vs with
  | nil => simp at h
  | cons b bs ih =>
    simp only [varintPrefix] at h ⊢
    split
    · assumption
    · rename_i hb
      rw [if_neg hb] at h
      have h1 := ih (by simpa using h)
      cases hp : varintPrefix bs with
      | nil => rw [hp] at h1; exact absurd h1 id
      | cons c cs =>
        rw [hp] at h1
        exact ⟨by omega, h1⟩

theorem zigzag_surj (u : BitVec 64) :
    zigzagNat (((u >>> 1) ^^^ (-(u &&& 1#64))).toInt) = u.toNat := by
  rw [← Leb.zigzag_toNat, Leb.zigzag_toNat', Leb.unzigzag_toNat]
  have := u.isLt
  split <;> split <;> omega

theorem zigzag_inv' (vs : List Byte) (x : I64) (k : Nat) (h : Leb.zigzagDecode vs = .ok (x, k))
    (hk : k < vs.length) : IsHeader (vs.take k) (zigzagNat x.toInt) := by
  unfold Leb.zigzagDecode at h
  rw [Leb.decode_any] at h
  split at h
  · simp [Res.map'] at h
  · rename_i ho
    simp only [Res.map', Res.ok.injEq, Prod.mk.injEq] at h
    obtain ⟨rfl, rfl⟩ := h
    have h1 := varintPrefix_complete vs hk
    have h2 : vs.take (varintPrefix vs).length = varintPrefix vs := by
      have := (Leb.varintPrefix_isPrefix vs)
      exact (List.prefix_iff_eq_take.1 this).symm
    have h3 := Leb.base128_lt_of_not_overlong 9 vs ho
    rw [h2, zigzag_surj, BitVec.toNat_ofNat, Nat.mod_eq_of_lt h3]
    exact ⟨h1, Leb.varintPrefix_length_of_not_overlong 9 vs ho, rfl, h3⟩

/-- The converse of `future_of_minis`. -/
theorem minis_of_future {v : Nat} (hv : 0 < v) {ws vs : List Byte} {rem k : Nat} {fs : List I64}
    (h : Future v ws vs rem fs k) :
    ∃ minis : List MiniBlock, minis.length = (rem + v - 1) / v ∧ minis.length ≤ ws.length ∧
      (ws.take minis.length).map BitVec.toNat = minis.map MiniBlock.width ∧
      (∀ m ∈ minis, m.Ok v) ∧ (minis.flatMap MiniBlock.bytes).length = k ∧
      minis.flatMap MiniBlock.bytes <+: vs ∧
      fs = (minis.flatMap fun m => (List.range v).map (fieldBV 8 m.width m.bytes)).take rem := by
  induction h with
  | done =>
    refine ⟨[], ?_, by simp, by simp, by simp, by simp, by simp, by simp⟩
    rw [Nat.zero_add, Nat.div_eq_of_lt (by omega)]; rfl
  | @step w ws bs vs rem fs k h1 h2 h3 h4 hF ih =>
    obtain ⟨minis, i1, i2, i3, i4, i5, i6, i7⟩ := ih
    refine ⟨⟨w.toNat, bs⟩ :: minis, ?_, by simp only [List.length_cons]; omega, ?_, ?_, ?_, ?_, ?_⟩
    · rw [List.length_cons, i1]
      by_cases hrv : v ≤ rem
      · rw [show rem + v - 1 = (rem - v + v - 1) + v by omega, Nat.add_div_right _ hv]
      · rw [show rem + v - 1 = (rem - 1) + v by omega, Nat.add_div_right _ hv,
          Nat.div_eq_of_lt (by omega : rem - 1 < v), show rem - v = 0 by omega,
          Nat.div_eq_of_lt (by omega)]
    · simp only [List.length_cons, List.take_succ_cons, List.map_cons, i3]
    · intro m hm
      rcases List.mem_cons.1 hm with rfl | hm
      · exact ⟨h2, h3, h4⟩
      · exact i4 m hm
    · rw [List.flatMap_cons, List.length_append, i5]
    · rw [List.flatMap_cons]
      exact List.prefix_append_right_inj _ |>.2 i6
    · rw [List.flatMap_cons, List.take_append, List.length_map, List.length_range, ← i7,
        ← List.map_take, List.take_range]

theorem Block.tryNew_inv {M v r : Nat} (hv : 0 < v) (hM : 0 < M) (hv8 : v % 8 = 0)
    (hmax : v * 255 < 2 ^ 64) (hr : 0 < r) (vs : List Byte) (b : Block)
    (h : Block.tryNew false vs M v r = .ok b) :
    b.remaining = min r (M * v) ∧ b.consumed + b.values.length = vs.length ∧
    ∃ cur, Good v b cur ∧ ∀ ds fin, BSemC v b cur ds fin →
      ∃ (minDelta : I64) (minis : List MiniBlock) (out rest : List Byte),
        vs = out ++ rest ∧ out.length = fin ∧
        minis.length = (min r (M * v) + v - 1) / v ∧ BlockSer M v minDelta minis out ∧
        ds = (minis.flatMap (MiniBlock.deltas v minDelta)).take (min r (M * v)) := by
  unfold Block.tryNew at h
  rw [Res.bind_eq_ok] at h
  obtain ⟨⟨minDelta, k⟩, h1, h⟩ := h
  simp only at h
  split at h
  · simp at h
  · rename_i hl
    rw [List.length_drop] at hl
    have hMv : 0 < M * v := Nat.mul_pos hM hv
    have hk : k < vs.length := by omega
    have hh := zigzag_inv' vs minDelta k h1 hk
    obtain ⟨a1, a2, cur, a3, a4⟩ := advance_inv hv hv8 hmax _ b h rfl (by simp only; omega)
    simp only at a1 a2 a3 a4
    refine ⟨a1, by rw [a2, List.length_drop, List.length_drop]; omega, cur, a3, ?_⟩
    intro ds fin hs
    obtain ⟨fs, j, b1, b2, b3⟩ := a4 ds fin hs
    obtain ⟨minis, c1, c2, c3, c4, c5, c6, c7⟩ := minis_of_future hv b1
    obtain ⟨rest, hrest⟩ := c6
    have hw : ((vs.drop k).take M).length = M := by
      rw [List.length_take, List.length_drop]; omega
    refine ⟨minDelta, minis, vs.take k ++ (vs.drop k).take M ++ minis.flatMap MiniBlock.bytes, rest,
      ?_, ?_, c1, ⟨vs.take k, (vs.drop k).take M, hh, hw, by omega, c3, c4, rfl⟩, ?_⟩
    · rw [List.append_assoc, hrest, List.append_assoc, List.take_append_drop, List.take_append_drop]
    · rw [List.length_append, List.length_append, hw, c5, List.length_take]; omega
    · rw [b2, c7, List.map_take, List.map_flatMap]
      congr 2
      funext m
      simp only [MiniBlock.deltas, fields, List.map_map]
      apply List.map_congr_left
      intro i _
      rfl

/-! ### the decoder -/

/-- The state of a decoder between two items. -/
def DGood (M v : Nat) (d : Decoder) (cur : List I64) : Prop :=
  d.numMiniBlocks = M ∧ d.vpm = v ∧
  (d.currentBlock = none ∧ d.valuesRemaining ≤ 1 ∨
    ∃ b, d.currentBlock = some b ∧ Good v b cur ∧ b.remaining ≤ d.valuesRemaining - 1 ∧
      b.consumed + b.values.length = d.values.length)

/-- `DSem` for given values of the current miniblock. -/
def DSemC (M v : Nat) (d : Decoder) (cur xs : List I64) (fin : Nat) : Prop :=
  d.valuesRemaining = xs.length ∧
  ∃ ds body suf ds' finb, (xs = [] ∧ ds = [] ∧ ds' = [] ∨ xs = prefixSums d.nextValue (ds ++ ds')) ∧
    (d.currentBlock = none ∧ ds = [] ∧ finb = 0 ∧ ds' = [] ∨
      ∃ b, d.currentBlock = some b ∧ BSemC v b cur ds finb) ∧
    finb ≤ d.values.length ∧ d.values.drop finb = body ++ suf ∧
    DeltaBlocks M v ds'.length body ds' ∧ fin = d.consumed + finb + body.length

theorem Good.empty {v : Nat} {b : Block} {cur : List I64} (h : Good v b cur) (hr : b.remaining = 0) :
    cur = [] := by
  obtain ⟨_, _, _, h4⟩ := h
  exact List.eq_nil_of_length_eq_zero (by omega)

theorem BSemC.empty {v : Nat} {b : Block} {cur : List I64} (h : Good v b cur)
    (hr : b.remaining = 0) : BSemC v b cur [] b.consumed := by
  rw [h.empty hr]
  exact ⟨[], 0, by rw [hr]; exact .done, rfl, rfl⟩

theorem BSemC.length {v : Nat} {b : Block} {cur ds : List I64} {fin : Nat} (hg : Good v b cur)
    (h : BSemC v b cur ds fin) : ds.length = b.remaining := by
  obtain ⟨fs, k, h1, rfl, _⟩ := h
  have := h1.length
  have := hg.2.2.2
  simp [h1.length]; omega

theorem DSemC.nil {M v : Nat} (d : Decoder) (cur : List I64) (hg : DGood M v d cur)
    (hr : d.valuesRemaining = 0) : DSemC M v d cur [] d.consumedBytes := by
  obtain ⟨_, _, h⟩ := hg
  rcases h with ⟨h1, _⟩ | ⟨b, h1, h2, h3, h4⟩
  · refine ⟨hr, [], [], d.values, [], 0, .inl ⟨rfl, rfl, rfl⟩, .inl ⟨h1, rfl, rfl, rfl⟩, by simp,
      by simp, .nil, ?_⟩
    simp [Decoder.consumedBytes, h1]
  · refine ⟨hr, [], [], d.values.drop b.consumed, [], b.consumed, .inl ⟨rfl, rfl, rfl⟩,
      .inr ⟨b, h1, BSemC.empty h2 (by omega)⟩, by omega, by simp, .nil, ?_⟩
    simp [Decoder.consumedBytes, h1]

theorem decoder_next_inv {M v : Nat} (hv : 0 < v) (hM : 0 < M) (hv8 : v % 8 = 0)
    (hmax : v * 255 < 2 ^ 64) (d d' : Decoder) (x : I64)
    (cur : List I64) (hg : DGood M v d cur) (h : d.next false = .ok (some x, d')) :
    ∃ cur', DGood M v d' cur' ∧ ∀ xs fin, DSemC M v d' cur' xs fin → DSemC M v d cur (x :: xs) fin := by
  obtain ⟨g1, g2, g3⟩ := hg
  unfold Decoder.next at h
  split at h
  · simp at h
  · rename_i hr
    simp only at h
    split at h
    · rename_i hr1
      simp only [Res.ok.injEq, Prod.mk.injEq, Option.some.injEq] at h
      obtain ⟨rfl, rfl⟩ := h
      refine ⟨cur, ⟨g1, g2, ?_⟩, ?_⟩
      · rcases g3 with ⟨h1, _⟩ | ⟨b, h1, h2, h3, h4⟩
        · exact .inl ⟨h1, by simp only; omega⟩
        · exact .inr ⟨b, h1, h2, by simp only; omega, h4⟩
      · rintro xs fin ⟨h1, ds, body, suf, ds', finb, h2, h3, h4, h5, h6, h7⟩
        simp only at h1 h2 h3 h4 h5 h7
        have hx : xs = [] := List.eq_nil_of_length_eq_zero (by omega)
        subst hx
        have hz : ds = [] ∧ ds' = [] := by
          rcases h2 with ⟨_, a, b⟩ | h2
          · exact ⟨a, b⟩
          · have := congrArg List.length h2; rw [prefixSums_length] at this; simp at this
        obtain ⟨rfl, rfl⟩ := hz
        refine ⟨by simp only [List.length_cons, List.length_nil]; omega, [], body, suf, [], finb,
          .inr rfl, h3, h4, h5, h6, h7⟩
    · rename_i hr1
      rw [Res.bind_eq_ok] at h
      obtain ⟨⟨δ, d1⟩, hl, h⟩ := h
      simp only [addI_false, Res.ok_bind, Res.pure_eq, Res.ok.injEq, Prod.mk.injEq,
        Option.some.injEq] at h
      obtain ⟨rfl, rfl⟩ := h
      rcases g3 with ⟨_, h2⟩ | ⟨b, hb, hgb, hbr, hbl⟩
      · omega
      · unfold Decoder.loadDelta at hl
        simp only [hb] at hl
        rw [Res.bind_eq_ok] at hl
        obtain ⟨⟨o, b1⟩, hn, hl⟩ := hl
        cases o with
        | some y =>
          simp only [Res.pure_eq, Res.ok.injEq, Prod.mk.injEq] at hl
          obtain ⟨rfl, rfl⟩ := hl
          obtain ⟨n1, n2, n3, cur', n4, n5⟩ := next_inv hv hv8 hmax b b1 y cur hgb hn
          refine ⟨cur', ⟨g1, g2, .inr ⟨b1, rfl, n4, by simp only; omega, by simp only; omega⟩⟩, ?_⟩
          rintro xs fin ⟨h1, ds, body, suf, ds', finb, h2, h3, h4, h5, h6, h7⟩
          simp only at h1 h2 h3 h4 h5 h7
          rcases h3 with ⟨h3, _⟩ | ⟨b2, h3, h3'⟩
          · simp at h3
          · simp only [Option.some.injEq] at h3
            subst h3
            have h2' : xs = prefixSums (d.nextValue + y) (ds ++ ds') := by
              rcases h2 with ⟨rfl, _⟩ | h2
              · simp at h1; omega
              · exact h2
            refine ⟨by simp only [List.length_cons]; omega, y :: ds, body, suf, ds', finb,
              .inr ?_, .inr ⟨b, hb, n5 _ _ h3'⟩, h4, h5, h6, h7⟩
            rw [List.cons_append, prefixSums, ← h2']
        | none =>
          obtain ⟨rfl, hb0⟩ := next_inv_none hn
          simp only at hl
          rw [Res.bind_eq_ok] at hl
          obtain ⟨values, hs, hl⟩ := hl
          have hval : values = d.values.drop b1.consumed := by
            rw [slice] at hs
            split at hs
            · rw [List.take_of_length_le (by rw [List.length_drop]; omega)] at hs
              simpa using hs.symm
            · simp at hs
          rw [Res.bind_eq_ok] at hl
          obtain ⟨nb, ht, hl⟩ := hl
          rw [Res.bind_eq_ok] at hl
          obtain ⟨⟨o, nb1⟩, hn2, hl⟩ := hl
          cases o with
          | none => simp at hl
          | some y =>
            simp only [Res.pure_eq, Res.ok.injEq, Prod.mk.injEq] at hl
            obtain ⟨rfl, rfl⟩ := hl
            rw [g1, g2] at ht
            obtain ⟨t1, t2, cur1, t3, t4⟩ := Block.tryNew_inv hv hM hv8 hmax (by omega) values nb ht
            obtain ⟨n1, n2, n3, cur', n4, n5⟩ := next_inv hv hv8 hmax nb nb1 y cur1 t3 hn2
            refine ⟨cur', ⟨g1, g2, .inr ⟨nb1, rfl, n4, by simp only; omega, by simp only; omega⟩⟩, ?_⟩
            rintro xs fin ⟨h1, ds, body, suf, ds', finb, h2, h3, h4, h5, h6, h7⟩
            simp only at h1 h2 h3 h4 h5 h7
            rcases h3 with ⟨h3, _⟩ | ⟨b2, h3, h3'⟩
            · simp at h3
            · simp only [Option.some.injEq] at h3
              subst h3
              have h2' : xs = prefixSums (d.nextValue + y) (ds ++ ds') := by
                rcases h2 with ⟨rfl, _⟩ | h2
                · simp at h1; omega
                · exact h2
              have hsem := n5 _ _ h3'
              have hlen := hsem.length t3
              simp only [List.length_cons] at hlen
              obtain ⟨minDelta, minis, out, rest, u1, u2, u3, u4, u5⟩ := t4 _ _ hsem
              have hxl : xs.length = ds.length + ds'.length + 1 := by
                rw [h2', prefixSums_length, List.length_append]
              have hrest : rest = body ++ suf := by
                rw [← h5, u1, ← u2, List.drop_left]
              have hDB : DeltaBlocks M v (d.valuesRemaining - 1) (out ++ body) ((y :: ds) ++ ds') := by
                rw [u5]
                refine DeltaBlocks.cons (by omega) u3 u4 ?_
                have : d.valuesRemaining - 1 - min (d.valuesRemaining - 1) (M * v) = ds'.length := by
                  omega
                rw [this]; exact h6
              refine ⟨by simp only [List.length_cons]; omega, [], out ++ body, suf, y :: ds ++ ds',
                b1.consumed, .inr ?_, .inr ⟨b1, hb, BSemC.empty hgb hb0⟩, by omega, ?_, ?_, ?_⟩
              · rw [List.nil_append, List.cons_append, prefixSums, ← h2']
              · rw [← hval, u1, hrest, List.append_assoc]
              · have : (y :: ds ++ ds').length = d.valuesRemaining - 1 := by
                  simp only [List.cons_append, List.length_cons, List.length_append]; omega
                rw [this]; exact hDB
              · rw [h7, List.length_append, u2]; omega

theorem drain_inv {M v : Nat} (hv : 0 < v) (hM : 0 < M) (hv8 : v % 8 = 0)
    (hmax : v * 255 < 2 ^ 64) (fuel : Nat) (d d' : Decoder) (xs : List I64)
    (cur : List I64) (hg : DGood M v d cur) (h : d.drain false fuel = .ok (xs, d')) :
    DSemC M v d cur xs d'.consumedBytes := by
  induction fuel generalizing d xs cur with
  | zero => simp [Decoder.drain] at h
  | succ fuel ih =>
    rw [Decoder.drain, Res.bind_eq_ok] at h
    obtain ⟨⟨o, d1⟩, h1, h⟩ := h
    cases o with
    | none =>
      simp only [Res.pure_eq, Res.ok.injEq, Prod.mk.injEq] at h
      obtain ⟨rfl, rfl⟩ := h
      obtain ⟨rfl, h2⟩ := next_none _ _ _ h1
      exact DSemC.nil _ cur hg h2
    | some x =>
      simp only at h
      rw [Res.bind_eq_ok] at h
      obtain ⟨⟨ys, d2⟩, h2, h⟩ := h
      simp only [Res.pure_eq, Res.ok.injEq, Prod.mk.injEq] at h
      obtain ⟨rfl, rfl⟩ := h
      obtain ⟨cur', k1, k2⟩ := decoder_next_inv hv hM hv8 hmax d d1 x cur hg h1
      exact k2 _ _ (ih d1 ys cur' k1 h2)

/-- What the decoder accepts after a complete header is a legal stream, followed by anything. -/
theorem decode_sound (hdr body : List Byte) (B M c v : Nat) (first : BitVec 64)
    (h : DeltaHeader B M c first hdr) (hM : 0 < M) (hB : B % 128 = 0) (hBv : B = M * v)
    (hv : 0 < v) (hv8 : v % 8 = 0) (hmax : B < 2 ^ 56) (xs : List I64) (n : Nat)
    (hd : decode false (hdr ++ body) = .ok (xs, n)) :
    xs.length = c ∧ ∃ used rest, body = used ++ rest ∧ n = (hdr ++ used).length ∧
      DeltaStream B M xs (hdr ++ used) := by
  obtain ⟨h1, h2, h3, h4, i1, i2, i3, i4, rfl⟩ := h
  obtain ⟨d, d', p1, p2, rfl⟩ := decode_parts _ _ _ _ hd
  have hvB : v ≤ B := by rw [hBv]; exact Nat.le_mul_of_pos_left v hM
  have hmax' : v * 255 < 2 ^ 64 := by omega
  unfold Decoder.tryNew at p1
  simp only [List.append_assoc] at p1
  rw [Rle.decode_header h1 _ _ i1] at p1
  simp only [Res.ok_bind, List.drop_left] at p1
  rw [Rle.decode_header h2 _ _ i2] at p1
  simp only [Res.ok_bind, List.drop_left] at p1
  rw [Rle.decode_header h3 _ _ i3] at p1
  simp only [Res.ok_bind, List.drop_left] at p1
  rw [decode_zigzag_header h4 _ _ i4] at p1
  simp only [Res.ok_bind, List.drop_left] at p1
  have e1 : (BitVec.ofNat 64 B).toNat = B := by
    rw [BitVec.toNat_ofNat, Nat.mod_eq_of_lt i1.2.2.2]
  have e2 : (BitVec.ofNat 64 M).toNat = M := by
    rw [BitVec.toNat_ofNat, Nat.mod_eq_of_lt i2.2.2.2]
  have e3 : (BitVec.ofNat 64 c).toNat = c := by
    rw [BitVec.toNat_ofNat, Nat.mod_eq_of_lt i3.2.2.2]
  have e4 : B / M = v := by rw [hBv, Nat.mul_div_cancel_left v hM]
  rw [e1, e2, e3, e4] at p1
  have a1 : Res.assert (B % 128 == 0) = .ok () := by simp [Res.assert, hB]
  have a2 : Res.assert (M != 0) = .ok () := by
    have : M ≠ 0 := by omega
    simp [Res.assert, this]
  have a3 : Res.assert (v % 8 == 0) = .ok () := by simp [Res.assert, hv8]
  rw [a1, a2, a3] at p1
  simp only [Res.ok_bind] at p1
  have fin : ∀ used rest ds, body = used ++ rest → DeltaBlocks M v (c - 1) used ds → xs.length = c →
      (xs = [] ∧ ds = [] ∨ xs = prefixSums first ds) →
      d'.consumedBytes = (h1 ++ h2 ++ h3 ++ h4 ++ used).length →
      xs.length = c ∧ ∃ used rest, body = used ++ rest ∧
        d'.consumedBytes = (h1 ++ h2 ++ h3 ++ h4 ++ used).length ∧
        DeltaStream B M xs (h1 ++ h2 ++ h3 ++ h4 ++ used) := by
    intro used rest ds f1 f2 f3 f4 f5
    refine ⟨f3, used, rest, f1, f5, h1, h2, h3, h4, used, first, ds, v, hM, hB, hBv, hv8, hv, i1, i2,
      by rw [f3]; exact i3, i4, rfl, by rw [f3]; exact f2, f4⟩
  by_cases hc : 1 < c
  · rw [if_pos hc] at p1
    rw [Res.bind_eq_ok] at p1
    obtain ⟨ob, q1, q2⟩ := p1
    simp only [Res.pure_eq, Res.ok.injEq] at q2
    generalize hbt : Block.tryNew false body M v (c - 1) = bt at q1
    cases bt with
    | err e => simp [Res.map'] at q1
    | panic => simp [Res.map'] at q1
    | ok b =>
      simp only [Res.map', Res.ok.injEq] at q1
      subst q1 q2
      obtain ⟨t1, t2, cur, t3, t4⟩ := Block.tryNew_inv hv hM hv8 hmax' (by omega) body b hbt
      obtain ⟨k1, ds, body1, suf, ds', finb, k2, k3, k4, k5, k6, k7⟩ :=
        drain_inv hv hM hv8 hmax' _ _ _ _ cur ⟨rfl, rfl, .inr ⟨b, rfl, t3, by simp only; omega, t2⟩⟩ p2
      simp only at k1 k2 k3 k4 k5 k7
      rcases k3 with ⟨k3, _⟩ | ⟨b2, k3, k3'⟩
      · simp at k3
      · simp only [Option.some.injEq] at k3
        subst k3
        have hlen := k3'.length t3
        obtain ⟨minDelta, minis, out, rest, u1, u2, u3, u4, u5⟩ := t4 _ _ k3'
        have k2' : xs = prefixSums first (ds ++ ds') := by
          rcases k2 with ⟨rfl, _⟩ | k2
          · simp at k1; omega
          · exact k2
        have hxl : xs.length = ds.length + ds'.length + 1 := by
          rw [k2', prefixSums_length, List.length_append]
        have hrest : rest = body1 ++ suf := by
          rw [← k5, u1, ← u2, List.drop_left]
        refine fin (out ++ body1) suf (ds ++ ds') (by rw [u1, hrest, List.append_assoc]) ?_ k1.symm
          (.inr k2') ?_
        · rw [u5]
          refine DeltaBlocks.cons (by omega) u3 u4 ?_
          have : c - 1 - min (c - 1) (M * v) = ds'.length := by omega
          rw [this]; exact k6
        · rw [k7]; simp only [List.length_append]; omega
  · rw [if_neg hc] at p1
    simp only [Res.ok_bind, Res.pure_eq, Res.ok.injEq] at p1
    subst p1
    obtain ⟨k1, ds, body1, suf, ds', finb, k2, k3, k4, k5, k6, k7⟩ :=
      drain_inv hv hM hv8 hmax' _ _ _ _ [] ⟨rfl, rfl, .inl ⟨rfl, by simp only; omega⟩⟩ p2
    simp only at k1 k2 k3 k4 k5 k7
    rcases k3 with ⟨_, rfl, rfl, rfl⟩ | ⟨b2, k3, _⟩
    · have hb : body1 = [] := deltaBlocks_zero k6 rfl
      subst hb
      refine fin [] body [] rfl ?_ k1.symm ?_ ?_
      · rw [show c - 1 = 0 by omega]; exact .nil
      · rcases k2 with ⟨a, _⟩ | k2
        · exact .inl ⟨a, rfl⟩
        · exact .inr k2
      · rw [k7]; simp only [List.length_append, List.length_nil]; try omega
    · simp at k3

end Pq.Delta
