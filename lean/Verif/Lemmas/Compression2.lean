import Verif.Lemmas.Compression
/- More lemmas for C34 and C53. -/
namespace Pq
open Spec

/-- Decoding `input` into `n` bytes does not depend on the old content. -/
def BytesPure (cs : Codecs) (c : Compression) (input : List Byte) (n : Nat) : Prop :=
  ∀ o o' : List Byte, o.length = n → o'.length = n →
    (decompressBytes cs c input o).1 = (decompressBytes cs c input o').1 ∧
    ((decompressBytes cs c input o).1 = .ok () →
      (decompressBytes cs c input o).2 = (decompressBytes cs c input o').2)

theorem bytesPure_of (cs : Codecs) (hp : Pure cs) (c : Compression) (hc : c ≠ .lz4)
    (input : List Byte) (n : Nat)
    (hx : ∀ o k, o.length = n → (cs.decBlock c input o).1 = .ok k → k = n) :
    BytesPure cs c input n := by
  intro o o' ho ho'
  have hstream := fun c => hp.stream c input o o' (by omega)
  have hblock : (cs.decBlock c input o).1 = (cs.decBlock c input o').1 ∧
      ∀ k, (cs.decBlock c input o).1 = .ok k →
        (cs.decBlock c input o).2 = (cs.decBlock c input o').2 := by
    rcases hp.block c input n with ⟨r, hr, h⟩ | ⟨w, hw, h⟩
    · refine ⟨by rw [h o ho, h o' ho'], ?_⟩
      intro k hk
      rw [h o ho] at hk
      exact absurd hk (hr k)
    · refine ⟨by rw [h o ho, h o' ho'], ?_⟩
      intro k hk
      have hk2 := hx o k ho hk
      rw [h o ho] at hk
      simp only [Res.ok.injEq] at hk
      rw [h o ho, h o' ho']
      simp only
      rw [List.drop_eq_nil_of_le (by omega), List.drop_eq_nil_of_le (by omega)]
  have hmap : ∀ r : Res Nat, r.map' (fun _ => ()) = .ok () → ∃ k, r = .ok k := by
    intro r h
    cases r with
    | ok k => exact ⟨k, rfl⟩
    | err e => simp [Res.map'] at h
    | panic => simp [Res.map'] at h
  cases c with
  | lz4 => exact absurd rfl hc
  | uncompressed => simp [decompressBytes]
  | lzo => simp [decompressBytes]
  | brotli =>
    simp only [decompressBytes]
    split
    · exact hstream _
    · simp
  | gzip =>
    simp only [decompressBytes]
    split
    · exact hstream _
    · simp
  | zstd =>
    simp only [decompressBytes]
    split
    · exact hstream _
    · simp
  | lz4Raw =>
    simp only [decompressBytes]
    split
    · refine ⟨by simp only [hblock.1], ?_⟩
      intro h
      obtain ⟨k, hk⟩ := hmap _ h
      exact hblock.2 k hk
    · simp
  | snappy =>
    simp only [decompressBytes]
    split
    · cases cs.snappyLen input with
      | err e => simp
      | panic => simp
      | ok len =>
        simp only [ho, ho']
        split
        · simp
        · refine ⟨by simp only [hblock.1], ?_⟩
          intro h
          obtain ⟨k, hk⟩ := hmap _ h
          exact hblock.2 k hk
    · simp

theorem overwrites_of_bytes (cs : Codecs) (ck : Bool) (page : CompressedPage)
    (h : BytesPure cs page.compression (payload ck page).1 (payload ck page).2) :
    Overwrites cs ck page := by
  intro _ o o' ho ho'
  cases page with
  | dict p => exact h o o' ho ho'
  | data p =>
    unfold payload CompressedPage.compression at h
    unfold decompressInto
    simp only at h ⊢
    have ho : o.length = p.uncompressedPageSize := ho
    have ho' : o'.length = p.uncompressedPageSize := ho'
    cases hh : p.header with
    | v1 hd => rw [hh] at h; exact h o o' ho ho'
    | v2 hd =>
      rw [hh] at h
      simp only [decompressV2] at h ⊢
      cases hs : addI32 ck hd.definitionLevelsByteLength hd.repetitionLevelsByteLength with
      | err e => simp
      | panic => simp
      | ok sum =>
        rw [hs] at h
        simp only [ho, ho'] at h ⊢
        split
        · split
          · simp
          · obtain ⟨h1, h2⟩ := h (o.drop (asUsize sum)) (o'.drop (asUsize sum))
              (by simp; omega) (by simp; omega)
            refine ⟨h1, fun hk => ?_⟩
            rw [h2 hk]
        · split
          · simp
          · simp

/-- Pages that went through `compress` fill the buffer. -/
theorem overwrites_of_compress (cs : Codecs) (hl : Lawful cs) (ck : Bool) (page : Page)
    (opts : CompressionOptions) (cp : CompressedPage)
    (h : compressPage cs ck page [] opts = .ok cp)
    (hv2 : ∀ p hd, page = .data p → p.header = .v2 hd → hd.isCompressed ≠ some false) :
    Overwrites cs ck cp := by
  intro hne o o' ho ho'
  by_cases hop : opts = .uncompressed
  · exfalso
    subst hop
    apply hne
    cases page with
    | data p =>
      simp [compressPage, compressData, Res.map'] at h
      rw [← h]; rfl
    | dict p =>
      simp [compressPage, compressDict, Res.map'] at h
      rw [← h]; rfl
  · obtain ⟨_, _, _, h4⟩ := compressPage_into cs hl ck page opts hop cp h hv2
    rw [h4 o ho, h4 o' ho']; simp

/-! ### Hadoop frames -/

theorem beNat_size (n : Nat) (h : n < 2 ^ 32) : beNat (toLe 4 (BitVec.ofNat 32 n)).reverse = n := by
  unfold beNat
  rw [List.reverse_reverse, Deser.leNat_toLe, BitVec.toNat_ofNat]
  exact Nat.mod_eq_of_lt (by simpa using h)

theorem frame_parts (d c rest : List Byte) (hd : d.length < 2 ^ 32) (hc : c.length < 2 ^ 32) :
    beNat ((hadoopFrame d c ++ rest).take 4) = d.length ∧
    beNat (((hadoopFrame d c ++ rest).drop 4).take 4) = c.length ∧
    (hadoopFrame d c ++ rest).drop 8 = c ++ rest := by
  have l1 : (toLe 4 (BitVec.ofNat 32 d.length)).reverse.length = 4 := by
    rw [List.length_reverse, toLe_length]
  have l2 : (toLe 4 (BitVec.ofNat 32 c.length)).reverse.length = 4 := by
    rw [List.length_reverse, toLe_length]
  unfold hadoopFrame
  generalize hx : (toLe 4 (BitVec.ofNat 32 d.length)).reverse = x at *
  generalize hy : (toLe 4 (BitVec.ofNat 32 c.length)).reverse = y at *
  refine ⟨?_, ?_, ?_⟩
  · rw [List.append_assoc, List.append_assoc, List.take_left' l1, ← hx, beNat_size _ hd]
  · rw [List.append_assoc, List.append_assoc, List.drop_left' l1, List.take_left' l2, ← hy,
      beNat_size _ hc]
  · rw [List.append_assoc, List.drop_left' (by simp [l1, l2])]

theorem hadoopFrame_length (d c : List Byte) : (hadoopFrame d c).length = 8 + c.length := by
  simp only [hadoopFrame, List.length_append, List.length_reverse, toLe_length]

/-- Frames with their decompressed contents. -/
abbrev Frames := List (List Byte × List Byte)

/-- The bytes of the frames. -/
def framesBytes (fs : Frames) : List Byte := fs.flatMap fun f => hadoopFrame f.1 f.2

/-- After each frame but the last, more bytes remain than the frame's compressed size. -/
def Growing : Frames → Prop
  | [] => True
  | [_] => True
  | f :: g :: rest => f.2.length < (framesBytes (g :: rest)).length ∧ Growing (g :: rest)

theorem hadoopLoop_frames (cs : Codecs) (fs : Frames) (hg : Growing fs)
    (hsz : ∀ f ∈ fs, f.1.length < 2 ^ 32 ∧ f.2.length < 2 ^ 32)
    (hdec : ∀ f ∈ fs, ∀ o : List Byte, f.1.length ≤ o.length →
      cs.decBlock .lz4 f.2 o = (.ok f.1.length, f.1 ++ o.drop f.1.length))
    (fuel : Nat) (hf : (framesBytes fs).length ≤ fuel) (done output : List Byte)
    (ho : (fs.flatMap Prod.fst).length ≤ output.length) :
    hadoopLoop cs fuel (framesBytes fs) (framesBytes fs).length done output
      = (.ok 0, done ++ (fs.flatMap Prod.fst ++ output.drop (fs.flatMap Prod.fst).length)) := by
  induction fs generalizing fuel done output with
  | nil =>
    cases fuel with
    | zero => simp [hadoopLoop, framesBytes]
    | succ n => simp [hadoopLoop, framesBytes]
  | cons f rest ih =>
    have hlen : (framesBytes (f :: rest)).length = 8 + f.2.length + (framesBytes rest).length := by
      unfold framesBytes
      rw [List.flatMap_cons, List.length_append, hadoopFrame_length]
    cases fuel with
    | zero => omega
    | succ fuel =>
      unfold hadoopLoop
      rw [if_neg (by omega)]
      have hcat : framesBytes (f :: rest) = hadoopFrame f.1 f.2 ++ framesBytes rest := rfl
      obtain ⟨p1, p2, p3⟩ := frame_parts f.1 f.2 (framesBytes rest) (hsz f (by simp)).1
        (hsz f (by simp)).2
      rw [← hcat] at p1 p2 p3
      simp only [p1, p2, p3]
      rw [List.flatMap_cons, List.length_append] at ho
      rw [if_neg (by omega), if_neg (by omega), List.take_left' rfl,
        hdec f (by simp) output (by omega)]
      simp only [ne_eq, not_true, if_false]
      have e1 : (framesBytes (f :: rest)).length - 8 - f.2.length = (framesBytes rest).length := by
        omega
      rw [e1, List.drop_left' rfl, List.take_left' rfl, List.drop_left' rfl]
      cases rest with
      | nil =>
        simp [framesBytes]
      | cons g rest' =>
        have hgr := hg.1
        rw [if_pos hgr]
        rw [ih hg.2 (fun x hx => hsz x (List.mem_cons_of_mem _ hx))
          (fun x hx => hdec x (List.mem_cons_of_mem _ hx)) fuel (by omega)
          (done ++ f.1) (output.drop f.1.length) (by rw [List.length_drop]; omega)]
        rw [List.flatMap_cons (xs := g :: rest'), List.drop_drop, List.length_append,
          List.append_assoc, List.append_assoc]

theorem frame_of_parts (input : List Byte) (h8 : 8 ≤ input.length)
    (d c rest : List Byte) (hd : d.length = beNat (input.take 4))
    (hc : c.length = beNat ((input.drop 4).take 4)) (hr : input.drop 8 = c ++ rest) :
    input = hadoopFrame d c ++ rest := by
  have key : ∀ bs : List Byte, bs.length = 4 → (toLe 4 (BitVec.ofNat 32 (beNat bs))).reverse = bs := by
    intro bs hbs
    have := Pq.toLe_fromLe 4 bs.reverse (by simp [hbs])
    have e : BitVec.ofNat 32 (beNat bs) = fromLe (8 * 4) bs.reverse := rfl
    rw [e, this, List.reverse_reverse]
  unfold hadoopFrame
  rw [hd, hc, key _ (by simp; omega), key _ (by simp; omega), List.append_assoc, ← hr,
    List.append_assoc]
  have e : input.drop 8 = (input.drop 4).drop 4 := by rw [List.drop_drop]
  rw [e, List.take_append_drop, List.take_append_drop]

theorem hadoopLoop_sound (cs : Codecs) (hp : Pure cs) (fuel : Nat) (input done output out : List Byte)
    (hf : input.length ≤ fuel)
    (h : hadoopLoop cs fuel input input.length done output = (.ok 0, out)) :
    ∃ fs : Frames, input = framesBytes fs ∧ Growing fs ∧
      (fs.flatMap Prod.fst).length ≤ output.length ∧
      out = done ++ (fs.flatMap Prod.fst ++ output.drop (fs.flatMap Prod.fst).length) ∧
      ∀ f ∈ fs, ∃ o : List Byte, cs.decBlock .lz4 f.2 o = (.ok f.1.length, f.1 ++ o.drop f.1.length) := by
  induction fuel generalizing input done output with
  | zero =>
    have : input = [] := List.length_eq_zero_iff.1 (by omega)
    subst this
    simp [hadoopLoop] at h
    exact ⟨[], rfl, trivial, by simp, by simp [h], by simp⟩
  | succ fuel ih =>
    unfold hadoopLoop at h
    split at h
    · simp only [Prod.mk.injEq, Res.ok.injEq] at h
      have : input = [] := List.length_eq_zero_iff.1 h.1
      subst this
      exact ⟨[], rfl, trivial, by simp, by simp [h.2], by simp⟩
    · rename_i h8
      simp only at h
      split at h
      · simp at h
      · split at h
        · simp at h
        · rename_i hc hd
          generalize hdd : beNat (input.take 4) = dlen at *
          generalize hcc : beNat ((input.drop 4).take 4) = clen at *
          rcases hp.block .lz4 ((input.drop 8).take clen) output.length with ⟨r, hr, hall⟩ | ⟨w, hw, hall⟩
          · have := hall output rfl
            revert h this
            generalize cs.decBlock .lz4 ((input.drop 8).take clen) output = q
            obtain ⟨q1, q2⟩ := q
            intro h this
            simp only at this
            subst this
            cases q1 with
            | ok k => exact absurd rfl (hr k)
            | err e => simp at h
            | panic => simp at h
          · rw [hall output rfl] at h
            simp only at h
            split at h
            · simp at h
            · rename_i hk
              have hk : w.length = dlen := by simpa using hk
              have hcl : ((input.drop 8).take clen).length = clen := by simp; omega
              have hsplit : input.drop 8 = (input.drop 8).take clen ++ (input.drop 8).drop clen :=
                (List.take_append_drop _ _).symm
              split at h
              · rename_i hgrow
                have hlen : input.length - 8 - clen = ((input.drop 8).drop clen).length := by
                  rw [List.length_drop, List.length_drop]
                rw [hlen] at h
                rw [List.take_left' hk, List.drop_left' hk] at h
                obtain ⟨fs, i1, i0, i2, i3, i4⟩ := ih ((input.drop 8).drop clen) (done ++ w)
                  (output.drop w.length) (by simp; omega) h
                refine ⟨(w, (input.drop 8).take clen) :: fs, ?_, ?_, ?_, ?_, ?_⟩
                · have := frame_of_parts input (by omega) w ((input.drop 8).take clen)
                    ((input.drop 8).drop clen) (by omega) (by omega) hsplit
                  rw [i1] at this
                  exact this
                · cases fs with
                  | nil => trivial
                  | cons g rest => exact ⟨by rw [← i1, hcl]; omega, i0⟩
                · simp only [List.flatMap_cons, List.length_append]
                  rw [List.length_drop] at i2
                  omega
                · rw [i3, List.flatMap_cons, List.drop_drop]
                  simp only [List.length_append, List.append_assoc]
                · intro f hf
                  rcases List.mem_cons.1 hf with rfl | hf
                  · exact ⟨output, hall output rfl⟩
                  · exact i4 f hf
              · simp only [Prod.mk.injEq, Res.ok.injEq] at h
                have hnil : (input.drop 8).drop clen = [] := by
                  apply List.drop_eq_nil_of_le; simp; omega
                refine ⟨[(w, (input.drop 8).take clen)], ?_, trivial, ?_, ?_, ?_⟩
                · have := frame_of_parts input (by omega) w ((input.drop 8).take clen)
                    ((input.drop 8).drop clen) (by omega) (by omega) hsplit
                  rw [hnil] at this
                  simpa [framesBytes] using this
                · simpa using hw
                · rw [← h.2]; simp
                · intro f hf
                  rw [List.mem_singleton] at hf
                  subst hf
                  exact ⟨output, hall output rfl⟩

/-- What a block decoder leaves of the output does not depend on it. -/
theorem decompressBytes_block (cs : Codecs) (hp : Spec.Pure cs) (c : Compression)
    (hc : c = .snappy ∨ c = .lz4Raw) (input : List Byte) (n : Nat) :
    ∃ w : List Byte, ∀ o out : List Byte, o.length = n → decompressBytes cs c input o = (.ok (), out) →
      out = w ++ o.drop w.length ∧ w.length ≤ n := by
  have key : ∀ o out : List Byte, o.length = n → decompressBytes cs c input o = (.ok (), out) →
      ∃ k, cs.decBlock c input o = (.ok k, out) := by
    intro o out ho h
    rcases hc with rfl | rfl
    · simp only [decompressBytes] at h
      split at h
      · split at h
        · split at h
          · cases h
          · change ((cs.decBlock .snappy input o).1.map' fun _ => (), (cs.decBlock .snappy input o).2) = _ at h
            rcases hd : cs.decBlock .snappy input o with ⟨r, out'⟩
            rw [hd] at h
            cases r with
            | ok k => simp only [Res.map', Prod.mk.injEq, true_and] at h; exact ⟨k, by rw [h]⟩
            | err e => cases h
            | panic => cases h
        · cases h
        · cases h
      · cases h
    · simp only [decompressBytes] at h
      split at h
      · change ((cs.decBlock .lz4Raw input o).1.map' fun _ => (), (cs.decBlock .lz4Raw input o).2) = _ at h
        rcases hd : cs.decBlock .lz4Raw input o with ⟨r, out'⟩
        rw [hd] at h
        cases r with
        | ok k => simp only [Res.map', Prod.mk.injEq, true_and] at h; exact ⟨k, by rw [h]⟩
        | err e => cases h
        | panic => cases h
      · cases h
  rcases hp.block c input n with ⟨r, h1, h2⟩ | ⟨w, h1, h2⟩
  · refine ⟨[], fun o out ho h => ?_⟩
    obtain ⟨k, hk⟩ := key o out ho h
    have := h2 o ho
    rw [hk] at this
    exact absurd this.symm (h1 k)
  · refine ⟨w, fun o out ho h => ?_⟩
    obtain ⟨k, hk⟩ := key o out ho h
    rw [h2 o ho] at hk
    simp only [Prod.mk.injEq] at hk
    exact ⟨hk.2.symm, h1⟩

/-- The bytes of the prepared buffer. -/
theorem prepareBuffer_at (cap : Nat) (buffer : List Byte) (n i : Nat) (hi : i < n) :
    (prepareBuffer cap buffer n)[i]? = some (if n ≤ cap then (buffer[i]?).getD 0#8 else 0#8) := by
  unfold prepareBuffer
  by_cases h : cap < n
  · rw [if_pos h, if_neg (by omega), List.getElem?_replicate, if_pos hi]
  · rw [if_neg h, if_pos (show n ≤ cap by omega)]
    split
    · rw [List.getElem?_append]
      split
      · rename_i hl; rw [List.getElem?_eq_getElem hl]; rfl
      · rename_i hl
        rw [List.getElem?_replicate, if_pos (by omega), List.getElem?_eq_none (by omega)]
        rfl
    · rw [List.getElem?_take, if_pos hi, List.getElem?_eq_getElem (by omega)]
      rfl

/-- Compressing leaves the selected rows of a page as they are. -/
theorem compressData_selectedRows {cs : Codecs} {ck : Bool} {page : DataPage} {scratch : List Byte}
    {options : CompressionOptions} {q : CompressedDataPage}
    (h : compressData cs ck page scratch options = .ok q) : q.selectedRows = page.selectedRows := by
  rw [compressData] at h
  split at h
  · split at h
    · obtain ⟨_, -, h⟩ := Res.bind_eq_ok.1 h
      cases h
      rfl
    · obtain ⟨_, -, h⟩ := Res.bind_eq_ok.1 h
      obtain ⟨_, -, h⟩ := Res.bind_eq_ok.1 h
      obtain ⟨_, -, h⟩ := Res.bind_eq_ok.1 h
      obtain ⟨_, -, h⟩ := Res.bind_eq_ok.1 h
      cases h
      rfl
  · cases h
    rfl

end Pq
