import Verif.Spec.Codec
import Verif.Lemmas.Deserialize2
/- Lemmas for C33, C34, C53. -/
namespace Pq
open Spec

theorem innerCompress_eq (cs : Codecs) (c : Compression) (input output r : List Byte)
    (h : innerCompress cs c input output = .ok r) :
    ∃ n y, cs.encBlock c input n = .ok y ∧ r = output ++ y := by
  unfold innerCompress at h
  simp only [Res.bind_eq_ok] at h
  obtain ⟨n, h1, y, h2, h3⟩ := h
  refine ⟨n, y, h2, ?_⟩
  simp only [Res.ok.injEq] at h3
  rw [← h3, List.take_left' (l₁ := output) rfl]
  exact List.take_left' (by simp)

/-- Compressing appends bytes that decompress to the input. -/
theorem compressBytes_roundtrip (cs : Codecs) (hl : Lawful cs) (opts : CompressionOptions)
    (input output r : List Byte) (h : compressBytes cs opts input output = .ok r) :
    ∃ y, r = output ++ y ∧ ∀ out : List Byte, out.length = input.length →
      decompressBytes cs opts.codec y out = (.ok (), input) := by
  have hstream : ∀ c lvl, (cs.encStream c lvl input >>= fun b => Res.ok (output ++ b)) = .ok r →
      ∃ y, r = output ++ y ∧ ∀ out : List Byte, out.length = input.length →
        cs.readExact c y out = (.ok (), input) := by
    intro c lvl h
    rw [Res.bind_eq_ok] at h
    obtain ⟨y, h1, h2⟩ := h
    simp only [Res.ok.injEq] at h2
    exact ⟨y, h2.symm, hl.stream c lvl input y h1⟩
  cases opts with
  | uncompressed => simp [compressBytes] at h
  | lzo => simp [compressBytes] at h
  | lz4 => simp [compressBytes] at h
  | gzip lvl =>
    simp only [compressBytes] at h
    split at h
    · rename_i ha
      obtain ⟨y, h1, h2⟩ := hstream _ _ h
      exact ⟨y, h1, fun out ho => by simp [decompressBytes, CompressionOptions.codec, ha, h2 out ho]⟩
    · simp at h
  | brotli lvl =>
    simp only [compressBytes] at h
    split at h
    · rename_i ha
      obtain ⟨y, h1, h2⟩ := hstream _ _ h
      exact ⟨y, h1, fun out ho => by simp [decompressBytes, CompressionOptions.codec, ha, h2 out ho]⟩
    · simp at h
  | zstd lvl =>
    simp only [compressBytes] at h
    split at h
    · rename_i ha
      obtain ⟨y, h1, h2⟩ := hstream _ _ h
      exact ⟨y, h1, fun out ho => by simp [decompressBytes, CompressionOptions.codec, ha, h2 out ho]⟩
    · simp at h
  | snappy =>
    simp only [compressBytes] at h
    split at h
    · rename_i ha
      obtain ⟨n, y, h1, h2⟩ := innerCompress_eq _ _ _ _ _ h
      refine ⟨y, h2, fun out ho => ?_⟩
      simp [decompressBytes, CompressionOptions.codec, ha, hl.snappyLen _ _ _ h1,
        hl.block _ _ _ _ h1 out ho, ho, Res.map']
    · simp at h
  | lz4Raw =>
    simp only [compressBytes] at h
    split at h
    · rename_i ha
      obtain ⟨n, y, h1, h2⟩ := innerCompress_eq _ _ _ _ _ h
      refine ⟨y, h2, fun out ho => ?_⟩
      simp [decompressBytes, CompressionOptions.codec, ha, hl.block _ _ _ _ h1 out ho, Res.map']
    · simp at h

theorem prepareBuffer_length (cap : Nat) (buffer : List Byte) (n : Nat) :
    (prepareBuffer cap buffer n).length = n := by
  unfold prepareBuffer
  split
  · simp
  · split
    · simp; omega
    · simp; omega

theorem addI32_comm (ck : Bool) (a b : I32) : addI32 ck a b = addI32 ck b a := by
  unfold addI32
  rw [Int.add_comm, BitVec.add_comm]

theorem slice_ok {α : Type} (s : List α) (a b : Nat) (r : List α) (h : slice s a b = .ok r) :
    a ≤ b ∧ b ≤ s.length ∧ r = (s.drop a).take (b - a) := by
  unfold slice at h
  split at h
  · rename_i hc
    simp only [Res.ok.injEq] at h
    exact ⟨hc.1, hc.2, h.symm⟩
  · simp at h

theorem codec_ne (opts : CompressionOptions) : opts.codec ≠ .uncompressed ↔ opts ≠ .uncompressed := by
  cases opts <;> simp [CompressionOptions.codec]

/-- The page-level consequence of a correct codec. -/
theorem decompressPage_of_into (cs : Codecs) (ck : Bool) (cp : CompressedPage) (cap : Nat)
    (buf content : List Byte) (hc : cp.compression ≠ .uncompressed)
    (h : ∀ o : List Byte, o.length = cp.uncompressedSize →
      decompressInto cs ck cp o = (.ok (), content)) :
    decompressPage cs ck cp cap buf = .ok (createPage cp content) := by
  unfold decompressPage decompressBuffer
  rw [if_pos hc]
  simp only [h _ (prepareBuffer_length cap buf _), Res.map']

/-- A compressed page decompresses into a buffer of the announced size, whatever the buffer held. -/
theorem compressPage_into (cs : Codecs) (hl : Lawful cs) (ck : Bool) (page : Page)
    (opts : CompressionOptions) (ho : opts ≠ .uncompressed) (cp : CompressedPage)
    (h : compressPage cs ck page [] opts = .ok cp)
    (hv2 : ∀ p hd, page = .data p → p.header = .v2 hd → hd.isCompressed ≠ some false) :
    cp.compression ≠ .uncompressed ∧ cp.uncompressedSize = page.buffer.length ∧
    (∀ c, createPage cp c = page.setBuffer c) ∧
    ∀ o : List Byte, o.length = cp.uncompressedSize →
      decompressInto cs ck cp o = (.ok (), page.buffer) := by
  cases page with
  | dict p =>
    unfold compressPage at h
    simp only [compressDict, if_pos ho] at h
    cases hb : compressBytes cs opts p.buffer [] with
    | err e => rw [hb] at h; simp [Res.map'] at h
    | panic => rw [hb] at h; simp [Res.map'] at h
    | ok y =>
      rw [hb] at h
      simp only [Res.ok_bind, Res.map', Res.ok.injEq] at h
      subst h
      obtain ⟨y', hy, hd⟩ := compressBytes_roundtrip cs hl opts _ _ _ hb
      simp only [List.nil_append] at hy
      subst hy
      refine ⟨(codec_ne opts).2 ho, rfl, fun c => rfl, ?_⟩
      intro o hol
      exact hd o hol
  | data p =>
    unfold compressPage at h
    simp only [compressData, if_pos ho] at h
    cases hh : p.header with
    | v1 hd1 =>
      rw [hh] at h
      simp only at h
      cases hb : compressBytes cs opts p.buffer [] with
      | err e => rw [hb] at h; simp [Res.map'] at h
      | panic => rw [hb] at h; simp [Res.map'] at h
      | ok y =>
        rw [hb] at h
        simp only [Res.ok_bind, Res.map', Res.ok.injEq] at h
        subst h
        obtain ⟨y', hy, hd⟩ := compressBytes_roundtrip cs hl opts _ _ _ hb
        simp only [List.nil_append] at hy
        subst hy
        refine ⟨(codec_ne opts).2 ho, rfl, fun c => by simp [createPage, Page.setBuffer, hh], ?_⟩
        intro o hol
        exact hd o hol
    | v2 hd2 =>
      rw [hh] at h
      simp only at h
      have hic := hv2 p hd2 rfl hh
      cases hs : addI32 ck hd2.repetitionLevelsByteLength hd2.definitionLevelsByteLength with
      | err e => rw [hs] at h; simp [Res.map'] at h
      | panic => rw [hs] at h; simp [Res.map'] at h
      | ok sum =>
        rw [hs] at h
        simp only [Res.ok_bind] at h
        cases h1 : slice p.buffer 0 (asUsize sum) with
        | err e => rw [h1] at h; simp [Res.map'] at h
        | panic => rw [h1] at h; simp [Res.map'] at h
        | ok head =>
          rw [h1] at h
          simp only [Res.ok_bind] at h
          cases h2 : slice p.buffer (asUsize sum) p.buffer.length with
          | err e => rw [h2] at h; simp [Res.map'] at h
          | panic => rw [h2] at h; simp [Res.map'] at h
          | ok tail =>
            rw [h2] at h
            simp only [Res.ok_bind, List.nil_append] at h
            cases hb : compressBytes cs opts tail head with
            | err e => rw [hb] at h; simp [Res.map'] at h
            | panic => rw [hb] at h; simp [Res.map'] at h
            | ok y =>
              rw [hb] at h
              simp only [Res.ok_bind, Res.map', Res.ok.injEq] at h
              subst h
              obtain ⟨y', hy, hd⟩ := compressBytes_roundtrip cs hl opts _ _ _ hb
              obtain ⟨a1, a2, a3⟩ := slice_ok _ _ _ _ h1
              obtain ⟨b1, b2, b3⟩ := slice_ok _ _ _ _ h2
              have hhead : head = p.buffer.take (asUsize sum) := by rw [a3]; simp
              have htail : tail = p.buffer.drop (asUsize sum) := by
                rw [b3]; apply List.take_of_length_le; simp
              have hhl : head.length = asUsize sum := by rw [hhead]; simp; omega
              have htl : tail.length = p.buffer.length - asUsize sum := by rw [htail]; simp
              refine ⟨(codec_ne opts).2 ho, rfl,
                fun c => by simp [createPage, Page.setBuffer, hh], ?_⟩
              intro o hol
              have hol : o.length = p.buffer.length := hol
              simp only [decompressInto, decompressV2]
              rw [addI32_comm, hs]
              have hcd : hd2.isCompressed.getD true = true := by
                cases hc : hd2.isCompressed with
                | none => rfl
                | some b =>
                  cases b with
                  | false => exact absurd hc hic
                  | true => rfl
              simp only [hcd, if_true]
              rw [hy, if_neg (by simp only [List.length_append]; omega)]
              rw [List.drop_left' hhl, List.take_left' hhl,
                hd (o.drop (asUsize sum)) (by simp; omega)]
              simp only [Page.buffer, hhead, htail, List.take_append_drop]

theorem observe_succ {σ α : Type} (advance : Nat → σ → Res Unit × σ) (get : σ → Option α)
    (n k : Nat) (s : σ) :
    observe advance get (n + 1) k s = (advance k s).1.map' (fun _ => get (advance k s).2)
      :: observe advance get n (k + 1) (advance k s).2 := rfl

theorem compressor_observe (cs : Codecs) (ck : Bool) (opts : CompressionOptions)
    (items : List (Res Page)) (b : List Byte) (cur : Option CompressedPage) (k : Nat) :
    observe (fun _ => Compressor.advance cs ck) (·.current) (items.length + 1) k
        ⟨items, opts, b, cur⟩
      = items.map (fun x => (x >>= fun p => compressPage cs ck p [] opts).map' some)
        ++ [.ok none] := by
  induction items generalizing b cur k with
  | nil =>
    rw [List.length_nil, observe_succ]
    cases cur <;> simp [Compressor.advance, observe, Res.map']
  | cons x xs ih =>
    rw [List.length_cons, observe_succ, List.map_cons, List.cons_append]
    have key : ∃ (b' : List Byte) (cur' : Option CompressedPage),
        Compressor.advance cs ck ⟨x :: xs, opts, b, cur⟩
          = match x >>= fun p => compressPage cs ck p [] opts with
            | .ok page => ((.ok (), ⟨xs, opts, b', some page⟩) : Res Unit × Compressor)
            | .err e => (.err e, ⟨xs, opts, b', cur'⟩)
            | .panic => (.panic, ⟨xs, opts, b', cur'⟩) := by
      cases cur with
      | none => exact ⟨[], none, by
          simp only [Compressor.advance, List.take_zero]
          cases x >>= fun p => compressPage cs ck p [] opts <;> rfl⟩
      | some pg => exact ⟨b, some (pg.setBuffer []), by
          simp only [Compressor.advance, List.take_zero]
          cases x >>= fun p => compressPage cs ck p [] opts <;> rfl⟩
    obtain ⟨b', cur', hadv⟩ := key
    rw [hadv]
    cases x >>= fun p => compressPage cs ck p [] opts with
    | ok page => simp only [Res.map', ih]
    | err e => simp only [Res.map', ih]
    | panic => simp only [Res.map', ih]

/-- Decompression overwrites the whole buffer: its outcome does not depend on old content. -/
def Overwrites (cs : Codecs) (ck : Bool) (page : CompressedPage) : Prop :=
  page.compression ≠ .uncompressed →
  ∀ o o' : List Byte, o.length = page.uncompressedSize → o'.length = page.uncompressedSize →
    (decompressInto cs ck page o).1 = (decompressInto cs ck page o').1 ∧
    ((decompressInto cs ck page o).1 = .ok () →
      (decompressInto cs ck page o).2 = (decompressInto cs ck page o').2)

theorem createPage_setBuffer (p : CompressedPage) (b c : List Byte) :
    createPage (p.setBuffer b) c = createPage p c := by
  cases p <;> rfl

theorem decompressPage_indep (cs : Codecs) (ck : Bool) (page : CompressedPage)
    (h : Overwrites cs ck page) (cap cap' : Nat) (b b' : List Byte) :
    decompressPage cs ck page cap b = decompressPage cs ck page cap' b' := by
  unfold decompressPage decompressBuffer
  by_cases hc : page.compression ≠ .uncompressed
  · rw [if_pos hc, if_pos hc]
    obtain ⟨h1, h2⟩ := h hc _ _ (prepareBuffer_length cap b _) (prepareBuffer_length cap' b' _)
    revert h1 h2
    dsimp only
    generalize decompressInto cs ck page (prepareBuffer cap b _) = x
    generalize decompressInto cs ck page (prepareBuffer cap' b' _) = y
    obtain ⟨x1, x2⟩ := x
    obtain ⟨y1, y2⟩ := y
    intro h1 h2
    simp only at h1 h2
    subst h1
    cases x1 with
    | ok u => rw [h2 rfl]
    | err e => rfl
    | panic => rfl
  · rw [if_neg hc, if_neg hc]
    simp only [createPage_setBuffer]

/-- `decompress_reuse` delivers the page of `decompress`. -/
theorem decompressReuse_eq {σ : Type} (cs : Codecs) (ck : Bool) (it : PageIter σ)
    (R : σ → List (Res CompressedPage) → Prop) (hs : Serves it R) (page : CompressedPage)
    (s : σ) (xs : List (Res CompressedPage)) (hR : R s xs) (cap : Nat) (buf : List Byte) :
    R (decompressReuse cs ck it page s cap buf).2.1 xs ∧
    (decompressReuse cs ck it page s cap buf).1.map' Prod.fst = decompressPage cs ck page cap buf := by
  unfold decompressReuse decompressPage
  generalize decompressBuffer cs ck page cap buf = r
  obtain ⟨r, pg, b⟩ := r
  cases r with
  | err e => exact ⟨hR, rfl⟩
  | panic => exact ⟨hR, rfl⟩
  | ok was =>
    cases was with
    | false => exact ⟨hR, rfl⟩
    | true =>
      refine ⟨hs.swap s xs _ hR, ?_⟩
      simp only [if_true, Res.map']
      rw [createPage_setBuffer]

theorem decompressor_observe {σ : Type} (cs : Codecs) (ck : Bool) (it : PageIter σ)
    (R : σ → List (Res CompressedPage) → Prop) (hs : Serves it R)
    (items : List (Res CompressedPage)) (hov : ∀ p, .ok p ∈ items → Overwrites cs ck p)
    (caps : Nat → Nat) (k : Nat) (d : Decompressor σ) (hR : R d.iter items) :
    observe (fun k => Decompressor.advance cs ck it (caps k)) (·.current) (items.length + 1) k d
      = items.map (fun x => (x >>= fun p => decompressPage cs ck p 0 []).map' some) ++ [.ok none] := by
  induction items generalizing k d with
  | nil =>
    have hR' : R (d.recycle it).iter [] := by
      unfold Decompressor.recycle
      split
      · exact hR
      · split
        · exact hR
        · exact hs.swap _ _ _ hR
    obtain ⟨s', h1, _⟩ := hs.nil _ hR'
    rw [List.length_nil, observe_succ]
    simp only [Decompressor.advance, h1, observe, Res.map', List.map_nil, List.nil_append]
  | cons x xs ih =>
    have hR' : R (d.recycle it).iter (x :: xs) := by
      unfold Decompressor.recycle
      split
      · exact hR
      · split
        · exact hR
        · exact hs.swap _ _ _ hR
    obtain ⟨s', h1, h2⟩ := hs.cons _ _ _ hR'
    have hov' : ∀ p, .ok p ∈ xs → Overwrites cs ck p := fun p hp => hov p (List.mem_cons_of_mem _ hp)
    rw [List.length_cons, observe_succ, List.map_cons, List.cons_append]
    simp only [Decompressor.advance, h1]
    cases x with
    | err e =>
      simp only [Res.err_bind, Res.map']
      rw [ih hov' (k + 1) _ h2]; rfl
    | panic =>
      simp only [Res.panic_bind, Res.map']
      rw [ih hov' (k + 1) _ h2]; rfl
    | ok page =>
      obtain ⟨h3, h4⟩ := decompressReuse_eq cs ck it R hs page s' xs h2 (caps k) (d.recycle it).buffer
      rw [decompressPage_indep cs ck page (hov page (by simp)) _ 0 _ []] at h4
      simp only [Res.ok_bind]
      rw [← h4]
      revert h3
      generalize decompressReuse cs ck it page s' (caps k) (d.recycle it).buffer = r
      obtain ⟨r, s'', b⟩ := r
      intro h3
      cases r with
      | ok y =>
        obtain ⟨pg, was⟩ := y
        simp only [Res.map']
        rw [ih hov' (k + 1) _ h3]; rfl
      | err e =>
        simp only [Res.map']
        rw [ih hov' (k + 1) _ h3]; rfl
      | panic =>
        simp only [Res.map']
        rw [ih hov' (k + 1) _ h3]; rfl

end Pq
