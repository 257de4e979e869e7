import Verif.Model.BasicDecompressor
import Verif.Props.Compression
import Verif.Spec.PageIO
/-
Property theorems about `BasicDecompressor`: C34.
-/
namespace Pq.Props
open Spec

theorem basic_observe {σ : Type} (cs : Codecs) (ck : Bool) (next : σ → Option (Res CompressedPage) × σ)
    (s last : σ) (items : List (Res CompressedPage)) (hp : Pulls next s items last)
    (hov : ∀ p, .ok p ∈ items → Overwrites cs ck p) (buffers : Nat → Nat × List Byte) (k : Nat)
    (current : Option Page) :
    observe (fun k => BasicDecompressor.advance cs ck next (buffers k)) (·.current) (items.length + 1) k
        { iter := s, current }
      = items.map (fun x => (x >>= fun p => decompressPage cs ck p 0 []).map' some) ++ [.ok none] := by
  induction hp generalizing k current with
  | done h =>
    simp only [List.length_nil, Nat.zero_add, observe, BasicDecompressor.advance, h, Res.map', List.map_nil,
      List.nil_append]
  | @item s s' t x xs h _ ih =>
    rw [List.length_cons, observe_succ, List.map_cons, List.cons_append]
    simp only [BasicDecompressor.advance, h]
    have hov' : ∀ p, .ok p ∈ xs → Overwrites cs ck p := fun p hp => hov p (List.mem_cons_of_mem _ hp)
    cases x with
    | err e => simp only [Res.err_bind, Res.map']; rw [ih hov']; rfl
    | panic => simp only [Res.panic_bind, Res.map']; rw [ih hov']; rfl
    | ok page =>
      simp only [Res.ok_bind]
      rw [decompressPage_indep cs ck page (hov page (by simp)) (buffers k).1 0 (buffers k).2 []]
      cases decompressPage cs ck page 0 [] with
      | ok q => simp only [Res.map']; rw [ih hov']; rfl
      | err e => simp only [Res.map']; rw [ih hov']; rfl
      | panic => simp only [Res.map']; rw [ih hov']; rfl

/-- An iterator over a list of pages. -/
def basicNext : List (Res CompressedPage) → Option (Res CompressedPage) × List (Res CompressedPage)
  | [] => (none, [])
  | x :: xs => (some x, xs)

/-- **C34** for the basic decompressor, when no page announces more bytes than its block decoder produces:
the stream of pages (and errors) is the one obtained by decompressing every page into a fresh
buffer, for every iterator of pages, whatever the buffers hold and however large they are. Missing: as in
`C34_decompressor_partial`. -/
theorem C34_basic_partial {σ : Type} (cs : Codecs) (hp : Spec.Pure cs) (ck : Bool)
    (next : σ → Option (Res CompressedPage) × σ) (s last : σ) (items : List (Res CompressedPage))
    (hi : Pulls next s items last) (hex : ∀ p, .ok p ∈ items → ExactSize cs ck p)
    (buffers : Nat → Nat × List Byte) :
    observe (fun k => BasicDecompressor.advance cs ck next (buffers k)) (·.current) (items.length + 1) 0
        (BasicDecompressor.new s)
      = items.map (fun x => (x >>= fun p => decompressPage cs ck p 0 []).map' some) ++ [.ok none] :=
  basic_observe cs ck next s last items hi
    (fun p hm => overwrites_of_bytes cs ck p
      (bytesPure_of cs hp _ (hex p hm).1 _ _ fun o k ho hk => (hex p hm).2 o k ho hk)) buffers 0 none

example (buffers : Nat → Nat × List Byte) :
    observe (fun k => BasicDecompressor.advance toyCodecs true basicNext (buffers k)) (·.current) 3 0
        (BasicDecompressor.new [.ok (exampleCompressed .snappy 2 [7#8, 1#8, 2#8]), .err .oos])
      = [decompressPage toyCodecs true (exampleCompressed .snappy 2 [7#8, 1#8, 2#8]) 0 [] |>.map' some,
         .err .oos, .ok none] :=
  C34_basic_partial toyCodecs toyCodecs_pure true basicNext _ []
    [.ok (exampleCompressed .snappy 2 [7#8, 1#8, 2#8]), .err .oos]
    (.item rfl (.item rfl (.done rfl)))
    (by
      intro p hp
      simp only [List.mem_cons, Res.ok.injEq, reduceCtorEq, List.not_mem_nil, or_false] at hp
      exact hp ▸ exampleCompressed_exact) buffers

/-- **C34** end to end for the basic decompressor: pages compressed come back unchanged. -/
theorem C34_basic_pipeline {σ : Type} (cs : Codecs) (hl : Lawful cs) (ck : Bool)
    (next : σ → Option (Res CompressedPage) × σ) (s last : σ)
    (opts : CompressionOptions) (pages : List Page) (cps : List CompressedPage)
    (hc : pages.map (fun p => compressPage cs ck p [] opts) = cps.map .ok)
    (hv2 : opts ≠ .uncompressed → ∀ page ∈ pages,
      ∀ p hd, page = .data p → p.header = .v2 hd → hd.isCompressed ≠ some false)
    (hi : Pulls next s (cps.map .ok) last) (buffers : Nat → Nat × List Byte) :
    observe (fun k => BasicDecompressor.advance cs ck next (buffers k)) (·.current) (cps.length + 1) 0
        (BasicDecompressor.new s)
      = pages.map (fun p => .ok (some p)) ++ [.ok none] := by
  have hpair : ∀ (pages : List Page) (cps : List CompressedPage),
      pages.map (fun p => compressPage cs ck p [] opts) = cps.map .ok →
      (opts ≠ .uncompressed → ∀ page ∈ pages,
        ∀ p hd, page = .data p → p.header = .v2 hd → hd.isCompressed ≠ some false) →
      (∀ cp ∈ cps, Overwrites cs ck cp) ∧
      cps.map (fun cp => (decompressPage cs ck cp 0 []).map' some) = pages.map (fun p => .ok (some p)) := by
    intro pages
    induction pages with
    | nil =>
      intro cps h _
      cases cps with
      | nil => simp
      | cons c cs' => simp at h
    | cons p ps ih =>
      intro cps h hv
      cases cps with
      | nil => simp at h
      | cons c cps =>
        simp only [List.map_cons, List.cons.injEq] at h
        obtain ⟨i1, i2⟩ := ih cps h.2 (fun ho q hq => hv ho q (List.mem_cons_of_mem _ hq))
        have hr := C33_roundtrip_partial cs hl ck p opts c h.1 (fun ho => hv ho p (by simp)) 0 []
        constructor
        · intro cp hcp
          rcases List.mem_cons.1 hcp with rfl | hcp
          · by_cases ho : opts = .uncompressed
            · intro hne
              exfalso
              have := hr.2.2
              rw [ho] at this
              exact hne this
            · exact overwrites_of_compress cs hl ck p opts cp h.1 (hv ho p (by simp))
          · exact i1 cp hcp
        · rw [List.map_cons, List.map_cons, i2, hr.1]
          rfl
  obtain ⟨h1, h2⟩ := hpair pages cps hc hv2
  have := basic_observe cs ck next s last (cps.map .ok) hi (fun p hm => h1 p (by simpa using hm)) buffers 0 none
  rw [List.length_map] at this
  rw [BasicDecompressor.new, this, ← h2, List.map_map]
  rfl

example : Pulls basicNext [.ok (exampleCompressed .snappy 2 [7#8, 1#8, 2#8]), .err .oos]
    [.ok (exampleCompressed .snappy 2 [7#8, 1#8, 2#8]), .err .oos] [] :=
  .item rfl (.item rfl (.done rfl))

/-- **C34 is violated** by the basic decompressor as by the other one: the buffer shows in the page. -/
theorem C34_basic_violated :
    (observe (fun _ => BasicDecompressor.advance toyCodecs true basicNext (16, [5#8, 6#8, 7#8, 8#8])) (·.current) 1 0
      (BasicDecompressor.new [.ok (exampleCompressed .snappy 4 [7#8, 9#8])])).map (Res.map' (Option.map Page.buffer))
      = [.ok (some [9#8, 6#8, 7#8, 8#8])] := by
  decide +kernel

end Pq.Props
