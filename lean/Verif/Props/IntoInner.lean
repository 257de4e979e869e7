import Verif.Model.IntoInner
import Verif.Props.PageIO
/-
Property C34: the buffers that are given back.
-/
namespace Pq.Props
open Spec

theorem compressor_advance_iter (cs : Codecs) (ck : Bool) (c : Compressor) :
    (c.advance cs ck).2.iter = c.iter.tail := by
  obtain ⟨iter, opts, b, cur⟩ := c
  cases cur <;> cases iter <;> simp only [Compressor.advance, List.tail_nil, List.tail_cons] <;> split <;> rfl

/-- **C34** after any number of pages, whether or not some of them could not be compressed, `into_inner` of the
compressor gives back the pages that it has not been asked for, and an empty buffer. -/
theorem C34_into_inner (cs : Codecs) (ck : Bool) (opts : CompressionOptions) (items : List (Res Page))
    (buffer : List Byte) (k : Nat) :
    ((fun c => (Compressor.advance cs ck c).2)^[k] (Compressor.new items opts buffer)).intoInner = (items.drop k, []) := by
  have key : ∀ c : Compressor, ((fun c => (Compressor.advance cs ck c).2)^[k] c).iter = c.iter.drop k := by
    induction k with
    | zero => exact fun c => rfl
    | succ k ih =>
      intro c
      rw [Function.iterate_succ_apply, ih, compressor_advance_iter, List.drop_tail]
  simp only [Compressor.intoInner, key, List.take_zero]
  rfl

example : ((fun c => (Compressor.advance toyCodecs true c).2)^[2] (Compressor.new
    [.err .oos, .ok (.dict { buffer := [7#8], numValues := 1, isSorted := false }), .ok (.dict { buffer := [8#8], numValues := 1, isSorted := true })]
    .snappy [1#8])).intoInner = ([.ok (.dict { buffer := [8#8], numValues := 1, isSorted := true })], []) :=
  C34_into_inner _ _ _ _ _ _

/-- **C34** where the pages of a page reader that filters none end, `into_buffers` of the decompressor gives back the memory of the last
page: of a page that was decompressed as the decompression buffer, of another as the page buffer. The other buffer is
the one that was there. -/
theorem C34_into_buffers (cs : Codecs) (codec : Codec Thrift.PageHeader) (ck : Bool) (cap : Nat)
    (d d' : Decompressor PageReader) (page : Page) (hp : d.current = some page)
    (hf : d.iter.pagesFilter = fun _ _ => true)
    (h : d.advance cs ck (PageReader.iter codec ck) cap = (.ok (), d')) (hend : d'.current = none) :
    d'.intoBuffers (PageReader.iter codec ck) =
      if d.wasDecompressed then (d.iter.intoInner.2, page.buffer) else (page.buffer, d.buffer) := by
  have hn : ∀ r r' : PageReader, r.pagesFilter = (fun _ _ => true) → PageReader.next codec ck r = (none, r') →
      r'.scratch = r.scratch := by
    intro r r' hf e
    simp only [PageReader.next, PageReader.nextFuel] at e
    have hk : (nextPage codec ck { r with scratch := [] }).2.pagesFilter = r.pagesFilter := by
      unfold nextPage
      split
      · rfl
      · exact (buildPage_built ck { r with scratch := [] }).config.2.2.1
    revert e hk
    rcases nextPage codec ck { r with scratch := [] } with ⟨_ | page, r1⟩
    · intro e _
      injection e with _ e
      rw [← e]
    · intro e hk
      have hw : r1.wants page = true := by
        unfold PageReader.wants
        split
        · rw [hk, hf]
        · rfl
      simp only [hw, if_true] at e
      cases e
  have hr : ∀ e : Decompressor PageReader, d.recycle (PageReader.iter codec ck) = e → ∀ r',
      PageReader.next codec ck e.iter = (none, r') →
      Decompressor.intoBuffers (PageReader.iter codec ck) { e with iter := r', current := none } =
        (e.iter.scratch, e.buffer) := by
    intro e he r' hr
    have he' : e.iter.pagesFilter = fun _ _ => true := by
      rw [← he]
      unfold Decompressor.recycle
      rw [hp]
      simp only
      split <;> exact hf
    simp only [Decompressor.intoBuffers, PageReader.iter, PageReader.swap, hn _ _ he' hr]
  unfold Decompressor.advance at h
  simp only at h
  split at h
  · rename_i r' e
    simp only [Prod.mk.injEq, true_and] at h
    rw [← h, hr _ rfl r' e]
    unfold Decompressor.recycle
    rw [hp]
    simp only
    split <;> simp [*, PageReader.iter, PageReader.swap, PageReader.intoInner]
  · cases h
  · cases h
  · split at h
    · simp only [Prod.mk.injEq, true_and] at h
      rw [← h] at hend
      cases hend
    · cases h
    · cases h

/-- A decompressor at its last page, with buffers of its own and of the reader. -/
def intoBuffersExample (was : Bool) : Decompressor PageReader :=
  { iter := { exampleReader 0#32 0#32 (fun _ _ => true) with
      totalNumValues := 3#64, seenNumValues := 3#64, scratch := [9#8, 9#8] }
    buffer := [8#8], wasDecompressed := was
    current := some (.dict { buffer := [1#8, 2#8, 3#8], numValues := 3, isSorted := false }) }

example (was : Bool) : (intoBuffersExample was).iter.pagesFilter = (fun _ _ => true) := rfl
example : ∀ was : Bool,
    ((intoBuffersExample was).advance toyCodecs true (PageReader.iter headerCodec true) 0).1 = .ok () ∧
    ((intoBuffersExample was).advance toyCodecs true (PageReader.iter headerCodec true) 0).2.current = none ∧
    ((intoBuffersExample was).advance toyCodecs true (PageReader.iter headerCodec true) 0).2.intoBuffers
      (PageReader.iter headerCodec true) =
        if was then ([9#8, 9#8], [1#8, 2#8, 3#8]) else ([1#8, 2#8, 3#8], [8#8]) := by
  decide +kernel

end Pq.Props
