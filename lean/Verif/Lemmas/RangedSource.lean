import Verif.Lemmas.RangedStreamer
/-
The reader of ranges as a reader of the object.
-/
namespace Pq
open Spec

/-- A reader of ranges, and whether it has failed: a call of `range_get` failed, a read went beyond the end
(and did not return), or a seek before the start (which the code accepts). -/
abbrev RangeReader (object : List Byte) (P : Nat) (get : RangeGet) : Type :=
  { x : RangedStreamer × Bool // Coherent object x.1 ∧ (x.2 = false → Steady P get x.1) }

variable {object : List Byte} {P : Nat} {get : RangeGet}

/-- What is known of it. -/
def rangeView : SourceView (RangeReader object P get) := { pos := fun s => s.1.1.pos, failed := fun s => s.1.2 }

/-- A new one (`examples/s3/src/stream.rs:34-46`). -/
def RangeReader.new (object : List Byte) (hs : object.length < 2 ^ 63) (P : Nat) (get : RangeGet) (min : Nat) :
    RangeReader object P get :=
  ⟨(RangedStreamer.new object.length min, false), {
    small := hs
    length := rfl
    pos := by simp [RangedStreamer.new]
    chunk := by
      intro o ho
      simp only [RangedStreamer.new, RangeState.hasChunk.injEq] at ho
      subst ho
      exact ⟨by simp, by simp⟩
    future := by intro f o h; simp [RangedStreamer.new] at h },
    fun _ => ⟨by simp [RangedStreamer.new], by simp [RangedStreamer.new], by simp [RangedStreamer.new]⟩⟩

theorem await_coherent (hg : HonestGet object get) (ck : Bool) (n depth polls : Nat) (s : RangedStreamer)
    (hs : Coherent object s) : Coherent object (s.awaitRead ck get depth polls n).2 := by
  rcases await_ok hg ck n depth polls s hs with h | h
  · exact h.1
  · exact h.2

/-- The reader as a `Source`: reads wait until they are ready; a failure is remembered. -/
def rangeSource (hg : HonestGet object get) (hp : PromptGet P get) (ck : Bool) (depth polls : Nat) :
    Source (RangeReader object P get) where
  read := fun s n =>
    match h : (s.1.1.awaitRead ck get depth polls n).1 with
    | .ready b => (some b, ⟨((s.1.1.awaitRead ck get depth polls n).2, s.1.2),
        await_coherent hg ck n depth polls s.1.1 s.2.1,
        fun hf => (await_steady ck hp n depth polls s.1.1 (s.2.2 hf)).1 (by rw [h]; simp)⟩)
    | _ => (none, ⟨((s.1.1.awaitRead ck get depth polls n).2, true),
        await_coherent hg ck n depth polls s.1.1 s.2.1, fun hf => by cases hf⟩)
  seek := fun s tgt =>
    if h : ∃ m, seekTarget object.length s.1.1.pos tgt = some m ∧ m < 2 ^ 64 then
      (some (s.1.1.seek tgt).1, ⟨((s.1.1.seek tgt).2, s.1.2), seek_ok s.2.1 tgt (by
        rintro n rfl
        obtain ⟨m, h1, h2⟩ := h
        simp only [seekTarget, Option.some.injEq] at h1
        omega), fun hf => by
          have := s.2.2 hf
          cases tgt <;> exact ⟨this.alive, this.prompt, this.reliable⟩⟩)
    else (none, ⟨(s.1.1, true), s.2.1, fun hf => by cases hf⟩)

theorem asU64_eq {x : Int} (h0 : 0 ≤ x) (h : x.toNat < 2 ^ 64) : asU64 x = x.toNat := by
  unfold asU64
  rw [Int.emod_eq_of_lt h0 (by omega)]

/-- Where a seek within the bounds leads. -/
theorem seek_target {s : RangedStreamer} (hs : Coherent object s) {tgt : SeekFrom} {m : Nat}
    (h : seekTarget object.length s.pos tgt = some m) (hm : m < 2 ^ 64) :
    (s.seek tgt).1 = m ∧ (s.seek tgt).2.pos = m := by
  cases tgt with
  | start n => simp only [seekTarget, Option.some.injEq] at h; exact ⟨h, h⟩
  | end_ k =>
    simp only [seekTarget] at h
    split at h
    · rename_i h0
      simp only [Option.some.injEq] at h
      simp only [RangedStreamer.seek, hs.length]
      rw [asU64_eq h0 (by omega)]
      exact ⟨h, h⟩
    · cases h
  | current k =>
    simp only [seekTarget] at h
    split at h
    · rename_i h0
      simp only [Option.some.injEq] at h
      simp only [RangedStreamer.seek]
      rw [asU64_eq h0 (by omega)]
      exact ⟨h, h⟩
    · cases h

theorem range_lawful (hg : HonestGet object get) (hp : PromptGet P get) (ck : Bool) (depth polls : Nat) :
    LawfulSource (rangeSource hg hp ck depth polls) rangeView object where
  seek_ok := by
    intro s s' tgt n h
    simp only [rangeSource] at h
    split at h
    · rename_i hm
      obtain ⟨m, h1, h2⟩ := hm
      obtain ⟨h3, h4⟩ := seek_target s.2.1 h1 h2
      simp only [Prod.mk.injEq, Option.some.injEq] at h
      obtain ⟨h5, rfl⟩ := h
      simp only [rangeView]
      rw [← h5, h3]
      exact ⟨h1, h4, trivial⟩
    · simp at h
  seek_err := by
    intro s s' tgt h
    simp only [rangeSource] at h
    split at h
    · simp at h
    · simp only [Prod.mk.injEq, true_and] at h
      subst h
      exact .inr rfl
  read_ok := by
    intro s s' n b h
    simp only [rangeSource] at h
    split at h
    · rename_i b' hb
      simp only [Prod.mk.injEq, Option.some.injEq] at h
      obtain ⟨rfl, rfl⟩ := h
      rcases await_ok hg ck n depth polls s.1.1 s.2.1 with ⟨-, h⟩ | ⟨h, -⟩
      · rw [hb] at h
        simp only at h
        obtain ⟨h1, h2, h3⟩ := h
        simp only [rangeView]
        refine ⟨by rw [h1]; exact List.prefix_refl _, ?_, by rw [h3, h2], trivial⟩
        intro he
        rw [he] at h2
        exact .inl h2.symm
      · rw [hb] at h; cases h
    all_goals simp at h
  read_err := by
    intro s s' n h
    simp only [rangeSource] at h
    split at h
    · simp at h
    all_goals
      simp only [Prod.mk.injEq, true_and] at h
      subst h
      rfl

/-! ### Readers that are reliable within the file -/

/-- Reads that stay within the file do not fail, nor seeks to where a file may have bytes. -/
structure ReliableWithin {σ : Type} (src : Source σ) (v : SourceView σ) (file : List Byte) : Prop where
  small : ∀ s, v.pos s < 2 ^ 64
  seek : ∀ s tgt m, v.failed s = false → seekTarget file.length (v.pos s) tgt = some m → m < 2 ^ 64 →
    (src.seek s tgt).1 ≠ none
  read : ∀ s n, v.failed s = false → v.pos s + n ≤ file.length → (src.read s n).1 ≠ none

theorem range_reliable (hg : HonestGet object get) (hp : PromptGet P get) (hr : ReliableGet get) (ck : Bool)
    (depth polls : Nat) (hd : 4 ≤ depth) (hpolls : 2 * P < polls) :
    ReliableWithin (rangeSource hg hp ck depth polls) rangeView object where
  small := fun s => s.2.1.pos
  seek := by
    intro s tgt m hf h1 h2
    simp only [rangeSource]
    rw [dif_pos ⟨m, h1, h2⟩]
    simp
  read := by
    intro s n hf hn
    simp only [rangeView] at hf hn
    have hst := s.2.2 hf
    have h1 := await_within hg ck hp n depth hd polls s.1.1 s.2.1 hst hn
    have h2 := (await_steady ck hp n depth polls s.1.1 hst).2 hr
    have h3 := await_ends hg ck hp hd polls s.1.1 s.2.1 hst hn (by
      cases hs : s.1.1.state with
      | seeking f => have := hst.prompt f hs; simp only; omega
      | hasChunk o => simp only; omega
      | completed => simp only; omega)
    simp only [rangeSource]
    split
    · simp
    · rename_i hb
      exfalso
      revert h1 h2 h3 hb
      cases (s.1.1.awaitRead ck get depth polls n).1 <;> simp

section Within

variable {σ : Type} {i : Input σ} {v : SourceView σ} {file : List Byte} (h : LawfulInput i v file)
  (hw : ReliableWithin i.source v file)
include h hw

theorem seekTo_within (tgt : SeekFrom) (s : σ) (m : Nat) (hf : v.failed s = false)
    (hm : seekTarget file.length (v.pos s) tgt = some m) (hm' : m < 2 ^ 64) :
    ∃ s', i.source.seekTo tgt s = (.ok m, s') ∧ v.pos s' = m ∧ v.failed s' = false := by
  have h1 := hw.seek s tgt m hf hm hm'
  unfold Source.seekTo
  cases hs : i.source.seek s tgt with
  | mk q s' =>
    cases q with
    | none => rw [hs] at h1; exact absurd rfl h1
    | some q =>
      obtain ⟨h2, h3, h4⟩ := h.source.seek_ok _ _ _ _ hs
      rw [hm] at h2
      injection h2 with h2
      subst h2
      exact ⟨s', rfl, h3, by rw [h4, hf]⟩

theorem readToEnd_within (fuel limit : Nat) (acc : List Byte) (s : σ) (hf : v.failed s = false)
    (hl : v.pos s + limit ≤ file.length) : v.failed (i.readToEnd fuel limit acc s).2 = false := by
  induction fuel generalizing limit acc s with
  | zero => exact hf
  | succ fuel ih =>
    unfold Input.readToEnd
    split
    · exact hf
    · simp only [IoM.bind_at, IoM.bind, Source.get]
      have h1 := hw.read s (min limit (i.buffer acc.length)) hf (by omega)
      cases hs : i.source.read s (min limit (i.buffer acc.length)) with
      | mk b s' =>
        cases b with
        | none => rw [hs] at h1; exact absurd rfl h1
        | some b =>
          obtain ⟨h2, h3, h4, h5⟩ := h.source.read_ok _ _ _ _ hs
          simp only
          by_cases hb : b = []
          · rw [if_pos hb]
            simp only [Pure.pure]
            show v.failed s' = false
            rw [h5, hf]
          · rw [if_neg hb]
            have hbl := h2.length_le
            rw [List.length_take] at hbl
            exact ih _ _ _ (by rw [h5, hf]) (by rw [h4]; omega)

theorem lastBytes_within (k : Nat) (hk : k ≤ file.length) (hsmall : file.length < 2 ^ 64) (s : σ)
    (hf : v.failed s = false) : v.failed (lastBytesFrom i k s).2 = false := by
  obtain ⟨s', h1, h2, h3⟩ := seekTo_within h hw (.end_ (-k)) s (file.length - k) hf (by
    simp only [seekTarget]
    rw [if_pos (by omega)]
    congr 1
    omega) (by omega)
  unfold lastBytesFrom
  simp only [IoM.bind_at, IoM.bind, h1]
  exact readToEnd_within h hw _ _ _ s' h3 (by omega)

omit h hw in
/-- After a call that does not fail, another that does not. -/
theorem bind_within {α β : Type} (m : IoM σ α) (f : α → IoM σ β) (s : σ) (hm : v.failed (m s).2 = false)
    (hf : ∀ a s', (m s).1 = .ok a → v.failed s' = false → v.failed (f a s').2 = false) :
    v.failed ((m >>= f) s).2 = false := by
  simp only [IoM.bind_at, IoM.bind]
  cases hx : m s with
  | mk r s' =>
    rw [hx] at hm hf
    cases r with
    | ok a => exact hf a s' rfl hm
    | err e => exact hm
    | panic => exact hm

theorem metadata_within (codec : Codec Thrift.FileMetaData) (hsmall : file.length < 2 ^ 64) (s : σ)
    (hf : v.failed s = false) : v.failed (readMetadataFrom i codec s).2 = false := by
  unfold readMetadataFrom
  have hlen : (streamLenFrom i s).1 = .ok file.length ∧ v.failed (streamLenFrom i s).2 = false := by
    obtain ⟨s1, h1, h2, h3⟩ := seekTo_within h hw (.current 0) s (v.pos s) hf (by simp [seekTarget]) (hw.small s)
    obtain ⟨s2, h4, h5, h6⟩ := seekTo_within h hw (.end_ 0) s1 file.length h3 (by simp [seekTarget]) hsmall
    unfold streamLenFrom
    simp only [IoM.bind_at, IoM.bind, h1, h4]
    split
    · obtain ⟨s3, h7, h8, h9⟩ := seekTo_within h hw (.start (v.pos s)) s2 (v.pos s) h6 (by simp [seekTarget]) (hw.small s)
      simp only [IoM.bind_at, IoM.bind, h7]
      exact ⟨rfl, h9⟩
    · exact ⟨rfl, h6⟩
  refine bind_within _ _ s hlen.2 fun size s' hs hf => ?_
  rw [hlen.1] at hs
  injection hs with hs
  subst hs
  unfold readMetadataWithSizeFrom
  refine bind_within _ _ s' ?_ fun _ _ _ hf => hf
  unfold footerBytesFrom
  split
  · exact hf
  · refine bind_within _ _ s' (lastBytes_within h hw _ (by omega) hsmall s' hf) fun buffer s2 _ hf => ?_
    refine bind_within _ _ s2 hf fun tail s3 _ hf => ?_
    split
    · exact hf
    · refine bind_within _ _ s3 hf fun len s4 _ hf => ?_
      refine bind_within _ _ s4 hf fun len s5 _ hf => ?_
      by_cases h1 : file.length < 8 + len
      · simp only [h1, ↓reduceIte]; exact hf
      · by_cases h2 : 8 + len < buffer.length
        · simp only [h1, h2, ↓reduceIte]; exact hf
        · simp only [h1, h2, ↓reduceIte]
          exact lastBytes_within h hw _ (by omega) hsmall s5 hf

theorem column_within (c : ColumnChunkMetaData)
    (hc : ∀ start len, c.byteRange = .ok (start, len) → start + len ≤ file.length) (hsmall : file.length < 2 ^ 64)
    (s : σ) (hf : v.failed s = false) : v.failed (readColumnFrom i c s).2 = false := by
  unfold readColumnFrom
  refine bind_within _ _ s hf fun range s1 hr hf => ?_
  obtain ⟨start, len⟩ := range
  have hle := hc start len hr
  obtain ⟨s2, h1, h2, h3⟩ := seekTo_within h hw (.start start) s1 start hf rfl (by omega)
  simp only [IoM.bind_at, IoM.bind, h1]
  split
  · exact h3
  · exact readToEnd_within h hw _ _ _ s2 h3 (by omega)

theorem columns_within (field : String) (cs : List ColumnChunkMetaData)
    (hc : ∀ c ∈ cs, ∀ start len, c.byteRange = .ok (start, len) → start + len ≤ file.length)
    (hsmall : file.length < 2 ^ 64) (s : σ) (hf : v.failed s = false) :
    v.failed (readColumnsFrom i field cs s).2 = false := by
  induction cs generalizing s with
  | nil => exact hf
  | cons c cs ih =>
    rw [readColumnsFrom.eq_def]
    cases hp : c.columnDescr.pathInSchema with
    | nil => simp only [hp]; exact hf
    | cons root path =>
      simp only [hp]
      by_cases hr : root = field
      · rw [if_pos hr]
        refine bind_within _ _ s (column_within h hw c (hc c (by simp)) hsmall s hf) fun _ s1 _ hf => ?_
        refine bind_within _ _ s1 (ih (fun c hc' => hc c (by simp [hc'])) s1 hf) fun _ s2 _ hf => hf
      · rw [if_neg hr]
        exact ih (fun c hc' => hc c (by simp [hc'])) s hf

end Within

end Pq
