import Verif.Lemmas.RangedSource
import Verif.Props.Source
/-
**C86**: the reader of ranges of a remote object.
-/
namespace Pq.Props
open Spec

/-- What an honest store with nothing to wait for gives. -/
def storeOf (object : List Byte) : RangeGet := fun _ start length =>
  { pending := 0, result := some { start, data := (object.drop start).take length } }

theorem storeOf_honest (object : List Byte) : HonestGet object (storeOf object) := by
  intro k start length o h
  simp only [storeOf, Option.some.injEq] at h
  subst h
  exact ⟨rfl, rfl⟩

/-- A store that keeps one waiting is honest, prompt and reliable. -/
theorem waiting_store : HonestGet [1, 2, 3, 4, 5, 6, 7]
      (fun k start length => { storeOf [1, 2, 3, 4, 5, 6, 7] k start length with pending := 1 }) ∧
    PromptGet 1 (fun k start length => { storeOf [1, 2, 3, 4, 5, 6, 7] k start length with pending := 1 }) ∧
    ReliableGet (fun k start length => { storeOf [1, 2, 3, 4, 5, 6, 7] k start length with pending := 1 }) := by
  refine ⟨fun k start length o h => storeOf_honest _ k start length o h, fun _ _ _ => Nat.le_refl _, ?_⟩
  intro k start length h
  simp [storeOf] at h

/-- **C86** one poll, in whatever state, for whatever `range_get` that is honest: if it is ready, it delivers
exactly the bytes asked for and moves on by them; otherwise the position stays. It aborts only after a
failure, or if the range ends beyond `2^64`. -/
theorem C86_poll {object : List Byte} {get : RangeGet} (hg : HonestGet object get) (ck : Bool) (n depth : Nat)
    (s : RangedStreamer) (hs : Coherent object s) :
    let x := s.pollRead ck get depth n
    Coherent object x.2 ∧
    (∀ b, x.1 = .ready b → b = (object.drop s.pos).take n ∧ b.length = n ∧ x.2.pos = s.pos + n) ∧
    (x.1 = .pending ∨ x.1 = .failed → x.2.pos = s.pos) ∧
    (x.1 = .panic → s.state = .completed ∨ 2 ^ 64 ≤ s.pos + n) := by
  obtain ⟨h1, h2⟩ := poll_ok hg ck n depth s hs
  refine ⟨h1, ?_, ?_, ?_⟩
  · intro b hb
    rw [hb] at h2
    exact h2
  · rintro (h | h) <;> rw [h] at h2
    · exact h2
    · exact h2.1
  · intro h
    rw [h] at h2
    exact h2

/-- A new reader is coherent and steady. -/
example (object : List Byte) (hs : object.length < 2 ^ 63) :
    Coherent object (RangeReader.new object hs 0 (storeOf object) 5).1.1 ∧
    Steady 0 (storeOf object) (RangeReader.new object hs 0 (storeOf object) 5).1.1 :=
  ⟨(RangeReader.new object hs 0 (storeOf object) 5).2.1, (RangeReader.new object hs 0 (storeOf object) 5).2.2 rfl⟩

/-- **C86** any polls and seeks, reads given up while they wait included: whatever a poll delivers are the
bytes where the reader was. -/
theorem C86_interleaved {object : List Byte} {get : RangeGet} (hg : HonestGet object get) (ck : Bool)
    (depth : Nat) (ops : List RangeOp) (hops : SeeksFit ops) (s : RangedStreamer) (hs : Coherent object s) :
    ∀ p n b, (p, n, RangePoll.ready b) ∈ runOps ck get depth s ops → b = (object.drop p).take n ∧ b.length = n := by
  induction ops generalizing s with
  | nil => intro p n b h; cases h
  | cons op ops ih =>
    have hops' : SeeksFit ops := fun n hn => hops n (by simp [hn])
    cases op with
    | poll n =>
      intro p m b h
      simp only [runOps, List.mem_cons, Prod.mk.injEq] at h
      obtain ⟨h1, h2, -⟩ := C86_poll hg ck n depth s hs
      rcases h with ⟨rfl, rfl, hb⟩ | h
      · obtain ⟨h3, h4, -⟩ := h2 b hb.symm
        exact ⟨h3, h4⟩
      · exact ih hops' _ h1 p m b h
    | seek tgt =>
      intro p m b h
      exact ih hops' _ (seek_ok hs tgt (by rintro n rfl; exact hops n (by simp))) p m b h

/-- Polls with a store that keeps one waiting, a read given up, seeks. -/
example : runOps true (fun k start length => { storeOf [1, 2, 3, 4, 5, 6, 7] k start length with pending := 1 }) 9
    (RangedStreamer.new 7 3)
    [.poll 2, .seek (.start 4), .poll 3, .poll 3, .seek (.current (-2)), .poll 1, .seek (.end_ (-2)), .poll 1, .poll 1] =
    [(0, 2, .pending), (4, 3, .pending), (4, 3, .ready [5, 6, 7]), (5, 1, .ready [6]), (5, 1, .ready [6]),
      (6, 1, .ready [7])] := by
  decide +kernel

/-- **C86** reads within the object: with a `range_get` that neither fails nor waits for more than `P` polls,
twice as many polls and a recursion of depth 4 are enough, and the bytes are delivered. -/
theorem C86_within {object : List Byte} {get : RangeGet} (hg : HonestGet object get) {P : Nat}
    (hp : PromptGet P get) (hr : ReliableGet get) (ck : Bool) (n depth polls : Nat) (hd : 4 ≤ depth)
    (hpolls : 2 * P < polls) (s : RangedStreamer) (hs : Coherent object s) (hst : Steady P get s)
    (hn : s.pos + n ≤ object.length) :
    let x := s.awaitRead ck get depth polls n
    x.1 = .ready ((object.drop s.pos).take n) ∧ x.2.pos = s.pos + n ∧ Coherent object x.2 ∧ Steady P get x.2 := by
  have h1 := await_within hg ck hp n depth hd polls s hs hst hn
  have h2 := await_steady ck hp n depth polls s hst
  have h3 := await_ends hg ck hp hd polls s hs hst hn (by
    cases h : s.state with
    | seeking f => have := hst.prompt f h; simp only; omega
    | hasChunk o => simp only; omega
    | completed => simp only; omega)
  have h4 := await_ok hg ck n depth polls s hs
  generalize s.awaitRead ck get depth polls n = x at h1 h2 h3 h4
  obtain ⟨x, s'⟩ := x
  cases x with
  | ready b =>
    rcases h4 with ⟨h4, h5⟩ | ⟨h4, -⟩
    · simp only at h5
      exact ⟨by rw [h5.1], h5.2.2, h4, h2.1 (by simp)⟩
    · cases h4
  | failed => exact absurd rfl (h2.2 hr)
  | pending => exact absurd rfl h3
  | panic => exact absurd rfl h1.2
  | loops => exact absurd rfl h1.1

/-- The store that keeps one waiting, and a new reader, which is awaited for five bytes. -/
example :
    let get : RangeGet := fun k start length => { storeOf [1, 2, 3, 4, 5, 6, 7] k start length with pending := 1 }
    let s := (RangeReader.new [1, 2, 3, 4, 5, 6, 7] (by decide) 1 get 3).1.1
    (HonestGet [1, 2, 3, 4, 5, 6, 7] get ∧ PromptGet 1 get ∧ ReliableGet get) ∧ Coherent [1, 2, 3, 4, 5, 6, 7] s ∧
    Steady 1 get s ∧ s.pos + 5 ≤ 7 ∧ (s.awaitRead true get 4 3 5).1 = .ready [1, 2, 3, 4, 5] :=
  ⟨waiting_store, (RangeReader.new _ _ _ _ _).2.1, (RangeReader.new _ _ _ _ _).2.2 rfl, by decide, by decide +kernel⟩

/-- **C86** what is held is not requested again; what is not held is requested from the position on, with at
least the minimal size. -/
theorem C86_requests {object : List Byte} (get : RangeGet) (ck : Bool) (s : RangedStreamer)
    (hs : Coherent object s) (o : SeekOutput) (ho : s.state = .hasChunk o) (n depth : Nat)
    (hn : s.pos + n < 2 ^ 64) :
    (o.start ≤ s.pos ∧ s.pos + n ≤ o.start + o.data.length →
      (s.pollRead ck get (depth + 1) n).2.requests = s.requests) ∧
    (¬ (o.start ≤ s.pos ∧ s.pos + n ≤ o.start + o.data.length) →
      s.pollRead ck get (depth + 1) n = RangedStreamer.pollRead ck get depth
        { s with state := .seeking (get s.requests.length s.pos (max s.minRequestSize n))
                 requests := s.requests ++ [(s.pos, max s.minRequestSize n)] } n) :=
  ⟨fun h => by rw [poll_held get ck hs ho h.1 h.2 hn], fun h => poll_missing get ck hs ho h hn depth⟩

/-- What is held is copied, what is not is requested. -/
example :
    let s : RangedStreamer := { RangedStreamer.new 7 3 with state := .hasChunk ⟨2, [3, 4, 5]⟩, pos := 3 }
    (s.pollRead true (storeOf [1, 2, 3, 4, 5, 6, 7]) 9 2) = (.ready [4, 5], { s with pos := 5 }) ∧
    (s.pollRead true (storeOf [1, 2, 3, 4, 5, 6, 7]) 9 3) = (.ready [4, 5, 6],
      { s with pos := 6, state := .hasChunk ⟨3, [4, 5, 6]⟩, requests := [(3, 3)] }) := by
  decide +kernel

/-- **C86** it is a reader of the object (`Spec.LawfulSource`), so that what C67 and C82 say of readers holds
of it: what is read through it is right, unless it failed. -/
theorem C86_lawful {object : List Byte} {get : RangeGet} (hg : HonestGet object get) {P : Nat}
    (hp : PromptGet P get) (ck : Bool) (depth polls : Nat) :
    LawfulSource (rangeSource hg hp ck depth polls) rangeView object :=
  range_lawful hg hp ck depth polls

example (ck : Bool) (depth polls : Nat) :=
  C86_lawful waiting_store.1 waiting_store.2.1 ck depth polls

/-- **C86** metadata and column chunks: with a `range_get` that does not fail, reading the metadata through a
new reader gives what the bytes of the object give, and so does reading columns that lie within the object;
no read goes beyond the end. -/
theorem C86_metadata {object : List Byte} (hsmall : object.length < 2 ^ 63) {get : RangeGet}
    (hg : HonestGet object get) {P : Nat} (hp : PromptGet P get) (hr : ReliableGet get) (ck : Bool)
    (depth polls : Nat) (hd : 4 ≤ depth) (hpolls : 2 * P < polls) (buffer : Nat → Nat) (hb : ∀ n, 0 < buffer n)
    (min : Nat) (codec : Codec Thrift.FileMetaData) :
    let i : Input (RangeReader object P get) := { source := rangeSource hg hp ck depth polls, buffer }
    let s := RangeReader.new object hsmall P get min
    ((readMetadataFrom i codec s).1 = readMetadata codec object ∧ rangeView.failed (readMetadataFrom i codec s).2 = false) ∧
    ∀ (t : RangeReader object P get), rangeView.failed t = false → ∀ field cs,
      (∀ c ∈ cs, ∀ start len, c.byteRange = .ok (start, len) → start + len ≤ object.length) →
      (readColumnsFrom i field cs t).1 = readColumns object field cs ∧
      rangeView.failed (readColumnsFrom i field cs t).2 = false := by
  intro i s
  have h : LawfulInput i rangeView object := ⟨range_lawful hg hp ck depth polls, hb⟩
  have hw : ReliableWithin i.source rangeView object := range_reliable hg hp hr ck depth polls hd hpolls
  refine ⟨?_, fun t ht field cs hcs => ?_⟩
  · have h1 := metadata_within h hw codec (by omega) s rfl
    rcases (C67_metadata h codec).1 s with h2 | h2
    · exact ⟨h2.1, h1⟩
    · rw [h1] at h2; cases h2.2
  · have h1 := columns_within h hw field cs hcs (by omega) t ht
    rcases (C67_columns h).2 field cs t with h2 | h2
    · exact ⟨h2.1, h1⟩
    · rw [h1] at h2; cases h2.2

/-- Number of requests with which the metadata of a written file is read. -/
def requestsFor (object : List Byte) (hs : object.length < 2 ^ 63) (min : Nat) : Nat :=
  let source := rangeSource (storeOf_honest object) (P := 0) (fun _ _ _ => Nat.le_refl 0) true 4 1
  let i : Input (RangeReader object 0 (storeOf object)) := { source, buffer := fun n => n + 32 }
  (readMetadataFrom i fileCodec (RangeReader.new object hs 0 (storeOf object) min)).2.1.1.requests.length

theorem writerEnd_small : writerEnd.2.out.length < 2 ^ 63 := by decide +kernel

/-- The metadata of a written file, read with one request or with several. -/
example : requestsFor writerEnd.2.out writerEnd_small 10000 = 1 ∧ 1 < requestsFor writerEnd.2.out writerEnd_small 100 := by
  decide +kernel

/-- **C86 is violated** by every read beyond the end of the object: where a reader delivers fewer bytes, or
none, this one requests the same range again and again, at any depth of the recursion. -/
theorem C86_violated (object : List Byte) (ck : Bool) (s : RangedStreamer) (hs : Coherent object s)
    (hst : Steady 0 (storeOf object) s) (n : Nat) (hn : 0 < n) (h1 : object.length < s.pos + n)
    (h2 : s.pos + n < 2 ^ 64) (depth : Nat) : (s.pollRead ck (storeOf object) depth n).1 = .loops :=
  poll_loops (storeOf_honest object) (fun _ _ _ => Nat.le_refl 0) (fun _ _ _ h => by simp [storeOf] at h) ck hn depth
    s hs hst h1 h2

/-- **C86 is violated** also after a failure, when the next poll aborts, and by seeks before the start, which
are accepted. -/
theorem C86_violated_failure :
    let get : RangeGet := fun k start length => if k = 0 then ⟨0, none⟩ else storeOf [1, 2, 3] k start length
    let x := (RangedStreamer.new 3 2).pollRead true get 9 2
    x.1 = .failed ∧ (x.2.pollRead true get 9 2).1 = .panic ∧
    ((RangedStreamer.new 3 2).seek (.end_ (-4))).1 = 2 ^ 64 - 1 ∧ seekTarget 3 0 (.end_ (-4)) = none := by
  decide +kernel

end Pq.Props
