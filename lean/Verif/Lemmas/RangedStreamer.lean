import Verif.Spec.RangedStreamer
import Verif.Lemmas.Source
/-
Lemmas about the reader of ranges.
-/
namespace Pq
open Spec

theorem uadd_small {ck : Bool} {a b : Nat} (h : a + b < 2 ^ 64) : uadd ck a b = .ok (a + b) := if_pos h

theorem chunk_end {object : List Byte} {o : SeekOutput} (h : ChunkOf object o) :
    o.start + o.data.length ≤ max o.start object.length := by
  have := h.2.length_le
  simp only [List.length_drop] at this
  omega

theorem chunk_bytes {object : List Byte} {o : SeekOutput} (h : ChunkOf object o) {p n : Nat} (h1 : o.start ≤ p)
    (h2 : p + n ≤ o.start + o.data.length) :
    (o.data.drop (p - o.start)).take n = (object.drop p).take n ∧
      ((object.drop p).take n).length = n := by
  obtain ⟨t, ht⟩ := h.2
  have hp : object.drop p = (o.data ++ t).drop (p - o.start) := by
    rw [ht, List.drop_drop]
    congr 1
    omega
  have hk : p - o.start + n ≤ o.data.length := by omega
  constructor
  · rw [hp, List.drop_append_of_le_length (by omega), List.take_append_of_le_length]
    simp only [List.length_drop]
    omega
  · rw [hp, List.length_take, List.length_drop, List.length_append]
    omega

/-- The comparison of ranges does not overflow on the side of the chunk. -/
theorem includes_spec {object : List Byte} {o : SeekOutput} (hs : object.length < 2 ^ 63) (h : ChunkOf object o)
    (ck : Bool) (p n : Nat) :
    (p + n < 2 ^ 64 → rangeIncludes ck (o.start, o.data.length) (p, n) =
      .ok (decide (o.start ≤ p ∧ p + n ≤ o.start + o.data.length))) := by
  intro hn
  have he := chunk_end h
  have h64 := h.1
  have : o.start + o.data.length < 2 ^ 64 := by omega
  unfold rangeIncludes
  simp only
  by_cases hp : p < o.start
  · rw [if_pos hp]
    have : ¬ (o.start ≤ p ∧ p + n ≤ o.start + o.data.length) := by omega
    simp [this]
  · rw [if_neg hp, uadd_small hn, Res.ok_bind, uadd_small this, Res.ok_bind]
    congr 1
    by_cases h1 : p + n ≤ o.start + o.data.length
    · simp only [h1, and_true]
      rw [decide_eq_true (show o.start ≤ p by omega), decide_eq_false (by omega)]
      rfl
    · simp only [h1, and_false, decide_false, Bool.not_eq_false']
      exact decide_eq_true (by omega)

/-- What is known after a poll. -/
def PollOk (object : List Byte) (s : RangedStreamer) (n : Nat) (x : RangePoll × RangedStreamer) : Prop :=
  Coherent object x.2 ∧
  match x.1 with
  | .ready b => b = (object.drop s.pos).take n ∧ b.length = n ∧ x.2.pos = s.pos + n
  | .pending => x.2.pos = s.pos
  | .failed => x.2.pos = s.pos ∧ x.2.state = .completed
  | .panic => s.state = .completed ∨ 2 ^ 64 ≤ s.pos + n
  | .loops => x.2.pos = s.pos

theorem coherent_request {object : List Byte} {get : RangeGet} (hg : HonestGet object get) {s : RangedStreamer}
    (hs : Coherent object s) (n : Nat) : Coherent object (s.request get n) where
  small := hs.small
  length := hs.length
  pos := hs.pos
  chunk := by intro o ho; simp [RangedStreamer.request] at ho
  future := by
    intro f o hf hr
    simp only [RangedStreamer.request, RangeState.seeking.injEq] at hf
    subst hf
    obtain ⟨h1, h2⟩ := hg _ _ _ _ hr
    refine ⟨by rw [h1]; exact hs.pos, ?_⟩
    rw [h1, h2]
    exact List.take_prefix _ _

theorem coherent_ready {object : List Byte} {s : RangedStreamer} (hs : Coherent object s) {f : RangeFuture}
    {o : SeekOutput} (hf : s.state = .seeking f) (ho : f.result = some o) :
    Coherent object { s with state := .hasChunk o } where
  small := hs.small
  length := hs.length
  pos := hs.pos
  chunk := by
    intro o' h
    simp only [RangeState.hasChunk.injEq] at h
    subst h
    exact hs.future f o hf ho
  future := by intro f o h; simp at h

/-- A range that wraps around is not copied. -/
theorem copy_wrapped {object : List Byte} {o : SeekOutput} (hs : object.length < 2 ^ 63) (h : ChunkOf object o)
    (ck : Bool) (s : RangedStreamer) (n : Nat) (hn : 2 ^ 64 ≤ s.pos + n) (hp : s.pos < 2 ^ 64) :
    (s.copy ck o n) = (.panic, s) := by
  have he := chunk_end h
  have hst := h.1
  unfold RangedStreamer.copy
  simp only
  unfold slice
  by_cases hlen : s.pos - o.start ≤ s.pos - o.start + n ∧ s.pos - o.start + n ≤ o.data.length
  · exfalso
    have := h.2.length_le
    simp only [List.length_drop] at this
    omega
  · rw [if_neg hlen]

theorem PollOk.of_state {object : List Byte} {s s' : RangedStreamer} {n : Nat} {x : RangePoll × RangedStreamer}
    (hp : s'.pos = s.pos) (hc : s'.state ≠ .completed) (h : PollOk object s' n x) : PollOk object s n x := by
  obtain ⟨h1, h2⟩ := h
  refine ⟨h1, ?_⟩
  rw [← hp]
  obtain ⟨x, y⟩ := x
  cases x <;> simp only at h2 ⊢ <;> try exact h2
  rcases h2 with h2 | h2
  · exact absurd h2 hc
  · exact .inr h2

theorem poll_ok {object : List Byte} {get : RangeGet} (hg : HonestGet object get) (ck : Bool) (n depth : Nat)
    (s : RangedStreamer) (hs : Coherent object s) : PollOk object s n (s.pollRead ck get depth n) := by
  induction depth generalizing s with
  | zero => exact ⟨hs, rfl⟩
  | succ depth ih =>
    unfold RangedStreamer.pollRead
    cases hst : s.state with
    | completed => exact ⟨hs, .inl hst⟩
    | seeking f =>
      simp only
      cases hp : f.pending with
      | succ k =>
        refine ⟨⟨hs.small, hs.length, hs.pos, by intro o h; simp at h, ?_⟩, rfl⟩
        intro f' o hf' hr
        simp only [RangeState.seeking.injEq] at hf'
        subst hf'
        exact hs.future f o hst hr
      | zero =>
        simp only
        cases hr : f.result with
        | none =>
          exact ⟨⟨hs.small, hs.length, hs.pos, by intro o h; simp at h, by intro f o h; simp at h⟩, rfl, rfl⟩
        | some o =>
          simp only
          exact PollOk.of_state (s' := { s with state := .hasChunk o }) rfl (by simp)
            (ih { s with state := .hasChunk o } (coherent_ready hs hst hr))
    | hasChunk o =>
      simp only
      have hc := hs.chunk o hst
      by_cases hn : s.pos + n < 2 ^ 64
      · rw [includes_spec hs.small hc ck s.pos n hn]
        by_cases hi : o.start ≤ s.pos ∧ s.pos + n ≤ o.start + o.data.length
        · simp only [hi, and_self, decide_true]
          obtain ⟨h1, h2⟩ := chunk_bytes hc hi.1 hi.2
          unfold RangedStreamer.copy
          simp only
          unfold slice
          rw [if_pos (by omega), show s.pos - o.start + n - (s.pos - o.start) = n by omega]
          simp only
          rw [uadd_small hn]
          refine ⟨⟨hs.small, hs.length, hn, hs.chunk, hs.future⟩, h1, ?_, rfl⟩
          rw [h1]; exact h2
        · simp only [hi, decide_false]
          exact PollOk.of_state (s' := s.request get n) rfl (by simp [RangedStreamer.request])
            (ih (s.request get n) (coherent_request hg hs n))
      · have hn' : 2 ^ 64 ≤ s.pos + n := by omega
        have hw := copy_wrapped hs.small hc ck s n hn' hs.pos
        cases rangeIncludes ck (o.start, o.data.length) (s.pos, n) with
        | err e => exact ⟨hs, .inr hn'⟩
        | panic => exact ⟨hs, .inr hn'⟩
        | ok b =>
          cases b with
          | true => simp only [hw]; exact ⟨hs, .inr hn'⟩
          | false =>
            simp only
            exact PollOk.of_state (s' := s.request get n) rfl (by simp [RangedStreamer.request])
              (ih (s.request get n) (coherent_request hg hs n))

theorem asU64_lt (x : Int) : asU64 x < 2 ^ 64 := by
  unfold asU64
  omega

theorem seek_ok {object : List Byte} {s : RangedStreamer} (hs : Coherent object s) (tgt : SeekFrom)
    (ht : ∀ n, tgt = .start n → n < 2 ^ 64) : Coherent object (s.seek tgt).2 := by
  cases tgt with
  | start n => exact ⟨hs.small, hs.length, ht n rfl, hs.chunk, hs.future⟩
  | end_ k => exact ⟨hs.small, hs.length, asU64_lt _, hs.chunk, hs.future⟩
  | current k => exact ⟨hs.small, hs.length, asU64_lt _, hs.chunk, hs.future⟩

/-! ### Requests within the object -/

/-- The chunk, when it comes, has the range of `n` bytes from the position on. -/
def Aimed (object : List Byte) (s : RangedStreamer) (n : Nat) : Prop :=
  ∀ f, s.state = .seeking f → ∀ o, f.result = some o → ChunkOf object o ∧ o.start ≤ s.pos ∧
    s.pos + n ≤ o.start + o.data.length

theorem request_aimed {object : List Byte} {get : RangeGet} (hg : HonestGet object get) {s : RangedStreamer}
    (hs : Coherent object s) {n : Nat} (hn : s.pos + n ≤ object.length) : Aimed object (s.request get n) n := by
  intro f hf o hr
  refine ⟨(coherent_request hg hs n).future f o hf hr, ?_⟩
  simp only [RangedStreamer.request, RangeState.seeking.injEq] at hf
  subst hf
  obtain ⟨h1, h2⟩ := hg _ _ _ _ hr
  simp only [RangedStreamer.request]
  rw [h1, h2, List.length_take, List.length_drop]
  omega

/-- The chunk at hand has the range: it is copied. -/
theorem poll_held {object : List Byte} (get : RangeGet) (ck : Bool) {s : RangedStreamer} (hs : Coherent object s)
    {o : SeekOutput} (ho : s.state = .hasChunk o) {n : Nat} (h1 : o.start ≤ s.pos)
    (h2 : s.pos + n ≤ o.start + o.data.length) (hn : s.pos + n < 2 ^ 64) (depth : Nat) :
    s.pollRead ck get (depth + 1) n = (.ready ((object.drop s.pos).take n), { s with pos := s.pos + n }) := by
  have hc := hs.chunk o ho
  unfold RangedStreamer.pollRead
  rw [ho]
  simp only
  rw [includes_spec hs.small hc ck s.pos n hn]
  simp only [h1, h2, and_self, decide_true]
  unfold RangedStreamer.copy
  simp only
  unfold slice
  rw [if_pos (by omega), show s.pos - o.start + n - (s.pos - o.start) = n by omega]
  simp only
  rw [uadd_small hn, (chunk_bytes hc h1 h2).1]
  simp only [ho]

/-- It is what was waited for. -/
theorem poll_aimed {object : List Byte} (get : RangeGet) (ck : Bool) {s : RangedStreamer} (hs : Coherent object s)
    {f : RangeFuture} (hf : s.state = .seeking f) (hp : f.pending = 0) {n : Nat} (ha : Aimed object s n)
    (hn : s.pos + n < 2 ^ 64) (depth : Nat) :
    s.pollRead ck get (depth + 2) n = match f.result with
      | some o => (.ready ((object.drop s.pos).take n), { s with state := .hasChunk o, pos := s.pos + n })
      | none => (.failed, { s with state := .completed }) := by
  rw [RangedStreamer.pollRead.eq_def]
  simp only [hf, hp]
  cases hr : f.result with
  | none => rfl
  | some o =>
    simp only
    obtain ⟨h1, h2, h3⟩ := ha f hf o hr
    exact poll_held get ck (coherent_ready hs hf hr) rfl h2 h3 hn depth

/-- The chunk at hand has not the range: it is requested. -/
theorem poll_missing {object : List Byte} (get : RangeGet) (ck : Bool) {s : RangedStreamer} (hs : Coherent object s)
    {o : SeekOutput} (ho : s.state = .hasChunk o) {n : Nat}
    (h : ¬ (o.start ≤ s.pos ∧ s.pos + n ≤ o.start + o.data.length)) (hn : s.pos + n < 2 ^ 64) (depth : Nat) :
    s.pollRead ck get (depth + 1) n = (s.request get n).pollRead ck get depth n := by
  rw [RangedStreamer.pollRead.eq_def]
  simp only [ho]
  rw [includes_spec hs.small (hs.chunk o ho) ck s.pos n hn]
  simp only [h, decide_false]

theorem request_steady {P : Nat} {get : RangeGet} (hp : PromptGet P get) (s : RangedStreamer) (n : Nat) :
    Steady P get (s.request get n) where
  alive := by simp [RangedStreamer.request]
  prompt := by
    intro f hf
    simp only [RangedStreamer.request, RangeState.seeking.injEq] at hf
    subst hf
    exact hp _ _ _
  reliable := by
    intro hr f hf
    simp only [RangedStreamer.request, RangeState.seeking.injEq] at hf
    subst hf
    exact hr _ _ _

/-- Unless it fails or aborts, a steady reader stays so; it fails only if `range_get` may. -/
theorem poll_steady {P : Nat} {get : RangeGet} (hp : PromptGet P get) (ck : Bool) (n depth : Nat)
    (s : RangedStreamer) (hs : Steady P get s) :
    ((s.pollRead ck get depth n).1 ≠ .failed → Steady P get (s.pollRead ck get depth n).2) ∧
    (ReliableGet get → (s.pollRead ck get depth n).1 ≠ .failed) := by
  induction depth generalizing s with
  | zero => exact ⟨fun _ => hs, fun _ h => by cases h⟩
  | succ depth ih =>
    unfold RangedStreamer.pollRead
    cases hst : s.state with
    | completed => exact absurd hst hs.alive
    | seeking f =>
      simp only
      cases hpd : f.pending with
      | succ k =>
        have hk := hs.prompt f hst
        refine ⟨fun _ => ⟨by simp, ?_, ?_⟩, fun _ h => by cases h⟩
        · intro f' hf'
          simp only [RangeState.seeking.injEq] at hf'
          subst hf'
          simp only
          omega
        · intro hr f' hf'
          simp only [RangeState.seeking.injEq] at hf'
          subst hf'
          exact hs.reliable hr f hst
      | zero =>
        simp only
        cases hr : f.result with
        | none => exact ⟨fun h => absurd rfl h, fun h => absurd hr (hs.reliable h f hst)⟩
        | some o => exact ih { s with state := .hasChunk o } ⟨by simp, by simp, by simp⟩
    | hasChunk o =>
      simp only
      cases rangeIncludes ck (o.start, o.data.length) (s.pos, n) with
      | err e => exact ⟨fun _ => hs, fun _ h => by cases h⟩
      | panic => exact ⟨fun _ => hs, fun _ h => by cases h⟩
      | ok b =>
        cases b with
        | false => exact ih _ (request_steady hp s n)
        | true =>
          simp only
          unfold RangedStreamer.copy
          simp only
          split
          · split
            · exact ⟨fun _ => ⟨hs.alive, hs.prompt, hs.reliable⟩, fun _ h => by cases h⟩
            · exact ⟨fun _ => hs, fun _ h => by cases h⟩
          · exact ⟨fun _ => hs, fun _ h => by cases h⟩

section Within

variable {object : List Byte} {get : RangeGet} (hg : HonestGet object get) (ck : Bool)
include hg

/-- A poll with the chunk at hand: ready, or failed, or waiting for what it needs. -/
theorem poll_chunk {P : Nat} (hp : PromptGet P get) {s : RangedStreamer} (hs : Coherent object s) {o : SeekOutput}
    (ho : s.state = .hasChunk o) {n : Nat} (hn : s.pos + n ≤ object.length) (depth : Nat) :
    (∃ b, (s.pollRead ck get (depth + 3) n).1 = .ready b) ∨ (s.pollRead ck get (depth + 3) n).1 = .failed ∨
    ((s.pollRead ck get (depth + 3) n).1 = .pending ∧ ∃ f, (s.pollRead ck get (depth + 3) n).2.state = .seeking f ∧
      f.pending < P ∧ Aimed object (s.pollRead ck get (depth + 3) n).2 n) := by
  have hsm := hs.small
  by_cases hi : o.start ≤ s.pos ∧ s.pos + n ≤ o.start + o.data.length
  · rw [poll_held get ck hs ho hi.1 hi.2 (by omega)]
    exact .inl ⟨_, rfl⟩
  · rw [poll_missing get ck hs ho hi (by omega)]
    have ha := request_aimed hg hs hn
    have hc := coherent_request hg hs n
    have hst : (s.request get n).state = .seeking (get s.requests.length s.pos (max s.minRequestSize n)) := rfl
    have hpos : (s.request get n).pos = s.pos := rfl
    generalize hf : get s.requests.length s.pos (max s.minRequestSize n) = f at hst
    have hfp : f.pending ≤ P := by rw [← hf]; exact hp _ _ _
    cases hpd : f.pending with
    | zero =>
      rw [poll_aimed get ck hc hst hpd ha (by omega)]
      cases f.result with
      | none => exact .inr (.inl rfl)
      | some o => exact .inl ⟨_, rfl⟩
    | succ k =>
      rw [RangedStreamer.pollRead.eq_def]
      simp only [hst, hpd]
      refine .inr (.inr ⟨trivial, _, rfl, ?_, ?_⟩)
      · simp only; omega
      · intro f' hf' o' ho'
        simp only [RangeState.seeking.injEq] at hf'
        subst hf'
        exact ha f hst o' ho'

/-- A poll within the object neither recurs forever nor aborts. -/
theorem poll_within {P : Nat} (hp : PromptGet P get) {s : RangedStreamer} (hs : Coherent object s)
    (hst : Steady P get s) {n : Nat} (hn : s.pos + n ≤ object.length) (depth : Nat) (hd : 4 ≤ depth) :
    (s.pollRead ck get depth n).1 ≠ .loops ∧ (s.pollRead ck get depth n).1 ≠ .panic := by
  obtain ⟨d, rfl⟩ : ∃ d, depth = d + 4 := ⟨depth - 4, by omega⟩
  have hsm := hs.small
  have key : ∀ (s : RangedStreamer) (d : Nat), Coherent object s → (∃ o, s.state = .hasChunk o) →
      s.pos + n ≤ object.length → (s.pollRead ck get (d + 3) n).1 ≠ .loops := by
    rintro s d hs ⟨o, ho⟩ hn
    rcases poll_chunk hg ck hp hs ho hn d with ⟨b, h⟩ | h | ⟨h, -⟩ <;> rw [h] <;> simp
  constructor
  · cases hs' : s.state with
    | completed => exact absurd hs' hst.alive
    | hasChunk o => exact key s (d + 1) hs ⟨o, hs'⟩ hn
    | seeking f =>
      rw [RangedStreamer.pollRead.eq_def]
      simp only [hs']
      cases hpd : f.pending with
      | succ k => simp
      | zero =>
        simp only
        cases hr : f.result with
        | none => simp
        | some o => exact key _ d (coherent_ready hs hs' hr) ⟨o, rfl⟩ hn
  · intro h
    have := poll_ok hg ck n (d + 4) s hs
    obtain ⟨-, h2⟩ := this
    rw [h] at h2
    rcases h2 with h2 | h2
    · exact hst.alive h2
    · omega

/-! ### Waiting -/

/-- What is known of a read is what is known of a poll. -/
theorem await_ok (n depth polls : Nat) (s : RangedStreamer) (hs : Coherent object s) :
    PollOk object s n (s.awaitRead ck get depth polls n) ∨
      (s.awaitRead ck get depth polls n).1 = .panic ∧ Coherent object (s.awaitRead ck get depth polls n).2 := by
  induction polls generalizing s with
  | zero => exact .inl ⟨hs, rfl⟩
  | succ polls ih =>
    unfold RangedStreamer.awaitRead
    have h := poll_ok hg ck n depth s hs
    generalize s.pollRead ck get depth n = x at h
    obtain ⟨x, s'⟩ := x
    obtain ⟨h1, h2⟩ := h
    cases x with
    | pending =>
      simp only
      have h3 := ih s' h1
      simp only at h2
      rcases h3 with ⟨h3, h4⟩ | h3
      · generalize s'.awaitRead ck get depth polls n = y at h3 h4 ⊢
        obtain ⟨y, t⟩ := y
        rw [h2] at h4
        cases y with
        | panic => exact .inr ⟨rfl, h3⟩
        | ready b => exact .inl ⟨h3, h4⟩
        | failed => exact .inl ⟨h3, h4⟩
        | pending => exact .inl ⟨h3, h4⟩
        | loops => exact .inl ⟨h3, h4⟩
      · exact .inr h3
    | ready b => exact .inl ⟨h1, h2⟩
    | failed => exact .inl ⟨h1, h2⟩
    | panic => exact .inl ⟨h1, h2⟩
    | loops => exact .inl ⟨h1, h2⟩

omit hg in
theorem await_steady {P : Nat} (hp : PromptGet P get) (n depth polls : Nat) (s : RangedStreamer)
    (hs : Steady P get s) :
    ((s.awaitRead ck get depth polls n).1 ≠ .failed → Steady P get (s.awaitRead ck get depth polls n).2) ∧
    (ReliableGet get → (s.awaitRead ck get depth polls n).1 ≠ .failed) := by
  induction polls generalizing s with
  | zero => exact ⟨fun _ => hs, fun _ h => by cases h⟩
  | succ polls ih =>
    unfold RangedStreamer.awaitRead
    have h := poll_steady hp ck n depth s hs
    generalize s.pollRead ck get depth n = x at h
    obtain ⟨x, s'⟩ := x
    cases x with
    | pending => exact ih s' (h.1 (by simp))
    | ready b => exact h
    | failed => exact h
    | panic => exact h
    | loops => exact h

theorem await_within {P : Nat} (hp : PromptGet P get) (n depth : Nat) (hd : 4 ≤ depth) (polls : Nat)
    (s : RangedStreamer) (hs : Coherent object s) (hst : Steady P get s) (hn : s.pos + n ≤ object.length) :
    (s.awaitRead ck get depth polls n).1 ≠ .loops ∧ (s.awaitRead ck get depth polls n).1 ≠ .panic := by
  induction polls generalizing s with
  | zero => exact ⟨by simp [RangedStreamer.awaitRead], by simp [RangedStreamer.awaitRead]⟩
  | succ polls ih =>
    unfold RangedStreamer.awaitRead
    have h := poll_within hg ck hp hs hst hn depth hd
    have h1 := poll_ok hg ck n depth s hs
    have h2 := poll_steady hp ck n depth s hst
    generalize s.pollRead ck get depth n = x at h h1 h2
    obtain ⟨x, s'⟩ := x
    cases x with
    | pending =>
      exact ih s' h1.1 (h2.1 (by simp)) (by have := h1.2; simp only at this; rw [this]; exact hn)
    | ready b => exact h
    | failed => exact h
    | panic => exact h
    | loops => exact h

/-- What is aimed at comes after as many polls as it is pending. -/
theorem await_aimed {n depth : Nat} (hd : 2 ≤ depth) (polls : Nat) (s : RangedStreamer) (hs : Coherent object s)
    (hn : s.pos + n ≤ object.length) (f : RangeFuture) (hf : s.state = .seeking f) (ha : Aimed object s n)
    (hpolls : f.pending < polls) : (s.awaitRead ck get depth polls n).1 ≠ .pending := by
  obtain ⟨d, rfl⟩ : ∃ d, depth = d + 2 := ⟨depth - 2, by omega⟩
  have hsm := hs.small
  induction polls generalizing s f with
  | zero => omega
  | succ polls ih =>
    unfold RangedStreamer.awaitRead
    cases hpd : f.pending with
    | zero =>
      rw [poll_aimed get ck hs hf hpd ha (by omega)]
      cases f.result <;> simp
    | succ k =>
      have hok := poll_ok hg ck n (d + 2) s hs
      have he : s.pollRead ck get (d + 2) n = (.pending, { s with state := .seeking { f with pending := k } }) := by
        rw [RangedStreamer.pollRead.eq_def]
        simp only [hf, hpd]
      rw [he] at hok ⊢
      refine ih _ hok.1 hn { f with pending := k } rfl ?_ (by simp only; omega)
      intro f' hf' o ho
      simp only [RangeState.seeking.injEq] at hf'
      subst hf'
      exact ha f hf o ho

/-- Twice as many polls as a future is pending at most are enough. -/
theorem await_ends {P : Nat} (hp : PromptGet P get) {n depth : Nat} (hd : 4 ≤ depth) (polls : Nat)
    (s : RangedStreamer) (hs : Coherent object s) (hst : Steady P get s) (hn : s.pos + n ≤ object.length)
    (hpolls : (match s.state with | .seeking f => f.pending | _ => 0) + P < polls) :
    (s.awaitRead ck get depth polls n).1 ≠ .pending := by
  obtain ⟨d, rfl⟩ : ∃ d, depth = d + 4 := ⟨depth - 4, by omega⟩
  have key : ∀ (s t : RangedStreamer) (d' polls : Nat), Coherent object t → (∃ o, t.state = .hasChunk o) →
      t.pos + n ≤ object.length → P < polls + 1 → s.pollRead ck get (d + 4) n = t.pollRead ck get (d' + 3) n →
      (s.awaitRead ck get (d + 4) (polls + 1) n).1 ≠ .pending := by
    rintro s t d' polls ht ⟨o, ho⟩ hn hpolls he
    unfold RangedStreamer.awaitRead
    rw [he]
    have hok := poll_ok hg ck n (d' + 3) t ht
    rcases poll_chunk hg ck hp ht ho hn d' with ⟨b, h⟩ | h | ⟨h, f, hf, hfp, ha⟩
    · generalize t.pollRead ck get (d' + 3) n = x at h hok
      obtain ⟨x, s'⟩ := x
      simp only at h
      subst h
      simp
    · generalize t.pollRead ck get (d' + 3) n = x at h hok
      obtain ⟨x, s'⟩ := x
      simp only at h
      subst h
      simp
    · generalize t.pollRead ck get (d' + 3) n = x at h hok hf ha
      obtain ⟨x, s'⟩ := x
      simp only at h
      subst h
      simp only
      have hpos := hok.2
      simp only at hpos
      exact await_aimed hg ck (by omega) polls s' hok.1 (by rw [hpos]; exact hn) f hf ha (by omega)
  induction polls generalizing s with
  | zero => omega
  | succ polls ih =>
    cases hs' : s.state with
    | completed => exact absurd hs' hst.alive
    | hasChunk o =>
      rw [hs'] at hpolls
      simp only at hpolls
      exact key s s (d + 1) polls hs ⟨o, hs'⟩ hn (by omega) rfl
    | seeking f =>
      rw [hs'] at hpolls
      simp only at hpolls
      cases hpd : f.pending with
      | succ k =>
        unfold RangedStreamer.awaitRead
        have hok := poll_ok hg ck n (d + 4) s hs
        have hsd := (poll_steady hp ck n (d + 4) s hst).1
        have he : s.pollRead ck get (d + 4) n = (.pending, { s with state := .seeking { f with pending := k } }) := by
          rw [RangedStreamer.pollRead.eq_def]
          simp only [hs', hpd]
        rw [he] at hok hsd ⊢
        exact ih _ hok.1 (hsd (by simp)) hn (by simp only; omega)
      | zero =>
        cases hr : f.result with
        | none =>
          unfold RangedStreamer.awaitRead
          rw [RangedStreamer.pollRead.eq_def]
          simp [hs', hpd, hr]
        | some o =>
          refine key s { s with state := .hasChunk o } d polls (coherent_ready hs hs' hr) ⟨o, rfl⟩ hn (by omega) ?_
          rw [RangedStreamer.pollRead.eq_def]
          simp only [hs', hpd, hr]

end Within

/-- Beyond the end of the object, with a function that is always ready, the recursion never ends. -/
theorem poll_loops {object : List Byte} {get : RangeGet} (hg : HonestGet object get) (hp : PromptGet 0 get)
    (hr : ReliableGet get) (ck : Bool) {n : Nat} (hn : 0 < n) (depth : Nat) (s : RangedStreamer)
    (hs : Coherent object s) (hst : Steady 0 get s) (h1 : object.length < s.pos + n) (h2 : s.pos + n < 2 ^ 64) :
    (s.pollRead ck get depth n).1 = .loops := by
  induction depth generalizing s with
  | zero => rfl
  | succ depth ih =>
    cases hs' : s.state with
    | completed => exact absurd hs' hst.alive
    | seeking f =>
      rw [RangedStreamer.pollRead.eq_def]
      have hpd : f.pending = 0 := by have := hst.prompt f hs'; omega
      simp only [hs', hpd]
      cases hres : f.result with
      | none => exact absurd hres (hst.reliable hr f hs')
      | some o => exact ih _ (coherent_ready hs hs' hres) ⟨by simp, by simp, by simp⟩ h1 h2
    | hasChunk o =>
      have he := chunk_end (hs.chunk o hs')
      rw [poll_missing get ck hs hs' (by
        have := (hs.chunk o hs').2.length_le
        simp only [List.length_drop] at this
        omega) h2]
      exact ih _ (coherent_request hg hs n) (request_steady hp s n) h1 h2

end Pq
