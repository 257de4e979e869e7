import Verif.Lemmas.Writer
/-
Lemmas about sequences of calls on a writer.
-/
namespace Pq

open Spec

/-- What a call leaves as it is. -/
structure Extends (w w' : FileWriter) : Prop where
  out : w.out <+: w'.out
  offset : w.offset ≤ w'.offset
  state : w'.state = w.state ∨ w'.state = .finished

theorem indexColumns_offset (index : List PageWriteSpec → Res (List Byte))
    (set : Thrift.ColumnChunk → I64 → Option I32 → Thrift.ColumnChunk) (off : Nat)
    (columns : List Thrift.ColumnChunk) (specs : List (List PageWriteSpec)) :
    off ≤ (indexColumns index set off columns specs).2.offset := by
  induction columns generalizing off specs with
  | nil => exact Nat.le_refl _
  | cons c columns ih =>
    cases specs with
    | nil => exact Nat.le_refl _
    | cons pages specs =>
      rw [indexColumns]
      split
      · exact Nat.le_refl _
      · exact Nat.le_refl _
      · rename_i bytes _
        have := ih (off + bytes.length) specs
        simp only
        omega

theorem indexGroups_offset (index : List PageWriteSpec → Res (List Byte))
    (set : Thrift.ColumnChunk → I64 → Option I32 → Thrift.ColumnChunk) (off : Nat)
    (groups : List Thrift.RowGroup) (specs : List (List (List PageWriteSpec))) :
    off ≤ (indexGroups index set off groups specs).2.offset := by
  induction groups generalizing off specs with
  | nil => exact Nat.le_refl _
  | cons g groups ih =>
    cases specs with
    | nil => exact Nat.le_refl _
    | cons pages specs =>
      rw [indexGroups]
      have h1 := indexColumns_offset index set off g.columns pages
      generalize indexColumns index set off g.columns pages = r at h1
      obtain ⟨r, l⟩ := r
      simp only at h1 ⊢
      split
      · exact h1
      · exact h1
      · have := ih l.offset specs
        simp only
        omega

theorem columnIndexes_extends (cs : ThriftCodecs) (w : FileWriter) :
    Extends w (w.columnIndexes cs).2 := by
  rw [FileWriter.columnIndexes]
  split
  · exact ⟨List.prefix_append _ _, indexGroups_offset _ _ _ _ _, .inl rfl⟩
  · exact ⟨List.prefix_refl _, Nat.le_refl _, .inl rfl⟩

theorem offsetIndexes_extends (cs : ThriftCodecs) (ck : Bool) (w : FileWriter) :
    Extends w (w.offsetIndexes cs ck).2 :=
  ⟨List.prefix_append _ _, indexGroups_offset _ _ _ _ _, .inl rfl⟩

theorem Extends.trans {a b c : FileWriter} (h1 : Extends a b) (h2 : Extends b c) : Extends a c := by
  refine ⟨h1.out.trans h2.out, Nat.le_trans h1.offset h2.offset, ?_⟩
  rcases h2.state with e | e
  · rcases h1.state with e' | e'
    · exact .inl (e.trans e')
    · exact .inr (e.trans e')
  · exact .inr e

theorem Extends.refl (w : FileWriter) : Extends w w :=
  ⟨List.prefix_refl _, Nat.le_refl _, .inl rfl⟩

theorem Extends.append {w w' : FileWriter} (h : Extends w w') (bytes : List Byte) :
    Extends w { w' with out := w'.out ++ bytes } :=
  h.trans ⟨List.prefix_append _ _, Nat.le_refl _, .inl rfl⟩

theorem write_extends (cs : ThriftCodecs) (ck : Bool) (w : FileWriter)
    (rowGroup : List (Res (List (Res CompressedPage)))) :
    Extends w.autoStart (w.write cs ck rowGroup).2 ∧
      (w.write cs ck rowGroup).2.state = w.autoStart.state := by
  rw [FileWriter.write]
  split
  · exact ⟨(Extends.refl _).append _, rfl⟩
  · exact ⟨(Extends.refl _).append _, rfl⟩
  · exact ⟨⟨List.prefix_append _ _, Nat.le_add_right _ _, .inl rfl⟩, rfl⟩

theorem end_extends (cs : ThriftCodecs) (ck : Bool) (w : FileWriter)
    (kv : Option (List Thrift.KeyValue)) : Extends w.autoStart (w.end_ cs ck kv).2 := by
  rw [FileWriter.end_, FileWriter.endWith]
  simp only
  split
  · exact .refl _
  split
  · exact .refl _
  · exact .refl _
  have h1 := columnIndexes_extends cs w.autoStart
  generalize w.autoStart.columnIndexes cs = r1 at h1
  obtain ⟨r1, w1⟩ := r1
  simp only at h1 ⊢
  cases r1 with
  | err e => exact h1
  | panic => exact h1
  | ok u =>
    have h2 := h1.trans (offsetIndexes_extends cs ck w1)
    simp only
    generalize w1.offsetIndexes cs ck = r2 at h2
    obtain ⟨r2, w2⟩ := r2
    cases r2 with
    | err e => exact h2
    | panic => exact h2
    | ok u =>
      simp only at h2 ⊢
      split
      · exact h2.append _
      · exact h2.append _
      · exact h2.trans ⟨List.prefix_append _ _, Nat.le_refl _, .inr rfl⟩

/-- After the first call. -/
structure Live (w : FileWriter) : Prop where
  magic : par1 <+: w.out
  offset : 4 ≤ w.offset
  state : w.state ≠ .initialised

theorem Live.extend {w w' : FileWriter} (h : Live w) (he : Extends w w') : Live w' := by
  refine ⟨h.magic.trans he.out, Nat.le_trans h.offset he.offset, ?_⟩
  rcases he.state with e | e
  · rw [e]; exact h.state
  · rw [e]; simp

/-- Before the first call. -/
def Blank (w : FileWriter) : Prop := w.out = [] ∧ w.offset = 0 ∧ w.state = .initialised

theorem autoStart_live {w : FileWriter} (h : Blank w ∨ Live w) :
    Live w.autoStart ∧ w.out <+: w.autoStart.out := by
  rcases h with h | h
  · obtain ⟨h1, h2, h3⟩ := h
    rw [FileWriter.autoStart, if_pos h2, FileWriter.start, if_pos h2]
    refine ⟨⟨?_, by simp, by simp⟩, by simp⟩
    simp only [h1, List.nil_append]
    exact List.prefix_refl _
  · rw [autoStart_of_ne (by have := h.offset; omega)]
    exact ⟨h, List.prefix_refl _⟩

theorem start_live {w : FileWriter} (h : Blank w ∨ Live w) :
    Live w.start.2 ∧ w.out <+: w.start.2.out := by
  rcases h with h | h
  · have := autoStart_live (.inl h)
    rwa [FileWriter.autoStart, if_pos h.2.1] at this
  · rw [FileWriter.start, if_neg (by have := h.offset; omega)]
    exact ⟨h, List.prefix_refl _⟩

theorem run_live (cs : ThriftCodecs) (ck : Bool) {w : FileWriter} (h : Blank w ∨ Live w)
    (call : WriterCall) : Live (call.run cs ck w) ∧ w.out <+: (call.run cs ck w).out := by
  cases call with
  | start => exact start_live h
  | write rowGroup =>
    obtain ⟨h1, h2⟩ := autoStart_live h
    have h3 := (write_extends cs ck w rowGroup).1
    exact ⟨h1.extend h3, h2.trans h3.out⟩
  | end_ kv =>
    obtain ⟨h1, h2⟩ := autoStart_live h
    have h3 := end_extends cs ck w kv
    exact ⟨h1.extend h3, h2.trans h3.out⟩

theorem runCalls_live (cs : ThriftCodecs) (ck : Bool) {w : FileWriter} (h : Blank w ∨ Live w)
    (calls : List WriterCall) : Live (runCalls cs ck w calls) ∨ (calls = [] ∧ Blank w) := by
  induction calls generalizing w with
  | nil => rcases h with h | h
           · exact .inr ⟨rfl, h⟩
           · exact .inl h
  | cons c calls ih =>
    left
    rcases ih (w := c.run cs ck w) (.inr (run_live cs ck h c).1) with h' | ⟨h1, h2⟩
    · exact h'
    · subst h1
      exact (run_live cs ck h c).1

/-- After a successful end. -/
def Done (w : FileWriter) : Prop := w.offset ≠ 0 ∧ w.state = .finished

theorem Done.end_ {w : FileWriter} (h : Done w) (cs : ThriftCodecs) (ck : Bool)
    (kv : Option (List Thrift.KeyValue)) : w.end_ cs ck kv = (.err .invalidParameter, w) := by
  rw [FileWriter.end_, FileWriter.endWith, autoStart_of_ne h.1]
  simp [h.2]

theorem Done.run {w : FileWriter} (h : Done w) (cs : ThriftCodecs) (ck : Bool) (call : WriterCall) :
    Done (call.run cs ck w) := by
  cases call with
  | start =>
    rw [WriterCall.run, FileWriter.start, if_neg h.1]
    exact h
  | write rowGroup =>
    obtain ⟨h1, h2⟩ := write_extends cs ck w rowGroup
    rw [autoStart_of_ne h.1] at h1 h2
    have := h1.offset
    have := h.1
    exact ⟨by simp only [WriterCall.run]; omega, h2.trans h.2⟩
  | end_ kv =>
    rw [WriterCall.run, h.end_]
    exact h

theorem end_done {cs : ThriftCodecs} {ck : Bool} {w w' : FileWriter} {n : Nat}
    {kv : Option (List Thrift.KeyValue)} (hw : Blank w ∨ Live w)
    (h : w.end_ cs ck kv = (.ok n, w')) : Done w' ∧ w'.metadata.isSome = true := by
  have h1 := (autoStart_live hw).1.extend (end_extends cs ck w kv)
  rw [h] at h1
  have h2 := h1.offset
  rw [FileWriter.end_, FileWriter.endWith] at h
  simp only at h
  split at h
  · simp at h
  split at h
  · simp at h
  · simp at h
  split at h
  · simp at h
  · simp at h
  split at h
  · simp at h
  · simp at h
  split at h
  · simp at h
  · simp at h
  simp only [Prod.mk.injEq, Res.ok.injEq] at h
  obtain ⟨-, rfl⟩ := h
  exact ⟨⟨by simp only at h2 ⊢; omega, rfl⟩, rfl⟩

end Pq
