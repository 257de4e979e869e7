import Mathlib.Data.List.Forall2
import Verif.Spec.Source
/-
Lemmas relating the functions on a reader (`Model/Source.lean`) to those on the bytes of the file
(`Model/FileMetadata.lean`).
-/
namespace Pq

open Spec

variable {σ α β : Type} {v : SourceView σ} {i : Input σ} {file : List Byte}

theorem IoM.bind_eq (m : IoM σ α) (f : α → IoM σ β) : (m >>= f) = IoM.bind m f := rfl

theorem IoM.bind_at (m : IoM σ α) (f : α → IoM σ β) (s : σ) : (m >>= f) s = IoM.bind m f s := rfl

theorem Delivers.bind {m : IoM σ α} {r : Res α} {f : α → IoM σ β} {g : α → Res β} (h : Delivers v m r)
    (hf : ∀ a, r = .ok a → Delivers v (f a) (g a)) : Delivers v (m >>= f) (r >>= g) := by
  intro s
  rw [IoM.bind_eq]
  rcases h s with ⟨h1, h2⟩ | ⟨h1, h2⟩
  · simp only [IoM.bind]
    generalize m s = ms at h1 h2
    obtain ⟨r', s'⟩ := ms
    simp only at h1 h2
    subst h1
    cases r' with
    | ok a =>
      rcases hf a rfl s' with ⟨k1, k2⟩ | ⟨k1, k2⟩
      · exact .inl ⟨k1, k2.trans h2⟩
      · exact .inr ⟨k1, k2⟩
    | err e => exact .inl ⟨rfl, h2⟩
    | panic => exact .inl ⟨rfl, h2⟩
  · refine .inr ?_
    simp only [IoM.bind]
    generalize m s = ms at h1 h2
    obtain ⟨r', s'⟩ := ms
    simp only at h1 h2
    subst h1
    exact ⟨rfl, h2⟩

theorem Delivers.lift (r : Res α) : Delivers v (IoM.lift r) r := fun _ => .inl ⟨rfl, rfl⟩

theorem Delivers.pure (a : α) : Delivers v (Pure.pure a : IoM σ α) (.ok a) := fun _ => .inl ⟨rfl, rfl⟩

/-- What `read_to_end` gives, from where the reader is. -/
theorem readToEnd_spec (h : LawfulInput i v file) (fuel limit : Nat) (hfuel : limit ≤ fuel)
    (acc : List Byte) (s : σ) :
    (((i.readToEnd fuel limit acc) s).1 = .ok (acc ++ (file.drop (v.pos s)).take limit) ∧
      v.failed ((i.readToEnd fuel limit acc) s).2 = v.failed s) ∨
    (((i.readToEnd fuel limit acc) s).1 = .err .oos ∧
      v.failed ((i.readToEnd fuel limit acc) s).2 = true) := by
  induction fuel generalizing limit acc s with
  | zero =>
    obtain rfl : limit = 0 := by omega
    exact .inl ⟨by simp [Input.readToEnd, Pure.pure, IoM.pure], rfl⟩
  | succ fuel ih =>
    rw [Input.readToEnd]
    split
    · next h0 => subst h0; exact .inl ⟨by simp [Pure.pure, IoM.pure], rfl⟩
    · next h0 =>
      simp only [IoM.bind_at, IoM.bind, Source.get]
      have hb := h.buffer acc.length
      cases hr : i.source.read s (min limit (i.buffer acc.length)) with
      | mk b s' =>
        cases b with
        | none => exact .inr ⟨rfl, h.source.read_err _ _ _ hr⟩
        | some b =>
          obtain ⟨h1, h2, h3, h4⟩ := h.source.read_ok _ _ _ _ hr
          simp only
          split
          · next hnil =>
            refine .inl ⟨?_, h4⟩
            have : file.length ≤ v.pos s := by
              rcases h2 hnil with h | h
              · omega
              · exact h
            simp [Pure.pure, IoM.pure, List.drop_eq_nil_of_le this]
          · next hnil =>
            have hlen : b.length ≤ min limit (i.buffer acc.length) := by
              have := h1.length_le
              simp only [List.length_take] at this
              omega
            have hpos : 0 < b.length := List.length_pos_iff.2 hnil
            rcases ih (limit - b.length) (by omega) (acc ++ b) s' with ⟨k1, k2⟩ | ⟨k1, k2⟩
            · refine .inl ⟨?_, k2.trans h4⟩
              rw [k1, h3, List.append_assoc]
              congr 2
              have hb : b = (file.drop (v.pos s)).take b.length := by
                have h5 : b <+: file.drop (v.pos s) := h1.trans (List.take_prefix _ _)
                exact List.prefix_iff_eq_take.1 h5
              conv_lhs => rw [hb]
              rw [← List.drop_drop]
              have := List.take_append_drop b.length ((file.drop (v.pos s)).take limit)
              rw [List.take_take, List.drop_take] at this
              rw [Nat.min_eq_left (by omega)] at this
              rw [← hb] at this ⊢
              exact this
            · exact .inr ⟨k1, k2⟩

/-- Some bytes from where a seek leads. -/
theorem seek_read (h : LawfulInput i v file) (tgt : SeekFrom) (n : Nat) (r : Res (List Byte))
    (hr : ∀ p, match seekTarget file.length p tgt with
      | some q => r = .ok ((file.drop q).take n)
      | none => r = .err .oos) :
    Delivers v (do let _ ← i.source.seekTo tgt; i.takeToEnd n) r := by
  intro s
  simp only [IoM.bind_at, IoM.bind, Source.seekTo]
  have hrs := hr (v.pos s)
  cases hs : i.source.seek s tgt with
  | mk q s' =>
    cases q with
    | none =>
      rcases h.source.seek_err _ _ _ hs with ⟨h1, h2⟩ | h1
      · rw [h1] at hrs
        exact .inl ⟨hrs.symm, h2⟩
      · exact .inr ⟨rfl, h1⟩
    | some q =>
      obtain ⟨h1, h2, h3⟩ := h.source.seek_ok _ _ _ _ hs
      rw [h1] at hrs
      simp only at hrs ⊢
      rw [hrs]
      have := readToEnd_spec h n n (Nat.le_refl _) [] s'
      rw [h2, h3, List.nil_append] at this
      exact this

theorem Delivers.lastBytes (h : LawfulInput i v file) (k : Nat) :
    Delivers v (lastBytesFrom i k) (lastBytes file k) := by
  refine seek_read h _ _ _ fun p => ?_
  simp only [seekTarget, Pq.lastBytes]
  by_cases hk : k ≤ file.length
  · rw [if_pos (by omega), if_pos hk]
    simp only
    rw [show ((file.length : Int) + -(k : Int)).toNat = file.length - k by omega, List.take_of_length_le]
    simp only [List.length_drop]
    omega
  · rw [if_neg (by omega), if_neg hk]

theorem Delivers.footerBytes (h : LawfulInput i v file) (size : Nat) :
    Delivers v (footerBytesFrom i size) (footerBytes file size) := by
  rw [footerBytesFrom, Pq.footerBytes]
  split
  · exact Delivers.lift _
  · refine Delivers.bind (Delivers.lastBytes h _) fun buffer _ => ?_
    refine Delivers.bind (Delivers.lift _) fun tail _ => ?_
    split
    · exact Delivers.lift _
    · refine Delivers.bind (Delivers.lift _) fun len _ => ?_
      refine Delivers.bind (Delivers.lift _) fun len _ => ?_
      simp only
      split
      · exact Delivers.lift _
      · split
        · exact Delivers.pure _
        · exact Delivers.lastBytes h _

theorem Delivers.withSize (h : LawfulInput i v file) (codec : Codec Thrift.FileMetaData) (size : Nat) :
    Delivers v (readMetadataWithSizeFrom i codec size) (readMetadataWithSize codec file size) := by
  have := Delivers.bind (Delivers.footerBytes h size)
    (f := fun reader => IoM.lift (deserializeMetadata codec reader (reader.length * 2 + 1024)))
    (g := fun reader => deserializeMetadata codec reader (reader.length * 2 + 1024))
    fun _ _ => Delivers.lift _
  rw [readMetadataWithSizeFrom, readMetadataWithSize]
  cases hf : Pq.footerBytes file size <;> rw [hf] at this <;> exact this

/-- `stream_len` gives the length and leaves the reader where it was. -/
theorem streamLen_spec (h : LawfulInput i v file) (s : σ) :
    ((streamLenFrom i s).1 = .ok file.length ∧ v.failed (streamLenFrom i s).2 = v.failed s ∧
      v.pos (streamLenFrom i s).2 = v.pos s) ∨
    ((streamLenFrom i s).1 = .err .oos ∧ v.failed (streamLenFrom i s).2 = true) := by
  simp only [streamLenFrom, IoM.bind_at, IoM.bind, Source.seekTo]
  cases hs : i.source.seek s (.current 0) with
  | mk q s1 =>
    cases q with
    | none =>
      rcases h.source.seek_err _ _ _ hs with ⟨h1, h2⟩ | h1
      · simp only [seekTarget] at h1
        rw [if_pos (by omega)] at h1
        cases h1
      · exact .inr ⟨rfl, h1⟩
    | some q =>
      obtain ⟨h1, h2, h3⟩ := h.source.seek_ok _ _ _ _ hs
      simp only [seekTarget] at h1
      rw [if_pos (by omega)] at h1
      obtain rfl : v.pos s = q := by
        have := Option.some.inj h1
        omega
      simp only
      cases hs2 : i.source.seek s1 (.end_ 0) with
      | mk q2 s2 =>
        cases q2 with
        | none =>
          rcases h.source.seek_err _ _ _ hs2 with ⟨h1, h2⟩ | h1
          · simp only [seekTarget] at h1
            rw [if_pos (by omega)] at h1
            cases h1
          · exact .inr ⟨rfl, h1⟩
        | some q2 =>
          obtain ⟨k1, k2, k3⟩ := h.source.seek_ok _ _ _ _ hs2
          simp only [seekTarget] at k1
          rw [if_pos (by omega)] at k1
          obtain rfl : file.length = q2 := by
            have := Option.some.inj k1
            omega
          simp only
          split
          · simp only [IoM.bind_at, IoM.bind, Source.seekTo]
            cases hs3 : i.source.seek s2 (.start (v.pos s)) with
            | mk q3 s3 =>
              cases q3 with
              | none =>
                rcases h.source.seek_err _ _ _ hs3 with ⟨h1, h2⟩ | h1
                · cases h1
                · exact .inr ⟨rfl, h1⟩
              | some q3 =>
                obtain ⟨l1, l2, l3⟩ := h.source.seek_ok _ _ _ _ hs3
                cases l1
                exact .inl ⟨rfl, by rw [← h3, ← k3, ← l3]; rfl, l2⟩
          · next hne =>
            have hne : v.pos s = file.length := Decidable.not_not.1 hne
            exact .inl ⟨rfl, by rw [← h3, ← k3]; rfl, by rw [hne]; exact k2⟩

theorem Delivers.metadata (h : LawfulInput i v file) (codec : Codec Thrift.FileMetaData) :
    Delivers v (readMetadataFrom i codec) (readMetadata codec file) := by
  have h1 : Delivers v (streamLenFrom i) (.ok file.length) := fun s =>
    (streamLen_spec h s).imp (fun h => ⟨h.1, h.2.1⟩) id
  exact Delivers.bind h1 (g := fun size => readMetadataWithSize codec file size)
    fun size _ => Delivers.withSize h codec size

theorem Delivers.column (h : LawfulInput i v file) (c : ColumnChunkMetaData) :
    Delivers v (readColumnFrom i c) (readColumn file c) := by
  rw [readColumnFrom, readColumn]
  refine Delivers.bind (Delivers.lift _) fun x _ => ?_
  obtain ⟨start, length⟩ := x
  simp only
  split
  · intro s
    simp only [IoM.bind_at, IoM.bind, Source.seekTo]
    cases hs : i.source.seek s (.start start) with
    | mk q s' =>
      cases q with
      | none =>
        rcases h.source.seek_err _ _ _ hs with ⟨h1, h2⟩ | h1
        · cases h1
        · exact .inr ⟨rfl, h1⟩
      | some q => exact .inl ⟨rfl, (h.source.seek_ok _ _ _ _ hs).2.2⟩
  · exact seek_read h _ _ _ fun p => rfl

theorem Delivers.columns (h : LawfulInput i v file) (field : String) (cs : List ColumnChunkMetaData) :
    Delivers v (readColumnsFrom i field cs) (readColumns file field cs) := by
  induction cs with
  | nil => exact Delivers.pure _
  | cons c cs ih =>
    rw [readColumnsFrom, readColumns]
    cases c.columnDescr.pathInSchema with
    | nil => exact Delivers.lift _
    | cons root path =>
      simp only
      split
      · have := Delivers.bind (Delivers.column h c) (g := fun bytes =>
          readColumns file field cs >>= fun rest => .ok ((c, bytes) :: rest)) fun bytes _ =>
          Delivers.bind ih fun rest _ => Delivers.pure ((c, bytes) :: rest)
        cases hc : Pq.readColumn file c with
        | err e => rw [hc] at this; exact this
        | panic => rw [hc] at this; exact this
        | ok bytes =>
          rw [hc] at this
          simp only [Res.ok_bind] at this
          cases hcs : readColumns file field cs <;> rw [hcs] at this <;> exact this
      · exact ih

/-! ### The asynchronous reader -/

/-- What is true of a task at any time. `F`: something has failed. -/
def TaskOk (v : SourceView σ) (file : List Byte) (F : Prop) (t : ColumnTask σ) : Prop :=
  match t.state with
  | .opening => True
  | .seeking _ => True
  | .reading s limit acc => readColumn file t.column = .ok (acc ++ (file.drop (v.pos s)).take limit)
  | .done r => r = readColumn file t.column ∨ (F ∧ r = .err .oos)

theorem TaskOk.step {F : Prop} (h : LawfulInput i v file)
    (hseek : ∀ s n, (i.source.seek s (.start n)).1 = none → F)
    (hread : ∀ s n, (i.source.read s n).1 = none → F) {t : ColumnTask σ} (hopen : t.opened = none → F)
    (ht : TaskOk v file F t) : TaskOk v file F (t.step i) := by
  obtain ⟨c, opened, state⟩ := t
  simp only [ColumnTask.step, ColumnTask.next]
  cases state with
  | opening =>
    simp only at hopen ⊢
    cases opened with
    | none => exact .inr ⟨hopen rfl, rfl⟩
    | some s => trivial
  | seeking s =>
    simp only
    cases hb : c.byteRange with
    | err e => exact .inl (by simp [readColumn, hb])
    | panic => exact .inl (by simp [readColumn, hb])
    | ok x =>
      obtain ⟨start, length⟩ := x
      simp only
      cases hs : i.source.seek s (.start start) with
      | mk q s' =>
        cases q with
        | none => exact .inr ⟨hseek s start (by rw [hs]), rfl⟩
        | some q =>
          obtain ⟨h1, h2, -⟩ := h.source.seek_ok _ _ _ _ hs
          simp only
          split
          · next hl => exact .inl (by simp [readColumn, hb, hl])
          · next hl =>
            simp only [TaskOk, readColumn, hb, Res.ok_bind, if_neg hl, h2, List.nil_append]
            cases h1
            rfl
  | reading s limit acc =>
    simp only [TaskOk] at ht
    simp only
    split
    · next h0 =>
      subst h0
      simp only [List.take_zero, List.append_nil] at ht
      exact .inl ht.symm
    · next h0 =>
      have hb := h.buffer acc.length
      cases hr : i.source.read s (min limit (i.buffer acc.length)) with
      | mk b s' =>
        cases b with
        | none => exact .inr ⟨hread s _ (by rw [hr]), rfl⟩
        | some b =>
          obtain ⟨h1, h2, h3, -⟩ := h.source.read_ok _ _ _ _ hr
          simp only
          split
          · next hnil =>
            have : file.length ≤ v.pos s := by
              rcases h2 hnil with h | h
              · omega
              · exact h
            rw [List.drop_eq_nil_of_le this, List.take_nil, List.append_nil] at ht
            exact .inl ht.symm
          · next hnil =>
            simp only [TaskOk]
            rw [ht, h3, List.append_assoc]
            congr 2
            have hlen : b.length ≤ min limit (i.buffer acc.length) := by
              have := h1.length_le
              simp only [List.length_take] at this
              omega
            have hb : b = (file.drop (v.pos s)).take b.length :=
              List.prefix_iff_eq_take.1 (h1.trans (List.take_prefix _ _))
            rw [← List.drop_drop]
            have := List.take_append_drop b.length ((file.drop (v.pos s)).take limit)
            rw [List.take_take, List.drop_take, Nat.min_eq_left (by omega), ← hb] at this
            exact this.symm
  | done r => exact ht

/-- How many steps a task takes at most. -/
def ColumnTask.todo (t : ColumnTask σ) : Nat :=
  let length := match t.column.byteRange with
    | .ok x => x.2
    | _ => 0
  match t.state with
  | .opening => length + 3
  | .seeking _ => length + 2
  | .reading _ limit _ => limit + 1
  | .done _ => 0

theorem ColumnTask.todo_step (t : ColumnTask σ) : (t.step i).todo ≤ t.todo - 1 := by
  obtain ⟨c, opened, state⟩ := t
  simp only [ColumnTask.step, ColumnTask.next]
  cases state with
  | opening => cases opened <;> simp only [ColumnTask.todo] <;> omega
  | seeking s =>
    simp only
    cases hb : c.byteRange with
    | err e => simp [ColumnTask.todo]
    | panic => simp [ColumnTask.todo]
    | ok x =>
      obtain ⟨start, length⟩ := x
      simp only
      rcases i.source.seek s (.start start) with ⟨_ | q, s'⟩
      · simp [ColumnTask.todo]
      · simp only
        split <;> simp [ColumnTask.todo, hb]
  | reading s limit acc =>
    simp only
    split
    · simp [ColumnTask.todo]
    · rcases i.source.read s (min limit (i.buffer acc.length)) with ⟨_ | b, s'⟩
      · simp [ColumnTask.todo]
      · simp only
        split
        · simp [ColumnTask.todo]
        · next hnil =>
          have := List.length_pos_iff.2 hnil
          simp only [ColumnTask.todo]
          omega
  | done r => simp [ColumnTask.todo]

theorem joined_done (tasks : List (ColumnTask σ)) (h : ∀ t ∈ tasks, t.todo = 0) :
    joined tasks ≠ none := by
  rw [joined]
  cases hf : tasks.findSome? (·.failure) with
  | some r => simp
  | none =>
    simp only
    have : ∀ t ∈ tasks, ∃ b, t.bytes = some b := by
      intro t ht
      have h0 := h t ht
      have h1 := List.findSome?_eq_none_iff.1 hf t ht
      obtain ⟨c, o, state⟩ := t
      cases state with
      | opening => simp [ColumnTask.todo] at h0
      | seeking s => simp [ColumnTask.todo] at h0
      | reading s l a => simp [ColumnTask.todo] at h0
      | done r => cases r with
        | ok b => exact ⟨b, rfl⟩
        | err e => simp [ColumnTask.failure] at h1
        | panic => simp [ColumnTask.failure] at h1
    clear hf h
    have : tasks.mapM ColumnTask.bytes ≠ none := by
      induction tasks with
      | nil => simp
      | cons t ts ih =>
        obtain ⟨b, hb⟩ := this t (by simp)
        have := ih fun t ht => this t (by simp [ht])
        cases hm : ts.mapM ColumnTask.bytes with
        | none => exact absurd hm this
        | some bs => simp [List.mapM_cons, hb, hm]
    cases hm : tasks.mapM ColumnTask.bytes with
    | none => exact absurd hm this
    | some bs => simp

/-- Tasks that are run often enough come to an end. -/
theorem tryJoinAll_ends (schedule : List Nat) (tasks : List (ColumnTask σ))
    (h : ∀ k t, tasks[k]? = some t → t.todo ≤ schedule.count k) :
    tryJoinAll i schedule tasks ≠ none := by
  induction schedule generalizing tasks with
  | nil =>
    refine joined_done tasks fun t ht => ?_
    obtain ⟨k, hk⟩ := List.mem_iff_getElem?.1 ht
    simpa using h k t hk
  | cons j schedule ih =>
    rw [tryJoinAll]
    split
    · simp
    · refine ih _ fun k t ht => ?_
      rw [List.getElem?_modify] at ht
      split at ht
      · next hjk =>
        subst hjk
        cases hu : tasks[j]? with
        | none => rw [hu] at ht; cases ht
        | some u =>
          rw [hu] at ht
          obtain rfl := Option.some.inj ht
          have h1 := h j u hu
          have h2 := ColumnTask.todo_step (i := i) u
          simp only [List.count_cons_self] at h1
          show (u.step i).todo ≤ _
          omega
      · next hjk =>
        cases hu : tasks[k]? with
        | none => rw [hu] at ht; cases ht
        | some u =>
          rw [hu] at ht
          obtain rfl : u = t := Option.some.inj ht
          have h1 := h k u hu
          rw [List.count_cons_of_ne hjk] at h1
          exact h1

/-- What `try_join_all` may return. -/
def JoinOk (file : List Byte) (F : Prop) (fields : List ColumnChunkMetaData) :
    Res (List (List Byte)) → Prop
  | .ok bs => List.Forall₂ (fun c b => readColumn file c = .ok b) fields bs
  | .err e => e = .oos ∧ (F ∨ ∃ c ∈ fields, readColumn file c = .err .oos)
  | .panic => ∃ c ∈ fields, readColumn file c = .panic

theorem readColumn_err {c : ColumnChunkMetaData} {e : Err} (h : readColumn file c = .err e) : e = .oos := by
  rw [readColumn, ColumnChunkMetaData.byteRange, ColumnChunkMetaData.metadata] at h
  cases hm : c.columnChunk.metaData with
  | none => rw [hm] at h; cases h
  | some m =>
    rw [hm] at h
    simp only [Res.unwrap, Res.ok_bind] at h
    split at h <;> cases h
    rfl

theorem joined_ok {F : Prop} (tasks : List (ColumnTask σ)) (h : ∀ t ∈ tasks, TaskOk v file F t)
    (r : Res (List (List Byte))) (hr : joined tasks = some r) :
    JoinOk file F (tasks.map (·.column)) r := by
  rw [joined] at hr
  cases hf : tasks.findSome? (·.failure) with
  | some r' =>
    rw [hf] at hr
    obtain rfl := Option.some.inj hr
    obtain ⟨t, ht, hr⟩ := List.exists_of_findSome?_eq_some hf
    have hok := h t ht
    obtain ⟨c, o, state⟩ := t
    cases state with
    | opening => cases hr
    | seeking s => cases hr
    | reading s l a => cases hr
    | done x => cases x with
      | ok b => cases hr
      | err e =>
        cases hr
        rcases hok with hok | ⟨hF, he⟩
        · obtain rfl := readColumn_err hok.symm
          exact ⟨rfl, .inr ⟨c, List.mem_map.2 ⟨_, ht, rfl⟩, hok.symm⟩⟩
        · cases he
          exact ⟨rfl, .inl hF⟩
      | panic =>
        cases hr
        rcases hok with hok | ⟨hF, he⟩
        · exact ⟨c, List.mem_map.2 ⟨_, ht, rfl⟩, hok.symm⟩
        · cases he
  | none =>
    rw [hf] at hr
    simp only at hr
    cases hm : tasks.mapM ColumnTask.bytes with
    | none => rw [hm] at hr; cases hr
    | some bs =>
      rw [hm] at hr
      obtain rfl := Option.some.inj hr
      clear hr hf
      show List.Forall₂ _ _ _
      induction tasks generalizing bs with
      | nil =>
        obtain rfl : [] = bs := by simpa using hm
        exact .nil
      | cons t ts ih =>
        rw [List.mapM_cons] at hm
        cases hb : t.bytes with
        | none => rw [hb] at hm; cases hm
        | some b =>
          rw [hb] at hm
          cases hbs : ts.mapM ColumnTask.bytes with
          | none => rw [hbs] at hm; cases hm
          | some bs' =>
            rw [hbs] at hm
            obtain rfl : b :: bs' = bs := Option.some.inj hm
            refine .cons ?_ (ih (fun t ht => h t (by simp [ht])) bs' hbs)
            have hok := h t (by simp)
            obtain ⟨c, o, state⟩ := t
            cases state with
            | opening => cases hb
            | seeking s => cases hb
            | reading s l a => cases hb
            | done x => cases x with
              | ok b' =>
                obtain rfl := Option.some.inj hb
                rcases hok with hok | ⟨hF, he⟩
                · exact hok.symm
                · cases he
              | err e => cases hb
              | panic => cases hb

theorem modify_columns (tasks : List (ColumnTask σ)) (k : Nat) :
    (tasks.modify k (·.step i)).map (·.column) = tasks.map (·.column) := by
  apply List.ext_getElem?
  intro j
  simp only [List.getElem?_map, List.getElem?_modify]
  split
  · cases tasks[j]? <;> rfl
  · cases tasks[j]? <;> rfl

theorem tryJoinAll_ok {F : Prop} (h : LawfulInput i v file)
    (hseek : ∀ s n, (i.source.seek s (.start n)).1 = none → F)
    (hread : ∀ s n, (i.source.read s n).1 = none → F) (schedule : List Nat) (tasks : List (ColumnTask σ))
    (ht : ∀ t ∈ tasks, TaskOk v file F t ∧ (t.opened = none → F)) (r : Res (List (List Byte)))
    (hr : tryJoinAll i schedule tasks = some r) : JoinOk file F (tasks.map (·.column)) r := by
  induction schedule generalizing tasks with
  | nil => exact joined_ok (v := v) tasks (fun t h => (ht t h).1) r hr
  | cons k schedule ih =>
    rw [tryJoinAll] at hr
    split at hr
    · next hj =>
      obtain rfl := Option.some.inj hr
      exact joined_ok (v := v) tasks (fun t h => (ht t h).1) _ hj
    · rw [← modify_columns (i := i) tasks k]
      refine ih _ (fun t hm => ?_) hr
      obtain ⟨j, hj⟩ := List.mem_iff_getElem?.1 hm
      rw [List.getElem?_modify] at hj
      split at hj
      · cases hu : tasks[j]? with
        | none => rw [hu] at hj; cases hj
        | some u =>
          rw [hu] at hj
          obtain rfl := Option.some.inj hj
          obtain ⟨h1, h2⟩ := ht u (List.mem_iff_getElem?.2 ⟨j, hu⟩)
          exact ⟨h1.step h hseek hread h2, h2⟩
      · cases hu : tasks[j]? with
        | none => rw [hu] at hj; cases hj
        | some u =>
          rw [hu] at hj
          obtain rfl : u = t := Option.some.inj hj
          exact ht u (List.mem_iff_getElem?.2 ⟨j, hu⟩)

theorem getFieldColumns_mem {field : String} {cs fields : List ColumnChunkMetaData}
    (h : getFieldColumns field cs = .ok fields) :
    ∀ c ∈ fields, c ∈ cs ∧ c.columnDescr.pathInSchema.head? = some field := by
  induction cs generalizing fields with
  | nil => cases h; simp
  | cons c cs ih =>
    rw [getFieldColumns] at h
    cases hp : c.columnDescr.pathInSchema with
    | nil => rw [hp] at h; cases h
    | cons root path =>
      rw [hp] at h
      simp only at h
      cases hr : getFieldColumns field cs with
      | err e => rw [hr] at h; cases h
      | panic => rw [hr] at h; cases h
      | ok rest =>
        rw [hr] at h
        obtain rfl := Res.ok.inj h
        have ih := ih hr
        intro d hd
        split at hd
        · next hroot =>
          rcases List.mem_cons.1 hd with rfl | hd
          · exact ⟨by simp, by rw [hp, hroot]; rfl⟩
          · exact ⟨by simp [(ih d hd).1], (ih d hd).2⟩
        · exact ⟨by simp [(ih d hd).1], (ih d hd).2⟩

theorem getFieldColumns_panic {field : String} {cs : List ColumnChunkMetaData}
    (h : (getFieldColumns field cs).isOk = false) :
    getFieldColumns field cs = .panic ∧ ∃ c ∈ cs, c.columnDescr.pathInSchema = [] := by
  induction cs with
  | nil => cases h
  | cons c cs ih =>
    rw [getFieldColumns] at h ⊢
    cases hp : c.columnDescr.pathInSchema with
    | nil => exact ⟨rfl, c, by simp, hp⟩
    | cons root path =>
      rw [hp] at h
      simp only at h ⊢
      cases hr : getFieldColumns field cs with
      | ok rest => rw [hr] at h; cases h
      | err e =>
        obtain ⟨h1, -⟩ := ih (by rw [hr]; rfl)
        rw [hr] at h1
        cases h1
      | panic =>
        obtain ⟨-, d, hd, h2⟩ := ih (by rw [hr]; rfl)
        exact ⟨rfl, d, by simp [hd], h2⟩

theorem readColumns_of_fields {field : String} {cs fields : List ColumnChunkMetaData}
    (h : getFieldColumns field cs = .ok fields) {bs : List (List Byte)}
    (hb : List.Forall₂ (fun c b => readColumn file c = .ok b) fields bs) :
    readColumns file field cs = .ok (fields.zip bs) := by
  induction cs generalizing fields bs with
  | nil => cases h; cases hb; rfl
  | cons c cs ih =>
    rw [getFieldColumns] at h
    rw [readColumns]
    cases hp : c.columnDescr.pathInSchema with
    | nil => rw [hp] at h; cases h
    | cons root path =>
      rw [hp] at h
      simp only at h ⊢
      cases hr : getFieldColumns field cs with
      | err e => rw [hr] at h; cases h
      | panic => rw [hr] at h; cases h
      | ok rest =>
        rw [hr] at h
        obtain rfl := Res.ok.inj h
        split at hb
        · next hroot =>
          cases hb with
          | cons h1 h2 =>
            rw [if_pos hroot, h1]
            simp only [if_pos hroot]
            rw [ih hr h2]
            rfl
        · next hroot =>
          simp only [if_neg hroot]
          exact ih hr hb

theorem tape_lawful (file : List Byte) : LawfulSource (Tape.source file) Tape.view file where
  seek_ok := by
    intro s s' tgt n h
    simp only [Tape.source, Tape.tick] at h
    by_cases hc : s.calls ∈ s.faults
    · rw [if_pos hc] at h
      cases h
    · rw [if_neg hc] at h
      simp only at h
      cases ht : seekTarget file.length s.pos tgt with
      | none => rw [ht] at h; cases h
      | some m =>
        rw [ht] at h
        cases h
        exact ⟨ht, rfl, rfl⟩
  seek_err := by
    intro s s' tgt h
    simp only [Tape.source, Tape.tick] at h
    by_cases hc : s.calls ∈ s.faults
    · rw [if_pos hc] at h
      cases h
      exact .inr rfl
    · rw [if_neg hc] at h
      simp only at h
      cases ht : seekTarget file.length s.pos tgt with
      | none =>
        rw [ht] at h
        cases h
        exact .inl ⟨ht, rfl⟩
      | some m => rw [ht] at h; cases h
  read_ok := by
    intro s s' n b h
    simp only [Tape.source, Tape.tick] at h
    by_cases hc : s.calls ∈ s.faults
    · rw [if_pos hc] at h
      cases h
    · rw [if_neg hc] at h
      cases h
      refine ⟨List.take_prefix_take_left (Nat.min_le_left _ _), fun hn => ?_, rfl, rfl⟩
      show n = 0 ∨ file.length ≤ s.pos
      have := congrArg List.length hn
      simp only [List.length_take, List.length_drop, List.length_nil] at this
      omega
  read_err := by
    intro s s' n h
    simp only [Tape.source, Tape.tick] at h
    by_cases hc : s.calls ∈ s.faults
    · rw [if_pos hc] at h
      cases h
      rfl
    · rw [if_neg hc] at h
      cases h

end Pq
