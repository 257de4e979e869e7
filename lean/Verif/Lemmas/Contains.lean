import Verif.Spec.Contains
/-
Lemmas about `check_contains`.
-/
namespace Pq
open Pq.Spec ParquetType

theorem allContainedIn_iff (fields : List ParquetType) : ∀ fs : List ParquetType,
    allContainedIn fs fields = true ↔
      ∀ f ∈ fs, ∃ t, fields.reverse.find? (fun t => t.name == f.name) = some t ∧ containedIn f t = true
  | [] => by simp [allContainedIn]
  | f :: fs => by
    rw [allContainedIn, Bool.and_eq_true, allContainedIn_iff fields fs, List.forall_mem_cons]
    refine and_congr_left fun _ => ?_
    cases h : fields.reverse.find? (fun t => t.name == f.name) with
    | none => simp
    | some t => simp

theorem find_last_iff (fields : List ParquetType) (name : String) (t : ParquetType) :
    fields.reverse.find? (fun t => t.name == name) = some t ↔
      ∃ pre post, fields = pre ++ t :: post ∧ t.info.name = name ∧ ∀ g ∈ post, g.info.name ≠ name := by
  rw [List.find?_eq_some_iff_append]
  constructor
  · rintro ⟨hn, as, bs, h, hb⟩
    refine ⟨bs.reverse, as.reverse, ?_, by simpa [ParquetType.name] using hn, fun g hg => ?_⟩
    · rw [← List.reverse_reverse fields, h]; simp
    · have := hb g (by simpa using hg)
      simpa [ParquetType.name] using this
  · rintro ⟨pre, post, rfl, hn, hp⟩
    refine ⟨by simpa [ParquetType.name] using hn, post.reverse, pre.reverse, by simp, fun g hg => ?_⟩
    simpa [ParquetType.name] using hp g (by simpa using hg)

/-- What is below a field is below its group. -/
theorem containedIn_iff : ∀ sub t : ParquetType, containedIn sub t = true ↔
    ∀ path n, NodeAt sub path n → ∃ m, LastAt t path m ∧ Matching n m
  | .primitive q, t => by
    constructor
    · intro h path n hn
      cases hn
      cases t with
      | primitive p =>
        refine ⟨_, .here _, ?_⟩
        simp only [containedIn, Bool.and_eq_true, beq_iff_eq] at h
        exact ⟨h.1.symm, h.2.symm⟩
      | group => simp [containedIn] at h
    · intro h
      obtain ⟨m, hm, hk⟩ := h _ _ (.here _)
      cases hm
      cases t with
      | primitive p => simp [containedIn, hk.1, hk.2]
      | group => exact hk.elim
  | .group i l c others, .primitive p => by
    constructor
    · intro h; simp [containedIn] at h
    · intro h
      obtain ⟨m, hm, hk⟩ := h _ _ (.here _)
      cases hm
      exact hk.elim
  | .group i l c others, .group i' l' c' fields => by
    rw [containedIn, allContainedIn_iff]
    constructor
    · intro h path n hn
      cases hn with
      | here => exact ⟨_, .here _, trivial⟩
      | deeper hf hn =>
        rename_i f path
        obtain ⟨t, ht, hc⟩ := h f hf
        obtain ⟨pre, post, rfl, he, hp⟩ := (find_last_iff _ _ _).1 ht
        obtain ⟨m, hm, hk⟩ := (containedIn_iff f t).1 hc _ _ hn
        refine ⟨m, ?_, hk⟩
        have he' : f.info.name = t.info.name := he.symm
        rw [he']
        exact .deeper (fun g hg => by rw [he]; exact hp g hg) hm
    · intro h f hf
      obtain ⟨m, hm, -⟩ := h _ _ (.deeper hf (.here f))
      generalize hpath : [f.info.name] = path at hm
      cases hm with
      | here => cases hpath
      | deeper hl hm =>
        rename_i pre t post path
        have hname : t.info.name = f.info.name := by injection hpath with h1; exact h1.symm
        refine ⟨t, (find_last_iff _ _ _).2 ⟨pre, post, rfl, hname, fun g hg => by
          have := hl g hg; rw [hname] at this; exact this⟩, ?_⟩
        refine (containedIn_iff f t).2 fun path n hn => ?_
        obtain ⟨m, hm', hk⟩ := h _ _ (.deeper hf hn)
        refine ⟨m, ?_, hk⟩
        generalize hpath' : f.info.name :: path = path' at hm'
        generalize hfs : pre ++ t :: post = fs at hm'
        cases hm' with
        | here => cases hpath'
        | deeper hl2 hm2 =>
          rename_i pre2 t2 post2 path2
          injection hpath' with h1 h2
          subst h2
          have e1 := (find_last_iff (pre ++ t :: post) f.info.name t).2
            ⟨pre, post, rfl, hname, by rw [← hname]; exact hl⟩
          have e2 := (find_last_iff (pre ++ t :: post) f.info.name t2).2
            ⟨pre2, post2, hfs, h1.symm, by rw [h1]; exact hl2⟩
          rw [e1] at e2
          injection e2 with e2
          rw [e2]; exact hm2
termination_by sub => sizeOf sub
decreasing_by
  all_goals
    have := List.sizeOf_lt_of_mem hf
    simp only [ParquetType.group.sizeOf_spec]
    omega

theorem Spec.LastAt.node {t path n} (h : LastAt t path n) : NodeAt t path n := by
  induction h with
  | here => exact .here _
  | deeper _ _ ih => exact .deeper (by simp) ih

theorem differentNames_field {i l c fields f} (h : DifferentNames (.group i l c fields)) (hf : f ∈ fields) :
    DifferentNames f := fun path i l c fs hn => h (f.info.name :: path) i l c fs (.deeper hf hn)

theorem Spec.NodeAt.last {t path n} (h : NodeAt t path n) (hd : DifferentNames t) : LastAt t path n := by
  induction h with
  | here => exact .here _
  | deeper hf hn ih =>
    obtain ⟨pre, post, rfl⟩ := List.append_of_mem hf
    refine .deeper (fun g hg he => ?_) (ih (differentNames_field hd hf))
    have := hd [] _ _ _ _ (.here _)
    rw [List.map_append, List.map_cons, List.nodup_append] at this
    have h2 := this.2.1
    rw [List.nodup_cons] at h2
    exact h2.1 (List.mem_map.2 ⟨g, hg, he⟩)

theorem List.inj_on_of_nodup_map' {α β : Type} {f : α → β} {l : List α} (h : (l.map f).Nodup)
    {a b : α} (ha : a ∈ l) (hb : b ∈ l) (he : f a = f b) : a = b := by
  induction l with
  | nil => cases ha
  | cons x l ih =>
    rw [List.map_cons, List.nodup_cons] at h
    rcases List.mem_cons.1 ha with rfl | ha' <;> rcases List.mem_cons.1 hb with rfl | hb'
    · rfl
    · exact (h.1 (List.mem_map.2 ⟨b, hb', he.symm⟩)).elim
    · exact (h.1 (List.mem_map.2 ⟨a, ha', he⟩)).elim
    · exact ih h.2 ha' hb'

/-- In a schema whose fields have different names a path leads to one node. -/
theorem Spec.NodeAt.unique {t path n m} (hd : DifferentNames t) (h : NodeAt t path n) (h' : NodeAt t path m) :
    n = m := by
  induction h with
  | here => cases h'; rfl
  | deeper hf hn ih =>
    rename_i i l c fields f path n
    generalize hpath : f.info.name :: path = path' at h'
    cases h' with
    | here => cases hpath
    | deeper hf2 hn2 =>
      injection hpath with h1 h2
      subst h2
      have hnd := hd [] _ _ _ _ (.here _)
      have := List.inj_on_of_nodup_map' hnd hf hf2 h1
      subst this
      exact ih (differentNames_field hd hf) hn2

theorem leafPathsList_mem {x : List FieldInfo × PrimitiveType} : ∀ {fields : List ParquetType},
    x ∈ leafPathsList fields ↔ ∃ f ∈ fields, x ∈ leafPaths f
  | [] => by simp [leafPathsList]
  | f :: fs => by simp [leafPathsList, leafPathsList_mem (fields := fs)]

theorem leafPaths_head : ∀ {t : ParquetType} {path p}, (path, p) ∈ leafPaths t →
    ∃ rest, path = t.info :: rest
  | .primitive q, path, p, h => by
    simp only [leafPaths, List.mem_singleton, Prod.mk.injEq] at h
    exact ⟨[], by rw [h.1]; rfl⟩
  | .group i l c fields, path, p, h => by
    simp only [leafPaths, List.mem_map, Prod.mk.injEq] at h
    obtain ⟨⟨a, b⟩, -, h, -⟩ := h
    exact ⟨a, h.symm⟩

theorem leaf_node : ∀ (t : ParquetType) {path p}, (t.info :: path, p) ∈ leafPaths t →
    NodeAt t (path.map (·.name)) (.primitive p)
  | .primitive q, path, p, h => by
    simp only [leafPaths, List.mem_singleton, Prod.mk.injEq, List.cons.injEq] at h
    obtain ⟨⟨-, rfl⟩, rfl⟩ := h
    exact .here _
  | .group i l c fields, path, p, h => by
    simp only [leafPaths, List.mem_map, Prod.mk.injEq, List.cons.injEq] at h
    obtain ⟨⟨a, b⟩, hm, ⟨-, rfl⟩, rfl⟩ := h
    obtain ⟨f, hf, hx⟩ := leafPathsList_mem.1 hm
    obtain ⟨rest, rfl⟩ := leafPaths_head hx
    exact .deeper hf (leaf_node f hx)
termination_by t => sizeOf t
decreasing_by
  have := List.sizeOf_lt_of_mem hf
  simp only [ParquetType.group.sizeOf_spec]
  omega

theorem node_leaf {t path n p} (h : NodeAt t path n) (hn : n = .primitive p) :
    ∃ infos, infos.map (·.name) = path ∧ (t.info :: infos, p) ∈ leafPaths t := by
  induction h with
  | here => subst hn; exact ⟨[], rfl, by simp [leafPaths, ParquetType.info]⟩
  | deeper hf _ ih =>
    rename_i f _ _ _
    obtain ⟨infos, h1, h2⟩ := ih hn
    refine ⟨f.info :: infos, by simp [h1], ?_⟩
    simp only [leafPaths, List.mem_map, Prod.mk.injEq, ParquetType.info]
    exact ⟨(f.info :: infos, p), leafPathsList_mem.2 ⟨f, hf, h2⟩, rfl, rfl⟩

/-- Without empty groups there is a primitive below every node. -/
theorem exists_leaf_below : ∀ t : ParquetType, GroupsHaveFields t → ∃ path p, NodeAt t path (.primitive p)
  | .primitive p, _ => ⟨[], p, .here _⟩
  | .group i l c [], h => (h [] i l c (.here _)).elim
  | .group i l c (f :: fs), h => by
    obtain ⟨path, p, hp⟩ := exists_leaf_below f
      (fun path i l c hn => h _ i l c (.deeper (List.mem_cons_self ..) hn))
    exact ⟨_, p, .deeper (List.mem_cons_self ..) hp⟩

theorem Spec.NodeAt.trans {t path n path' m} (h : NodeAt t path n) (h' : NodeAt n path' m) :
    NodeAt t (path ++ path') m := by
  induction h with
  | here => exact h'
  | deeper hf _ ih => exact .deeper hf (ih h')

/-- The node on the way to another one; it is a group if the way goes on. -/
theorem Spec.NodeAt.split {t path path' m} (h : NodeAt t (path ++ path') m) :
    ∃ n, NodeAt t path n ∧ NodeAt n path' m := by
  induction path generalizing t with
  | nil => exact ⟨t, .here _, h⟩
  | cons x path ih =>
    rw [List.cons_append] at h
    generalize hp : x :: (path ++ path') = q at h
    cases h with
    | here => cases hp
    | deeper hf hn =>
      injection hp with h1 h2
      subst h2
      obtain ⟨n, hn1, hn2⟩ := ih hn
      rw [h1]
      exact ⟨n, .deeper hf hn1, hn2⟩

end Pq
