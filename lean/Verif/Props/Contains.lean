import Verif.Lemmas.Contains
/-
C87: whether a schema is part of another one.
-/
namespace Pq.Props
open Pq Pq.Spec ParquetType

/-! For the examples: a root with the columns `a` and `g.b`, `g.c`. -/

def containsLeaf (name : String) (r : Repetition) (l : Option PrimitiveLogicalType := none) : ParquetType :=
  .primitive { fieldInfo := { name, repetition := r, id := none }, logicalType := l, convertedType := none
               physicalType := .int32 }

def containsGroup (name : String) (r : Repetition) (fields : List ParquetType) : ParquetType :=
  .group { name, repetition := r, id := none } none none fields

def containsRoot : ParquetType := newRoot "s"
  [containsLeaf "a" .optional, containsGroup "g" .optional [containsLeaf "b" .required, containsLeaf "c" .repeated]]

/-- Part of it: another root name, another order, without `g.b`. -/
def containsPart : ParquetType := newRoot "t"
  [containsGroup "g" .optional [containsLeaf "c" .repeated], containsLeaf "a" .optional]

theorem differentNames_group {i l c fields} (h : (fields.map fun f : ParquetType => f.info.name).Nodup)
    (hf : ∀ f ∈ fields, DifferentNames f) : DifferentNames (.group i l c fields) := by
  intro path i' l' c' fs hn
  cases hn with
  | here => exact h
  | deeper hm hn => exact hf _ hm _ _ _ _ _ hn

theorem differentNames_primitive (p : PrimitiveType) : DifferentNames (.primitive p) := by
  intro path i l c fs hn
  cases hn

theorem containsRoot_names : DifferentNames containsRoot := by
  refine differentNames_group (by decide) fun f hf => ?_
  simp only [List.mem_cons, List.not_mem_nil, or_false] at hf
  rcases hf with rfl | rfl
  · exact differentNames_primitive _
  · refine differentNames_group (by decide) fun f hf => ?_
    simp only [List.mem_cons, List.not_mem_nil, or_false] at hf
    rcases hf with rfl | rfl <;> exact differentNames_primitive _

/-- **C87** `check_contains` answers exactly whether every node of the other schema, named by the names on
the way to it, is in this one: a group where the other has a group, a primitive with the same name,
repetition, id and physical type where the other has a primitive. The names of the roots, and what groups
carry besides their fields, do not matter. Of fields with the same name the last one counts. -/
theorem C87_contains (sub t : ParquetType) : containedIn sub t = true ↔
    ∀ path n, NodeAt sub path n → ∃ m, LastAt t path m ∧ Matching n m := containedIn_iff sub t

/-- **C87** for a schema whose groups have fields with different names. -/
theorem C87_names (sub t : ParquetType) (hd : DifferentNames t) : containedIn sub t = true ↔
    ∀ path n, NodeAt sub path n → ∃ m, NodeAt t path m ∧ Matching n m := by
  rw [containedIn_iff]
  exact forall_congr' fun path => forall_congr' fun n => imp_congr_right fun _ =>
    exists_congr fun m => and_congr_left fun _ => ⟨LastAt.node, fun h => NodeAt.last h hd⟩

example : containedIn containsPart containsRoot = true ∧
    ∀ path n, NodeAt containsPart path n → ∃ m, NodeAt containsRoot path m ∧ Matching n m :=
  ⟨by decide +kernel, (C87_names containsPart containsRoot containsRoot_names).1 (by decide +kernel)⟩

theorem matching_refl : ∀ n, Matching n n
  | .primitive _ => ⟨rfl, rfl⟩
  | .group .. => trivial

theorem matching_trans : ∀ {a b c}, Matching a b → Matching b c → Matching a c
  | .primitive _, .primitive _, .primitive _, h, h' => ⟨h.1.trans h'.1, h.2.trans h'.2⟩
  | .group .., .group .., .group .., _, _ => trivial
  | .primitive _, .group .., _, h, _ => h.elim
  | .group .., .primitive _, _, h, _ => h.elim
  | .primitive _, .primitive _, .group .., _, h => h.elim
  | .group .., .group .., .primitive _, _, h => h.elim

/-- **C87** every schema whose groups have fields with different names contains itself. -/
theorem C87_reflexive (t : ParquetType) (hd : DifferentNames t) : containedIn t t = true :=
  (C87_names t t hd).2 fun _ n hn => ⟨n, hn, matching_refl n⟩

example : DifferentNames containsRoot ∧ containedIn containsPart containsRoot = true ∧
    containedIn containsRoot containsPart = false ∧ containedIn containsRoot containsRoot = true :=
  ⟨containsRoot_names, by decide +kernel, by decide +kernel, C87_reflexive _ containsRoot_names⟩

/-- **C87** a part of a part is a part, whatever the names are. -/
theorem C87_transitive (a b c : ParquetType) (hab : containedIn a b = true) (hbc : containedIn b c = true) :
    containedIn a c = true := by
  rw [containedIn_iff] at *
  intro path n hn
  obtain ⟨m, hm, h⟩ := hab path n hn
  obtain ⟨k, hk, h'⟩ := hbc path m hm.node
  exact ⟨k, hk, matching_trans h h'⟩

example : containedIn (newRoot "u" [containsLeaf "a" .optional]) containsPart = true ∧
    containedIn containsPart containsRoot = true := by decide +kernel

/-- **C87 (partial)** if a schema is contained, all its columns are columns of this one with the same path
of names, the same repetition and id of the column itself, and the same physical type. Missing: the
repetition (hence the levels) of the groups on the way and the logical type (`C87_violated`). -/
theorem C87_columns_partial (sub t : ParquetType) (h : containedIn sub t = true) (path : List FieldInfo)
    (p : PrimitiveType) (hc : IsColumn sub path p) :
    ∃ path' p', IsColumn t path' p' ∧ path'.map (·.name) = path.map (·.name) ∧
      p'.fieldInfo = p.fieldInfo ∧ p'.physicalType = p.physicalType := by
  obtain ⟨root, hm⟩ := hc
  obtain ⟨rest, hr⟩ := leafPaths_head hm
  injection hr with h1 h2
  subst h1 h2
  obtain ⟨m, hl, hk⟩ := (containedIn_iff sub t).1 h _ _ (leaf_node sub hm)
  cases m with
  | group => exact hk.elim
  | primitive p' =>
    obtain ⟨infos, e, hx⟩ := node_leaf hl.node rfl
    exact ⟨infos, p', ⟨_, hx⟩, e, hk.1.symm, hk.2.symm⟩

example : containedIn containsPart containsRoot = true ∧
    IsColumn containsPart [⟨"a", .optional, none⟩]
      { fieldInfo := ⟨"a", .optional, none⟩, logicalType := none, convertedType := none, physicalType := .int32 } :=
  ⟨by decide +kernel, ⟨"t", .optional, none⟩, by decide +kernel⟩

/-- **C87** the converse: a schema without empty groups, all of whose columns are columns of a schema whose
groups have fields with different names (same path of names, name, repetition and id of the column, physical
type), is contained in it. In particular every choice of columns is. -/
theorem C87_complete (sub t : ParquetType) (hd : DifferentNames t) (he : GroupsHaveFields sub)
    (h : ∀ path p, IsColumn sub path p → ∃ path' p', IsColumn t path' p' ∧
      path'.map (·.name) = path.map (·.name) ∧ p'.fieldInfo = p.fieldInfo ∧
      p'.physicalType = p.physicalType) : containedIn sub t = true := by
  have key : ∀ path p, NodeAt sub path (.primitive p) → ∃ p', NodeAt t path (.primitive p') ∧
      p'.fieldInfo = p.fieldInfo ∧ p'.physicalType = p.physicalType := by
    intro path p hn
    obtain ⟨infos, e, hx⟩ := node_leaf hn rfl
    obtain ⟨path', p', ⟨root, hc⟩, e', h1, h2⟩ := h infos p ⟨_, hx⟩
    obtain ⟨rest, hr⟩ := leafPaths_head hc
    injection hr with e1 e2
    subst e1 e2
    refine ⟨p', ?_, h1, h2⟩
    rw [← e, ← e']
    exact leaf_node t hc
  rw [C87_names sub t hd]
  intro path n hn
  cases n with
  | primitive p =>
    obtain ⟨p', h1, h2, h3⟩ := key path p hn
    exact ⟨_, h1, h2.symm, h3.symm⟩
  | group i l c fields =>
    cases fields with
    | nil => exact (he path i l c hn).elim
    | cons f fs =>
      have hf : NodeAt sub (path ++ [f.info.name]) f := hn.trans (.deeper (List.mem_cons_self ..) (.here _))
      obtain ⟨path', p, hp⟩ := exists_leaf_below f (fun q i l c hq => he _ i l c (hf.trans hq))
      obtain ⟨p', h1, -⟩ := key _ p (hf.trans hp)
      rw [List.append_assoc] at h1
      obtain ⟨m, hm, hm'⟩ := h1.split
      refine ⟨m, hm, ?_⟩
      cases m with
      | primitive => cases hm'
      | group => trivial

/-- The hypotheses of `C87_complete` hold of the part: no group is empty and its columns `g.c` and `a` are
columns of the whole. -/
example : GroupsHaveFields containsPart ∧
    leafPaths containsPart = [([⟨"t", .optional, none⟩, ⟨"g", .optional, none⟩, ⟨"c", .repeated, none⟩],
      { fieldInfo := ⟨"c", .repeated, none⟩, logicalType := none, convertedType := none, physicalType := .int32 }),
      ([⟨"t", .optional, none⟩, ⟨"a", .optional, none⟩],
      { fieldInfo := ⟨"a", .optional, none⟩, logicalType := none, convertedType := none, physicalType := .int32 })] ∧
    IsColumn containsRoot [⟨"g", .optional, none⟩, ⟨"c", .repeated, none⟩]
      { fieldInfo := ⟨"c", .repeated, none⟩, logicalType := none, convertedType := none, physicalType := .int32 } := by
  refine ⟨fun path i l c h => ?_, by decide +kernel, ⟨"s", .optional, none⟩, by decide +kernel⟩
  generalize hn : ParquetType.group i l c [] = n at h
  cases h with
  | here => cases hn
  | deeper hf h =>
    simp only [List.mem_cons, List.not_mem_nil, or_false] at hf
    rcases hf with rfl | rfl
    · cases h with
      | here => cases hn
      | deeper hf h =>
        simp only [List.mem_cons, List.not_mem_nil, or_false] at hf
        subst hf
        cases h
        cases hn
    · cases h
      cases hn

/-- **C87 is violated**: a schema is said to be part of another one although the repetition of a group
differs, and with it the levels of the column below it (definition level 2 and 1), or the logical type of a
column differs; and a schema with two fields of the same name is not part of itself. -/
theorem C87_violated :
    (let t := newRoot "s" [containsGroup "g" .optional [containsLeaf "b" .optional]]
     let sub := newRoot "s" [containsGroup "g" .required [containsLeaf "b" .optional]]
     containedIn sub t = true ∧
       (SchemaDescriptor.new "s" [containsGroup "g" .optional [containsLeaf "b" .optional]]).leaves.map
         (fun d => d.descriptor.maxDefLevel) = [2#16] ∧
       (SchemaDescriptor.new "s" [containsGroup "g" .required [containsLeaf "b" .optional]]).leaves.map
         (fun d => d.descriptor.maxDefLevel) = [1#16]) ∧
    containedIn (newRoot "s" [containsLeaf "b" .optional (some .date)])
      (newRoot "s" [containsLeaf "b" .optional]) = true ∧
    (let t := newRoot "s" [containsLeaf "b" .optional, containsLeaf "b" .required]
     containedIn t t = false) := by
  decide +kernel

end Pq.Props
