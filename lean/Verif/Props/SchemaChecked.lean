import Verif.Lemmas.SchemaChecked
import Verif.Props.Schema
/-
Property theorems about the schema descriptor in builds with overflow checks: C50.
-/
namespace Pq.Props

open Spec

/-- **C50** with overflow checks: the descriptor is the one of the unchecked model if the definition
level of every node (also of a group without columns below it) fits an `i16`; else it panics. -/
theorem C50_checked (ck : Bool) (name : String) (fields : List ParquetType) :
    (ck = false ∨ ShallowFields fields →
      SchemaDescriptor.newCk ck name fields = .ok (SchemaDescriptor.new name fields)) ∧
    (ck = true → ¬ ShallowFields fields → SchemaDescriptor.newCk ck name fields = .panic) := by
  constructor
  · intro h
    cases ck with
    | false => rw [SchemaDescriptor.newCk, leavesCk_false]; rfl
    | true =>
      rw [SchemaDescriptor.newCk, (leavesCk_true fields).1 (h.resolve_left (by simp))]; rfl
  · rintro rfl h
    rw [SchemaDescriptor.newCk, (leavesCk_true fields).2 h]; rfl

/-- The fields of the example are shallow; those of a tree of 2^15 levels are not. -/
example : ShallowFields exampleFields ∧ ¬ ShallowFields [deepField 32767] := by
  constructor
  · intro f hf path hp
    simp only [exampleFields, List.mem_cons, List.not_mem_nil, or_false] at hf
    rcases hf with rfl | rfl
    · simp [nodePaths] at hp
      subst hp
      decide
    · simp [nodePaths, nodePathsList] at hp
      rcases hp with rfl | rfl | rfl <;> decide
  · intro h
    obtain ⟨p, hp, hd⟩ := deepField_path 32767
    have := h _ (by simp) p hp
    omega

/-- **C50** from thrift: without overflow checks the descriptor of the unchecked model; with them that,
or a panic for deep schemas. -/
theorem C50_checked_thrift (elements : List Thrift.SchemaElement) :
    SchemaDescriptor.tryFromThriftCk false elements = SchemaDescriptor.tryFromThrift elements ∧
    ∀ s, SchemaDescriptor.tryFromThrift elements = .ok s →
      (ShallowFields s.fields → SchemaDescriptor.tryFromThriftCk true elements = .ok s) ∧
      (¬ ShallowFields s.fields → SchemaDescriptor.tryFromThriftCk true elements = .panic) := by
  rw [SchemaDescriptor.tryFromThriftCk, SchemaDescriptor.tryFromThriftCk, SchemaDescriptor.tryFromThrift]
  cases ParquetType.tryFromThrift elements with
  | err e => exact ⟨rfl, fun s h => by cases h⟩
  | panic => exact ⟨rfl, fun s h => by cases h⟩
  | ok t =>
    cases t with
    | primitive p => exact ⟨rfl, fun s h => by cases h⟩
    | group info l c fields =>
      refine ⟨(C50_checked false info.name fields).1 (Or.inl rfl), fun s h => ?_⟩
      simp only [SchemaDescriptor.tryFromType] at h
      injection h with h
      subst h
      exact ⟨fun hs => (C50_checked true info.name fields).1 (Or.inr hs),
        fun hs => (C50_checked true info.name fields).2 rfl hs⟩

example : ∃ s, SchemaDescriptor.tryFromThrift (SchemaDescriptor.new "s" exampleFields).intoThrift = .ok s :=
  ⟨_, rfl⟩

/-- **C50 is violated by deep schemas**: the elements of a column nested in 32767 optional
groups are read without overflow checks (the level is then 2^15 as an `i16`, negative) and panic with
them. -/
theorem C50_violated :
    ∃ elements s, SchemaDescriptor.tryFromThriftCk false elements = .ok s ∧
      (∃ c ∈ s.leaves, c.descriptor.maxDefLevel.toInt < 0) ∧
      SchemaDescriptor.tryFromThriftCk true elements = .panic := by
  have hgood : GoodTrees [deepField 32767] := ⟨deepField_good _, trivial⟩
  have hread := C49_descriptor_roundtrip_partial "s" [deepField 32767] (by simp) (by simp) hgood
  refine ⟨(SchemaDescriptor.new "s" [deepField 32767]).intoThrift,
    SchemaDescriptor.new "s" [deepField 32767], ?_, ?_, ?_⟩
  · rw [(C50_checked_thrift _).1, hread]
  · have hleaf : ∀ n, ∃ lp ∈ leafPaths (deepField n), defLevel lp.1 = n + 1 := by
      intro n
      induction n with
      | zero => exact ⟨_, List.mem_singleton.2 rfl, rfl⟩
      | succ n ih =>
        obtain ⟨lp, hlp, hd⟩ := ih
        refine ⟨({ name := "g", repetition := .optional, id := none } :: lp.1, lp.2), ?_, ?_⟩
        · simp only [deepField, leafPaths, leafPathsList, List.append_nil, List.mem_map]
          exact ⟨lp, hlp, rfl⟩
        · have : defLevel ({ name := "g", repetition := .optional, id := none } :: lp.1) =
              defLevel lp.1 + 1 := by simp [defLevel]
          rw [this, hd]
    obtain ⟨lp, hlp, hd⟩ := hleaf 32767
    refine ⟨leafColumn (deepField 32767) [] lp, ?_, ?_⟩
    · simp only [SchemaDescriptor.new, List.flatMap_cons, List.flatMap_nil, List.append_nil]
      have : buildTree (deepField 32767) (deepField 32767) 0#16 0#16 [] =
        (leafPaths (deepField 32767)).map (leafColumn (deepField 32767) []) :=
        buildTree_eq (deepField 32767) (deepField 32767) []
      rw [this]
      exact List.mem_map_of_mem hlp
    · simp only [leafColumn, List.nil_append, hd]
      decide
  · refine ((C50_checked_thrift _).2 _ hread).2 fun h => ?_
    obtain ⟨p, hp, hd⟩ := deepField_path 32767
    have := h _ (by simp [SchemaDescriptor.new]) p hp
    omega

end Pq.Props
