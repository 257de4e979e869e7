import Verif.Model.SchemaChecked
import Verif.Lemmas.Schema
/-
Lemmas about the schema descriptor in builds with overflow checks.
-/
namespace Pq
open Spec

theorem enterLevelsCk_false (rep : Repetition) (a b : BitVec 16) :
    enterLevelsCk false rep a b = .ok (enterLevels rep a b) := by
  cases rep <;> simp [enterLevelsCk, enterLevels, incI16]

theorem incI16_ofNat {n : Nat} (h : n < 2 ^ 15) :
    incI16 true (BitVec.ofNat 16 n) =
      if n + 1 < 2 ^ 15 then .ok (BitVec.ofNat 16 (n + 1)) else .panic := by
  rw [incI16]
  have : BitVec.ofNat 16 n = 0x7FFF#16 ↔ n = 2 ^ 15 - 1 := by
    constructor
    · intro e
      have := congrArg BitVec.toNat e
      simp only [BitVec.toNat_ofNat] at this
      rw [Nat.mod_eq_of_lt (by omega)] at this
      omega
    · rintro rfl; rfl
  simp only [true_and, this]
  by_cases hn : n = 2 ^ 15 - 1
  · rw [if_pos hn, if_neg (by omega)]
  · rw [if_neg hn, if_pos (by omega), BitVec.ofNat_add]
    rfl

theorem enterLevelsCk_true (i : FieldInfo) (path : List FieldInfo) (h : defLevel path < 2 ^ 15) :
    enterLevelsCk true i.repetition (BitVec.ofNat 16 (repLevel path)) (BitVec.ofNat 16 (defLevel path)) =
      if defLevel (path ++ [i]) < 2 ^ 15 then
        .ok (BitVec.ofNat 16 (repLevel (path ++ [i])), BitVec.ofNat 16 (defLevel (path ++ [i])))
      else .panic := by
  obtain ⟨name, rep, id⟩ := i
  have hr := repLevel_le_defLevel path
  cases rep with
  | required =>
    have e1 : defLevel (path ++ [⟨name, .required, id⟩]) = defLevel path := by simp [defLevel]
    have e2 : repLevel (path ++ [⟨name, .required, id⟩]) = repLevel path := by simp [repLevel]
    rw [e1, e2, if_pos h]; rfl
  | optional =>
    have e1 : defLevel (path ++ [⟨name, .optional, id⟩]) = defLevel path + 1 := by simp [defLevel]
    have e2 : repLevel (path ++ [⟨name, .optional, id⟩]) = repLevel path := by simp [repLevel]
    simp only [e1, e2, enterLevelsCk, incI16_ofNat h]
    split <;> rfl
  | repeated =>
    have e1 : defLevel (path ++ [⟨name, .repeated, id⟩]) = defLevel path + 1 := by simp [defLevel]
    have e2 : repLevel (path ++ [⟨name, .repeated, id⟩]) = repLevel path + 1 := by simp [repLevel]
    simp only [e1, e2, enterLevelsCk, incI16_ofNat h]
    split
    · rw [Res.ok_bind, incI16_ofNat (by omega), if_pos (by omega)]; rfl
    · rfl

mutual
theorem buildTreeCk_false (t base : ParquetType) (a b : BitVec 16) (path : List String) :
    buildTreeCk false t base a b path = .ok (buildTree t base a b path) := by
  cases t with
  | primitive p => simp [buildTreeCk, buildTree, enterLevelsCk_false]
  | group info l c fields =>
    rw [buildTreeCk, enterLevelsCk_false, buildTree]
    exact buildTreesCk_false fields base _ _ _
theorem buildTreesCk_false (ts : List ParquetType) (base : ParquetType) (a b : BitVec 16)
    (path : List String) :
    buildTreesCk false ts base a b path = .ok (buildTrees ts base a b path) := by
  cases ts with
  | nil => simp [buildTreesCk, buildTrees]
  | cons t ts =>
    rw [buildTreesCk, buildTreeCk_false t, buildTreesCk_false ts, buildTrees]
    rfl
end

/-- Whether these node paths, below `pre`, have levels that fit. -/
def Fits (pre : List FieldInfo) (paths : List (List FieldInfo)) : Prop :=
  ∀ p ∈ paths, defLevel (pre ++ p) < 2 ^ 15

mutual
theorem buildTreeCk_true (t base : ParquetType) (pre : List FieldInfo) (h : defLevel pre < 2 ^ 15) :
    (Fits pre (nodePaths t) →
      buildTreeCk true t base (BitVec.ofNat 16 (repLevel pre)) (BitVec.ofNat 16 (defLevel pre))
        (pre.map (·.name)) =
      .ok (buildTree t base (BitVec.ofNat 16 (repLevel pre)) (BitVec.ofNat 16 (defLevel pre))
        (pre.map (·.name)))) ∧
    (¬ Fits pre (nodePaths t) →
      buildTreeCk true t base (BitVec.ofNat 16 (repLevel pre)) (BitVec.ofNat 16 (defLevel pre))
        (pre.map (·.name)) = .panic) := by
  cases t with
  | primitive p =>
    rw [buildTreeCk, enterLevelsCk_true _ _ h, buildTree, enterLevels_eq]
    simp only [Fits, nodePaths, List.mem_singleton, forall_eq]
    constructor
    · intro hf; rw [if_pos hf]
    · intro hf; rw [if_neg hf]
  | group info l c fields =>
    rw [buildTreeCk, enterLevelsCk_true _ _ h, buildTree, enterLevels_eq]
    by_cases hi : defLevel (pre ++ [info]) < 2 ^ 15
    · rw [if_pos hi]
      have ih := buildTreesCk_true fields base (pre ++ [info]) hi
      have hiff : Fits pre (nodePaths (.group info l c fields)) ↔
          Fits (pre ++ [info]) (nodePathsList fields) := by
        simp only [Fits, nodePaths, List.mem_cons, List.mem_map, forall_eq_or_imp,
          forall_exists_index, and_imp, forall_apply_eq_imp_iff₂, List.append_assoc,
          List.cons_append, List.nil_append]
        exact ⟨fun h => h.2, fun h => ⟨hi, h⟩⟩
      rw [hiff]
      simpa using ih
    · rw [if_neg hi]
      refine ⟨fun hf => absurd (hf [info] (by simp [nodePaths])) hi, fun _ => rfl⟩
theorem buildTreesCk_true (ts : List ParquetType) (base : ParquetType) (pre : List FieldInfo)
    (h : defLevel pre < 2 ^ 15) :
    (Fits pre (nodePathsList ts) →
      buildTreesCk true ts base (BitVec.ofNat 16 (repLevel pre)) (BitVec.ofNat 16 (defLevel pre))
        (pre.map (·.name)) =
      .ok (buildTrees ts base (BitVec.ofNat 16 (repLevel pre)) (BitVec.ofNat 16 (defLevel pre))
        (pre.map (·.name)))) ∧
    (¬ Fits pre (nodePathsList ts) →
      buildTreesCk true ts base (BitVec.ofNat 16 (repLevel pre)) (BitVec.ofNat 16 (defLevel pre))
        (pre.map (·.name)) = .panic) := by
  cases ts with
  | nil => exact ⟨fun _ => by rw [buildTreesCk, buildTrees], fun h => absurd (by simp [Fits, nodePathsList]) h⟩
  | cons t ts =>
    obtain ⟨h1, h2⟩ := buildTreeCk_true t base pre h
    obtain ⟨h3, h4⟩ := buildTreesCk_true ts base pre h
    have hiff : Fits pre (nodePathsList (t :: ts)) ↔
        Fits pre (nodePaths t) ∧ Fits pre (nodePathsList ts) := by
      simp only [Fits, nodePathsList, List.mem_append, or_imp, forall_and]
    rw [hiff, buildTreesCk, buildTrees]
    by_cases hf : Fits pre (nodePaths t)
    · rw [h1 hf]
      constructor
      · intro hh; rw [h3 hh.2]; rfl
      · intro hh; rw [h4 fun e => hh ⟨hf, e⟩]; rfl
    · rw [h2 hf]
      exact ⟨fun hh => absurd hh.1 hf, fun _ => rfl⟩
end

theorem leavesCk_false (fields : List ParquetType) :
    leavesCk false fields = .ok (fields.flatMap fun f => buildTree f f 0#16 0#16 []) := by
  induction fields with
  | nil => rfl
  | cons f fs ih => rw [leavesCk, buildTreeCk_false, ih]; rfl

theorem leavesCk_true (fields : List ParquetType) :
    (ShallowFields fields →
      leavesCk true fields = .ok (fields.flatMap fun f => buildTree f f 0#16 0#16 [])) ∧
    (¬ ShallowFields fields → leavesCk true fields = .panic) := by
  induction fields with
  | nil => exact ⟨fun _ => rfl, fun h => absurd (by simp [ShallowFields]) h⟩
  | cons f fs ih =>
    obtain ⟨h1, h2⟩ := buildTreeCk_true f f [] (by simp [defLevel])
    obtain ⟨h3, h4⟩ := ih
    have hiff : ShallowFields (f :: fs) ↔ Fits [] (nodePaths f) ∧ ShallowFields fs := by
      simp only [ShallowFields, Fits, List.mem_cons, forall_eq_or_imp, List.nil_append]
    have e1 : BitVec.ofNat 16 (repLevel []) = 0#16 := rfl
    have e2 : BitVec.ofNat 16 (defLevel []) = 0#16 := rfl
    simp only [e1, e2, List.map_nil] at h1 h2
    rw [hiff, leavesCk]
    by_cases hf : Fits [] (nodePaths f)
    · rw [h1 hf]
      constructor
      · intro hh; rw [h3 hh.2]; rfl
      · intro hh; rw [h4 fun e => hh ⟨hf, e⟩]; rfl
    · rw [h2 hf]
      exact ⟨fun hh => absurd hh.1 hf, fun _ => rfl⟩

/-- A field nested in `n` optional groups. -/
def deepField : Nat → ParquetType
  | 0 => .primitive { fieldInfo := { name := "a", repetition := .optional, id := none }, logicalType := none
                      convertedType := none, physicalType := .int32 }
  | n + 1 => .group { name := "g", repetition := .optional, id := none } none none [deepField n]

theorem deepField_path (n : Nat) : ∃ p ∈ nodePaths (deepField n), defLevel p = n + 1 := by
  induction n with
  | zero => exact ⟨_, List.mem_singleton.2 rfl, rfl⟩
  | succ n ih =>
    obtain ⟨p, hp, hd⟩ := ih
    refine ⟨{ name := "g", repetition := .optional, id := none } :: p, ?_, ?_⟩
    · simp [deepField, nodePaths, nodePathsList, hp]
    · have : defLevel ({ name := "g", repetition := .optional, id := none } :: p) = defLevel p + 1 := by
        simp [defLevel]
      rw [this, hd]

theorem deepField_good (n : Nat) : GoodTree (deepField n) := by
  induction n with
  | zero =>
    refine ⟨by simp [SmallPhysical], by simp, by simp, ?_⟩
    rfl
  | succ n ih => exact ⟨by simp, by simp, ih, trivial⟩

end Pq
