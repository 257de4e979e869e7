import Verif.Spec.Allocations
import Verif.Lemmas.ThriftCompact
/-
The limit of the thrift reader is compared with what the value asks memory for.
-/
namespace Pq.Spec
open Pq

mutual
theorem cost_allocations : ∀ v : Compact.TVal, Compact.cost v = (allocations v).sum
  | .bool _ => by simp [Compact.cost, allocations]
  | .byte _ => by simp [Compact.cost, allocations]
  | .i16 _ => by simp [Compact.cost, allocations]
  | .i32 _ => by simp [Compact.cost, allocations]
  | .i64 _ => by simp [Compact.cost, allocations]
  | .double _ => by simp [Compact.cost, allocations]
  | .binary _ => by simp [Compact.cost, allocations]
  | .list _ vs => by simp [Compact.cost, allocations, costList_allocations vs]
  | .struct fs => by simp [Compact.cost, allocations, costFields_allocations fs]
theorem costList_allocations : ∀ vs : Compact.TList, Compact.costList vs = (allocationsList vs).sum
  | .nil => by simp [Compact.costList, allocationsList]
  | .cons v vs => by
    simp [Compact.costList, allocationsList, cost_allocations v, costList_allocations vs]
theorem costFields_allocations : ∀ fs : Compact.TFields, Compact.costFields fs = (allocationsFields fs).sum
  | .nil => by simp [Compact.costFields, allocationsFields]
  | .cons _ v fs => by
    simp [Compact.costFields, allocationsFields, cost_allocations v, costFields_allocations fs]
end

/-- Structures of any type: what is written is read back if its allocations are within the limit, else
refused. -/
theorem codec_limit {T : Type} {r : Compact.Repr' T} (h : Compact.Good r)
    (hs : ∀ x, ∃ fs, r.toT x = .struct fs) (max : Nat) (x : T) (rest : List Byte) :
    ((Compact.codecOf r).parse max ((Compact.codecOf r).ser x ++ rest)).1 =
      if (allocations (r.toT x)).sum ≤ max then .ok x else .err .oos := by
  have hl := (Compact.codecOf_lawful h hs).roundtrip x rest
  obtain ⟨fs, hfs⟩ := hs x
  have hcode : r.code = 12 := by
    have := h.code x
    rw [hfs] at this
    exact this.symm
  rw [← cost_allocations]
  split
  · rename_i h
    rw [hl max h]
  · rename_i hm
    have h1 := hl (Compact.cost (r.toT x)) (Nat.le_refl _)
    simp only [Compact.codecOf, Compact.readStruct] at h1 ⊢
    cases hd : Compact.decVal (2 * (Compact.encVal (r.toT x) ++ rest).length + 1) 12
        (Compact.encVal (r.toT x) ++ rest) with
    | err e => rw [hd] at h1; simp at h1
    | panic => rw [hd] at h1; simp at h1
    | ok y =>
      obtain ⟨v, r'⟩ := y
      rw [hd] at h1
      simp only at h1 ⊢
      have hv : Compact.cost v = Compact.cost (r.toT x) := by
        have h2 := Compact.decVal_encVal (r.toT x)
          (2 * (Compact.encVal (r.toT x) ++ rest).length + 1) rest
          (h.wf x) (by
            have := Compact.depVal_le (r.toT x)
            rw [List.length_append]; omega)
        rw [h.code x, hcode, hd] at h2
        injection h2 with h2
        injection h2 with h2
        rw [h2]
      rw [hv, if_neg hm]

end Pq.Spec
