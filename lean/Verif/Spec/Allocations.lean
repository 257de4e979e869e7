import Verif.Model.ThriftCompact
/-
What reading a thrift value asks memory for.
-/
namespace Pq.Spec
open Pq

mutual
/-- The sizes a thrift value asks memory for: the bytes of each string, the items of each list. -/
def allocations : Compact.TVal → List Nat
  | .binary bs => [bs.length]
  | .list _ vs => vs.length :: allocationsList vs
  | .struct fs => allocationsFields fs
  | _ => []
def allocationsList : Compact.TList → List Nat
  | .nil => []
  | .cons v vs => allocations v ++ allocationsList vs
def allocationsFields : Compact.TFields → List Nat
  | .nil => []
  | .cons _ v fs => allocations v ++ allocationsFields fs
end

end Pq.Spec
