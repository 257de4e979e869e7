import Verif.Model.FileMetadata
/-
Model of `examples/write_sidecar.rs`: the metadata of several files in a file of its own.
-/
namespace Pq

/-- `examples/write_sidecar.rs:43-48`: the path of the file is written to all its column chunks. -/
def withFilePath (relativePath : String) (m : Thrift.FileMetaData) : Thrift.FileMetaData :=
  { m with rowGroups := m.rowGroups.map fun rowGroup =>
      { rowGroup with columns := rowGroup.columns.map fun column =>
          { column with filePath := some relativePath } } }

/-- `examples/write_sidecar.rs:54-58`: `pop` the last metadata, and append the row groups of the others to
it. The example always has 10 of them; `unwrap` panics if there is none. -/
def mergeMetadatas (metadatas : List Thrift.FileMetaData) : Res Thrift.FileMetaData :=
  match metadatas.getLast? with
  | none => .panic
  | some first => .ok (metadatas.dropLast.foldl
      (fun acc m => { acc with rowGroups := acc.rowGroups ++ m.rowGroups }) first)

/-- `examples/write_sidecar.rs:19-51`: the metadata of the writers that were ended, each with its path. -/
def collectMetadatas : List (String × FileWriter) → Res (List Thrift.FileMetaData)
  | [] => .ok []
  | (relativePath, w) :: ws => do
    let (_, metadata) ← w.intoInnerAndMetadata
    let rest ← collectMetadatas ws
    .ok (withFilePath relativePath metadata :: rest)

/-- `examples/write_sidecar.rs:18-62`: the sidecar of the files of these writers, and what writing it
returned. -/
def writeSidecar (cs : ThriftCodecs) (ck : Bool) (files : List (String × FileWriter)) : Written Nat :=
  match (collectMetadatas files).bind mergeMetadatas with
  | .ok sidecar => writeMetadataSidecar cs ck sidecar
  | .err e => (.err e, [])
  | .panic => (.panic, [])

end Pq
