import Verif.Model.Nested
import Verif.Model.HttpPath

/-!
# Model of `HttpCertificationTree`

`ic-http-certification/src/tree/{certification,certification_tree_entry,certification_tree}.rs`. As
before `none` is a panic.
-/

namespace Verif

/-- `HttpCertificationType` / `HttpCertification` (certification.rs:11-40). -/
inductive HttpCert where
  | skip (celHash : Hash)
  | responseOnly (celHash responseHash : Hash)
  | full (celHash requestHash responseHash : Hash)
deriving DecidableEq, Repr

/-- `HttpCertification::to_tree_path` (certification.rs:93-114). -/
def HttpCert.toTreePath : HttpCert → List Bytes
  | .skip c => [c.1]
  | .responseOnly c r => [c.1, [], r.1]
  | .full c q r => [c.1, q.1, r.1]

/-- `HttpCertificationTreeEntry` (certification_tree_entry.rs:19-27). -/
structure CertEntry where
  path : HttpPath
  cert : HttpCert
deriving DecidableEq, Repr

/-- `HttpCertificationTreeEntry::to_tree_path` (certification_tree_entry.rs:43-49). -/
def CertEntry.toTreePath (e : CertEntry) : List Bytes := e.path.toTreePath ++ e.cert.toTreePath

/-- The error of `witness` (certification_tree.rs:87-90; error.rs). -/
inductive WitnessError where
  | wildcardPathNotValidForRequestPath (wildcard request : Bytes)
deriving DecidableEq, Repr

/-- `HttpCertificationTree { tree: NestedTree<Vec<u8>, Vec<u8>> }` (certification_tree.rs:14-20). -/
structure CertTree where
  tree : NTree Bytes

namespace CertTree

/-- `Default` (certification_tree.rs:28-32). -/
def default : CertTree := ⟨NTree.default⟩

variable [SHA]

/-- `root_hash` (certification_tree.rs:43-45). -/
def rootHash (t : CertTree) : Hash := labeledHash pathPrefix (AsHashTree.rootHash t.tree)

/-- `insert` (certification_tree.rs:50-53): the stored value is the empty byte string. -/
def insert (t : CertTree) (e : CertEntry) : Option CertTree := (t.tree.insert e.toTreePath []).map .mk

/-- `delete` (certification_tree.rs:58-61). -/
def delete (t : CertTree) (e : CertEntry) : Option CertTree := (t.tree.delete e.toTreePath).map .mk

/-- `clear` (certification_tree.rs:66-68). -/
def clear (t : CertTree) : CertTree := ⟨t.tree.clear⟩

/-- `witness` (certification_tree.rs:74-111). -/
def witness (t : CertTree) (e : CertEntry) (url : Bytes) : Option (Except WitnessError HashTree) :=
  match e.path with
  | .exact _ => do
    let w ← t.tree.witness e.toTreePath
    some (.ok (.labeled pathPrefix w))
  | .wildcard wp =>
    let requested := (HttpPath.exact url).toTreePath
    let responding := e.path.toTreePath
    if responding.length > requested.length then
      some (.error (.wildcardPathNotValidForRequestPath wp url))
    else do
      let w0 ← t.tree.witness requested
      let w1 ← t.tree.witness responding
      let w ← mergeHashTrees w0 w1
      let paths ← moreSpecificWildcards requested responding
      let w ← paths.foldlM (fun acc path => do mergeHashTrees acc (← t.tree.witness path)) w
      some (.ok (.labeled pathPrefix w))

end CertTree
end Verif
