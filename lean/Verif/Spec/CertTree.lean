import Verif.Model.CertTree
import Verif.Spec.Nested
import Verif.Spec.HttpPath
import Verif.Spec.HashTree

/-!
# Specification vocabulary for the certification tree: histories and the set of certified entries
-/

namespace Verif

/-- One call of the mutating interface of `HttpCertificationTree`. -/
inductive CtOp where
  | insert (e : CertEntry)
  | delete (e : CertEntry)
  | clear

namespace CtOp

def run [SHA] (t : CertTree) : CtOp → Option CertTree
  | .insert e => t.insert e
  | .delete e => t.delete e
  | .clear => some t.clear

/-- The entries certified after the call. Entries are identified with their tree paths (by C18 two URL paths
share one iff they differ only in repeated slashes). -/
def spec (s : List Bytes → Prop) : CtOp → List Bytes → Prop
  | .insert e => fun p => p = e.toTreePath ∨ s p
  | .delete e => fun p => p ≠ e.toTreePath ∧ s p
  | .clear => fun _ => False

/-- The entry named in a call, if any. -/
def entry? : CtOp → Option CertEntry
  | .insert e => some e
  | .delete e => some e
  | .clear => none

end CtOp

/-- The certification tree after a history of calls. -/
def ctRun [SHA] (ops : List CtOp) : Option CertTree := ops.foldlM (fun t o => o.run t) CertTree.default

/-- The certified tree paths after a history of calls. -/
def ctSpec (ops : List CtOp) : List Bytes → Prop := ops.foldl CtOp.spec (fun _ => False)

namespace CertTree
/-- The full hash tree certified by `root_hash`. -/
def full [SHA] (t : CertTree) : HashTree := .labeled (str "http_expr") (asHashTree t.tree)
end CertTree

namespace HttpPath
/-- The URL path string of a certification path. -/
def url : HttpPath → Bytes
  | .exact p => p
  | .wildcard p => p
/-- No URL segment is literally `<$>` or `<*>`. -/
def Clean (p : HttpPath) : Prop := str "<$>" ∉ pathSegments p.url ∧ str "<*>" ∉ pathSegments p.url
end HttpPath

/-- The CEL expression hash of a certification. -/
def HttpCert.celHash : HttpCert → Hash
  | .skip c => c
  | .responseOnly c _ => c
  | .full c _ _ => c

def HttpCert.isSkip : HttpCert → Bool
  | .skip _ => true
  | _ => false

/-- The URL of the path hides the hash: one of its segments is literally `<$>` or `<*>`, and the next one is, byte for byte, the
32-byte hash. -/
def HttpPath.Hides (p : HttpPath) (h : Hash) : Prop :=
  ∃ pre m post, (m = str "<$>" ∨ m = str "<*>") ∧ pathSegments p.url = pre ++ m :: h.1 :: post

/-- The URL of `f` imitates the tree path of `e`: one of its segments is literally `<$>` or `<*>`, and the next one
is, byte for byte, the 32-byte expression hash of `e`. -/
def CertEntry.Imitates (f e : CertEntry) : Prop :=
  ∃ pre m post, (m = str "<$>" ∨ m = str "<*>") ∧ pathSegments f.path.url = pre ++ m :: e.cert.celHash.1 :: post

namespace HashTree
/-- `w` answers the question "what is at `p`" completely: found with the very subtree of `T`, or absent. -/
def Reveals (w T : HashTree) (p : List Bytes) : Prop :=
  (∀ n, HasNode T p n → w.lookupSubtree p = .found n) ∧ ((¬ ∃ n, HasNode T p n) → w.lookupSubtree p = .absent)
end HashTree
end Verif
