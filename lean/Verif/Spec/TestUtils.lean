import Verif.Model.TestUtils
import Verif.Model.Verify
import Verif.Spec.Verify

/-!
# What a version 1 asset canister is meant to do
-/

namespace Verif

/-- The asset tree after a history of insertions of (path, body), in a new tree (`none` is a panic). -/
def assetRun [SHA] (puts : List (Bytes × Bytes)) : Option AssetTree :=
  puts.foldlM (fun t p => t.insert p.1 p.2) AssetTree.new

/-- The last body inserted for the path. -/
def LastPut (puts : List (Bytes × Bytes)) (path body : Bytes) : Prop :=
  ∃ pre post, puts = pre ++ (path, body) :: post ∧ ∀ x ∈ post, x.1 ≠ path

/-- The response delivers the body: as it is; or compressed, as its Content-Encoding header says; or (for a body that is certified
in compressed form) as it is with a Content-Encoding header, provided it can be decompressed if that header says `gzip` or
`deflate`. -/
inductive Delivers [Inflate] (res : HttpResponse) (body : Bytes) : Prop
  | plain : NoHeader res.headers (str "content-encoding") → res.body = body → Delivers res body
  | gzip : LastHeader res.headers (str "content-encoding") (str "gzip") → Inflate.gunzip res.body = some body → Delivers res body
  | deflate : LastHeader res.headers (str "content-encoding") (str "deflate") → Inflate.inflate res.body = some body →
      Delivers res body
  | asIs {enc} : LastHeader res.headers (str "content-encoding") enc → res.body = body →
      (enc = str "gzip" → (Inflate.gunzip body).isSome) → (enc = str "deflate" → (Inflate.inflate body).isSome) →
      Delivers res body

end Verif
