import Verif.Conformance.Hashes
import Verif.Model.Certification
import Verif.Model.SkipCert

/-! # The tests of packages/ic-http-certification/src/tree/{certification,certification_tree,certification_tree_entry}.rs and
utils/skip_certification.rs -/

namespace Verif.Conformance
open Verif HashTree
set_option maxRecDepth 100000

section
attribute [local instance] realSHA

/-- `test_skip_certification_certified_data` (utils/skip_certification.rs:96-107). -/
example : skipCertifiedData.1 = [85, 236, 195, 28, 62, 128, 71, 252, 21, 143, 32, 234, 10, 160, 96, 154, 172, 199, 181, 126, 6,
    234, 64, 220, 65, 134, 2, 114, 167, 214, 66, 145] := by decide +kernel
end

/-- A hash function that is quick to evaluate, for the tests that assert no concrete digest. -/
@[instance_reducible] def polySHA : SHA where
  sha b :=
    let n := b.foldl (fun h x => (h * 1000003 + x.toNat + 1) % (2 ^ 255 - 19)) b.length
    ⟨(List.range 32).map (fun i => (n / 256 ^ i % 256).toUInt8), by simp⟩

attribute [local instance] polySHA testUri

/-- the expression of the tests of certification_tree.rs: full certification with all response headers -/
def allFull : ReqCert := ⟨[], []⟩
def allHeaders : RespCert := .headerExclusions []

def celHeader (e : CelExpr) : Header := (certExprHeaderName, e.toBytes)

def plainResponse (status : UInt16) (body : Bytes) : HttpResponse := ⟨status, [celHeader (.full allFull allHeaders)], body⟩

def fullEntry (path : HttpPath) (method url : String) (res : HttpResponse) : Option CertEntry :=
  (HttpCert.mkFull allFull allHeaders ⟨str method, str url, [], []⟩ res none).toOption.map (⟨path, ·⟩)

def foundIn (t : CertTree) (e : CertEntry) (url : String) (path : List Bytes) : Option SubtreeResult :=
  match t.witness e (str url) with
  | some (.ok w) => some (w.lookupSubtree path)
  | _ => none

def isFound : Option SubtreeResult → Option Bool
  | some (.found _) => some true
  | some .absent => some false
  | _ => none

def labelPath (l : List String) : List Bytes := l.map str

/-- `test_witness` (certification_tree.rs:124-209). -/
def witnessTest : Option (List (Option Bool)) := do
  let nf ← fullEntry (.wildcard (str "/assets/js")) "GET" "/assets/js/not-found.js" (plainResponse 404 (str "404 Not Found"))
  let hw ← fullEntry (.exact (str "/assets/js/hello-world.js")) "GET" "/assets/js/hello-world.js"
    (plainResponse 404 (str "console.log(\"Hello, World!\")"))
  let t ← CertTree.default.insert nf
  let t ← t.insert hw
  return ([["http_expr", "<*>"], ["http_expr", "", "<*>"], ["http_expr", "assets", "<*>"], ["http_expr", "assets", "", "<*>"],
      ["http_expr", "assets", "js", "<*>"], ["http_expr", "assets", "js", "0.js", "<*>"]].map
        (fun p => isFound (foundIn t nf "/assets/js/0.js" (labelPath p)))) ++
    [isFound (foundIn t hw "/assets/js/hello-world.js" (labelPath ["http_expr", "assets", "js", "hello-world.js", "<$>"]))]

example : witnessTest = some [some false, some false, some false, some false, some true, some false, some true] := by
  decide +kernel

/-- `delete_removes_empty_subpaths` (certification_tree.rs:211-480): after each deletion, which of the four entries the
witnesses show, whether the path of the URL is in the tree, and which entries are. -/
def deleteUrl : String := "/assets/js/hello-world.js"

def deleteReport (es : List CertEntry) (t : CertTree) : List (Option Bool) × Bool × List Bool :=
  (es.map (fun e => isFound (foundIn t e deleteUrl (str "http_expr" :: e.toTreePath))),
   NTree.containsPath (HttpPath.exact (str deleteUrl)).toTreePath t.tree,
   es.map (fun e => NTree.containsPath e.toTreePath t.tree))

def deleteTest : Option (List (List (Option Bool) × Bool × List Bool)) := do
  let path := HttpPath.exact (str deleteUrl)
  let r := plainResponse 200 (str "console.log(\"Hello, World!\")")
  let alt := plainResponse 200 (str "console.log(\"Hello, ALT World!\")")
  let get ← fullEntry path "GET" deleteUrl r
  let post ← fullEntry path "POST" deleteUrl r
  let altGet ← fullEntry path "GET" deleteUrl alt
  let altPost ← fullEntry path "POST" deleteUrl alt
  let es := [get, post, altGet, altPost]
  let t ← es.foldlM (fun (t : CertTree) e => t.insert e) CertTree.default
  let t1 ← t.delete get
  let t2 ← t1.delete post
  let t3 ← t2.delete altGet
  let t4 ← t3.delete altPost
  return [t, t1, t2, t3, t4].map (deleteReport es)

example : deleteTest = some [
    ([some true, some true, some true, some true], true, [true, true, true, true]),
    ([some false, some true, some true, some true], true, [false, true, true, true]),
    ([some false, some false, some true, some true], true, [false, false, true, true]),
    ([some false, some false, some false, some true], true, [false, false, false, true]),
    ([some false, some false, some false, some false], false, [false, false, false, false])] := by decide +kernel

/-- `test_witness_wildcard_too_long` (certification_tree.rs:482-515). -/
def tooLongTest : Option Bool := do
  let nf ← fullEntry (.wildcard (str "/assets/js")) "GET" "/assets/js/not-found.js" (plainResponse 404 (str "404 Not Found"))
  let t ← CertTree.default.insert nf
  match t.witness nf (str "/assets") with
  | some (.error (.wildcardPathNotValidForRequestPath _ _)) => return true
  | _ => return false

example : tooLongTest = some true := by decide +kernel

/-- `test_witness_wildcard_matches_asset` (certification_tree.rs:517-555). -/
def matchesAssetTest : Option (Option Bool) := do
  let e ← fullEntry (.wildcard (str "/")) "GET" "/" (plainResponse 200 (str "<html><body><h1>Hello World!</h1></body></html>"))
  let t ← CertTree.default.insert e
  return isFound (foundIn t e "/" (str "http_expr" :: e.toTreePath))

example : matchesAssetTest = some (some true) := by decide +kernel

/-- `certification_paths` (certification_tree_entry.rs:62-190): the three kinds of entries at two paths. -/
def entryPathCases : List (HttpPath × List String) :=
  [(.exact (str "/foo/bar"), ["foo", "bar", "<$>"]), (.wildcard (str "/foo/bar"), ["foo", "bar", "<*>"])]

example : entryPathCases.all (fun c => (⟨c.1, .mkSkip⟩ : CertEntry).toTreePath ==
    labelPath c.2 ++ [(sha (CelExpr.toBytes .skip)).1]) = true := by decide +kernel

def noHeaders : RespCert := .certifiedHeaders []
def roResponse : HttpResponse := ⟨200, [celHeader (.responseOnly noHeaders)], []⟩
def fcResponse : HttpResponse := ⟨200, [celHeader (.full allFull noHeaders)], []⟩
def indexRequest : HttpRequest := ⟨str "GET", str "/index.html", [], []⟩

example : entryPathCases.all (fun c =>
    ((HttpCert.mkResponseOnly noHeaders roResponse none).toOption.map (fun x => (⟨c.1, x⟩ : CertEntry).toTreePath)) ==
    some (labelPath c.2 ++ [(sha (CelExpr.responseOnly noHeaders).toBytes).1, [], (responseHash roResponse noHeaders none).1])) = true := by
  decide +kernel

example : entryPathCases.all (fun c =>
    ((HttpCert.mkFull allFull noHeaders indexRequest fcResponse none).toOption.map (fun x => (⟨c.1, x⟩ : CertEntry).toTreePath)) ==
    ((requestHash indexRequest allFull).toOption.map (fun q =>
      labelPath c.2 ++ [(sha (CelExpr.full allFull noHeaders).toBytes).1, q.1, (responseHash fcResponse noHeaders none).1]))) = true := by
  decide +kernel

/-- The error cases of certification.rs:225-440. -/
def etagHeaders : RespCert := .certifiedHeaders [str "ETag", str "Cache-Control"]
def fooQuery : ReqCert := ⟨[str "If-Match"], [str "foo", str "bar", str "baz"]⟩
def errOf {α : Type} : Except HttpError α → Option HttpError
  | .error e => some e
  | .ok _ => none

example : errOf (HttpCert.mkResponseOnly etagHeaders ⟨200, [], []⟩ none) =
    some (.expressionHeaderMissing (CelExpr.responseOnly etagHeaders).toBytes) := by decide +kernel
example : errOf (HttpCert.mkResponseOnly etagHeaders ⟨200, [celHeader (.full allFull noHeaders)], []⟩ none) =
    some (.expressionHeaderMismatch (CelExpr.responseOnly etagHeaders).toBytes (CelExpr.full allFull noHeaders).toBytes) := by
  decide +kernel
example : errOf (HttpCert.mkResponseOnly etagHeaders
      ⟨200, [celHeader (.responseOnly etagHeaders), celHeader (.responseOnly etagHeaders)], []⟩ none) =
    some (.multipleExpressionHeaders (CelExpr.responseOnly etagHeaders).toBytes) := by decide +kernel
example : errOf (HttpCert.mkFull fooQuery etagHeaders indexRequest ⟨200, [], []⟩ none) =
    some (.expressionHeaderMissing (CelExpr.full fooQuery etagHeaders).toBytes) := by decide +kernel
example : errOf (HttpCert.mkFull fooQuery etagHeaders indexRequest ⟨200, [celHeader (.responseOnly noHeaders)], []⟩ none) =
    some (.expressionHeaderMismatch (CelExpr.full fooQuery etagHeaders).toBytes (CelExpr.responseOnly noHeaders).toBytes) := by
  decide +kernel
example : errOf (HttpCert.mkFull fooQuery etagHeaders indexRequest
      ⟨200, [celHeader (.full fooQuery etagHeaders), celHeader (.full fooQuery etagHeaders)], []⟩ none) =
    some (.multipleExpressionHeaders (CelExpr.full fooQuery etagHeaders).toBytes) := by decide +kernel

end Verif.Conformance
