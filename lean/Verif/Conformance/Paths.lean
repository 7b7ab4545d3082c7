import Verif.Conformance.Util
import Verif.Model.HttpPath
import Verif.Model.Cel

/-! # The tests of packages/ic-http-certification/src/{tree/certification_tree_path,utils/wildcard_paths,cel/create_cel_expr}.rs -/

namespace Verif.Conformance
open Verif
set_option maxRecDepth 100000

def texts (l : List String) : List Bytes := l.map str

/-- The templates `exact_paths` and `wildcard_paths` (certification_tree_path.rs:124-150), without the terminator. -/
def pathCases : List (String × List String) :=
  [("", []), ("/", [""]), ("/foo", ["foo"]), ("foo", ["foo"]), ("/foo/", ["foo", ""]), ("foo/", ["foo", ""]),
    ("/foo/bar", ["foo", "bar"]), ("foo/bar", ["foo", "bar"]), ("/foo/bar/", ["foo", "bar", ""]),
    ("foo/bar/", ["foo", "bar", ""])]

/-- `exact_path_to_tree_path`, `wildcard_path_to_tree_path`, `exact_path_to_expr_path`,
`wildcard_path_to_expr_path` (certification_tree_path.rs:152-205). -/
example :
    pathCases.map (fun c => (HttpPath.exact (str c.1)).toTreePath) = pathCases.map (fun c => texts (c.2 ++ ["<$>"])) ∧
    pathCases.map (fun c => (HttpPath.wildcard (str c.1)).toTreePath) = pathCases.map (fun c => texts (c.2 ++ ["<*>"])) ∧
    pathCases.map (fun c => (HttpPath.exact (str c.1)).toExprPath) =
      pathCases.map (fun c => texts (["http_expr"] ++ c.2 ++ ["<$>"])) ∧
    pathCases.map (fun c => (HttpPath.wildcard (str c.1)).toExprPath) =
      pathCases.map (fun c => texts (["http_expr"] ++ c.2 ++ ["<*>"])) := by decide +kernel

/-- `test_more_specific_wildcards_for` (wildcard_paths.rs:124-371): the responding paths of the eight cases and the
more specific wildcards for the requested path `a/b/c`. -/
def wildcardCases : List (List String × List (List String)) :=
  let w1 := ["a", "b", "c", "<*>"]
  let w2 := ["a", "b", "", "<*>"]
  let w3 := ["a", "b", "<*>"]
  let w4 := ["a", "", "<*>"]
  let w5 := ["a", "<*>"]
  let w6 := ["", "<*>"]
  [(["a", "b", "c"], []), (["a", "b", ""], [w1]), (["a", "b"], [w1, w2]), (["a", ""], [w1, w2, w3]),
    (["a"], [w1, w2, w3, w4]), ([""], [w1, w2, w3, w4, w5]), ([], [w1, w2, w3, w4, w5, w6]),
    (["d", "e", "f"], [w1, w2, w3, w4, w5, w6])]

example : wildcardCases.map (fun c => moreSpecificWildcards (texts ["a", "b", "c"]) (texts c.1)) =
    wildcardCases.map (fun c => some (c.2.map texts)) := by decide +kernel

/-- The certifications of create_cel_expr.rs:180-289 and the fixtures of cel/fixtures.rs:3-262 with their white space
removed. -/
def respInclusions : RespCert := .certifiedHeaders (texts ["Cache-Control", "ETag", "Content-Length", "Content-Type", "Content-Encoding"])
def respExclusions : RespCert := .headerExclusions (texts ["Date", "Cookie", "Set-Cookie"])
def reqSome : ReqCert := { headers := texts ["Accept", "Accept-Encoding", "If-Match"], queryParams := texts ["foo", "bar", "baz"] }

def opening : String := "default_certification(ValidationArgs{certification:Certification{"
def noReq : String := "no_request_certification:Empty{},response_certification:ResponseCertification{"
def someReq : String := "request_certification:RequestCertification{certified_request_headers:[\"Accept\",\"Accept-Encoding\",\"If-Match\"],certified_query_parameters:[\"foo\",\"bar\",\"baz\"]},response_certification:ResponseCertification{"
def emptyReq : String := "request_certification:RequestCertification{certified_request_headers:[],certified_query_parameters:[]},response_certification:ResponseCertification{"
def inclText : String := "certified_response_headers:ResponseHeaderList{headers:[\"Cache-Control\",\"ETag\",\"Content-Length\",\"Content-Type\",\"Content-Encoding\"]}}}})"
def exclText : String := "response_header_exclusions:ResponseHeaderList{headers:[\"Date\",\"Cookie\",\"Set-Cookie\"]}}}})"
def noIncl : String := "certified_response_headers:ResponseHeaderList{headers:[]}}}})"
def noExcl : String := "response_header_exclusions:ResponseHeaderList{headers:[]}}}})"

def celCases : List (CelExpr × List String) :=
  [(.skip, ["default_certification(ValidationArgs{no_certification:Empty{}})"]),
    (.responseOnly respInclusions, [opening, noReq, inclText]),
    (.responseOnly respExclusions, [opening, noReq, exclText]),
    (.responseOnly (.certifiedHeaders []), [opening, noReq, noIncl]),
    (.responseOnly (.headerExclusions []), [opening, noReq, noExcl]),
    (.full reqSome respInclusions, [opening, someReq, inclText]),
    (.full reqSome respExclusions, [opening, someReq, exclText]),
    (.full reqSome (.certifiedHeaders []), [opening, someReq, noIncl]),
    (.full reqSome (.headerExclusions []), [opening, someReq, noExcl]),
    (.full ⟨[], []⟩ (.certifiedHeaders []), [opening, emptyReq, noIncl]),
    (.full ⟨[], []⟩ (.headerExclusions []), [opening, emptyReq, noExcl])]

/-- `create_cel_expr_test` (create_cel_expr.rs:133-178). -/
example : celCases.map (fun c => c.1.toBytes) = celCases.map (fun c => c.2.flatMap str) := by decide +kernel

end Verif.Conformance
