import Verif.Conformance.HashTree
import Verif.Model.Verify

/-! # The tests of packages/ic-response-verification/src/validation/{v1,v2}_validation.rs and cel/tests.rs -/

namespace Verif.Conformance
open Verif HashTree
attribute [local instance] realSHA
set_option maxRecDepth 100000

/-! ## cel/tests.rs -/

def parsedTo (s : List Char) (e : CelExpr) : Bool :=
  match parseCel (utf8 s) with
  | .ok e' => e == e'
  | .error _ => false

/-- The expression as it is (given by its lines, with shorter indentation), and after `remove_whitespace`. -/
def bothParse (lines : List String) (e : CelExpr) : Bool :=
  let s := lines.flatMap (fun l => '\n' :: l.toList)
  parsedTo s e && parsedTo (s.filter (fun c => !isWs c)) e

/-- `parses_no_certification_expression` (cel/tests.rs:11-32). -/
example : bothParse [" default_certification (",
    " ValidationArgs {",
    "  no_certification: Empty { }",
    " }",
    " )",
    "    "] .skip = true := by decide +kernel

/-- `parses_no_request_certification_expression` (cel/tests.rs:34-70). -/
example : bothParse [" default_certification (",
    " ValidationArgs {",
    "  certification: Certification {",
    "  no_request_certification: Empty {},",
    "  response_certification: ResponseCertification {",
    "   response_header_exclusions: ResponseHeaderList {",
    "   headers: [\"Server\",\"Date\",\"X-Cache-Status\"]",
    "   }",
    "  }",
    "  }",
    " }",
    " )",
    "    "] (.responseOnly (.headerExclusions [str "Server", str "Date", str "X-Cache-Status"])) = true := by decide +kernel

/-- `parses_full_certification_expression` (cel/tests.rs:72-113), after `remove_whitespace`. -/
example : parsedTo (List.flatMap String.toList ["default_certification(",
    "ValidationArgs{",
    "certification:Certification{",
    "request_certification:RequestCertification{",
    "certified_request_headers:[\"host\"],",
    "certified_query_parameters:[\"filter\"]",
    "},",
    "response_certification:ResponseCertification{",
    "response_header_exclusions:ResponseHeaderList{",
    "headers:[\"Content-Type\",\"X-Frame-Options\",\"Content-Security-Policy\",",
    "\"Strict-Transport-Security\",\"Referrer-Policy\",\"Permissions-Policy\"]",
    "}",
    "}",
    "}",
    "}",
    ")"]) (.full { headers := [str "host"], queryParams := [str "filter"] }
        (.headerExclusions [str "Content-Type", str "X-Frame-Options", str "Content-Security-Policy",
          str "Strict-Transport-Security", str "Referrer-Policy", str "Permissions-Policy"])) = true := by decide +kernel

/-! ## v1_validation.rs -/

/-- `create_tree` (test_utils.rs:10-38). -/
def createTree (path : Bytes) (bodySha : Bytes) : HashTree :=
  .fork (.labeled (str "http_assets")
      (.fork (.fork (.labeled path (.leaf bodySha))
          (.pruned (hexHash "D7CD0A6CF52A2070DC51FE1D7B6A87078888719E16849C748C35E7FC7B69F95C")))
        (.pruned (hexHash "582B5321336646D48C6F8BF1913333BB4EBF65C09FFBF8207C012E1F54071261"))))
    (.pruned (hexHash "21334B26681D7220E3D2D7DCB23A89CCDB1B1E044EB35EBBE491F66D4080D078"))

/-- The five tests of v1_validation.rs:28-127. -/
example :
    let sha1to6 := sha [1, 2, 3, 4, 5, 6]
    validateBody (createTree (str "/app.js") sha1to6.1) (str "/app.js") sha1to6 = true ∧
    validateBody (createTree (str "/index.html") sha1to6.1) (str "/garbage.js") sha1to6 = true ∧
    validateBody (createTree (str "/index.html") [9, 8, 7, 6, 5, 4, 3, 2, 1]) (str "/app.js") sha1to6 = false ∧
    validateBody (createTree (str "/app.js") [9, 8, 7, 6, 5, 4, 3, 2, 1]) (str "/app.js") sha1to6 = false ∧
    validateBody (createTree (str "/garbage.js") sha1to6.1) (str "/app.js") sha1to6 = false := by decide +kernel

/-! ## v2_validation.rs -/

def prunedE : HashTree := .pruned (hexHash "ea7fd1a6b0cac1fe118016ca3026e58d5ae67a6965478acb561edba542732e24")
def prunedC : HashTree := .pruned (hexHash "c01f7c0681a684be0a016b800981951832b53d5ffb55c49c27f6e83f7d2749c3")
def requestH : Hash := hexHash "5fac69685533f0650991441a2b818e8ad5ab2fec51de8cfdbea1276135494815"
def responseH : Hash := hexHash "07b7c729f4083db0e266fef3f8f5acf1315135605bf38884c07ebb59fbf91ce8"
def otherH : Hash := hexHash "02456594f95f4e8f35f14850d23bc05aa065ecc17eb4aeaff3c1819edaee0816"
def lbl (s : String) (t : HashTree) : HashTree := .labeled (str s) t
/-- Nested labels. -/
def nest (ls : List String) (t : HashTree) : HashTree := ls.foldr lbl t
def textList (l : List String) : List Bytes := l.map str

/-- Stand-ins for `hash(remove_whitespace(CEL_EXPRESSION))` and the hash of the other expression: which they are does
not matter to the tests. -/
def exprH : Hash := hexHash "aa7fd1a6b0cac1fe118016ca3026e58d5ae67a6965478acb561edba542732e24"
def noCertH : Hash := hexHash "bb7fd1a6b0cac1fe118016ca3026e58d5ae67a6965478acb561edba542732e24"

/-- `create_certification` (v2_validation.rs, end). -/
def fullCel : CelExpr := .full { headers := [str "Host"], queryParams := [] }
  (.certifiedHeaders [str "Accept-Encoding", str "Cache-Control"])

def appJs : List String := ["http_expr", "assets", "js", "app.js", "<$>"]
/-- `validate_hashes` with the arguments of the tests on the given tree. -/
def hashesIn (t : HashTree) : Bool := validateHashes exprH (some requestH) responseH (textList appJs) t fullCel
def hashLeaf : List Hash → HashTree → HashTree := fun hs t => hs.foldr (fun h t => .labeled h.1 t) t

/-- `validate_hashes_that_exist`, `validate_expr_hash_that_does_not_exist`, `validate_expr_hash_that_does_not_match`,
`validate_req_hash_that_does_not_exist`, `validate_req_hash_that_does_not_match`,
`validate_res_hash_that_does_not_exist`, `validate_res_hash_that_does_not_match`. -/
example :
    hashesIn (.fork (nest appJs (hashLeaf [exprH] (.fork (hashLeaf [requestH, responseH] (.leaf [])) prunedE))) prunedE) = true ∧
    hashesIn (.fork (nest ["http_expr", "assets", "css", "app.css", "<$>"] (hashLeaf [exprH, requestH, responseH] (.leaf []))) prunedE) = false ∧
    hashesIn (.fork (nest appJs (hashLeaf [hexHash "c5dbe9d11756d4a7b05e5c0e246035dedcd1e4e71bd1e726c4011940d811496b",
      requestH, responseH] (.leaf []))) prunedE) = false ∧
    hashesIn (.fork (nest appJs (hashLeaf [exprH, responseH] (.leaf []))) prunedE) = false ∧
    hashesIn (.fork (nest appJs (hashLeaf [exprH] (.fork (hashLeaf
      [hexHash "236baceb3bbf1ad861a981807c4f7580344d8c7b25b7329be266c603ccc0f03e", responseH] (.leaf [])) prunedE))) prunedE) = false ∧
    hashesIn (.fork (nest appJs (hashLeaf [exprH] (.fork (hashLeaf [requestH] (.leaf [])) prunedE))) prunedE) = false ∧
    hashesIn (.fork (nest appJs (hashLeaf [exprH] (.fork (hashLeaf [requestH, otherH] (.leaf [])) prunedE))) prunedE) = false := by
  decide +kernel

/-- `validate_expr_hash_no_certification`, `validate_sibling_expr_hash`, `validate_expr_hash_does_not_exist`. -/
example :
    validateExprHash (textList appJs) noCertH (.fork (nest appJs (hashLeaf [noCertH] (.leaf []))) prunedE) = some (.leaf []) ∧
    validateExprHash (textList appJs) exprH
      (.fork (nest appJs (.fork (hashLeaf [exprH] (.leaf [])) (hashLeaf [noCertH] (.leaf [])))) prunedE) = some (.leaf []) ∧
    validateExprHash (textList appJs) noCertH
      (.fork (nest appJs (.fork (hashLeaf [exprH] (.leaf [])) (hashLeaf [noCertH] (.leaf [])))) prunedE) = some (.leaf []) ∧
    validateExprHash (textList appJs) noCertH (.fork (nest appJs (hashLeaf [otherH] (.leaf []))) prunedE) = none := by
  decide +kernel

/-- The outcomes the tests distinguish. -/
inductive Outcome where
  | ok | exactNotFound | exactMismatch | exactMightExist | wildcardNotFound | wildcardMismatch | moreSpecific
  | badPrefix | badSuffix | other
deriving DecidableEq

def outcome : Out RvError Unit → Outcome
  | .ok () => .ok
  | .err .exactNotFound => .exactNotFound
  | .err .exactMismatch => .exactMismatch
  | .err .exactMightExist => .exactMightExist
  | .err .wildcardNotFound => .wildcardNotFound
  | .err .wildcardMismatch => .wildcardMismatch
  | .err .moreSpecificMightExist => .moreSpecific
  | .err .unexpectedPrefix => .badPrefix
  | .err .unexpectedSuffix => .badSuffix
  | _ => .other

def exprPathOn (path : List String) (url : String) (t : HashTree) : Outcome :=
  outcome (validateExprPath (textList path) (str url) t)

def end_ : HashTree := .leaf []

/-- The tests `validate_expr_path_…` with a single tree each, in the order of v2_validation.rs. -/
example :
    exprPathOn ["http_expr", "assets", "js", "app.js", "<$>"] "/assets/js/app.js"
      (.fork (nest ["http_expr", "assets", "js", "app.js", "<$>"] end_) prunedC) = .ok ∧
    exprPathOn ["http_expr", "app", "", "<$>"] "/app/" (.fork (nest ["http_expr", "app", "", "<$>"] end_) prunedC) = .ok ∧
    exprPathOn ["http_expr", "assets", "js", "<*>"] "/assets/js/app.js"
      (.fork (nest ["http_expr", "assets", "js", "<*>"] end_) prunedC) = .ok ∧
    exprPathOn ["http_expr", "app", "", "<*>"] "/app/not-existing"
      (.fork (nest ["http_expr", "app"] (.fork (nest ["", "<*>"] end_) (nest ["<$>"] end_))) prunedC) = .ok ∧
    exprPathOn ["http_expr", "", "<*>"] "/app/not-existing"
      (.fork (nest ["http_expr"] (.fork (nest ["app"] (.fork (nest ["", "<*>"] end_) (nest ["<$>"] end_)))
        (nest ["", "<*>"] end_))) prunedC) = .moreSpecific ∧
    exprPathOn ["http_expr", "assets", "js", "app.js", "<$>"] "/assets/js/app.js"
      (.fork (nest ["http_expr", "assets", "js", "<*>"] end_) prunedC) = .exactNotFound ∧
    exprPathOn ["http_expr", "assets", "js", "<$>"] "/assets/js/app.js"
      (.fork (nest ["http_expr", "assets", "js", "<$>"] end_) prunedC) = .exactMismatch ∧
    exprPathOn ["http_expr", "assets", "css", "<*>"] "/assets/js/app.js"
      (.fork (nest ["http_expr", "assets"] (.fork (nest ["js", "<*>"] end_) (nest ["css", "<*>"] end_))) prunedC) =
      .wildcardMismatch ∧
    exprPathOn ["http_expr", "assets", "<*>"] "/assets/js/app.js"
      (.fork (nest ["http_expr", "assets"] (.fork (nest ["<*>"] end_) prunedC)) prunedC) = .exactMightExist ∧
    exprPathOn ["http_expr", "assets", "js", "<*>"] "/assets/js/app.js"
      (.fork (nest ["http_expr", "assets", "js", "app.js", "<$>"] end_) prunedC) = .exactMightExist ∧
    exprPathOn ["http_expr", "assets", "<*>"] "/assets/js/app.js"
      (.fork (nest ["http_expr", "assets", "js", "<*>"] end_) prunedC) = .moreSpecific ∧
    exprPathOn ["http_assets", "assets", "js", "app.js", "<$>"] "/assets/js/app.js"
      (.fork (nest ["http_assets", "assets", "js", "app.js", "<$>"] end_) prunedC) = .badPrefix ∧
    exprPathOn ["http_expr", "assets"] "/assets/js/app.js" (.fork (nest ["http_expr", "<*>"] end_) prunedC) = .badSuffix := by
  decide +kernel

/-- The trees of `validate_various_expr_paths`. -/
def star2 : HashTree := .fork (nest ["", "<*>"] end_) (nest ["<*>"] end_)
def treeABSlash : HashTree := .fork (nest ["http_expr"] (.fork star2 (nest ["a"] (.fork star2 (nest ["b"] star2))))) prunedC
def treeAB : HashTree := .fork (nest ["http_expr"] (.fork star2 (nest ["a"] (.fork star2 (nest ["b", "<*>"] end_))))) prunedC
def treeASlash : HashTree := .fork (nest ["http_expr"] (.fork star2 (nest ["a"] star2))) prunedC
def treeA : HashTree := .fork (nest ["http_expr"] (.fork star2 (nest ["a", "<*>"] end_))) prunedC
def treeSlash : HashTree := .fork (nest ["http_expr"] star2) prunedC
def treeStar : HashTree := nest ["http_expr", "<*>"] end_

def allGive (o : Outcome) (cases : List (String × List String × HashTree)) : Bool :=
  cases.all (fun c => exprPathOn ("http_expr" :: c.2.1) c.1 c.2.2 == o)

/-- `validate_various_expr_paths` (v2_validation.rs). -/
example : allGive .ok
    [("/a/b", ["a", "b", "<*>"], treeABSlash), ("/a/b/", ["a", "b", "", "<*>"], treeABSlash),
     ("/a/b", ["a", "b", "<*>"], treeAB), ("/a/b/", ["a", "b", "<*>"], treeAB),
     ("/a/b", ["a", "", "<*>"], treeASlash), ("/a/b/", ["a", "", "<*>"], treeASlash),
     ("/a/b", ["a", "<*>"], treeA), ("/a/b/", ["a", "<*>"], treeA),
     ("/a/b", ["", "<*>"], treeSlash), ("/a/b/", ["", "<*>"], treeSlash),
     ("/a/b", ["<*>"], treeStar), ("/a/b/", ["<*>"], treeStar),
     ("/", ["", "<*>"], treeABSlash), ("/", ["<*>"], treeStar)] = true := by decide +kernel

example : allGive .wildcardNotFound
    [("/a/b/", ["a", "b", "", "<*>"], treeAB), ("/a/b", ["a", "b", "<*>"], treeASlash),
     ("/a/b/", ["a", "b", "<*>"], treeASlash), ("/a/b/", ["a", "b", "", "<*>"], treeASlash),
     ("/a/b", ["a", "", "<*>"], treeA), ("/a/b", ["a", "b", "<*>"], treeA), ("/a/b/", ["a", "", "<*>"], treeA),
     ("/a/b/", ["a", "b", "<*>"], treeA), ("/a/b/", ["a", "b", "", "<*>"], treeA),
     ("/a/b", ["a", "<*>"], treeSlash), ("/a/b", ["a", "", "<*>"], treeSlash), ("/a/b", ["a", "b", "<*>"], treeSlash),
     ("/a/b/", ["a", "<*>"], treeSlash), ("/a/b/", ["a", "", "<*>"], treeSlash),
     ("/a/b/", ["a", "b", "<*>"], treeSlash), ("/a/b/", ["a", "b", "", "<*>"], treeSlash),
     ("/a/b", ["", "<*>"], treeStar), ("/a/b", ["a", "<*>"], treeStar), ("/a/b", ["a", "", "<*>"], treeStar),
     ("/a/b", ["a", "b", "<*>"], treeStar), ("/a/b/", ["", "<*>"], treeStar), ("/a/b/", ["a", "<*>"], treeStar),
     ("/a/b/", ["a", "", "<*>"], treeStar), ("/a/b/", ["a", "b", "<*>"], treeStar),
     ("/a/b/", ["a", "b", "", "<*>"], treeStar), ("/", ["", "<*>"], treeStar)] = true := by decide +kernel

example : allGive .moreSpecific
    [("/", ["<*>"], treeABSlash), ("/a/b", ["a", "", "<*>"], treeABSlash), ("/a/b/", ["a", "b", "<*>"], treeABSlash),
     ("/a/b", ["a", "", "<*>"], treeAB), ("/a/b/", ["a", "", "<*>"], treeAB), ("/a/b", ["a", "<*>"], treeASlash),
     ("/a/b/", ["a", "<*>"], treeASlash), ("/a/b", ["", "<*>"], treeA), ("/a/b/", ["", "<*>"], treeA),
     ("/a/b", ["<*>"], treeSlash), ("/a/b/", ["<*>"], treeSlash)] = true := by decide +kernel

example : allGive .wildcardMismatch
    [("/", ["a", "<*>"], treeABSlash), ("/a/b", ["a", "c", "<*>"], treeABSlash),
     ("/a/b", ["c", "b", "<*>"], treeABSlash)] = true := by decide +kernel

end Verif.Conformance
