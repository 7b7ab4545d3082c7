import Verif.Basic

/-!
# Model of HTTP certification paths and wildcard enumeration

`ic-http-certification/src/tree/certification_tree_path.rs` and
`ic-http-certification/src/utils/wildcard_paths.rs`. Rust strings are their UTF-8 bytes; `'/'` is the
byte `0x2F`, which never occurs inside a multi-byte UTF-8 sequence, so splitting bytes and splitting
characters agree.
-/

namespace Verif

/-- `PATH_PREFIX` (wildcard_paths.rs:2). -/
def pathPrefix : Bytes := str "http_expr"
/-- `EXACT_PATH_TERMINATOR` (wildcard_paths.rs:14). -/
def exactTerm : Bytes := str "<$>"
/-- `WILDCARD_PATH_TERMINATOR` (wildcard_paths.rs:20). -/
def wildTerm : Bytes := str "<*>"

/-- The byte of `'/'`. -/
def slashByte : UInt8 := 0x2F

/-- `path.split('/').filter(|e| !e.is_empty())` (certification_tree_path.rs:73-78, 90-96;
v2_validation.rs:54). -/
def pathSegments (path : Bytes) : List Bytes := (path.splitOn slashByte).filter (fun e => !e.isEmpty)

/-- `path.ends_with('/')` (certification_tree_path.rs:79; v2_validation.rs:59). -/
def endsWithSlash (path : Bytes) : Bool := path.getLast? == some slashByte

/-- The segments followed by an empty one for a directory path: the common part of `path_to_segments`
(certification_tree_path.rs:72-82) and of v2_validation.rs:53-61. -/
def pathParts (path : Bytes) : List Bytes :=
  pathSegments path ++ (if endsWithSlash path then [[]] else [])

/-- `HttpCertificationPath::path_to_segments` (certification_tree_path.rs:72-86). -/
def pathToSegments (path term : Bytes) : List Bytes := pathParts path ++ [term]

/-- `HttpCertificationPath` (certification_tree_path.rs:10-28). -/
inductive HttpPath where
  | exact (path : Bytes)
  | wildcard (path : Bytes)
deriving DecidableEq, Repr

namespace HttpPath
/-- `to_tree_path` (certification_tree_path.rs:45-54). -/
def toTreePath : HttpPath → List Bytes
  | .exact p => pathToSegments p exactTerm
  | .wildcard p => pathToSegments p wildTerm

/-- `to_expr_path` (certification_tree_path.rs:61-70, 88-104). -/
def toExprPath : HttpPath → List Bytes
  | .exact p => pathPrefix :: (pathSegments p ++ (if endsWithSlash p then [[]] else [])) ++ [exactTerm]
  | .wildcard p => pathPrefix :: (pathSegments p ++ (if endsWithSlash p then [[]] else [])) ++ [wildTerm]
end HttpPath

/-- `is_wildcard_path_valid_for_request_path` (wildcard_paths.rs:26-42). -/
def isWildcardValid (wild req : List Bytes) : Bool :=
  if wild.isPrefixOf req then true
  else if wild.getLast? = some [] then wild.dropLast.isPrefixOf req
  else false

/-- `strip_path_affixes` (wildcard_paths.rs:44-72). -/
def stripAffixes (path : List Bytes) : List Bytes :=
  let path := if path.head? = some pathPrefix then path.tail else path
  let path := if path.getLast? = some exactTerm ∨ path.getLast? = some wildTerm then path.dropLast else path
  if path.length > 1 ∧ path.head? = some [] then path.tail else path

/-- One round of the loop body after the push/clone/pop (wildcard_paths.rs:107-114). `Vec::pop` on an empty
vector does nothing, as `dropLast`. -/
def wildcardStep (pp : List Bytes) : List Bytes :=
  if pp.getLast? = some [] then pp.dropLast else pp.dropLast ++ [[]]

/-- The `while` loop (wildcard_paths.rs:100-115) with a bound on the number of rounds; `none` = the bound was
reached. C19 shows that the bound used below is never reached, for any input. -/
def moreSpecificLoop : Nat → List Bytes → List Bytes → Option (List (List Bytes))
  | 0, _, _ => none
  | fuel + 1, pp, r =>
    if pp.length > r.length ∨ pp.getLast? ≠ r.getLast? then
      (moreSpecificLoop fuel (wildcardStep pp) r).map (fun ws => (pp ++ [wildTerm]) :: ws)
    else some []

/-- `more_specific_wildcards_for` (wildcard_paths.rs:82-118). -/
def moreSpecificWildcards (requested responding : List Bytes) : Option (List (List Bytes)) :=
  let pp := stripAffixes requested
  let r := stripAffixes responding
  let r := if isWildcardValid r pp then r else []
  moreSpecificLoop (2 * pp.length + 3) pp r

end Verif
