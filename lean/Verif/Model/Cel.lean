import Verif.Model.Utf8
import Verif.Model.Http

/-!
# Model of CEL expressions

Writing them: `ic-http-certification/src/cel/create_cel_expr.rs`. Parsing them and giving them a meaning:
`ic-response-verification/src/cel/{parser,ast_mapping}.rs` (and the nom 7.1.3 combinators they use).
-/

namespace Verif

/-! ## Writing -/

/-- A list of names as it is written between `[` and `]` (create_cel_expr.rs:85-89, 92-96, 119-123). -/
def celNames (names : List Bytes) : Bytes :=
  if names.isEmpty then [] else str "\"" ++ (str "\",\"").intercalate names ++ str "\""

/-- `create_request_cel_expr` (create_cel_expr.rs:79-99). -/
def celRequest (c : ReqCert) : Bytes :=
  str "request_certification:RequestCertification{certified_request_headers:[" ++ celNames c.headers ++
  str "],certified_query_parameters:[" ++ celNames c.queryParams ++ str "]},"

/-- `create_response_cel_expr` (create_cel_expr.rs:101-125). -/
def celResponse (c : RespCert) : Bytes :=
  str "response_certification:ResponseCertification{" ++
  (match c with
    | .certifiedHeaders hs => str "certified_response_headers" ++ str ":ResponseHeaderList{headers:[" ++ celNames hs
    | .headerExclusions hs => str "response_header_exclusions" ++ str ":ResponseHeaderList{headers:[" ++ celNames hs) ++
  str "]}}"

/-- `create_cel_expr` and the functions it dispatches to (create_cel_expr.rs:11-77). -/
def CelExpr.toBytes : CelExpr → Bytes
  | .skip => str "default_certification(ValidationArgs{" ++ str "no_certification:Empty{}" ++ str "})"
  | .responseOnly resp =>
    str "default_certification(ValidationArgs{" ++ str "certification:Certification{" ++
    str "no_request_certification:Empty{}," ++ celResponse resp ++ str "}" ++ str "})"
  | .full req resp =>
    str "default_certification(ValidationArgs{" ++ str "certification:Certification{" ++
    celRequest req ++ celResponse resp ++ str "}" ++ str "})"

/-! ## Parsing -/

/-- `CelValue` (parser.rs:14-20). The `HashMap` of an object is the list of its key-value pairs in source order,
read with `CelValue.get` below (a later pair replaces an earlier one with the same key). -/
inductive CelValue where
  | string (s : List Char)
  | array (vs : List CelValue)
  | object (name : List Char) (fields : List (List Char × CelValue))
  | function (name : List Char) (args : List CelValue)

/-- `HashMap::get` on a map collected from a list of pairs: the last pair with the key. -/
def celGet (fields : List (List Char × CelValue)) (key : String) : Option CelValue :=
  (fields.reverse.find? (fun f => f.1 == key.toList)).map Prod.snd

/-- nom's `IResult`: success with the remaining input, a recoverable `Err::Error`, a final `Err::Failure`; or the parser does not
return because its nested calls overflow the stack. -/
inductive PRes (α : Type) where
  | ok (rest : List Char) (v : α)
  | err
  | fail
  | crash

/-- nom's `map`. -/
def PRes.map {α β : Type} (f : α → β) : PRes α → PRes β
  | .ok r v => .ok r (f v)
  | .err => .err
  | .fail => .fail
  | .crash => .crash

/-- The characters nom's `multispace0` skips. -/
def isSpaceChar (c : Char) : Bool := c == ' ' || c == '\t' || c == '\r' || c == '\n'

/-- `trim_whitespace`'s `multispace0` (parser.rs:28-35). -/
def skipWs (i : List Char) : List Char := i.dropWhile isSpaceChar

/-- `trim_whitespace(char(c))`. -/
def wsChar (c : Char) (i : List Char) : Option (List Char) :=
  match skipWs i with
  | [] => none
  | d :: r => if d = c then some r else none

/-- nom's `is_alphanumeric` on `e as u8`, the character's code point modulo 256. -/
def alnum (c : Char) : Bool :=
  let b := c.toNat % 256
  (0x30 ≤ b && b ≤ 0x39) || (0x41 ≤ b && b ≤ 0x5A) || (0x61 ≤ b && b ≤ 0x7A)

/-- Characters of identifiers (parser.rs:57-61). -/
def identChar (c : Char) : Bool := c == '_' || alnum c
/-- Characters of strings (parser.rs:68-73). -/
def strChar (c : Char) : Bool := c == '-' || alnum c

/-- `drop_separators` (parser.rs:37-52): after the opening separator every error is final (`cut`). -/
def dropSep {α : Type} (o c : Char) (p : List Char → PRes α) (i : List Char) : PRes α :=
  match wsChar o i with
  | none => .err
  | some i1 =>
    match p i1 with
    | .ok i2 v => match wsChar c i2 with | some i3 => .ok i3 v | none => .fail
    | .crash => .crash
    | _ => .fail

/-- `ident` (parser.rs:54-63). -/
def ident (i : List Char) : List Char × List Char := (i.takeWhile identChar, i.dropWhile identChar)

/-- `parse_str` (parser.rs:65-78). nom's `escaped` only looks for the control character when the normal parser
fails; `take_while` never fails, so this is `take_while`. -/
def parseStr (i : List Char) : PRes (List Char) := .ok (i.dropWhile strChar) (i.takeWhile strChar)

/-- `string` (parser.rs:80-84). -/
def celString (i : List Char) : PRes (List Char) := dropSep '"' '"' parseStr i

/-- The loop of nom's `separated_list0(trim_whitespace(char(',')), p)` after the first element. The first argument
bounds the number of iterations (each consumes a separator); running out is unreachable (`sepLoop_fuel`). -/
def sepLoop {α : Type} (p : List Char → PRes α) : Nat → List Char → PRes (List α)
  | 0, _ => .fail
  | n + 1, i =>
    match wsChar ',' i with
    | none => .ok i []
    | some i1 =>
      match p i1 with
      | .err => .ok i []
      | .fail => .fail
      | .crash => .crash
      | .ok i2 v =>
        match sepLoop p n i2 with
        | .ok r vs => .ok r (v :: vs)
        | .err => .err
        | .fail => .fail
        | .crash => .crash

/-- nom's `separated_list0(trim_whitespace(char(',')), p)`. -/
def sepList {α : Type} (p : List Char → PRes α) (i : List Char) : PRes (List α) :=
  match p i with
  | .err => .ok i []
  | .fail => .fail
  | .crash => .crash
  | .ok i1 v =>
    match sepLoop p (i1.length + 1) i1 with
    | .ok r vs => .ok r (v :: vs)
    | .err => .err
    | .fail => .fail
    | .crash => .crash

/-- `key_value` (parser.rs:99-110); `p` parses a value. -/
def keyValue (p : List Char → PRes CelValue) (i : List Char) : PRes (List Char × CelValue) :=
  let (k, i1) := ident (skipWs i)
  match wsChar ':' i1 with
  | none => .err
  | some i2 => (p i2).map (fun v => (k, v))

/-- `object` (parser.rs:112-129); `p` parses a value. -/
def celObject (p : List Char → PRes CelValue) (i : List Char) : PRes CelValue :=
  let (n, i1) := ident i
  (dropSep '{' '}' (sepList (keyValue p)) i1).map (fun fs => .object n fs)

/-- `function` (parser.rs:131-148); `p` parses a value. -/
def celFunction (p : List Char → PRes CelValue) (i : List Char) : PRes CelValue :=
  let (n, i1) := ident i
  (dropSep '(' ')' (sepList p) i1).map (fun vs => .function n vs)

/-- `array` (parser.rs:86-97); `p` parses a value. -/
def celArray (p : List Char → PRes CelValue) (i : List Char) : PRes CelValue :=
  (dropSep '[' ']' (sepList p) i).map .array

/-- The body of `cel_value` (parser.rs:150-162), with `p` for its recursive calls; nom's `alt` tries the next
alternative only after an `Err::Error`. -/
def celStep (p : List Char → PRes CelValue) (i : List Char) : PRes CelValue :=
  let i := skipWs i
  match celObject p i with
  | .err =>
    match celFunction p i with
    | .err =>
      match celArray p i with
      | .err => (celString i).map .string
      | r => r
    | r => r
  | r => r

/-- `cel_value` (parser.rs:150-162). The first argument is the number of nested calls that the stack holds; more than the length
of the input are not needed (`celParse_eq`). -/
def celValue : Nat → List Char → PRes CelValue
  | 0, _ => .crash
  | n + 1, i => celStep (celValue n) i

/-- `parse_cel_expression` (parser.rs:164-171) on the characters of the expression, with a stack that suffices for them; what
remains after the value is ignored. -/
def celParse (i : List Char) : PRes CelValue := celValue (i.length + 1) i

/-! ## Meaning -/

/-- `CelParserError` (cel/error.rs), without the texts. -/
inductive CelError where
  | syntax
  | unexpectedNodeType
  | unexpectedNodeName
  | missingObjectProperty
  | missingFunctionParameter
  | extraneousValidationArgs
  | missingValidationArgs
  | extraneousRequest
  | missingRequest
  | extraneousResponse
  | missingResponse
deriving DecidableEq, Repr

/-- `validate_object` (ast_mapping.rs:12-33). -/
def validateObject (v : CelValue) (name : String) : Except CelError (List (List Char × CelValue)) :=
  match v with
  | .object n fs => if n = name.toList then .ok fs else .error .unexpectedNodeName
  | _ => .error .unexpectedNodeType

/-- `validate_function` (ast_mapping.rs:35-56). -/
def validateFunction (v : CelValue) (name : String) : Except CelError (List CelValue) :=
  match v with
  | .function n vs => if n = name.toList then .ok vs else .error .unexpectedNodeName
  | _ => .error .unexpectedNodeType

/-- The closure and `collect` of `validate_string_array` (ast_mapping.rs:70-83). -/
def stringElems : List CelValue → Except CelError (List Bytes)
  | [] => .ok []
  | .string s :: vs => do return utf8 s :: (← stringElems vs)
  | _ :: _ => .error .unexpectedNodeType

/-- `validate_string_array` (ast_mapping.rs:58-86). -/
def validateStringArray (v : CelValue) : Except CelError (List Bytes) :=
  match v with
  | .array vs => stringElems vs
  | _ => .error .unexpectedNodeType

/-- `validate_request_certification` (ast_mapping.rs:88-130). -/
def validateRequest (c : List (List Char × CelValue)) : Except CelError (Option ReqCert) :=
  match celGet c "no_request_certification", celGet c "request_certification" with
  | some _, some _ => .error .extraneousRequest
  | none, none => .error .missingRequest
  | some _, none => .ok none
  | none, some r => do
    let r ← validateObject r "RequestCertification"
    match celGet r "certified_request_headers" with
    | none => .error .missingObjectProperty
    | some hs =>
      let hs ← validateStringArray hs
      match celGet r "certified_query_parameters" with
      | none => .error .missingObjectProperty
      | some qs =>
        let qs ← validateStringArray qs
        return some { headers := hs, queryParams := qs }

/-- The closure `get_response_certification_headers` (ast_mapping.rs:143-154). -/
def responseHeaderList (r : List (List Char × CelValue)) (prop : String) : Except CelError (Option (List Bytes)) :=
  match celGet r prop with
  | none => .ok none
  | some o => do
    let o ← validateObject o "ResponseHeaderList"
    match celGet o "headers" with
    | none => return none
    | some hs => return some (← validateStringArray hs)

/-- `validate_response_certification` (ast_mapping.rs:132-172). -/
def validateResponse (c : List (List Char × CelValue)) : Except CelError RespCert :=
  match celGet c "response_certification" with
  | none => .error .missingObjectProperty
  | some r => do
    let r ← validateObject r "ResponseCertification"
    let certified ← responseHeaderList r "certified_response_headers"
    let exclusions ← responseHeaderList r "response_header_exclusions"
    match certified, exclusions with
    | some _, some _ => .error .extraneousResponse
    | none, none => .error .missingResponse
    | some hs, none => return .certifiedHeaders hs
    | none, some hs => return .headerExclusions hs

/-- `map_cel_ast` (ast_mapping.rs:174-218). -/
def mapCelAst (v : CelValue) : Except CelError CelExpr := do
  let args ← validateFunction v "default_certification"
  match args.head? with
  | none => .error .missingFunctionParameter
  | some a =>
    let a ← validateObject a "ValidationArgs"
    match celGet a "no_certification", celGet a "certification" with
    | some _, some _ => .error .extraneousValidationArgs
    | none, none => .error .missingValidationArgs
    | some _, none => return .skip
    | none, some c =>
      let c ← validateObject c "Certification"
      let req ← validateRequest c
      let resp ← validateResponse c
      match req with
      | none => return .responseOnly resp
      | some req => return .full req resp

/-- `parse_cel_expression` followed by `map_cel_ast`, as used by the verifier
(verify_request_response_pair.rs:81-82) on the text of the IC-CertificateExpression header, with a stack that suffices. -/
def parseCel (b : Bytes) : Except CelError CelExpr :=
  match chars b with
  | none => .error .syntax
  | some cs =>
    match celParse cs with
    | .ok _ v => mapCelAst v
    | _ => .error .syntax

/-- The same with a stack that holds a number of nested calls of `cel_value`; `none` = it overflows. -/
def parseCelOn (stack : Nat) (b : Bytes) : Option (Except CelError CelExpr) :=
  match chars b with
  | none => some (.error .syntax)
  | some cs =>
    match celValue stack cs with
    | .ok _ v => some (mapCelAst v)
    | .crash => none
    | _ => some (.error .syntax)

end Verif
