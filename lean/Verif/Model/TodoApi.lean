import Verif.Model.CertTree
import Verif.Model.Certification
import Verif.Model.Header

/-!
# Model of the `json-api` example canister

`examples/http-certification/json-api/src/backend/src/lib.rs` and `types.rs`. JSON (`serde_json`) is a parameter; the routes
are matched as `matchit` 0.8.4 does (a parameter is one non-empty segment, a catch-all a non-empty rest).
-/

namespace Verif

/-- `TodoItem` (types.rs:5-10). -/
structure TodoItem where
  id : UInt32
  title : Bytes
  completed : Bool
deriving DecidableEq, Repr

/-- `serde_json`: `ListTodosResponse::ok(..).encode()` (types.rs:37-39), and the decoding of the two request bodies
(types.rs:42-55); `none`: `json_decode` traps. -/
class TodoJson where
  list : List TodoItem → Bytes
  create : Bytes → Option Bytes
  update : Bytes → Option (Option Bytes × Option Bool)

/-- `ErrorResponse::not_allowed().encode()` (types.rs:28-35). -/
def notAllowedBody : Bytes := str "{\"err\":{\"code\":405,\"message\":\"Method not allowed\"}}"
/-- `ErrorResponse::not_found().encode()` (types.rs:24-26). -/
def notFoundBody : Bytes := str "{\"err\":{\"code\":404,\"message\":\"Not found\"}}"

/-- `str::to_uppercase` of a method name (a token: ASCII). -/
def upperByte (b : UInt8) : UInt8 := if 0x61 ≤ b ∧ b ≤ 0x7A then b - 0x20 else b
/-- `str::to_uppercase` of a method name. -/
def upper (b : Bytes) : Bytes := b.map upperByte

/-- `str::parse::<u32>` (Rust core library). -/
def parseU32 (s : Bytes) : Option UInt32 :=
  let d := match s with | 0x2B :: r => r | _ => s
  if d = [] then none
  else if d.all (fun c => 0x30 ≤ c && c ≤ 0x39) then
    let n := d.foldl (fun acc c => acc * 10 + (c.toNat - 0x30)) 0
    if n < 2 ^ 32 then some (UInt32.ofNat n) else none
  else none

/-- `TODOS_PATH` (lib.rs:103). -/
def todosPath : Bytes := str "/todos"

/-- A stored response with its certification, `CertifiedHttpResponse` (lib.rs:76-80). -/
structure StoredResponse where
  response : HttpResponse
  cert : HttpCert
deriving DecidableEq

/-- The heap of the canister (lib.rs:82-101) without the constant expressions and routers, and the certified data the
subnet holds for it. `items` are the entries of a `HashMap` in no particular order. -/
structure Todo where
  next : UInt32
  items : List TodoItem
  tree : CertTree
  fallback : Option StoredResponse
  responses : List ((Bytes × Bytes) × StoredResponse)
  certifiedData : Bytes

/-- `create_response` (lib.rs:477-496). -/
def todoResponse (status : UInt16) (body : Bytes) : HttpResponse :=
  { status, body
    headers := [(str "content-type", str "application/json"),
      (str "strict-transport-security", str "max-age=31536000; includeSubDomains"),
      (str "x-content-type-options", str "nosniff"), (str "referrer-policy", str "no-referrer"),
      (str "cache-control", str "no-store, max-age=0"), (str "pragma", str "no-cache")] }

/-- The request part of the full expression of `prepare_cel_exprs` (lib.rs:115-169): no headers, no query parameters. -/
def todoReqCert : ReqCert := { headers := [], queryParams := [] }
/-- The response part of both expressions (lib.rs:127-129, 153-155): all headers. -/
def todoRespCert : RespCert := .headerExclusions []

/-- `HttpRequest::builder().with_method(m).with_url(TODOS_PATH).build()` (lib.rs:172, 199-202). -/
def todoRequest (m : Bytes) : HttpRequest := { method := m, url := todosPath, headers := [], body := [] }

/-- `response.add_header` with the expression (lib.rs:222-225, 276-279). -/
def withExpr (r : HttpResponse) (cel : CelExpr) : HttpResponse :=
  { r with headers := r.headers ++ [(certExprHeaderName, cel.toBytes)] }

section
variable [SHA] [UriLib]

/-- `certify_response` (lib.rs:250-304); `none`: it traps. -/
def certifyResponse (s : Todo) (req : HttpRequest) (res : HttpResponse) (path : HttpPath) : Option Todo := do
  let reqPath ← req.getPath.toOption
  let key := (req.method, reqPath)
  let responses := s.responses.filter (fun x => x.1 ≠ key)
  let tree ← match s.responses.lookup key with
    | some old => s.tree.delete ⟨path, old.cert⟩
    | none => some s.tree
  if reqPath = todosPath then
    let res := withExpr res (.full todoReqCert todoRespCert)
    let cert ← (HttpCert.mkFull todoReqCert todoRespCert req res none).toOption
    let tree ← tree.insert ⟨path, cert⟩
    return { s with responses := (key, ⟨res, cert⟩) :: responses, tree, certifiedData := tree.rootHash.1 }
  else none

/-- `certify_list_todos_response` (lib.rs:171-186); `enum` is the order in which the `HashMap` enumerates its items. -/
def certifyList [TodoJson] (s : Todo) (enum : List TodoItem → List TodoItem) : Option Todo :=
  certifyResponse s (todoRequest (str "GET")) (todoResponse 200 (TodoJson.list (enum s.items))) (.exact todosPath)

/-- The methods of lib.rs:189-196. -/
def notAllowedMethods : List Bytes :=
  [str "HEAD", str "PUT", str "PATCH", str "OPTIONS", str "TRACE", str "CONNECT"]

/-- `certify_not_allowed_todo_responses` (lib.rs:188-209). -/
def certifyNotAllowed (s : Todo) : Option Todo :=
  notAllowedMethods.foldlM (fun s m => certifyResponse s (todoRequest m) (todoResponse 405 notAllowedBody) (.exact todosPath)) s

/-- `certify_not_found_response` (lib.rs:211-248). -/
def certifyNotFound (s : Todo) : Option Todo := do
  let res := withExpr (todoResponse 404 notFoundBody) (.responseOnly todoRespCert)
  let cert ← (HttpCert.mkResponseOnly todoRespCert res none).toOption
  let tree ← s.tree.insert ⟨.wildcard (str ""), cert⟩
  return { s with fallback := some ⟨res, cert⟩, tree, certifiedData := tree.rootHash.1 }

/-- `init` (lib.rs:22-35) on the initial heap; `post_upgrade` (lib.rs:38-42) is the same, the heap being lost. -/
def todoInit [TodoJson] (enum : List TodoItem → List TodoItem) : Option Todo := do
  let s : Todo := { next := 0, items := [], tree := .default, fallback := none, responses := [], certifiedData := [] }
  let s ← certifyList s enum
  let s ← certifyNotAllowed s
  certifyNotFound s

/-! ### Update calls -/

/-- The id in a path of the route `/todos/{id}` (lib.rs:310-311, 331-332). -/
def todoIdParam (path : Bytes) : Option Bytes :=
  let p := str "/todos/"
  if p <+: path then
    let id := path.drop p.length
    if id = [] ∨ (0x2F : UInt8) ∈ id then none else some id
  else none

/-- `create_todo_item_handler` (lib.rs:395-420); with overflow checks `*f += 1` traps at the greatest id. -/
def todoCreate [TodoJson] (checks : Bool) (s : Todo) (enum : List TodoItem → List TodoItem) (body : Bytes) : Option Todo := do
  let title ← TodoJson.create body
  if checks && s.next == 0xFFFFFFFF then none
  else
    let item : TodoItem := ⟨s.next, title, false⟩
    certifyList { s with next := s.next + 1, items := item :: s.items.filter (fun x => x.id ≠ s.next) } enum

/-- `update_todo_item_handler` (lib.rs:422-442). -/
def todoUpdate [TodoJson] (s : Todo) (enum : List TodoItem → List TodoItem) (idText body : Bytes) : Option Todo := do
  let (title, completed) ← TodoJson.update body
  let id ← parseU32 idText
  let item ← s.items.find? (fun x => x.id = id)
  let item' : TodoItem := ⟨id, title.getD item.title, completed.getD item.completed⟩
  certifyList { s with items := s.items.map (fun x => if x.id = id then item' else x) } enum

/-- `delete_todo_item_handler` (lib.rs:444-455). -/
def todoDelete [TodoJson] (s : Todo) (enum : List TodoItem → List TodoItem) (idText : Bytes) : Option Todo := do
  let id ← parseU32 idText
  certifyList { s with items := s.items.filter (fun x => x.id ≠ id) } enum

/-- The methods routed to `query_handler` and `no_update_call_handler` (lib.rs:313-318, 334-339). -/
def catchAllMethods : List Bytes :=
  [str "GET", str "HEAD", str "PUT", str "OPTIONS", str "TRACE", str "CONNECT"]

/-- The route `/{*p}`. -/
def catchAllMatches (path : Bytes) : Bool :=
  match path with | 0x2F :: _ :: _ => true | _ => false

/-- `http_request_update` (lib.rs:59-72) with the routes of `prepare_update_handlers` (lib.rs:329-340): the state after the
call; `none`: it traps. -/
def todoUpdateCall [TodoJson] (checks : Bool) (s : Todo) (enum : List TodoItem → List TodoItem) (req : HttpRequest) : Option Todo := do
  let path ← req.getPath.toOption
  let m := upper req.method
  if m = str "POST" then
    if path = todosPath then todoCreate checks s enum req.body else none
  else if m = str "PATCH" then do
    let id ← todoIdParam path
    todoUpdate s enum id req.body
  else if m = str "DELETE" then do
    let id ← todoIdParam path
    todoDelete s enum id
  else if m ∈ catchAllMethods ∧ catchAllMatches path then some s
  else none

/-! ### Query calls -/

/-- What `http_request` answers: the request to repeat the call as an update, or a response. -/
inductive TodoAnswer where
  | upgrade
  | response (r : HttpResponse)

/-- `query_handler` (lib.rs:350-393); `dataCert` is `data_certificate()`. -/
def todoQuery (s : Todo) (dataCert : Bytes) (req : HttpRequest) : Option HttpResponse := do
  let path ← req.getPath.toOption
  let (treePath, stored) ← match s.responses.lookup (req.method, path) with
    | some r => some (HttpPath.exact path, r)
    | none => s.fallback.map (fun r => (HttpPath.wildcard (str ""), r))
  let w ← (s.tree.witness ⟨treePath, stored.cert⟩ path).bind Except.toOption
  return addV2CertificateHeader dataCert stored.response w treePath.toExprPath

/-- `http_request` (lib.rs:44-57) with the routes of `prepare_query_handlers` (lib.rs:308-319). -/
def todoHttpRequest (s : Todo) (dataCert : Bytes) (req : HttpRequest) : Option TodoAnswer := do
  let path ← req.getPath.toOption
  let m := upper req.method
  if m = str "POST" then
    if path = todosPath then some .upgrade else none
  else if m = str "PATCH" ∨ m = str "DELETE" then
    (todoIdParam path).map (fun _ => .upgrade)
  else if m ∈ catchAllMethods ∧ catchAllMatches path then (todoQuery s dataCert req).map .response
  else none

end
end Verif
