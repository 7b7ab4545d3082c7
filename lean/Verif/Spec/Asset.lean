import Verif.Model.Asset
import Verif.Spec.EndToEnd

/-!
# Specification vocabulary for the asset router

What a call publishes, in terms of assets and configurations; which of the published responses answers a request.
-/

namespace Verif
open HashTree

/-! ## What is published -/

/-- The asset is the last one given with its path. -/
def Current (assets : List Asset) (a : Asset) : Prop :=
  ∃ pre post, assets = pre ++ a :: post ∧ ∀ b ∈ post, b.path ≠ a.path

/-- `values` lists the current assets in some order. -/
def IsValues (assets values : List Asset) : Prop := ∀ a, a ∈ values ↔ Current assets a

/-- The settings a configuration makes for the assets it matches. -/
structure Settings where
  contentType : Option Bytes := none
  headers : List Header := []
  fallbackFor : List FallbackConfig := []
  aliasedBy : List Bytes := []
  encodings : List (AssetEncoding × Bytes) := []

def AssetConfig.settings : AssetConfig → Settings
  | .file _ ct hs fb al en => ⟨ct, hs, fb, al, en⟩
  | .pattern _ ct hs en => ⟨ct, hs, [], [], en⟩
  | .redirect _ _ _ => {}

/-- The configuration is for this asset. -/
def AssetConfig.Matches [GlobLib] (a : Asset) : AssetConfig → Prop
  | .file p _ _ _ _ _ => p = a.path
  | .pattern p _ _ _ => ∃ f, GlobLib.compile p = some f ∧ f a.path = true
  | .redirect _ _ _ => False

/-- The settings for an asset: those of the first matching configuration; without one, the empty settings. -/
def Governs [GlobLib] (configs : List AssetConfig) (a : Asset) (s : Settings) : Prop :=
  (∃ pre c post, configs = pre ++ c :: post ∧ c.Matches a ∧ (∀ d ∈ pre, ¬ d.Matches a) ∧ s = c.settings) ∨
  ((∀ c ∈ configs, ¬ c.Matches a) ∧ s = {})

/-- The content of the asset in an encoding: itself; or, for an encoding with a file extension in the settings, the
content of the current asset whose path has that extension added. -/
inductive Variant (assets : List Asset) (a : Asset) (s : Settings) : Option AssetEncoding → Bytes → Prop
  | plain : Variant assets a s none a.content
  | encoded {e ext b} : (e, ext) ∈ s.encodings → Current assets b → b.path = a.path ++ ext →
      Variant assets a s (some e) b.content

/-- The names of the encodings in HTTP (IANA HTTP Content Coding Registry). -/
def AssetEncoding.token : AssetEncoding → Bytes
  | .identity => str "identity"
  | .brotli => str "br"
  | .zstd => str "zstd"
  | .gzip => str "gzip"
  | .deflate => str "deflate"

/-- Content with what is said about it. -/
structure Page where
  content : Bytes
  encoding : Option AssetEncoding
  contentType : Option Bytes
  headers : List Header
deriving DecidableEq

/-- Something to publish: a page at a URL, its `i`-th chunk at the URL, a page (certified with the request of its own
URL) as the fallback for a scope, or a redirect. -/
inductive Item where
  | whole (url : Bytes) (p : Page)
  | chunk (url : Bytes) (p : Page) (i : Nat)
  | fallback (scope : Bytes) (status : Option UInt16) (url : Bytes) (p : Page)
  | redirect (src dst : Bytes) (kind : RedirectKind)
deriving DecidableEq

/-- What a call of `certify_assets` or `delete_assets` is about: every current asset in its variants, at its URL and
its aliases, in chunks too if it is large, and as a fallback for the configured scopes; and the redirects. -/
inductive Announces [GlobLib] (assets : List Asset) (configs : List AssetConfig) : Item → Prop
  | whole {a s e c url} : Current assets a → Governs configs a s → Variant assets a s e c →
      url = a.url ∨ url ∈ s.aliasedBy → Announces assets configs (.whole url ⟨c, e, s.contentType, s.headers⟩)
  | chunk {a s e c url i} : Current assets a → Governs configs a s → Variant assets a s e c →
      url = a.url ∨ url ∈ s.aliasedBy → 2000000 < c.length → i * 2000000 < c.length →
      Announces assets configs (.chunk url ⟨c, e, s.contentType, s.headers⟩ i)
  | fallback {a s e c fb} : Current assets a → Governs configs a s → Variant assets a s e c → fb ∈ s.fallbackFor →
      Announces assets configs (.fallback fb.scope fb.status a.url ⟨c, e, s.contentType, s.headers⟩)
  | redirect {src dst kind} : AssetConfig.redirect src dst kind ∈ configs →
      Announces assets configs (.redirect src dst kind)

namespace Page

/-- The headers of a page. -/
def allHeaders (p : Page) : List Header :=
  p.headers ++ (p.contentType.map (fun ct => (str "content-type", ct))).toList ++
    (p.encoding.map (fun e => (str "content-encoding", e.token))).toList

/-- The bytes of the `i`-th chunk. -/
def slice (p : Page) (i : Nat) : Bytes := (p.content.drop (i * 2000000)).take 2000000

end Page

namespace Item

def status : Item → UInt16
  | .whole _ _ => 200
  | .chunk _ _ _ => 206
  | .fallback _ s _ _ => s.getD 200
  | .redirect _ _ .permanent => 301
  | .redirect _ _ .temporary => 307

def body : Item → Bytes
  | .whole _ p => p.content
  | .chunk _ p i => p.slice i
  | .fallback _ _ _ p => p.content
  | .redirect _ _ _ => []

def headers : Item → List Header
  | .whole _ p => p.allHeaders
  | .chunk _ p i => p.allHeaders ++ [(str "content-range", str "bytes " ++ decimal (i * 2000000) ++ str "-" ++
      decimal (i * 2000000 + (p.slice i).length - 1) ++ str "/" ++ decimal p.content.length)]
  | .fallback _ _ _ p => p.allHeaders
  | .redirect _ dst _ => [(str "location", dst)]

/-- The definition the response is certified with: the request headers given and all response headers. -/
def cel : Item → CelExpr
  | .chunk _ _ _ => .full { headers := [str "range"], queryParams := [] } (.headerExclusions [])
  | _ => .full { headers := [], queryParams := [] } (.headerExclusions [])

/-- The response published. -/
def response (x : Item) : HttpResponse :=
  { status := x.status, body := x.body
    headers := (str "content-length", decimal x.body.length) :: x.headers ++
      [(str "IC-CertificateExpression", x.cel.toBytes)] }

/-- The URL of the certified request. -/
def url : Item → Bytes
  | .whole u _ => u
  | .chunk u _ _ => u
  | .fallback _ _ u _ => u
  | .redirect s _ _ => s

/-- The certification path. -/
def certPath : Item → HttpPath
  | .whole u _ => .exact u
  | .chunk u _ _ => .exact u
  | .fallback s _ _ _ => .wildcard s
  | .redirect s _ _ => .exact s

def isFallback : Item → Bool
  | .fallback _ _ _ _ => true
  | _ => false

def isChunk : Item → Bool
  | .chunk _ _ _ => true
  | _ => false

/-- Where the router keeps the response. -/
def key : Item → RequestKey
  | .whole u p => ⟨u, p.encoding.map AssetEncoding.token, none⟩
  | .chunk u p i => ⟨u, p.encoding.map AssetEncoding.token, some (i * 2000000)⟩
  | .fallback s _ _ p => ⟨s, p.encoding.map AssetEncoding.token, none⟩
  | .redirect s _ _ => ⟨s, none, none⟩

/-- `x` is the response published for the item: its entry is certified at the item's path, and was made from a GET
request of the item's URL and this very response. -/
structure Answer [SHA] [UriLib] (i : Item) (x : CertifiedResponse) : Prop where
  response : x.response = i.response
  path : x.entry.path = i.certPath
  made : MadeOf x.entry.cert i.cel { method := str "GET", url := i.url, headers := [], body := [] } i.response

end Item

/-! ## Histories -/

/-- What can happen to a router: calls of its interface, and changes of the tree it shares with others
(`AssetRouter::with_tree`). -/
inductive RouterCall where
  | certify (assets values : List Asset) (configs : List AssetConfig)
  | delete (assets values : List Asset) (configs : List AssetConfig)
  | deleteAll
  | shared (o : CtOp)

section
variable [SHA] [UriLib] [GlobLib]

def CtOp.effect : CtOp → Effect
  | .insert e => .treeInsert e
  | .delete e => .treeDelete e
  | .clear => .treeClear

def RouterCall.effects : RouterCall → Effects
  | .certify assets values configs => certifyAssets assets values configs
  | .delete assets values configs => deleteAssets assets values configs
  | .deleteAll => deleteAllAssets
  | .shared o => ([o.effect], .ok ())

/-- The call reports success. -/
def RouterCall.Succeeds (c : RouterCall) : Prop := c.effects.2 = .ok ()

/-- The router after a history. -/
def routerRun (calls : List RouterCall) : Option Router := Router.new.applyAll (calls.flatMap (fun c => c.effects.1))

/-- The change of the certification tree in an elementary change. -/
def Effect.treeOp? : Effect → Option CtOp
  | .treeInsert e => some (.insert e)
  | .treeDelete e => some (.delete e)
  | .treeClear => some .clear
  | _ => none

/-- The history of the router's certification tree. -/
def treeLog (calls : List RouterCall) : List CtOp := (calls.flatMap (fun c => c.effects.1)).filterMap Effect.treeOp?

end

/-- The call is one the router can make: the assets are visited in some order. -/
def RouterCall.Faithful : RouterCall → Prop
  | .certify assets values _ => IsValues assets values
  | .delete assets values _ => IsValues assets values
  | _ => True

/-- The call is about the place `k` (among the fallbacks, or among the other responses). -/
def RouterCall.Touches [GlobLib] (fallback : Bool) (k : RequestKey) : RouterCall → Prop
  | .certify assets _ configs => ∃ i, Announces assets configs i ∧ i.isFallback = fallback ∧ i.key = k
  | .delete assets _ configs => ∃ i, Announces assets configs i ∧ i.isFallback = fallback ∧ i.key = k
  | .deleteAll => True
  | .shared _ => False

/-- The call announces the item, and nothing else for its place. -/
def Sole [GlobLib] (assets : List Asset) (configs : List AssetConfig) (i : Item) : Prop :=
  Announces assets configs i ∧
    ∀ j, Announces assets configs j → j.isFallback = i.isFallback → j.key = i.key → j = i

/-! ## Which response answers a request -/

/-- The order of preference of encodings. -/
def AssetEncoding.rank : AssetEncoding → Nat
  | .brotli => 4
  | .zstd => 3
  | .gzip => 2
  | .deflate => 1
  | .identity => 0

/-- `value` is the value of the first header called `name` (up to case). -/
def FirstHeader (hs : List Header) (name value : Bytes) : Prop :=
  ∃ pre n post, hs = pre ++ (n, value) :: post ∧ SameName n name ∧ ∀ h ∈ pre, ¬ SameName h.1 name

/-- The request's Accept-Encoding header lists the encoding: it has an item between commas that is the name, possibly
with white space around it and parameters after a semicolon. Parameters, in particular `q=`, do not count. -/
def Accepts (req : HttpRequest) (e : AssetEncoding) : Prop :=
  ∃ text item, FirstHeader req.headers (str "accept-encoding") (utf8 text) ∧ item ∈ text.splitOn ',' ∧
    ∃ w w' name rest, item = w ++ name ++ w' ++ rest ∧ w.all isWs ∧ w'.all isWs ∧ utf8 name = e.token ∧
      (rest = [] ∨ rest.head? = some ';')

/-- The choice between encodings: the most preferred of those that are accepted and available; if there is none, the
unencoded response. -/
inductive Chooses (accepts : AssetEncoding → Prop) (available : Option AssetEncoding → Option CertifiedResponse) :
    CertifiedResponse → Prop
  | encoded {e x} : accepts e → available (some e) = some x →
      (∀ e', accepts e' → available (some e') ≠ none → e'.rank ≤ e.rank) → Chooses accepts available x
  | plain {x} : (∀ e, accepts e → available (some e) = none) → available none = some x → Chooses accepts available x

namespace Router

/-- The response held for a URL and encoding. Without a range, large responses are represented by their first chunk. -/
def held (r : Router) (path : Bytes) (range : Option Nat) (e : Option AssetEncoding) : Option CertifiedResponse :=
  match r.responses ⟨path, e.map AssetEncoding.token, range⟩ with
  | some x => if x.response.body.length > 2000000 then r.responses ⟨path, e.map AssetEncoding.token, some 0⟩ else some x
  | none => none

def heldFallback (r : Router) (scope : Bytes) (e : Option AssetEncoding) : Option CertifiedResponse :=
  r.fallbacks ⟨scope, e.map AssetEncoding.token, none⟩

end Router

/-- Among the responses held for a path, this encoding is the one to serve. -/
def Prefers (r : Router) (path : Bytes) (accepts : AssetEncoding → Prop) (range : Option Nat) : Option AssetEncoding → Prop
  | none => ∀ e, accepts e → r.held path range (some e) = none
  | some e => accepts e ∧ ∀ e', accepts e' → r.held path range (some e') ≠ none → e'.rank ≤ e.rank

/-- The scope contains the path: it is a beginning of the path, up to some slash, with or without the slash. -/
def Encloses (scope path : Bytes) : Prop :=
  ∃ rest, path = scope ++ rest ∧ (scope.getLast? = some slashByte ∨ rest.head? = some slashByte)

/-- `x` answers a request: it is a response for the very path; or if there is none, a fallback response for the
longest enclosing scope that has one. -/
inductive Answers (r : Router) (path : Bytes) (accepts : AssetEncoding → Prop) (range : Option Nat) :
    CertifiedResponse → Prop
  | exact {x} : Chooses accepts (r.held path range) x → Answers r path accepts range x
  | fallback {scope x} : (∀ y, ¬ Chooses accepts (r.held path range) y) → Encloses scope path →
      Chooses accepts (r.heldFallback scope) x →
      (∀ s, Encloses s path → scope.length < s.length → ∀ y, ¬ Chooses accepts (r.heldFallback s) y) →
      Answers r path accepts range x

/-- `ds` is a nonempty string of decimal digits with the given value. -/
inductive Digits : List Char → Nat → Prop
  | one {c} : '0' ≤ c → c ≤ '9' → Digits [c] (c.toNat - '0'.toNat)
  | snoc {ds n c} : Digits ds n → '0' ≤ c → c ≤ '9' → Digits (ds ++ [c]) (10 * n + (c.toNat - '0'.toNat))

/-- `text` is a number that the machine can represent, perhaps with a plus sign. -/
def Numeral (m : Machine) (text : List Char) (n : Nat) : Prop :=
  ∃ sign ds, text = sign ++ ds ∧ (sign = [] ∨ sign = ['+']) ∧ Digits ds n ∧ n < m.usize

/-- `text` is a range `bytes=begin-` or `bytes=begin-end` with `begin ≤ end`, with white space around it. The unit may be
repeated. -/
def IsRange (m : Machine) (text : List Char) (b : Nat) (e : Option Nat) : Prop :=
  ∃ w w' k bs es, text = w ++ (List.replicate (k + 1) "bytes=".toList).flatten ++ bs ++ '-' :: es ++ w' ∧
    w.all isWs ∧ w'.all isWs ∧ Numeral m bs b ∧
    ((es = [] ∧ e = none) ∨ ∃ n, Numeral m es n ∧ b ≤ n ∧ e = some n)

/-- The beginning of the range the request asks for. -/
inductive AsksFrom (m : Machine) (req : HttpRequest) : Option Nat → Prop
  | noHeader : (∀ h ∈ req.headers, ¬ SameName h.1 (str "range")) → AsksFrom m req none
  | range {text b e} : FirstHeader req.headers (str "range") (utf8 text) → IsRange m text b e →
      AsksFrom m req (some b)

end Verif
