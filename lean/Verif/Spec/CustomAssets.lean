import Verif.Model.CustomAssets
import Verif.Spec.Normal
import Verif.Spec.Cbor

/-!
# What the example canister `custom-assets` is meant to serve
-/

namespace Verif

/-- The patterns match the file, and it is served as this type: that of the last pattern that matches. -/
def TypeOf [PathGlob] (p ct : Bytes) : Prop :=
  ∃ pre g post, [(str "assets/**/*.css", str "text/css"), (str "assets/**/*.js", str "text/javascript"),
    (str "assets/**/*.ico", str "image/x-icon"), (str "assets/**/*.svg", str "image/svg+xml")] = pre ++ (g, ct) :: post ∧
    PathGlob.hits g p = true ∧ ∀ x ∈ post, PathGlob.hits x.1 p = false

/-- Some pattern for this type matches the file. -/
def HasType [PathGlob] (p ct : Bytes) : Prop :=
  ∃ g, (g, ct) ∈ [(str "assets/**/*.css", str "text/css"), (str "assets/**/*.js", str "text/javascript"),
    (str "assets/**/*.ico", str "image/x-icon"), (str "assets/**/*.svg", str "image/svg+xml")] ∧ PathGlob.hits g p = true

/-- The file is there in this encoding: as itself, or compressed next to itself, with the extension `.br` or `.gzip`. -/
inductive Front.Offers (d : Front) (p : Bytes) : Option Bytes → Bytes → Prop
  | plain {c} : (p, c) ∈ d.files → d.Offers p none c
  | encoded {e c} : e = str "br" ∨ e = str "gzip" → (p ++ str "." ++ e, c) ∈ d.files → d.Offers p (some e) c

/-- The first `Accept-Encoding` header contains this text. -/
def Mentions (req : HttpRequest) (e : Bytes) : Prop := ∃ v, FirstHeader req.headers (str "accept-encoding") v ∧ ∃ a b, v = a ++ e ++ b

/-- The version of a file to serve: brotli if that is mentioned and there, else gzip if that is mentioned and there, else the file. -/
inductive Front.Picks (d : Front) (p : Bytes) (req : HttpRequest) : Option Bytes → Bytes → Prop
  | brotli {c} : Mentions req (str "br") → d.Offers p (some (str "br")) c → d.Picks p req (some (str "br")) c
  | gzip {c} : ¬ (Mentions req (str "br") ∧ ∃ b, d.Offers p (some (str "br")) b) → Mentions req (str "gzip") →
      d.Offers p (some (str "gzip")) c → d.Picks p req (some (str "gzip")) c
  | plain {c} : ¬ (Mentions req (str "br") ∧ ∃ b, d.Offers p (some (str "br")) b) →
      ¬ (Mentions req (str "gzip") ∧ ∃ b, d.Offers p (some (str "gzip")) b) → d.Offers p none c → d.Picks p req none c

/-- A response with this content: status 200, all the content, and headers for its type, encoding, length and caching, and those for
security. -/
structure HttpResponse.Page (res : HttpResponse) (contentType caching : Bytes) (encoding : Option Bytes) (content : Bytes) : Prop where
  status : res.status = 200
  body : res.body = content
  type : ∀ x, (str "content-type", x) ∈ res.headers ↔ x = contentType
  cache : ∀ x, (str "cache-control", x) ∈ res.headers ↔ x = caching
  length : ∀ x, (str "content-length", x) ∈ res.headers ↔ x = decimal content.length
  enc : ∀ x, (str "content-encoding", x) ∈ res.headers ↔ encoding = some x
  secure : customSecurityHeaders ⊆ res.headers

/-- A directory as the frontend's build makes it: every path is that of one file; it has an `index.html`; what the patterns match are
files, not directories, with paths that are relative, normal, in UTF-8, not too long, without the segments `<$>` and `<*>`, and not
`uncertified`. -/
structure Front.Proper [PathGlob] (d : Front) (m : Machine) : Prop where
  unique : ∀ {p c c'}, (p, c) ∈ d.files → (p, c') ∈ d.files → c = c'
  index : ∃ c, (str "index.html", c) ∈ d.files
  dirs : ∀ {p ct}, p ∈ d.dirs → ¬ HasType p ct
  names : ∀ {p c ct}, (p, c) ∈ d.files → HasType p ct → p ≠ str "uncertified" ∧ NormalPath (slashByte :: p) ∧
    (HttpPath.exact (slashByte :: p)).Clean ∧ (chars (slashByte :: p)).isSome ∧ m.Fits (p.length + 10)

/-- The path shows a file of the directory that a pattern matches. -/
def Front.Published [PathGlob] (d : Front) (path p : Bytes) : Prop := path = slashByte :: p ∧ (∃ c, (p, c) ∈ d.files) ∧ ∃ ct, HasType p ct

end Verif
