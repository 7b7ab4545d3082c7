import Verif.Model.AssetsExample
import Verif.Spec.Normal
import Verif.Spec.Cbor

/-!
# What the example canister `assets` is meant to serve
-/

namespace Verif

/-- The directory has, at some depth, a file with this path and content. -/
inductive Dir.HasFile : Dir → Bytes → Bytes → Prop
  | here {files dirs p c} : (p, c) ∈ files → (Dir.mk files dirs).HasFile p c
  | sub {files dirs d p c} : d ∈ dirs → d.HasFile p c → (Dir.mk files dirs).HasFile p c

/-- A directory as the frontend's build makes it: every path is that of one file, relative, normal, in UTF-8, without the segments
`<$>` and `<*>`, and not too long; it has an `index.html`; nothing is called `old-url`; and files have at most 2 MB. -/
structure Dir.Proper (d : Dir) (m : Machine) : Prop where
  unique : ∀ {p c c'}, d.HasFile p c → d.HasFile p c' → c = c'
  index : ∃ c, d.HasFile (str "index.html") c
  free : ∀ c, ¬ d.HasFile (str "old-url") c
  names : ∀ {p c}, d.HasFile p c → p ≠ [] ∧ NormalPath (slashByte :: p) ∧ (HttpPath.exact (slashByte :: p)).Clean ∧
    (chars (slashByte :: p)).isSome ∧ m.Fits (p.length + 10)
  small : ∀ {p c}, d.HasFile p c → c.length ≤ 2000000

/-- The path matches the pattern. -/
def GlobMatches [GlobLib] (pattern p : Bytes) : Prop := ∃ f, GlobLib.compile pattern = some f ∧ f p = true

/-- The files that are served compressed if there are compressed versions. -/
def Compressible [GlobLib] (p : Bytes) : Prop :=
  p = str "index.html" ∨ GlobMatches (str "**/*.js") p ∨ GlobMatches (str "**/*.css") p

/-- The file is there in this encoding: as itself, or compressed next to itself, with the extension `.br` or `.gz`. -/
inductive Dir.Offers [GlobLib] (d : Dir) (p : Bytes) : Option AssetEncoding → Bytes → Prop
  | plain {c} : d.HasFile p c → d.Offers p none c
  | brotli {c₀ c} : Compressible p → d.HasFile p c₀ → d.HasFile (p ++ str ".br") c → d.Offers p (some .brotli) c
  | gzip {c₀ c} : Compressible p → d.HasFile p c₀ → d.HasFile (p ++ str ".gz") c → d.Offers p (some .gzip) c

/-- The version of a file to serve: brotli if that is accepted and there, else gzip if that is accepted and there, else the file. -/
inductive Dir.Picks [GlobLib] (d : Dir) (p : Bytes) (accepts : AssetEncoding → Prop) : Option AssetEncoding → Bytes → Prop
  | brotli {c} : accepts .brotli → d.Offers p (some .brotli) c → d.Picks p accepts (some .brotli) c
  | gzip {c} : ¬ (accepts .brotli ∧ ∃ b, d.Offers p (some .brotli) b) → accepts .gzip → d.Offers p (some .gzip) c →
      d.Picks p accepts (some .gzip) c
  | plain {c} : ¬ (accepts .brotli ∧ ∃ b, d.Offers p (some .brotli) b) → ¬ (accepts .gzip ∧ ∃ b, d.Offers p (some .gzip) b) →
      d.HasFile p c → d.Picks p accepts none c

/-- The site: `/old-url` has moved to `/`; a path at which there is a file shows the file; everything else shows `index.html`. -/
inductive Dir.Shows [GlobLib] (d : Dir) (accepts : AssetEncoding → Prop) (path : Bytes) (res : HttpResponse) : Prop
  | moved : path = str "/old-url" → res.status = 301 → res.body = [] → (str "location", str "/") ∈ res.headers →
      d.Shows accepts path res
  | file {p e c} : path = slashByte :: p → d.Picks p accepts e c → res.status = 200 → res.body = c →
      (∀ x, (str "content-encoding", x) ∈ res.headers ↔ e.map AssetEncoding.token = some x) →
      (Compressible p → securityHeaders ⊆ res.headers) → d.Shows accepts path res
  | index {e c} : path ≠ str "/old-url" → (∀ p c, path = slashByte :: p → ¬ d.HasFile p c) →
      d.Picks (str "index.html") accepts e c → res.status = 200 → res.body = c →
      (∀ x, (str "content-encoding", x) ∈ res.headers ↔ e.map AssetEncoding.token = some x) →
      securityHeaders ⊆ res.headers → d.Shows accepts path res

end Verif
