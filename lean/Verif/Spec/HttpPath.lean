import Verif.Model.HttpPath

/-!
# Specification vocabulary for URL paths and wildcards

A URL path is a list of non-empty named segments and a flag saying whether it ends in a slash.
-/

namespace Verif

/-- The shape of a URL path: `/a/b` is `(["a","b"], false)`, `/a/b/` is `(["a","b"], true)`. -/
@[ext] structure PathShape where
  segs : List Bytes
  slash : Bool
deriving DecidableEq, Repr

namespace PathShape

/-- The shape of a path string: repeated slashes do not count, a final one does. -/
def ofPath (path : Bytes) : PathShape := ⟨pathSegments path, endsWithSlash path⟩

/-- Named segments are never empty. -/
def Proper (s : PathShape) : Prop := [] ∉ s.segs

/-- The wildcard for `w` matches URL paths that start with `w`: `/a` matches `/a`, `/a/`, `/a/b`, ...; `/a/`
matches `/a/`, `/a/b`, ... but not `/a`. -/
def Matches (w q : PathShape) : Prop :=
  w.segs <+: q.segs ∧ (w.slash = true → w.segs = q.segs → q.slash = true)

/-- Between two wildcards that match the same URL, the more specific one names more segments, or the same
segments and also the slash. -/
def MoreSpecific (w r : PathShape) : Prop :=
  r.segs.length < w.segs.length ∨ (r.segs.length = w.segs.length ∧ w.slash = true ∧ r.slash = false)

/-- Labels of the path inside the certification tree, without the terminator. -/
def labels (s : PathShape) : List Bytes := s.segs ++ (if s.slash then [[]] else [])

/-- Labels of a wildcard path inside the certification tree. -/
def wildLabels (s : PathShape) : List Bytes := s.labels ++ [wildTerm]

/-- Labels of an exact path inside the certification tree. -/
def exactLabels (s : PathShape) : List Bytes := s.labels ++ [exactTerm]

/-- The path without its first segment if that is `http_expr`. -/
def withoutPrefix (s : PathShape) : PathShape := if s.segs.head? = some (str "http_expr") then ⟨s.segs.tail, s.slash⟩ else s

/-- The path without its last segment if that is `<$>` or `<*>` and no slash follows. -/
def withoutMark (s : PathShape) : PathShape :=
  if s.slash = false ∧ (s.segs.getLast? = some (str "<$>") ∨ s.segs.getLast? = some (str "<*>")) then ⟨s.segs.dropLast, false⟩ else s

open Classical in
/-- The wildcards `v` that are listed for the URL `q` and the responding wildcard `r`: those that match the URL and are more specific;
just the URL itself if the responding wildcard is the URL with a slash added; all but the empty one if it does not match at all. -/
noncomputable def Listed (v q r : PathShape) : Prop :=
  Matches v q ∧ if Matches r q then MoreSpecific v r else if r.segs = q.segs then v = q else v ≠ ⟨[], false⟩

end PathShape
end Verif
