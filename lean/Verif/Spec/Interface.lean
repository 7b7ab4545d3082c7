import Verif.Spec.Http
import Verif.Model.CertVerify
import Verif.Model.Certification

/-!
# Specification: the formulas of the public specifications

Written from the Internet Computer interface specification (certification: `reconstruct`, `domain_sep`, signatures, DER keys;
representation-independent hash) and the HTTP gateway protocol specification (version 2: request hash, response hash, paths),
independently of the model: only the types of trees, values, requests and responses are shared, and SHA-256.
-/

namespace Verif.Interface
open Verif

/-- `byte(|s|) · s`. -/
def domainSep (s : String) : Bytes := (UInt8.ofNat s.length) :: str s

section
variable [SHA]

/-- `reconstruct`. -/
def reconstruct : HashTree → Hash
  | .empty => sha (domainSep "ic-hashtree-empty")
  | .fork t1 t2 => sha (domainSep "ic-hashtree-fork" ++ (reconstruct t1).1 ++ (reconstruct t2).1)
  | .labeled l t => sha (domainSep "ic-hashtree-labeled" ++ l ++ (reconstruct t).1)
  | .leaf v => sha (domainSep "ic-hashtree-leaf" ++ v)
  | .pruned h => h

end

/-! ## Representation-independent hash -/

/-- The unsigned LEB128 encoding in shortest form: groups of seven bits, lowest first, the high bit set in all but the last. -/
inductive Leb128 : Nat → Bytes → Prop
  | last {n} : n < 128 → Leb128 n [UInt8.ofNat n]
  | more {n rest} : 128 ≤ n → Leb128 (n / 128) rest → Leb128 n (UInt8.ofNat (128 + n % 128) :: rest)

/-- A number in LEB128, not necessarily in shortest form: groups of seven bits, lowest first; the last byte is below 128. -/
inductive LebNumber : Bytes → Nat → Prop
  | last {b : UInt8} : b.toNat < 128 → LebNumber [b] b.toNat
  | more {b : UInt8} {r n} : 128 ≤ b.toNat → LebNumber r n → LebNumber (b :: r) ((b.toNat - 128) + 128 * n)

/-- Byte strings from low to high: compared at the first difference; a beginning comes before the whole. -/
inductive LowToHigh : Bytes → Bytes → Prop
  | nil (b) : LowToHigh [] b
  | less {x y : UInt8} (a b) : x.toNat < y.toNat → LowToHigh (x :: a) (y :: b)
  | same {a b} (x) : LowToHigh a b → LowToHigh (x :: a) (x :: b)

section
variable [SHA]

/-- The hash of a value: text and blobs as they are, numbers by LEB128, arrays by the hashes of their elements. -/
inductive HashOfValue : RValue → Hash → Prop
  | text (b) : HashOfValue (.string b) (sha b)
  | blob (b) : HashOfValue (.bytes b) (sha b)
  | number {n b} : Leb128 n.toNat b → HashOfValue (.number n) (sha b)
  | array {es hs} : List.Forall₂ HashOfValue es hs → HashOfValue (.array es) (sha (hs.map (fun h => h.1)).flatten)

/-- The hash of a structure: for every field the hash of the name and the hash of the value, one after the other; these, sorted
from low to high, one after the other, are hashed. -/
inductive HashOfStruct (fields : List (Bytes × RValue)) : Hash → Prop
  | intro {pairs sorted : List Bytes} :
      List.Forall₂ (fun f p => ∃ v, HashOfValue f.2 v ∧ p = (sha f.1).1 ++ v.1) fields pairs →
      sorted.Perm pairs → sorted.Pairwise LowToHigh → HashOfStruct fields (sha sorted.flatten)

/-! ## Requests and responses -/

/-- Letters `A` to `Z` become `a` to `z`. -/
inductive LowerCase : Bytes → Bytes → Prop
  | nil : LowerCase [] []
  | letter {x : UInt8} {a b} : 65 ≤ x.toNat → x.toNat ≤ 90 → LowerCase a b → LowerCase (x :: a) (UInt8.ofNat (x.toNat + 32) :: b)
  | other {x : UInt8} {a b} : (x.toNat < 65 ∨ 90 < x.toNat) → LowerCase a b → LowerCase (x :: a) (x :: b)

/-- Some listed name is `name`, up to case. -/
def Listed (names : List Bytes) (name : Bytes) : Prop :=
  ∃ n ∈ names, ∃ l, LowerCase n l ∧ LowerCase name l

/-- The fields for the headers that are chosen: names in lower case, values as they are, in the order of the headers. -/
inductive HeaderFields (chosen : Bytes → Prop) : List Header → List (Bytes × RValue) → Prop
  | nil : HeaderFields chosen [] []
  | take {name value l hs fs} : chosen name → LowerCase name l → HeaderFields chosen hs fs →
      HeaderFields chosen ((name, value) :: hs) ((l, .string value) :: fs)
  | skip {name value hs fs} : ¬ chosen name → HeaderFields chosen hs fs → HeaderFields chosen ((name, value) :: hs) fs

/-- The pieces `name=value` of a query string, as separated by `&`. -/
inductive Pieces : Bytes → List Bytes → Prop
  | one {q} : (38 : UInt8) ∉ q → Pieces q [q]
  | cons {p q ps} : (38 : UInt8) ∉ p → Pieces q ps → Pieces (p ++ 38 :: q) (p :: ps)

/-- The name of a piece: all before the first `=`, or all. -/
def PieceName (piece name : Bytes) : Prop :=
  (61 : UInt8) ∉ name ∧ (piece = name ∨ ∃ rest, piece = name ++ 61 :: rest)

/-- The pieces that are chosen, with `&` between them. -/
inductive Chosen (chosen : Bytes → Prop) : List Bytes → List Bytes → Prop
  | nil : Chosen chosen [] []
  | take {p ps qs name} : PieceName p name → chosen name → Chosen chosen ps qs → Chosen chosen (p :: ps) (p :: qs)
  | skip {p ps qs name} : PieceName p name → ¬ chosen name → Chosen chosen ps qs → Chosen chosen (p :: ps) qs

/-- The field for the query: none if the URL has none; else the certified parameters. -/
inductive QueryField (c : ReqCert) : Option Bytes → List (Bytes × RValue) → Prop
  | none : QueryField c none []
  | some {q ps qs text} : Pieces q ps → Chosen (Listed c.queryParams) ps qs → (qs = [] ∧ text = [] ∨ Pieces text qs) →
      QueryField c (some q) [(str ":ic-cert-query", .string text)]

/-- The request hash: the structure of the certified headers, `:ic-cert-method` and `:ic-cert-query`, and the hash of the body. -/
inductive RequestHash (c : ReqCert) (req : HttpRequest) (query : Option Bytes) : Hash → Prop
  | intro {fs qs h} : HeaderFields (Listed c.headers) req.headers fs → QueryField c query qs →
      HashOfStruct (fs ++ (str ":ic-cert-method", .string req.method) :: qs) h →
      RequestHash c req query (sha (h.1 ++ (sha req.body).1))

/-- The response headers that are certified: never `IC-Certificate`; always `IC-CertificateExpression`; the others as listed, or
as not excluded. -/
def ResponseHeader (c : RespCert) (name : Bytes) : Prop :=
  ¬ Listed [str "IC-Certificate"] name ∧ (Listed [str "IC-CertificateExpression"] name ∨
    match c with
    | .certifiedHeaders l => Listed l name
    | .headerExclusions l => ¬ Listed l name)

/-- The response hash: the structure of the certified headers and `:ic-cert-status`, and the hash of the body. -/
inductive ResponseHash (c : RespCert) (res : HttpResponse) : Hash → Prop
  | intro {fs h} : HeaderFields (ResponseHeader c) res.headers fs →
      HashOfStruct (fs ++ [(str ":ic-cert-status", .number res.status.toUInt64)]) h →
      ResponseHash c res (sha (h.1 ++ (sha res.body).1))

end

/-! ## Paths -/

/-- The segments of a path: what stands between slashes, without empty ones. -/
inductive Segments : Bytes → List Bytes → Prop
  | nil : Segments [] []
  | slash {p ss} : Segments p ss → Segments (47 :: p) ss
  | last {s} : s ≠ [] → (47 : UInt8) ∉ s → Segments s [s]
  | cons {s p ss} : s ≠ [] → (47 : UInt8) ∉ s → Segments p ss → Segments (s ++ 47 :: p) (s :: ss)

/-- The path of a URL in the tree: `http_expr`, the segments, an empty one if the URL ends with a slash, and `<$>` for exactly this
URL or `<*>` for all URLs that start with it. -/
inductive ExprPath : HttpPath → List Bytes → Prop
  | exact {url ss} : Segments url ss →
      ExprPath (.exact url) (str "http_expr" :: ss ++ (if url.getLast? = some 47 then [[]] else []) ++ [str "<$>"])
  | wildcard {url ss} : Segments url ss →
      ExprPath (.wildcard url) (str "http_expr" :: ss ++ (if url.getLast? = some 47 then [[]] else []) ++ [str "<*>"])

/-! ## Keys -/

/-- A DER element of fewer than 256 bytes: tag, length, content. -/
def der (tag : UInt8) (content : Bytes) : Bytes :=
  tag :: (if content.length < 128 then [UInt8.ofNat content.length] else [0x81, UInt8.ofNat content.length]) ++ content

/-- An arc of an object identifier below 128^3: base 128, highest first, the high bit set in all but the last. -/
def arc (n : Nat) : Bytes :=
  (if 16384 ≤ n then [UInt8.ofNat (128 + n / 16384)] else []) ++
  (if 128 ≤ n then [UInt8.ofNat (128 + n / 128 % 128)] else []) ++ [UInt8.ofNat (n % 128)]

/-- An object identifier: the first two arcs share a byte. -/
def oid (a b : Nat) (arcs : List Nat) : Bytes := der 0x06 (UInt8.ofNat (40 * a + b) :: arcs.flatMap arc)

/-- The DER encoding of a BLS public key: a sequence of the algorithm (the identifiers 1.3.6.1.4.1.44668.5.3.1.2.1 of the algorithm
and 1.3.6.1.4.1.44668.5.3.2.1 of the curve) and the key as a bit string. -/
def derKey (key : Bytes) : Bytes :=
  der 0x30 (der 0x30 (oid 1 3 [6, 1, 4, 1, 44668, 5, 3, 1, 2, 1] ++ oid 1 3 [6, 1, 4, 1, 44668, 5, 3, 2, 1]) ++ der 0x03 (0 :: key))

/-! ## White space -/

/-- The code points with the Unicode property `White_Space` (PropList.txt). -/
def whiteSpace : List Nat :=
  [0x09, 0x0A, 0x0B, 0x0C, 0x0D, 0x20, 0x85, 0xA0, 0x1680, 0x2000, 0x2001, 0x2002, 0x2003, 0x2004, 0x2005, 0x2006, 0x2007, 0x2008,
   0x2009, 0x200A, 0x2028, 0x2029, 0x202F, 0x205F, 0x3000]

end Verif.Interface
