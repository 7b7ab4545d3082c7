import Verif.Spec.TestUtils
import Verif.Props.Complete
import Verif.Props.CertBuilder
import Verif.Props.Show
import Verif.Lemmas.AssetState

set_option linter.unusedSimpArgs false
set_option linter.unusedSectionVars false

/-!
# Property C64: honest version 1 responses verify, and only they; the test fixtures verify
-/

namespace Verif.Props
open Verif HashTree Rb

section
variable [SHA]

/-! ## The header -/

theorem joined1 (B1 B2 : List Char) :
    "certificate=:".toList ++ B1 ++ ":, tree=:".toList ++ B2 ++ ":".toList =
    [','].intercalate ["certificate".toList ++ "=:".toList ++ B1 ++ ":".toList,
      " ".toList ++ ("tree".toList ++ "=:".toList ++ B2 ++ ":".toList)] := by
  simp [List.intercalate]

/-- **C64.** The header without version and path is read as one of version 1, with the certificate and the tree. -/
theorem C64_header (m : Machine) (dataCertificate : Bytes) (c : Certificate) (w : HashTree)
    (hm : 32 < m.usize) (hc : certificateFromCbor m dataCertificate = some (.ok c)) (hw : w.Fits m)
    (hws : w.height + 3 ≤ m.stack) :
    headerFrom m (certificateHeader dataCertificate (selfDescribe ++ encTree w)) =
      .ok { certificate := c, tree := w, version := 1, exprPath := none } := by
  have hdc : dataCertificate ≠ [] := by
    rintro rfl
    have : parseCbor m [] = none ∨ parseCbor m [] = some (.error .malformedCbor) := by
      unfold parseCbor
      cases m.stack with
      | zero => exact .inl rfl
      | succ s => exact .inr rfl
    rcases this with h | h <;> rw [certificateFromCbor, h] at hc <;> cases hc
  have hsd : ∀ x : Bytes, selfDescribe ++ x ≠ [] := by intro x h; simp at h; exact absurd h.1 (by decide)
  let T1 := "certificate".toList ++ "=:".toList ++ b64Encode true dataCertificate ++ ":".toList
  let T2 := " ".toList ++ ("tree".toList ++ "=:".toList ++ b64Encode true (selfDescribe ++ encTree w) ++ ":".toList)
  have f1 : IsField T1 "certificate".toList (b64Encode true dataCertificate) := by
    have := isField_wrapped (sp := []) (name := "certificate".toList) (value := b64Encode true dataCertificate) (by simp)
      (by decide) (b64_no_sep (.inr rfl)) (by decide) (b64Encode_ne_nil hdc) (by decide)
    simpa [T1] using this
  have f2 : IsField T2 "tree".toList (b64Encode true (selfDescribe ++ encTree w)) :=
    isField_wrapped (by decide) (by decide) (b64_no_sep (.inr rfl)) (by decide) (b64Encode_ne_nil (hsd _)) (by decide)
  have ht : HeaderTexts (certificateHeader dataCertificate (selfDescribe ++ encTree w)) [T1, T2] := by
    refine ⟨by simp, ?_, ?_⟩
    · intro t ht
      simp only [List.mem_cons, List.not_mem_nil, or_false] at ht
      rcases ht with rfl | rfl
      · simp [T1, b64_no_sep (c := ',') (.inl rfl)]
      · simp [T2, b64_no_sep (c := ',') (.inl rfl)]
    · exact joined1 _ _
  have other : ∀ {t n v n' : List Char}, IsField t n v → n ≠ n' → ∀ v', ¬ IsField t n' v' := by
    intro t n v n' h hne v' h'
    have h1 := headerField_iff.2 h
    rw [headerField_iff.2 h'] at h1
    simp at h1
    exact hne h1.1.symm
  rw [C34_first_field_wins]
  refine ⟨⟨_, _, ⟨[], T1, [T2], ht, f1, by simp⟩, C35_roundtrip true _, hc⟩,
    ⟨_, _, ⟨[T1], T2, [], ht, f2, ?_⟩, C35_roundtrip true _, (C36_tree_roundtrip m w hm hw hws).2⟩,
    .inl ⟨⟨_, ht, ?_⟩, rfl⟩, .inl ⟨⟨_, ht, ?_⟩, rfl⟩⟩
  all_goals
    intro u hu
    simp only [List.mem_cons, List.not_mem_nil, or_false] at hu
  · subst hu
    exact other f1 (by decide)
  · rcases hu with rfl | rfl
    · exact other f1 (by decide)
    · exact other f2 (by decide)
  · rcases hu with rfl | rfl
    · exact other f1 (by decide)
    · exact other f2 (by decide)

/-! ## The tree -/

/-- The insertions as calls on the red-black tree. -/
def putOps (puts : List (Bytes × Bytes)) : List (RbOp Bytes) := puts.map (fun p => .insert p.1 (sha p.2).1)

theorem assetRun_rb {puts : List (Bytes × Bytes)} {t : AssetTree} : assetRun puts = some t ↔ rbRun (putOps puts) = some t.tree := by
  unfold assetRun rbRun putOps
  rw [List.foldlM_map]
  have : ∀ (a : AssetTree), (puts.foldlM (fun t p => t.insert p.1 p.2) a = some t ↔
      puts.foldlM (fun t p => RbOp.run t (.insert p.1 (sha p.2).1)) a.tree = some t.tree) := by
    induction puts with
    | nil =>
      intro a
      obtain ⟨a⟩ := a; obtain ⟨t⟩ := t
      simp
    | cons p ps ih =>
      intro a
      simp only [List.foldlM_cons, Option.bind_eq_bind, AssetTree.insert, RbOp.run]
      cases h : a.tree.insert p.1 (sha p.2).1 with
      | none => simp
      | some a' =>
        simp only [Option.map_some, Option.bind_some]
        exact ih ⟨a'⟩
  exact this .new

omit [SHA] in
theorem lastPut_snoc {puts : List (Bytes × Bytes)} {q : Bytes × Bytes} {path body : Bytes} :
    LastPut (puts ++ [q]) path body ↔ q = (path, body) ∨ (q.1 ≠ path ∧ LastPut puts path body) := by
  constructor
  · rintro ⟨pre, post, h1, h2⟩
    rcases List.eq_nil_or_concat post with rfl | ⟨post', x, rfl⟩
    · left
      have := List.append_inj' h1 rfl
      simpa using this.2
    · right
      rw [List.concat_eq_append, ← List.cons_append, ← List.append_assoc] at h1
      obtain ⟨h3, h4⟩ := List.append_inj' h1 rfl
      have h4 : q = x := by simpa using h4
      refine ⟨h4 ▸ h2 x (by simp), pre, post', h3, fun y hy => h2 y (by simp [hy])⟩
  · rintro (rfl | ⟨h, pre, post, rfl, h2⟩)
    · exact ⟨puts, [], rfl, by simp⟩
    · refine ⟨pre, post ++ [q], by simp, ?_⟩
      intro x hx
      rcases List.mem_append.1 hx with hx | hx
      · exact h2 x hx
      · rw [List.mem_singleton] at hx; rw [hx]; exact h

theorem spec_put (puts : List (Bytes × Bytes)) (path h : Bytes) :
    rbSpec (putOps puts) path = some h ↔ ∃ body, LastPut puts path body ∧ h = (sha body).1 := by
  induction puts using List.reverseRecOn with
  | nil =>
    constructor
    · intro h; cases h
    · rintro ⟨body, ⟨pre, post, h, -⟩, -⟩; simp at h
  | append_singleton puts q ih =>
    have e : rbSpec (putOps (puts ++ [q])) path = if path = q.1 then some (sha q.2).1 else rbSpec (putOps puts) path := by
      simp [putOps, rbSpec, RbOp.spec]
    rw [e]
    simp only [lastPut_snoc]
    by_cases hp : path = q.1
    · rw [if_pos hp]
      constructor
      · intro h
        exact ⟨q.2, .inl (by rw [hp]), (Option.some.inj h).symm⟩
      · rintro ⟨body, h1 | ⟨h1, -⟩, rfl⟩
        · rw [h1]
        · exact absurd hp.symm h1
    · rw [if_neg hp, ih]
      constructor
      · rintro ⟨body, h1, h2⟩
        exact ⟨body, .inr ⟨fun e => hp e.symm, h1⟩, h2⟩
      · rintro ⟨body, rfl | ⟨-, h1⟩, h2⟩
        · exact absurd rfl hp
        · exact ⟨body, h1, h2⟩

/-- What is in the tree: for every path the hash of the last body. -/
theorem get_put {puts : List (Bytes × Bytes)} {t : AssetTree} (h : assetRun puts = some t) {path x : Bytes} :
    t.tree.get path = some x ↔ ∃ body, LastPut puts path body ∧ x = (sha body).1 := by
  obtain ⟨t', h1, h2⟩ := C06_map (putOps puts)
  rw [assetRun_rb.1 h] at h1
  rw [← Option.some.inj h1] at h2
  rw [h2, spec_put]

/-- Insertions never panic. -/
theorem assetRun_some (puts : List (Bytes × Bytes)) : ∃ t, assetRun puts = some t := by
  obtain ⟨t, h1, -⟩ := C06_map (putOps puts)
  exact ⟨⟨t⟩, assetRun_rb.2 h1⟩

/-- The full tree. -/
def AssetTree.full (t : AssetTree) : HashTree := .labeled (str "http_assets") t.tree.asHashTreeRb

theorem asset_witness {puts : List (Bytes × Bytes)} {t : AssetTree} (h : assetRun puts = some t) (path : Bytes) :
    ∃ w, t.tree.witness path = some w ∧ t.witness (some path) = some (.labeled (str "http_assets") w) ∧
      Prunes (.labeled (str "http_assets") w) (AssetTree.full t) ∧
      (HashTree.labeled (str "http_assets") w).digest.1 = t.certifiedData := by
  obtain ⟨w, h1, h2, h3⟩ := (C09_witness_digest (assetRun_rb.1 h)).1 path
  refine ⟨w, h1, by unfold AssetTree.witness; simp [h1], .labeled h2, ?_⟩
  unfold AssetTree.certifiedData
  rw [← h3]
  rfl

/-! ## Verification -/

variable [UriLib] [Bls] [Inflate]

omit [UriLib] [Bls] in
theorem delivers_decode {res : HttpResponse} {body : Bytes} (h : Delivers res body) :
    ∃ decoded, decodeBody res.body (headerGet res.headers (str "content-encoding")) = .ok decoded ∧
      (decoded = body ∨ ((headerGet res.headers (str "content-encoding")).isSome ∧ res.body = body)) := by
  have hgd : some (str "deflate") ≠ some (str "gzip") := by decide
  cases h with
  | plain h1 h2 =>
    rw [headerGet_none.2 h1]
    exact ⟨body, by unfold decodeBody; simp [h2], .inl rfl⟩
  | gzip h1 h2 =>
    rw [headerGet_some.2 h1]
    exact ⟨body, by unfold decodeBody; rw [if_pos rfl, h2]; rfl, .inl rfl⟩
  | deflate h1 h2 =>
    rw [headerGet_some.2 h1]
    exact ⟨body, by unfold decodeBody; rw [if_neg hgd, if_pos rfl, h2]; rfl, .inl rfl⟩
  | @asIs enc h1 h2 h3 h4 =>
    rw [headerGet_some.2 h1]
    unfold decodeBody
    by_cases e1 : enc = str "gzip"
    · subst e1
      obtain ⟨d, hd⟩ := Option.isSome_iff_exists.1 (h3 rfl)
      exact ⟨d, by rw [if_pos rfl, h2, hd]; rfl, .inr ⟨rfl, h2⟩⟩
    · by_cases e2 : enc = str "deflate"
      · subst e2
        obtain ⟨d, hd⟩ := Option.isSome_iff_exists.1 (h4 rfl)
        exact ⟨d, by rw [if_neg hgd, if_pos rfl, h2, hd]; rfl, .inr ⟨rfl, h2⟩⟩
      · exact ⟨res.body, by rw [if_neg (by simpa using e1), if_neg (by simpa using e2)], .inr ⟨rfl, h2⟩⟩

/-- The response with the witness for `key` (which has `body` at its path), for any request for whose path nothing else is shown. -/
theorem v1_core {env : Env} {puts : List (Bytes × Bytes)} {t : AssetTree} (ht : assetRun puts = some t)
    {key body : Bytes} (hput : LastPut puts key body)
    {req : HttpRequest} {path : Bytes} (hpath : req.getPath = .ok path) (hkey : path = key ∨ key = str "/index.html")
    {dataCert cbor : Bytes} (hser : t.serialize (some key) = some cbor)
    {res : HttpResponse} (hhdr : LastHeader res.headers (str "IC-Certificate") (utf8 (certificateHeader dataCert cbor)))
    (hbody : Delivers res body)
    {c : Certificate} (hcert : certificateFromCbor env.machine dataCert = some (.ok c))
    (hver : certVerify env.machine env.checks c env.canisterId env.rootKey env.now env.offset = .ok ())
    (hroot : c.tree.lookupPath [str "canister", env.canisterId, str "certified_data"] = .found t.certifiedData)
    (hm : 32 < env.machine.usize)
    (hfit : (AssetTree.full t).Fits env.machine ∧ (AssetTree.full t).height + 3 ≤ env.machine.stack)
    {minV : Nat} (hmin : minV ≤ 1) :
    verifyPair env req res minV =
      .ok { response := some { statusCode := none, headers := [], body := res.body }, version := 1 } := by
  obtain ⟨w, w1, w2, w3, w4⟩ := asset_witness ht key
  have hget : t.tree.get key = some (sha body).1 := (get_put ht).2 ⟨body, hput, rfl⟩
  have hcb : cbor = selfDescribe ++ encTree (.labeled (str "http_assets") w) := by
    unfold AssetTree.serialize at hser
    rw [w2] at hser
    exact (Option.some.inj hser).symm
  subst hcb
  have hhead := C64_header env.machine dataCert c (.labeled (str "http_assets") w) hm hcert (prunes_fits w3 hfit.1)
    (le_trans (Nat.add_le_add_right (prunes_height w3) 3) hfit.2)
  obtain ⟨w', k1, k2, -⟩ := C10_witness_decides (assetRun_rb.1 ht) key
  rw [w1] at k1
  have k1 := Option.some.inj k1
  subst k1
  have hfound : (HashTree.labeled (str "http_assets") w).lookupPath [str "http_assets", key] = .found (sha body).1 := by
    rw [C04_found_iff, lookupSubtree_labeled]
    exact k2 _ hget
  have hvalid : ∀ b, sha b = sha body → validateBody (.labeled (str "http_assets") w) path (sha b) = true := by
    intro b hb
    unfold validateBody
    by_cases e : path = key
    · subst e
      rw [hfound]
      simp [hb]
    · rcases hkey with hkey | hkey
      · exact absurd hkey e
      · have hnf : ∀ v, (HashTree.labeled (str "http_assets") w).lookupPath [str "http_assets", path] ≠ .found v := by
          intro v hv
          rw [C04_found_iff, lookupSubtree_labeled] at hv
          exact e ((C55_present (assetRun_rb.1 ht) hget w1 path [] (.leaf v)).1 (lookupSubtree_found hv)).1
        rw [← hkey, hfound]
        split
        · rename_i v hv
          exact absurd hv (hnf v)
        · simp [hb]
  obtain ⟨decoded, d1, d2⟩ := delivers_decode hbody
  refine verifyPair_ok.2 ⟨_, ⟨_, hhdr, by rw [chars_utf8]; exact hhead⟩, hmin, .inl ⟨rfl, v1_ok.2
    ⟨path, decoded, verifyCert_ok.2 hver, hpath, d1, validateTree_true.2 (by rw [hroot, w4]), ?_, rfl⟩⟩⟩
  rcases d2 with rfl | ⟨d2, d3⟩
  · exact .inl (hvalid _ rfl)
  · exact .inr ⟨d2, hvalid _ (by rw [d3])⟩

/-- **C64.** After any history of insertions, a response that delivers the last body inserted for the path of the request, with a
valid certificate of the tree and the witness for the path, is accepted as a version 1 response, if that version is allowed. -/
theorem C64_verifies {env : Env} {puts : List (Bytes × Bytes)} {t : AssetTree} (ht : assetRun puts = some t)
    {req : HttpRequest} {path body : Bytes} (hpath : req.getPath = .ok path) (hput : LastPut puts path body)
    {dataCert cbor : Bytes} (hser : t.serialize (some path) = some cbor)
    {res : HttpResponse} (hhdr : LastHeader res.headers (str "IC-Certificate") (utf8 (certificateHeader dataCert cbor)))
    (hbody : Delivers res body)
    -- the certificate is valid and carries the canister's certified data
    {c : Certificate} (hcert : certificateFromCbor env.machine dataCert = some (.ok c))
    (hver : certVerify env.machine env.checks c env.canisterId env.rootKey env.now env.offset = .ok ())
    (hroot : c.tree.lookupPath [str "canister", env.canisterId, str "certified_data"] = .found t.certifiedData)
    -- sizes
    (hm : 32 < env.machine.usize)
    (hfit : (AssetTree.full t).Fits env.machine ∧ (AssetTree.full t).height + 3 ≤ env.machine.stack)
    {minV : Nat} (hmin : minV ≤ 1) :
    verifyPair env req res minV =
      .ok { response := some { statusCode := none, headers := [], body := res.body }, version := 1 } :=
  v1_core ht hput hpath (.inl rfl) hser hhdr hbody hcert hver hroot hm hfit hmin

/-- **C64.** With the witness for `/index.html`, the body of `/index.html` is accepted for every request; even for one of a path
that has a body of its own. -/
theorem C64_index {env : Env} {puts : List (Bytes × Bytes)} {t : AssetTree} (ht : assetRun puts = some t)
    {req : HttpRequest} {path body : Bytes} (hpath : req.getPath = .ok path) (hput : LastPut puts (str "/index.html") body)
    {dataCert cbor : Bytes} (hser : t.serialize (some (str "/index.html")) = some cbor)
    {res : HttpResponse} (hhdr : LastHeader res.headers (str "IC-Certificate") (utf8 (certificateHeader dataCert cbor)))
    (hbody : Delivers res body)
    {c : Certificate} (hcert : certificateFromCbor env.machine dataCert = some (.ok c))
    (hver : certVerify env.machine env.checks c env.canisterId env.rootKey env.now env.offset = .ok ())
    (hroot : c.tree.lookupPath [str "canister", env.canisterId, str "certified_data"] = .found t.certifiedData)
    (hm : 32 < env.machine.usize)
    (hfit : (AssetTree.full t).Fits env.machine ∧ (AssetTree.full t).height + 3 ≤ env.machine.stack)
    {minV : Nat} (hmin : minV ≤ 1) :
    verifyPair env req res minV =
      .ok { response := some { statusCode := none, headers := [], body := res.body }, version := 1 } :=
  v1_core ht hput hpath (.inr rfl) hser hhdr hbody hcert hver hroot hm hfit hmin

/-- **C64.** Whatever anyone answers: a response accepted against a certificate of the tree is of version 1, and its body, decoded as
its Content-Encoding header says or (if it has one) as received, is the last body inserted for the path of the request or for
`/index.html`; or there is a collision of SHA-256. -/
theorem C64_only {env : Env} {puts : List (Bytes × Bytes)} {t : AssetTree} (ht : assetRun puts = some t)
    {req : HttpRequest} {res : HttpResponse} {minV : Nat} {info : VerificationInfo} {hdr : CertHeader} {S : HashTree}
    (hc : CarriesHeader env.machine res hdr) (h : verifyPair env req res minV = .ok info)
    (hC : Certifies hdr.certificate env.canisterId S (AssetTree.full t)) :
    (info = { response := some { statusCode := none, headers := [], body := res.body }, version := 1 } ∧
      ∃ path body, req.getPath = .ok path ∧ (LastPut puts path body ∨ LastPut puts (str "/index.html") body) ∧
        (Delivers res body ∨ ∃ body', Delivers res body' ∧ CollisionIn [body] [body'])) ∨
    CollisionIn hdr.certificate.tree.hashed S.hashed ∨ CollisionIn hdr.tree.hashed (AssetTree.full t).hashed := by
  obtain ⟨hdr', g1, g2, g3⟩ := verifyPair_ok.1 h
  have := carriesHeader_unique g1 hc
  subst this
  have hrb := assetRun_rb.1 ht
  rcases g3 with ⟨hv1, -⟩ | ⟨hv2, expr, e, cel, -, -, -, g4⟩
  · obtain ⟨-, k1, path, enc, decoded, body, k2, k3, k4, k5, k6⟩ := C28_sound hc hv1 h
    rcases k6 S _ hC with k6 | k6
    swap
    · exact .inr k6
    refine .inl ⟨k1, path, ?_⟩
    have hdel : Delivers res body := by
      rcases k3 with k3 | ⟨k3, rfl⟩
      · rcases k4 with ⟨rfl, k4⟩ | ⟨rfl, k4⟩ | ⟨k4, k4', rfl⟩
        · rcases k5 with rfl | rfl
          · exact .gzip k3 k4
          · exact .asIs k3 rfl (fun _ => by rw [k4]; rfl) (fun e => absurd e (by decide))
        · rcases k5 with rfl | rfl
          · exact .deflate k3 k4
          · exact .asIs k3 rfl (fun e => absurd e (by decide)) (fun _ => by rw [k4]; rfl)
        · have : body = res.body := by rcases k5 with rfl | rfl <;> rfl
          exact .asIs k3 this.symm (fun e => absurd e k4) (fun e => absurd e k4')
      · rcases k4 with ⟨k4, -⟩ | ⟨k4, -⟩ | ⟨-, -, rfl⟩
        · exact absurd k4 (by decide)
        · exact absurd k4 (by decide)
        · have : body = res.body := by rcases k5 with rfl | rfl <;> rfl
          exact .plain k3 this.symm
    have hleaf : ∀ p, (AssetTree.full t).HasLeaf [str "http_assets", p] (sha body).1 →
        ∃ body', LastPut puts p body' ∧ (sha body).1 = (sha body').1 := by
      intro p hp
      unfold AssetTree.full HasLeaf at hp
      rw [hasNode_labeled] at hp
      obtain ⟨v, v1, v2⟩ := ((C08_full_tree_content hrb).2 p _).1 hp
      have v2 : (HashTree.leaf (sha body).1) = .leaf v := v2
      rw [HashTree.leaf.injEq] at v2
      rw [← v2] at v1
      exact (get_put ht).1 v1
    have fin : ∀ p, (∃ body', LastPut puts p body' ∧ (sha body).1 = (sha body').1) →
        ∃ body', LastPut puts p body' ∧ (Delivers res body' ∨ ∃ b, Delivers res b ∧ CollisionIn [body'] [b]) := by
      rintro p ⟨body', b1, b2⟩
      refine ⟨body', b1, ?_⟩
      by_cases e : body' = body
      · left; rw [e]; exact hdel
      · right
        exact ⟨body, hdel, body', List.mem_singleton_self _, body, List.mem_singleton_self _, e, (Subtype.ext b2).symm⟩
    rcases k6 with k6 | ⟨-, k6⟩
    · obtain ⟨b, b1, b2⟩ := fin _ (hleaf _ k6)
      exact ⟨b, k2, .inl b1, b2⟩
    · obtain ⟨b, b1, b2⟩ := fin _ (hleaf _ k6)
      exact ⟨b, k2, .inr b1, b2⟩
  · -- nothing is certified for version 2
    obtain ⟨path, -, -, j3, j4, -⟩ := v2_ok.1 g4
    rcases root_agree hC j3 with hp | hcol
    swap
    · exact .inr hcol
    exfalso
    have hno : ∀ p n, ¬ (AssetTree.full t).HasNode (pathPrefix :: p) n := by
      intro p n hn
      unfold AssetTree.full at hn
      generalize hq : pathPrefix :: p = q at hn
      cases hn with
      | here => cases hq
      | down hn =>
        have := (List.cons.inj hq).1
        exact absurd this (by decide)
    have hnode : ∃ p n, hdr'.tree.lookupSubtree (pathPrefix :: p) = .found n := by
      rcases validateExprPath_ok.1 j4 with ⟨rfl, n, hn⟩ | ⟨-, he, -, -, -, -, n, hn⟩
      · exact ⟨_, n, hn⟩
      · cases e with
        | nil => cases he
        | cons x e =>
          simp only [List.head?_cons, Option.some.injEq] at he
          subst he
          exact ⟨_, n, hn⟩
    obtain ⟨p, n, hn⟩ := hnode
    obtain ⟨n', hn'⟩ := prunes_node hC.treeWF hp hn
    exact hno _ _ hn'

/-! ## The version 2 fixture -/

variable [TreeLib] [BlsSign] [SubnetIds]

/-- **C64.** The fixture for a certification made for a request path always exists, and every response that agrees with the certified
one verifies with its header, canister and root key, at the time it was made for (up to the offset). -/
theorem C64_fixture (m : Machine) (hm : 32 < m.usize) (hcap : 3 ≤ m.mapCap) (hstack : 4 ≤ m.stack) (hlib : TreeLib.Lawful)
    (checks : Bool) {k0 k1 k2 : KeyPair} (g0 : k0.Good) (g1 : k1.Good)
    -- the certification
    {e : CertEntry} {x : CelExpr} {q req : HttpRequest} {r res : HttpResponse} {path : Bytes}
    (hclean : e.path.Clean) (hmade : MadeOf e.cert x q r) (hnames : ∀ n ∈ x.names, CarriedName n)
    (hfor : match e.path with
      | .exact p => PathShape.ofPath p = PathShape.ofPath path
      | .wildcard p => PathShape.Matches (PathShape.ofPath p) (PathShape.ofPath path))
    -- the request and the response agree with the certified ones
    (hpath : req.getPath = .ok path) (hsame : SameCertified x q req r res)
    (hexpr : x = .skip → LastHeader res.headers (str "IC-CertificateExpression") x.toBytes)
    -- the time
    {time now offset : Nat} (ho : offset ≤ now) (hno : now + offset < 2 ^ 128) (hw : InWindow (time % 2 ^ 64) now offset)
    -- sizes
    (hurl : (chars e.path.url).isSome ∧ m.Fits (e.path.url.length + 9))
    (hfit : ∀ t, ctRun [.insert e] = some t → t.full.Fits m ∧ t.full.height + 3 ≤ m.stack)
    (hhold : ∀ t d, ctRun [.insert e] = some t →
      (((CertBuilder.new (canisterOfU64 5) t.rootHash.1).withTime time).withDelegation 123 [(0, 10)]).build k0 k1 k2 = .ok d →
      d.certificate.Holdable m ∧ ∀ del inner, d.certificate.delegation = some del →
        del.certificate = selfDescribe ++ encCertificate inner → inner.Holdable m)
    (hstart : (pathSegments path).head? ≠ some (str "http_expr")) (hend : PlainEndPath path) {minV : Nat} (hmin : minV ≤ 2) :
    ∃ fx info, v2Fixture path e time k0 k1 k2 = some fx ∧
      verifyPair ⟨m, checks, fx.canisterId, now, offset, fx.rootKey⟩ req
        { res with headers := res.headers ++ [(str "IC-Certificate", utf8 fx.header)] } minV = .ok info ∧
      info.version = 2 ∧
      match x with
      | .skip => info.response = none
      | .responseOnly rc | .full _ rc => info.response = some
          { statusCode := some res.status, body := res.body,
            headers := certifiedRespHeaders rc res.headers ++ [(str "IC-Certificate", utf8 fx.header)] } := by
  obtain ⟨t, ht⟩ : ∃ t, ctRun [.insert e] = some t := ctRun_some _
  have hins : CertTree.default.insert e = some t := by
    simpa [ctRun, CtOp.run] using ht
  have hspec : ctSpec [.insert e] e.toTreePath := by simp [ctSpec, CtOp.spec]
  have hcalls : ((CertBuilder.new (canisterOfU64 5) t.rootHash.1).withTime time).withDelegation 123 [(0, 10)] =
      builderRun (.new (canisterOfU64 5) t.rootHash.1) [.time time, .delegation 123 [(0, 10)]] := rfl
  obtain ⟨d, d1, d2, d3⟩ := C56_builds m hm hcap hlib (canisterOfU64 5) t.rootHash.1 [.time time, .delegation 123 [(0, 10)]] k0 k1 k2
  obtain ⟨hh1, hh2⟩ := hhold t d ht (by rw [hcalls]; exact d1)
  have hver : certVerify m checks d.certificate (canisterOfU64 5) d.rootKey now offset = .ok () := by
    refine (C56_verifies m hm hcap hlib checks (canisterOfU64 5) t.rootHash.1 (by decide) _ k0 k1 k2 g0 g1 (.inl rfl) d d1
      ?_ hh2 hstack now offset ho hno).2 ⟨hw, by simp, ?_⟩
    · intro s r' hs
      have : (123, [(0, 10)]) = (s, r') := Option.some.inj hs
      rw [Prod.mk.injEq] at this
      rw [← this.2]
      exact ⟨by simp; omega, by simp⟩
    · intro s r' hs
      have : (123, [(0, 10)]) = (s, r') := Option.some.inj hs
      rw [Prod.mk.injEq] at this
      rw [← this.2]
      exact ⟨0, 10, by simp, (C56_numbers 0 5).2 (by decide), (C56_numbers 5 10).2 (by decide)⟩
  have hresp : Responds [.insert e] path e.path := by
    have hself : ∀ g, CtOp.insert g ∈ [CtOp.insert e] → g = e := by simp
    cases hp : e.path with
    | exact p => rw [hp] at hfor; exact hfor
    | wildcard p =>
      rw [hp] at hfor
      refine ⟨hfor, fun g hg _ => ?_⟩
      rw [hself g hg, hp]
      rintro ⟨-, h⟩
      rcases h with h | ⟨-, h1, h2⟩
      · omega
      · rw [h1] at h2; cases h2
  have hcore := complete_core (env := ⟨m, checks, canisterOfU64 5, now, offset, d.rootKey⟩) (ops := [.insert e]) (f := e) (x := x)
    (q := q) (req := req) (r := r) (res := res) (path := path) (dataCert := d.cbor) (c := d.certificate) (minV := minV)
    (fun _ => x) (by
      intro o ho g hg
      rw [List.mem_singleton] at ho
      subst ho
      have := Option.some.inj hg
      subst this
      exact ⟨hclean, madeOf_madeFor hmade⟩) hclean hspec hmade hnames hresp hpath hsame hexpr (d3 hh1) hver
    (fun t' ht' => by rw [ht] at ht'; rw [← Option.some.inj ht']; exact d2) hm hurl hfit hmin hstart hend
  rcases hcore with ⟨t', w, info, c1, c2, c3, -, c5, c6⟩ | ⟨o, -, g, -, c1, -⟩
  · rw [ht] at c1
    have c1 := Option.some.inj c1
    subst c1
    have hfx : v2Fixture path e time k0 k1 k2 = some ⟨d.rootKey, v2FixtureHeader e d.cbor (selfDescribe ++ encTree w), canisterOfU64 5⟩ := by
      unfold v2Fixture v2TreeFixture
      rw [hins]
      simp only [Option.bind_eq_bind, Option.bind_some, c2]
      rw [hcalls, d1]
    have htext : v2FixtureHeader e d.cbor (selfDescribe ++ encTree w) = v2HeaderText d.cbor w e.path.toExprPath := by
      unfold v2FixtureHeader versionedCertificateHeader v2HeaderText
      simp only [List.append_assoc]
      rfl
    rw [htext] at hfx
    exact ⟨_, info, hfx, c3, c5, c6⟩
  · exact absurd c1 (by tauto)

end

/-! ## Concrete cases -/

section
attribute [local instance] toySHA toyUri toyBls toyInflate toyTreeLib toySign toySubnets

def exPuts : List (Bytes × Bytes) :=
  [(str "/a", str "old"), (str "/index.html", str "home"), (str "/b", str "bee"), (str "/a", str "new")]

def exPutRoot : Bytes := match assetRun exPuts with | some t => t.certifiedData | none => []

/-- The response with the witness for the key. -/
def exPutResponse (key body : Bytes) : HttpResponse :=
  { status := 200, body,
    headers := [(str "Content-Encoding", str "identity"), (str "ic-certificate",
      utf8 (certificateHeader (encCertificate (exStateCert exPutRoot))
        (match (assetRun exPuts).bind (fun t => t.serialize (some key)) with | some b => b | none => [])))] }

theorem exPut_fits {t : AssetTree} (ht : assetRun exPuts = some t) :
    (AssetTree.full t).Fits exMachine ∧ (AssetTree.full t).height + 3 ≤ exMachine.stack := by
  have : (match assetRun exPuts with
    | some t => decide ((AssetTree.full t).Fits exMachine ∧ (AssetTree.full t).height + 3 ≤ exMachine.stack)
    | none => true) = true := by decide +kernel
  rw [ht] at this
  exact of_decide_eq_true this

theorem exPut_cert : certificateFromCbor exMachine (encCertificate (exStateCert exPutRoot)) = some (.ok (exStateCert exPutRoot)) :=
  (C37_certificate_roundtrip exMachine (exStateCert exPutRoot) (by decide +kernel) (by decide +kernel)
      (by decide +kernel) (by decide +kernel) (by intro d hd; simp [exStateCert] at hd) (by decide +kernel)).1

theorem exPut_delivers (key body : Bytes) : Delivers (exPutResponse key body) body :=
  .asIs (enc := str "identity") ⟨[], str "Content-Encoding", _, rfl, by decide, by
    intro h hh
    rw [List.mem_singleton] at hh
    subst hh
    show ¬ SameName (str "ic-certificate") _
    decide⟩ rfl (fun e => absurd e (by decide)) (fun e => absurd e (by decide))

theorem exPut_ser (key : Bytes) {t : AssetTree} (ht : assetRun exPuts = some t) : ∃ cbor, t.serialize (some key) = some cbor ∧
    LastHeader (exPutResponse key body).headers (str "IC-Certificate")
      (utf8 (certificateHeader (encCertificate (exStateCert exPutRoot)) cbor)) := by
  obtain ⟨w, -, h, -⟩ := asset_witness ht key
  have hs : t.serialize (some key) = some (selfDescribe ++ encTree (.labeled (str "http_assets") w)) := by
    unfold AssetTree.serialize; rw [h]; rfl
  refine ⟨_, hs, [(str "Content-Encoding", str "identity")], str "ic-certificate", [], ?_, by decide, by simp⟩
  unfold exPutResponse
  rw [ht]
  simp only [Option.bind_some, hs]
  rfl

theorem exPut_root {t : AssetTree} (ht : assetRun exPuts = some t) : exPutRoot = t.certifiedData := by
  unfold exPutRoot; rw [ht]

/-- All hypotheses of `C64_verifies` are met: the last body inserted verifies. -/
example : verifyPair exEnv ⟨str "GET", str "/a?q", [], []⟩ (exPutResponse (str "/a") (str "new")) 1 =
    .ok { response := some { statusCode := none, headers := [], body := str "new" }, version := 1 } := by
  obtain ⟨t, ht⟩ := assetRun_some exPuts
  obtain ⟨cbor, h1, h2⟩ := exPut_ser (body := str "new") (str "/a") ht
  exact C64_verifies (env := exEnv) (path := str "/a") ht rfl
    ⟨[(str "/a", str "old"), (str "/index.html", str "home"), (str "/b", str "bee")], [], rfl, by simp⟩ h1 h2
    (exPut_delivers _ _) exPut_cert (exCert_verifies _) (by rw [← exPut_root ht]; rfl) (by decide) (exPut_fits ht) (by decide)

/-- The earlier one does not. -/
example : (match verifyPair exEnv ⟨str "GET", str "/a?q", [], []⟩ (exPutResponse (str "/a") (str "old")) 1 with
    | .err .invalidBody => true | _ => false) = true := by decide +kernel

/-- All hypotheses of `C64_index` are met: `/index.html` verifies as the answer to a request of `/b`, although `/b` has a body of
its own. -/
example : verifyPair exEnv ⟨str "GET", str "/b", [], []⟩ (exPutResponse (str "/index.html") (str "home")) 1 =
    .ok { response := some { statusCode := none, headers := [], body := str "home" }, version := 1 } := by
  obtain ⟨t, ht⟩ := assetRun_some exPuts
  obtain ⟨cbor, h1, h2⟩ := exPut_ser (body := str "home") (str "/index.html") ht
  exact C64_index (env := exEnv) (path := str "/b") ht rfl
    ⟨[(str "/a", str "old")], [(str "/b", str "bee"), (str "/a", str "new")], rfl, by decide⟩ h1 h2
    (exPut_delivers _ _) exPut_cert (exCert_verifies _) (by rw [← exPut_root ht]; rfl) (by decide) (exPut_fits ht) (by decide)

/-- All hypotheses of `C64_only` are met. -/
example : ∃ t hdr info, assetRun exPuts = some t ∧ CarriesHeader exEnv.machine (exPutResponse (str "/a") (str "new")) hdr ∧
    verifyPair exEnv ⟨str "GET", str "/a?q", [], []⟩ (exPutResponse (str "/a") (str "new")) 1 = .ok info ∧
    Certifies hdr.certificate exEnv.canisterId (exStateCert exPutRoot).tree (AssetTree.full t) := by
  obtain ⟨t, ht⟩ := assetRun_some exPuts
  obtain ⟨cbor, h1, h2⟩ := exPut_ser (body := str "new") (str "/a") ht
  obtain ⟨w, w1, w2, w3, w4⟩ := asset_witness ht (str "/a")
  have hcb : cbor = selfDescribe ++ encTree (.labeled (str "http_assets") w) := by
    unfold AssetTree.serialize at h1
    rw [w2] at h1
    exact (Option.some.inj h1).symm
  subst hcb
  have hfit := exPut_fits ht
  have hhead := C64_header exMachine _ _ (.labeled (str "http_assets") w) (by decide) exPut_cert (prunes_fits w3 hfit.1)
    (le_trans (Nat.add_le_add_right (prunes_height w3) 3) hfit.2)
  have hwf := (C08_full_tree_content (assetRun_rb.1 ht)).1
  refine ⟨t, _, _, ht, ⟨_, h2, by rw [chars_utf8]; exact hhead⟩,
    C64_verifies (env := exEnv) (path := str "/a") ht rfl
    ⟨[(str "/a", str "old"), (str "/index.html", str "home"), (str "/b", str "bee")], [], rfl, by simp⟩ h1 h2
    (exPut_delivers _ _) exPut_cert (exCert_verifies _) (by rw [← exPut_root ht]; rfl) (by decide) hfit (by decide), ?_⟩
  refine ⟨?_, ?_, ?_, ?_⟩
  · unfold WellFormed exStateCert; simp only [WF, HashTree.labels]; decide
  · with_reducible rfl
  · rw [← w3.digest_eq, w4, ← exPut_root ht]
    exact .left (.down (.down (.down (.here _))))
  · exact hwf

set_option maxRecDepth 8000 in
/-- All hypotheses of `C64_fixture` are met. -/
example : ∃ fx info, v2Fixture (str "/a/x") exServed 1000 (exKeyPair 1) (exKeyPair 2) (exKeyPair 3) = some fx ∧
    verifyPair ⟨exBuilderMachine, true, fx.canisterId, 1010, 20, fx.rootKey⟩ exGet
      { exServedResponse with headers := exServedResponse.headers ++ [(str "IC-Certificate", utf8 fx.header)] } 2 = .ok info ∧
    info.version = 2 := by
  have hmade : MadeOf exServed.cert (.responseOnly exCert) exGet exCertified :=
    .responseOnly (bh := none) ((C44_response_only _ _ _ _).2 ⟨rfl, rfl⟩) (by simp)
  obtain ⟨fx, info, h1, h2, h3, -⟩ := C64_fixture exBuilderMachine (by decide) (by decide) (by decide) combTree_represents true
    (exKeyPair_good 1) (exKeyPair_good 2) (k2 := exKeyPair 3) (e := exServed) (x := .responseOnly exCert) (q := exGet) (req := exGet)
    (r := exCertified) (res := exServedResponse) (path := str "/a/x") (time := 1000) (now := 1010) (offset := 20) (minV := 2)
    ⟨by decide, by decide⟩ hmade
    (by
      intro n hn
      simp [CelExpr.names, exCert] at hn
      subst hn
      exact plain_carried (by decide))
    ⟨by decide, by decide⟩ rfl ⟨rfl, rfl, List.Perm.refl _⟩ (by intro h; simp at h) (by decide) (by decide) ⟨by decide, by decide⟩
    ⟨chars_str (by decide), by decide⟩
    (by
      intro t ht
      have : (match ctRun [.insert exServed] with
        | some t => decide (t.full.Fits exBuilderMachine ∧ t.full.height + 3 ≤ exBuilderMachine.stack)
        | none => true) = true := by decide +kernel
      rw [ht] at this
      exact of_decide_eq_true this)
    (by
      intro t d ht hb
      have hd : (match ctRun [.insert exServed] with
        | some t =>
          match (((CertBuilder.new (canisterOfU64 5) t.rootHash.1).withTime 1000).withDelegation 123 [(0, 10)]).build (exKeyPair 1)
              (exKeyPair 2) (exKeyPair 3) with
          | .ok d => decide ((selfDescribe ++ encCertificate d.certificate).length + 4 ≤ 5000) &&
            (match d.certificate.delegation with | some del => decide (del.certificate.length + 4 ≤ 5000) | none => false)
          | .error _ => false
        | none => false) = true := by decide +kernel
      rw [ht] at hd
      simp only [hb, Bool.and_eq_true, decide_eq_true_eq] at hd
      obtain ⟨hd1, hd2⟩ := hd
      have lim : ∀ n, n + 4 ≤ 5000 → n < exBuilderMachine.usize ∧ n < 2 ^ 64 ∧ n + 4 ≤ exBuilderMachine.stack := by
        intro n hn
        refine ⟨?_, by omega, hn⟩
        show n < 2 ^ 64
        omega
      refine ⟨small_holdable _ rfl (lim _ hd1).1 (lim _ hd1).2.1 (lim _ hd1).2.2, ?_⟩
      intro del inner e1 e2
      rw [e1] at hd2
      simp only [decide_eq_true_eq] at hd2
      exact small_holdable inner (congrArg List.length e2).symm (lim _ hd2).1 (lim _ hd2).2.1 (lim _ hd2).2.2)
    (by decide) (.inr ⟨by decide, by decide⟩) (by decide)
  exact ⟨fx, info, h1, h2, h3⟩

end
end Verif.Props
