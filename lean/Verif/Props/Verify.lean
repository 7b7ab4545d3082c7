import Verif.Lemmas.Verify
import Verif.Lemmas.CertNode
import Verif.Props.HttpPath
import Verif.Props.Hash
import Verif.Props.Header
import Verif.Props.Cel
import Verif.Props.CertTree
import Verif.Props.Certification

set_option linter.unusedSimpArgs false
set_option linter.unusedSectionVars false

/-!
# C23–C28: response verification
-/

namespace Verif.Props
open Verif HashTree PathShape

section
variable [SHA] [UriLib] [Bls] [Inflate]

theorem carriesHeader_unique {m : Machine} {res : HttpResponse} {h h' : CertHeader} (h1 : CarriesHeader m res h)
    (h2 : CarriesHeader m res h') : h = h' := by
  obtain ⟨t, a1, a2⟩ := h1
  obtain ⟨t', b1, b2⟩ := h2
  have := a1.unique b1
  subst this
  rw [a2] at b2
  simpa using b2

/-! ## C26 -/

/-- **C26** Verification succeeds only for a response that carries a parseable certificate header, with the version
of the header, which is 1 or 2 and not below the requested minimum. -/
theorem C26_version {env : Env} {req : HttpRequest} {res : HttpResponse} {minV : Nat} {info : VerificationInfo}
    (h : verifyPair env req res minV = .ok info) :
    ∃ hdr, CarriesHeader env.machine res hdr ∧ info.version = hdr.version ∧ minV ≤ info.version ∧
      (info.version = 1 ∨ (info.version = 2 ∧ ∃ e expr cel, Claims env.machine res hdr e expr cel)) := by
  obtain ⟨hdr, h1, h2, h3⟩ := verifyPair_ok.1 h
  refine ⟨hdr, h1, ?_⟩
  rcases h3 with ⟨h3, h4⟩ | ⟨h3, expr, e, cel, h4, h5, h6, h7⟩
  · obtain ⟨_, _, _, _, _, _, _, rfl⟩ := v1_ok.1 h4
    exact ⟨h3.symm, by simp only; omega, .inl rfl⟩
  · have : info.version = 2 := by
      obtain ⟨_, _, _, _, _, h8⟩ := v2_ok.1 h7
      cases cel with
      | skip => rw [h8.2]
      | responseOnly rc => obtain ⟨_, _, _, rfl⟩ := h8; rfl
      | full qc rc => obtain ⟨_, _, _, rfl⟩ := h8; rfl
    exact ⟨by omega, by omega, .inr ⟨this, e, expr, cel, h1, h3, h5, h4, h6⟩⟩

/-- **C26** A header with a version below the minimum is rejected as such, whatever else the response contains; so is
one with a version that is not supported. -/
theorem C26_rejects {env : Env} {req : HttpRequest} {res : HttpResponse} {minV : Nat} {hdr : CertHeader}
    (h : CarriesHeader env.machine res hdr) :
    (hdr.version < minV → verifyPair env req res minV = .err .versionMismatch) ∧
    (minV ≤ hdr.version → hdr.version ≠ 1 → hdr.version ≠ 2 → verifyPair env req res minV = .err .unsupportedVersion) := by
  obtain ⟨t, h1, h2⟩ := h
  have h1' : headerGet res.headers certHeaderName = some t := headerGet_some.2 h1
  unfold verifyPair
  simp only [h1', h2, Out.ok_bind]
  constructor
  · intro h3; rw [if_pos h3]
  · intro h3 h4 h5; rw [if_neg (by omega), if_neg h4, if_neg h5]

/-- **C26** Without a certificate header, or (version 2) without an expression header, the answer is that
certification is missing. -/
theorem C26_missing {env : Env} {req : HttpRequest} {res : HttpResponse} {minV : Nat} :
    (NoHeader res.headers (str "IC-Certificate") → verifyPair env req res minV = .err .missingCertification) ∧
    (∀ hdr, CarriesHeader env.machine res hdr → hdr.version = 2 → minV ≤ 2 →
      NoHeader res.headers (str "IC-CertificateExpression") → verifyPair env req res minV = .err .missingCertification) := by
  constructor
  · intro h
    have : headerGet res.headers certHeaderName = none := headerGet_none.2 h
    simp [verifyPair, this]
  · rintro hdr ⟨t, h1, h2⟩ h3 h4 h5
    have h1' : headerGet res.headers certHeaderName = some t := headerGet_some.2 h1
    have h5' : headerGet res.headers certExprHeaderName = none := headerGet_none.2 h5
    unfold verifyPair
    simp only [h1', h2, Out.ok_bind, h5']
    rw [if_neg (by omega), if_neg (by omega), if_pos h3]

/-- Success of a version 2 response, unfolded. -/
theorem claims_v2 {env : Env} {req : HttpRequest} {res : HttpResponse} {minV : Nat} {info : VerificationInfo}
    {hdr : CertHeader} {e : List Bytes} {expr : Bytes} {cel : CelExpr} (hc : Claims env.machine res hdr e expr cel)
    (h : verifyPair env req res minV = .ok info) :
    v2Verification env req res hdr.tree hdr.certificate e (sha expr) cel = .ok info := by
  obtain ⟨hdr', h1, h2, h3⟩ := verifyPair_ok.1 h
  have := carriesHeader_unique h1 hc.header
  subst this
  rcases h3 with ⟨h3, _⟩ | ⟨_, expr', e', cel', h4, h5, h6, h7⟩
  · rw [hc.version] at h3; simp at h3
  · have := h4.unique hc.expression
    subst this
    rw [hc.path] at h5
    rw [hc.parsed] at h6
    simp at h5 h6
    subst h5; subst h6
    exact h7

/-! ## C23 -/

/-- The tree in the header is a pruned view of the certified tree. -/
theorem root_agree {c : Certificate} {id : Bytes} {S T t : HashTree} (hC : Certifies c id S T)
    (hv : validateTree id c t = true) :
    Prunes t T ∨ CollisionIn c.tree.hashed S.hashed ∨ CollisionIn t.hashed T.hashed := by
  rw [validateTree_true] at hv
  rcases C01_found_is_true hC.stateWF hC.root.symm hv with h | h
  · have := HasNode.unique hC.stateWF h hC.data
    simp at this
    rcases C03_digest_binds hC.treeWF.full (Subtype.ext this) with h | h
    · exact .inl h
    · exact .inr (.inr h)
  · exact .inr (.inl h)

theorem prunes_leaf {t T : HashTree} {p : List Bytes} {v : Bytes} (hT : T.WellFormed) (hp : Prunes t T)
    (h : t.lookupSubtree p = .found (.leaf v)) : T.HasLeaf p v := by
  have ok := lookupSubtree_ok hT hp p
  rw [h] at ok
  obtain ⟨n, h1, h2⟩ := ok
  cases h2
  exact h1

theorem prunes_node {t T n : HashTree} {p : List Bytes} (hT : T.WellFormed) (hp : Prunes t T)
    (h : t.lookupSubtree p = .found n) : ∃ n', T.HasNode p n' := by
  have ok := lookupSubtree_ok hT hp p
  rw [h] at ok
  obtain ⟨n', h1, h2⟩ := ok
  exact ⟨n', h1⟩

theorem prunes_absent {t T : HashTree} {p : List Bytes} (hT : T.WellFormed) (hp : Prunes t T)
    (h : t.lookupSubtree p = .absent) : ¬ ∃ n, T.HasNode p n := by
  have ok := lookupSubtree_ok hT hp p
  rw [h] at ok
  exact ok

/-- **C23** A version 2 response is accepted only if its certificate is valid (see C40) and the tree that the
certificate certifies for the canister, whatever the response shows of it, has an entry for what was received: at the
claimed expression path, below the hash of the claimed expression, the hashes of the received request (if covered) and
response. Otherwise two different strings that are hashed collide. -/
theorem C23_sound {env : Env} {req : HttpRequest} {res : HttpResponse} {minV : Nat} {info : VerificationInfo}
    {hdr : CertHeader} {e : List Bytes} {expr : Bytes} {cel : CelExpr} (hc : Claims env.machine res hdr e expr cel)
    (h : verifyPair env req res minV = .ok info) :
    certVerify env.machine env.checks hdr.certificate env.canisterId env.rootKey env.now env.offset = .ok () ∧
    ∀ S T, Certifies hdr.certificate env.canisterId S T →
      Vouches T e expr cel req res ∨
      CollisionIn hdr.certificate.tree.hashed S.hashed ∨ CollisionIn hdr.tree.hashed T.hashed := by
  obtain ⟨path, h1, h2, h3, h4, h5⟩ := v2_ok.1 (claims_v2 hc h)
  refine ⟨verifyCert_ok.1 h2, fun S T hC => ?_⟩
  rcases root_agree hC h3 with hp | hcol
  · left
    unfold Vouches
    cases cel with
    | skip => obtain ⟨⟨n, hn⟩, _⟩ := h5; exact prunes_node hC.treeWF hp hn
    | responseOnly rc => exact prunes_leaf hC.treeWF hp h5.1
    | full qc rc =>
      obtain ⟨⟨qh, h6, h7⟩, _⟩ := h5
      exact ⟨qh, h6, prunes_leaf hC.treeWF hp h7⟩
  · exact .inr hcol

/-! ## C25 -/

/-- **C25** What is returned as verified: nothing if the expression says no certification; otherwise the received
status and body, and as headers exactly the certified ones, in order, followed by the IC-Certificate header. -/
theorem C25_returned {env : Env} {req : HttpRequest} {res : HttpResponse} {minV : Nat} {info : VerificationInfo}
    {hdr : CertHeader} {e : List Bytes} {expr : Bytes} {cel : CelExpr} (hc : Claims env.machine res hdr e expr cel)
    (h : verifyPair env req res minV = .ok info) :
    match cel with
    | .skip => info.response = none
    | .responseOnly rc | .full _ rc => ∃ v, LastHeader res.headers (str "IC-Certificate") v ∧
        info.response = some { statusCode := some res.status, body := res.body,
                               headers := certifiedRespHeaders rc res.headers ++ [(str "IC-Certificate", v)] } := by
  obtain ⟨path, h1, h2, h3, h4, h5⟩ := v2_ok.1 (claims_v2 hc h)
  cases cel with
  | skip => rw [h5.2]
  | responseOnly rc =>
    obtain ⟨_, v, h6, rfl⟩ := h5
    exact ⟨v, headerGet_some.1 h6, by simp only [filterRespHeaders_eq]; rfl⟩
  | full qc rc =>
    obtain ⟨_, v, h6, rfl⟩ := h5
    exact ⟨v, headerGet_some.1 h6, by simp only [filterRespHeaders_eq]; rfl⟩

/-! ## C27 -/

/-- **C27** If the claimed expression says no certification, verification succeeds exactly if the certificate is valid
and certifies the root hash of the tree, the expression path is the right one for the request, and the tree has the
hash of the expression there. No response is returned. -/
theorem C27_skip {env : Env} {req : HttpRequest} {res : HttpResponse} {minV : Nat} {info : VerificationInfo}
    {hdr : CertHeader} {e : List Bytes} {expr : Bytes} (hc : Claims env.machine res hdr e expr .skip) (hm : minV ≤ 2) :
    verifyPair env req res minV = .ok info ↔
      info = { response := none, version := 2 } ∧
      certVerify env.machine env.checks hdr.certificate env.canisterId env.rootKey env.now env.offset = .ok () ∧
      hdr.certificate.tree.lookupPath [str "canister", env.canisterId, str "certified_data"] = .found hdr.tree.digest.1 ∧
      (∃ path, req.getPath = .ok path ∧ validateExprPath e path hdr.tree = .ok ()) ∧
      ∃ n, hdr.tree.lookupSubtree (e ++ [(sha expr).1]) = .found n := by
  constructor
  · intro h
    obtain ⟨path, h1, h2, h3, h4, h5, h6⟩ := v2_ok.1 (claims_v2 hc h)
    exact ⟨h6, verifyCert_ok.1 h2, validateTree_true.1 h3, ⟨path, h1, h4⟩, h5⟩
  · rintro ⟨h1, h2, h3, ⟨path, h4, h5⟩, h6⟩
    refine verifyPair_ok.2 ⟨hdr, hc.header, by rw [hc.version]; exact hm,
      .inr ⟨hc.version, expr, e, .skip, hc.expression, hc.path, hc.parsed, ?_⟩⟩
    exact v2_ok.2 ⟨path, h4, verifyCert_ok.2 h2, validateTree_true.2 h3, h5, h6, h1⟩

/-- **C27** Conversely success without a verified response happens only for such an expression. -/
theorem C27_only_skip {env : Env} {req : HttpRequest} {res : HttpResponse} {minV : Nat} {info : VerificationInfo}
    (h : verifyPair env req res minV = .ok info) (hn : info.response = none) :
    ∃ hdr e expr, Claims env.machine res hdr e expr .skip := by
  obtain ⟨hdr, h1, h2, h3⟩ := verifyPair_ok.1 h
  rcases h3 with ⟨_, h4⟩ | ⟨h3, expr, e, cel, h4, h5, h6, h7⟩
  · obtain ⟨_, _, _, _, _, _, _, rfl⟩ := v1_ok.1 h4
    simp at hn
  · obtain ⟨_, _, _, _, _, h8⟩ := v2_ok.1 h7
    cases cel with
    | skip => exact ⟨hdr, e, expr, h1, h3, h5, h4, h6⟩
    | responseOnly rc => obtain ⟨_, _, _, rfl⟩ := h8; simp at hn
    | full qc rc => obtain ⟨_, _, _, rfl⟩ := h8; simp at hn

/-! ## C24 -/

theorem prefix_labels {L : List Bytes} {q : PathShape} (hq : q.Proper) (h : L <+: q.labels) :
    ∃ w : PathShape, w.Proper ∧ L = w.labels ∧ (w = q ∨ (w.slash = false ∧ w.segs <+: q.segs)) := by
  have base : L <+: q.segs → ∃ w : PathShape, w.Proper ∧ L = w.labels ∧ (w = q ∨ (w.slash = false ∧ w.segs <+: q.segs)) := by
    intro h
    refine ⟨⟨L, false⟩, fun hm => hq (h.subset hm), by simp [PathShape.labels], .inr ⟨rfl, h⟩⟩
  unfold PathShape.labels at h
  split at h
  · rename_i hs
    rcases List.prefix_concat_iff.1 h with rfl | h
    · exact ⟨q, hq, by simp [PathShape.labels, hs], .inl rfl⟩
    · exact base h
  · exact base (by simpa using h)

theorem wild_shape {e : List Bytes} {q : PathShape} (hq : q.Proper) (h1 : e.head? = some pathPrefix)
    (h2 : e.getLast? = some wildTerm) (h3 : isWildcardValid e.dropLast (pathPrefix :: q.labels) = true) :
    (∃ w : PathShape, w.Proper ∧ e = pathPrefix :: w.labels ++ [wildTerm] ∧
      (Matches w q ∨ (w = ⟨q.segs, true⟩ ∧ q.slash = false))) ∨
    (q.slash = true ∧ e = pathPrefix :: q.labels ++ [[], wildTerm]) := by
  obtain ⟨L, rfl⟩ : ∃ L, e = pathPrefix :: L ++ [wildTerm] := by
    cases e with
    | nil => simp at h1
    | cons a e =>
      simp at h1
      subst h1
      have : e ≠ [] := by rintro rfl; simp at h2; exact absurd h2 (by decide)
      refine ⟨e.dropLast, ?_⟩
      rw [List.getLast?_cons_of_ne_nil this] at h2
      rw [List.cons_append, List.dropLast_append_getLast? _ h2]
  rw [List.dropLast_concat] at h3
  unfold isWildcardValid at h3
  split at h3
  · rename_i h4
    rw [List.isPrefixOf_iff_prefix, List.cons_prefix_cons] at h4
    obtain ⟨w, g1, g2, g3⟩ := prefix_labels hq h4.2
    refine .inl ⟨w, g1, by rw [g2], .inl ?_⟩
    rcases g3 with rfl | ⟨g3, g4⟩
    · exact ⟨List.prefix_refl _, fun h _ => h⟩
    · exact ⟨g4, by rw [g3]; simp⟩
  · split at h3
    · rename_i h5
      have hL : L ≠ [] := by rintro rfl; simp at h5; exact absurd h5 (by decide)
      rw [List.getLast?_cons_of_ne_nil hL] at h5
      have hL2 := List.dropLast_append_getLast? _ h5
      rw [List.dropLast_cons_of_ne_nil hL, List.isPrefixOf_iff_prefix, List.cons_prefix_cons] at h3
      obtain ⟨w, g1, g2, g3⟩ := prefix_labels hq h3.2
      rw [g2] at hL2
      by_cases hw : w.slash = true
      · rcases g3 with rfl | ⟨g3, _⟩
        · right
          exact ⟨hw, by rw [← hL2]; simp⟩
        · rw [hw] at g3; simp at g3
      · have hw' : w.slash = false := by simpa using hw
        left
        refine ⟨⟨w.segs, true⟩, g1, ?_, ?_⟩
        · rw [← hL2]; simp [PathShape.labels, hw']
        · have hpre : w.segs <+: q.segs := by
            rcases g3 with rfl | ⟨_, g3⟩
            · exact List.prefix_refl _
            · exact g3
          by_cases hx : w.segs = q.segs ∧ q.slash = false
          · right; exact ⟨by simp [hx.1], hx.2⟩
          · left
            refine ⟨hpre, fun _ he => ?_⟩
            by_contra hs
            exact hx ⟨he, by simpa using hs⟩
    · simp at h3

/-- **C24** (part) The expression path of an accepted response is the best the certified tree has for the request, or
a collision is exhibited.

Missing: requests whose last segment is literally `<$>` or `<*>` (`C24_counterexample` shows that the claim is false
for them). The tree must not have two consecutive empty labels; `C24_api_tree` shows that no tree made with the
interface has. -/
theorem C24_best_path_partial {env : Env} {req : HttpRequest} {res : HttpResponse} {minV : Nat} {info : VerificationInfo}
    {hdr : CertHeader} {e : List Bytes} {expr : Bytes} {cel : CelExpr} (hc : Claims env.machine res hdr e expr cel)
    (h : verifyPair env req res minV = .ok info) {path : Bytes} (hpath : req.getPath = .ok path)
    (hend : PlainEndPath path) {S T : HashTree} (hC : Certifies hdr.certificate env.canisterId S T)
    (hT : ∀ pre post n, ¬ T.HasNode (pre ++ [[], []] ++ post) n) :
    ((∃ n, T.HasNode e n) ∧ BestPath T e (ofPath path)) ∨
      CollisionIn hdr.certificate.tree.hashed S.hashed ∨ CollisionIn hdr.tree.hashed T.hashed := by
  obtain ⟨path', h1, h2, h3, h4, h5⟩ := v2_ok.1 (claims_v2 hc h)
  rw [hpath] at h1
  simp at h1
  subst h1
  rcases root_agree hC h3 with hp | hcol
  swap
  · exact .inr hcol
  left
  have hq := ofPath_proper path
  rcases validateExprPath_ok.1 h4 with ⟨g1, n, g2⟩ | ⟨g0, g1, g2, g3, g4, ⟨ws, g5, g6⟩, n, g7⟩
  · exact ⟨prunes_node hC.treeWF hp g2, .inl g1⟩
  · have hnode := prunes_node hC.treeWF hp g7
    refine ⟨hnode, .inr ⟨prunes_absent hC.treeWF hp g3, ?_⟩⟩
    rw [pathParts_eq] at g4 g5
    rcases wild_shape hq g1 g2 g4 with ⟨w, k1, rfl, k2⟩ | ⟨k1, rfl⟩
    · refine ⟨w, k1, rfl, ?_⟩
      have hQ := strip_prefixed hq hend
      have hR := strip_prefixed_wild k1
      have he : pathPrefix :: w.labels ++ [wildTerm] = pathPrefix :: w.wildLabels := by simp [wildLabels]
      rw [he, enum_eq hq k1 hQ hR] at g5
      simp only [Option.some.injEq] at g5
      rcases k2 with k2 | ⟨k2, k3⟩
      · left
        refine ⟨k2, fun v hv hms => ?_⟩
        rw [if_pos k2.1, if_neg] at g5
        · have : v.wildLabels ∈ ws := by rw [← g5]; exact (mem_enum k2).2 ⟨v, hv, hms, rfl⟩
          exact prunes_absent hC.treeWF hp (g6 _ this)
        · rintro ⟨x1, x2, x3⟩
          have := k2.2 x1 x2
          rw [x3] at this; simp at this
      · right
        refine ⟨k2, k3, ?_⟩
        subst k2
        rw [if_pos (List.prefix_refl _), if_pos ⟨rfl, rfl, k3⟩] at g5
        have : (ofPath path).wildLabels ∈ ws := by rw [← g5]; simp
        exact prunes_absent hC.treeWF hp (g6 _ this)
    · exfalso
      obtain ⟨n', hn'⟩ := hnode
      refine hT (pathPrefix :: (ofPath path).segs) [wildTerm] n' ?_
      have : (ofPath path).labels = (ofPath path).segs ++ [[]] := by simp [PathShape.labels, k1]
      rw [this] at hn'
      simpa using hn'

/-- **C24** What holds for all requests without exception: the expression path of an accepted response exists in the certified
tree and is the exact path of the request, or else there is no exact path and it is a wildcard matching the request (or the
request with a slash added), and none of the wildcards exists that are listed, by the specification of the enumeration (C19), for
the request without a last segment `<$>` or `<*>`. -/
theorem C24_all_inputs {env : Env} {req : HttpRequest} {res : HttpResponse} {minV : Nat} {info : VerificationInfo}
    {hdr : CertHeader} {e : List Bytes} {expr : Bytes} {cel : CelExpr} (hc : Claims env.machine res hdr e expr cel)
    (h : verifyPair env req res minV = .ok info) {path : Bytes} (hpath : req.getPath = .ok path)
    {S T : HashTree} (hC : Certifies hdr.certificate env.canisterId S T)
    (hT : ∀ pre post n, ¬ T.HasNode (pre ++ [[], []] ++ post) n) :
    ((∃ n, T.HasNode e n) ∧
      (e = str "http_expr" :: (ofPath path).labels ++ [str "<$>"] ∨
       ((¬ ∃ n, T.HasNode (str "http_expr" :: (ofPath path).labels ++ [str "<$>"]) n) ∧
        ∃ w : PathShape, w.Proper ∧ e = str "http_expr" :: w.labels ++ [str "<*>"] ∧
          (Matches w (ofPath path) ∨ w = ⟨(ofPath path).segs, true⟩) ∧
          ∀ v, Listed v (ofPath path).withoutMark w → ¬ ∃ n, T.HasNode (str "http_expr" :: v.labels ++ [str "<*>"]) n))) ∨
      CollisionIn hdr.certificate.tree.hashed S.hashed ∨ CollisionIn hdr.tree.hashed T.hashed := by
  obtain ⟨path', h1, h2, h3, h4, h5⟩ := v2_ok.1 (claims_v2 hc h)
  rw [hpath] at h1
  simp at h1
  subst h1
  rcases root_agree hC h3 with hp | hcol
  swap
  · exact .inr hcol
  left
  have hq := ofPath_proper path
  rcases validateExprPath_ok.1 h4 with ⟨g1, n, g2⟩ | ⟨g0, g1, g2, g3, g4, ⟨ws, g5, g6⟩, n, g7⟩
  · exact ⟨prunes_node hC.treeWF hp g2, .inl g1⟩
  · have hnode := prunes_node hC.treeWF hp g7
    refine ⟨hnode, .inr ⟨prunes_absent hC.treeWF hp g3, ?_⟩⟩
    rw [pathParts_eq] at g4 g5
    rcases wild_shape hq g1 g2 g4 with ⟨w, k1, rfl, k2⟩ | ⟨k1, rfl⟩
    · refine ⟨w, k1, rfl, k2.imp id (fun k => k.1), fun v hv => ?_⟩
      have he : pathPrefix :: w.labels ++ [wildTerm] = pathPrefix :: w.wildLabels := by simp [wildLabels]
      obtain ⟨ws', x1, x2⟩ := listed_iff (withoutMark_proper hq) k1 (strip_prefixed_all hq) (strip_prefixed_wild k1)
      rw [he, x1] at g5
      simp only [Option.some.injEq] at g5
      subst g5
      exact prunes_absent hC.treeWF hp (g6 _ ((x2 _).2 ⟨v, hv, rfl⟩))
    · exfalso
      obtain ⟨n', hn'⟩ := hnode
      refine hT (pathPrefix :: (ofPath path).segs) [wildTerm] n' ?_
      have : (ofPath path).labels = (ofPath path).segs ++ [[]] := by simp [PathShape.labels, k1]
      rw [this] at hn'
      simpa using hn'

/-- **C24** No tree made with the interface of `HttpCertificationTree` has two consecutive empty labels. -/
theorem C24_api_tree {ops : List CtOp} {t : CertTree} (h : ctRun ops = some t) (pre post : List Bytes) (n : HashTree) :
    ¬ t.full.HasNode (pre ++ [[], []] ++ post) n := by
  intro hn
  cases pre with
  | nil =>
    unfold CertTree.full at hn
    cases hn
  | cons a pre =>
    have ha : a = str "http_expr" := by
      unfold CertTree.full at hn
      cases hn
      rfl
    subst ha
    obtain ⟨e, _, _, ⟨q, he⟩, _⟩ := ct_node_entry h (p := pre ++ [[], []] ++ post) (by simp) (by simpa using hn)
    have hno : ∀ x y, ¬ e.toTreePath = x ++ [[], []] ++ y := by
      obtain ⟨p, c⟩ := e
      have hsegs : ∀ (p : Bytes) (x y : List Bytes) (s : Bytes) (r : List Bytes), s ≠ [] → (∀ x y, r ≠ x ++ [[], []] ++ y) →
          pathSegments p ++ (if endsWithSlash p then [[]] else []) ++ s :: r ≠ x ++ [[], []] ++ y := by
        intro p x y s r hs hr heq
        have hp := pathSegments_ne_nil p
        generalize pathSegments p = l at hp heq
        induction l generalizing x with
        | nil =>
          have hr2 : ∀ x y, s :: r ≠ x ++ [[], []] ++ y := by
            intro x y hx
            cases x with
            | nil => simp at hx; exact hs hx.1
            | cons a x => simp at hx; exact hr x y (by simpa using hx.2)
          split at heq
          · cases x with
            | nil => simp at heq; exact hs heq.1
            | cons a x => simp at heq; exact hr2 x y (by simpa using heq.2)
          · exact hr2 x y (by simpa using heq)
        | cons b l ih =>
          simp at hp
          cases x with
          | nil => simp at heq; exact hp.1 heq.1
          | cons a x => simp at heq; exact ih x (by simpa using hp.2) (by simpa using heq.2)
      have hlen : ∀ a : Hash, a.1 ≠ [] := by
        intro a ha; have := a.2; rw [ha] at this; simp at this
      have hcert : ∀ x y, c.toTreePath ≠ x ++ [[], []] ++ y := by
        intro x y heq
        have l3 : ∀ (a b c : Bytes) (x y : List Bytes), a ≠ [] → c ≠ [] → [a, b, c] ≠ x ++ [[], []] ++ y := by
          intro a b c x y ha hc heq
          rcases x with _ | ⟨x1, _ | ⟨x2, x⟩⟩
          · simp at heq; exact ha heq.1
          · simp at heq; exact hc heq.2.2.1
          · have := congrArg List.length heq
            simp at this
            omega
        cases c with
        | skip c =>
          have := congrArg List.length heq
          simp [HttpCert.toTreePath] at this
          omega
        | responseOnly c r => exact l3 _ _ _ x y (hlen c) (hlen r) heq
        | full c q r => exact l3 _ _ _ x y (hlen c) (hlen r) heq
      intro x y heq
      cases p with
      | exact p => exact hsegs p x y exactTerm c.toTreePath (by decide) hcert (by
          simpa [CertEntry.toTreePath, HttpPath.toTreePath, pathToSegments, pathParts] using heq)
      | wildcard p => exact hsegs p x y wildTerm c.toTreePath (by decide) hcert (by
          simpa [CertEntry.toTreePath, HttpPath.toTreePath, pathToSegments, pathParts] using heq)
    exact hno pre (post ++ q) (by rw [← he]; simp)

/-! ## C28 -/

/-- **C28** A version 1 response is accepted only if its certificate is valid and the certified tree has, under
`http_assets` and the request path, the hash of the body, decoded or as received (the latter only if there is a
Content-Encoding header); or, if the response does not show an entry for the path, under `http_assets/index.html`.
Otherwise a collision is exhibited. Only the body is returned as verified. -/
theorem C28_sound {env : Env} {req : HttpRequest} {res : HttpResponse} {minV : Nat} {info : VerificationInfo}
    {hdr : CertHeader} (hc : CarriesHeader env.machine res hdr) (hv : hdr.version = 1)
    (h : verifyPair env req res minV = .ok info) :
    certVerify env.machine env.checks hdr.certificate env.canisterId env.rootKey env.now env.offset = .ok () ∧
    info = { response := some { statusCode := none, headers := [], body := res.body }, version := 1 } ∧
    ∃ path enc decoded body, req.getPath = .ok path ∧
      (LastHeader res.headers (str "content-encoding") enc ∨ (NoHeader res.headers (str "content-encoding") ∧ enc = [])) ∧
      ((enc = str "gzip" ∧ Inflate.gunzip res.body = some decoded) ∨
        (enc = str "deflate" ∧ Inflate.inflate res.body = some decoded) ∨
        (enc ≠ str "gzip" ∧ enc ≠ str "deflate" ∧ decoded = res.body)) ∧
      (body = decoded ∨ body = res.body) ∧
      ∀ S T, Certifies hdr.certificate env.canisterId S T →
        (T.HasLeaf [str "http_assets", path] (sha body).1 ∨
          ((∀ v, hdr.tree.lookupPath [str "http_assets", path] ≠ .found v) ∧
            T.HasLeaf [str "http_assets", str "/index.html"] (sha body).1)) ∨
        CollisionIn hdr.certificate.tree.hashed S.hashed ∨ CollisionIn hdr.tree.hashed T.hashed := by
  obtain ⟨hdr', h1, h2, h3⟩ := verifyPair_ok.1 h
  have := carriesHeader_unique h1 hc
  subst this
  rcases h3 with ⟨_, h4⟩ | ⟨h3, _⟩
  swap
  · rw [hv] at h3; simp at h3
  obtain ⟨path, decoded, g1, g2, g3, g4, g5, g6⟩ := v1_ok.1 h4
  refine ⟨verifyCert_ok.1 g1, g6, ?_⟩
  have hbody : ∀ b, validateBody hdr'.tree path (sha b) = true → ∀ S T, Certifies hdr'.certificate env.canisterId S T →
        (T.HasLeaf [str "http_assets", path] (sha b).1 ∨
          ((∀ v, hdr'.tree.lookupPath [str "http_assets", path] ≠ .found v) ∧
            T.HasLeaf [str "http_assets", str "/index.html"] (sha b).1)) ∨
        CollisionIn hdr'.certificate.tree.hashed S.hashed ∨ CollisionIn hdr'.tree.hashed T.hashed := by
    intro b hb S T hC
    rcases root_agree hC g4 with hp | hcol
    swap
    · exact .inr hcol
    left
    unfold validateBody at hb
    split at hb
    · rename_i v hv
      simp at hb
      subst hb
      exact .inl (prunes_leaf hC.treeWF hp ((C04_found_iff _ _ _).1 hv))
    · rename_i hnf
      right
      refine ⟨fun v hv => hnf v hv, ?_⟩
      split at hb
      · rename_i v hv
        simp at hb
        subst hb
        exact prunes_leaf hC.treeWF hp ((C04_found_iff _ _ _).1 hv)
      · simp at hb
  obtain ⟨enc, e1, e2⟩ : ∃ enc, (LastHeader res.headers (str "content-encoding") enc ∨
      (NoHeader res.headers (str "content-encoding") ∧ enc = [])) ∧
      ((enc = str "gzip" ∧ Inflate.gunzip res.body = some decoded) ∨
        (enc = str "deflate" ∧ Inflate.inflate res.body = some decoded) ∨
        (enc ≠ str "gzip" ∧ enc ≠ str "deflate" ∧ decoded = res.body)) := by
    unfold decodeBody at g3
    cases hg : headerGet res.headers (str "content-encoding") with
    | none =>
      rw [hg] at g3
      simp at g3
      exact ⟨[], .inr ⟨headerGet_none.1 hg, rfl⟩, .inr (.inr ⟨by decide, by decide, g3.symm⟩)⟩
    | some enc =>
      rw [hg] at g3
      refine ⟨enc, .inl (headerGet_some.1 hg), ?_⟩
      simp only [Option.some.injEq] at g3
      split at g3
      · rename_i x; exact .inl ⟨x, Out.ofOption_ok.1 g3⟩
      · rename_i x
        split at g3
        · rename_i y; exact .inr (.inl ⟨y, Out.ofOption_ok.1 g3⟩)
        · rename_i y; simp at g3; exact .inr (.inr ⟨x, y, g3.symm⟩)
  rcases g5 with g5 | ⟨_, g5⟩
  · exact ⟨path, enc, decoded, decoded, g2, e1, e2, .inl rfl, hbody _ g5⟩
  · exact ⟨path, enc, decoded, res.body, g2, e1, e2, .inr rfl, hbody _ g5⟩

/-- **C28**, the converse. A version 1 response is accepted if its certificate is valid and certifies the root hash of
the tree in the header, and that tree shows under `http_assets` and the request path (or, if it shows nothing there,
under `http_assets/index.html`) the hash of the decoded body, or, with a Content-Encoding header, of the body as
received. -/
theorem C28_accepts {env : Env} {req : HttpRequest} {res : HttpResponse} {minV : Nat}
    {hdr : CertHeader} (hc : CarriesHeader env.machine res hdr) (hv : hdr.version = 1) (hmin : minV ≤ 1)
    (hver : certVerify env.machine env.checks hdr.certificate env.canisterId env.rootKey env.now env.offset = .ok ())
    (hroot : hdr.certificate.tree.lookupPath [str "canister", env.canisterId, str "certified_data"] =
      .found hdr.tree.digest.1)
    {path decoded body : Bytes} (hpath : req.getPath = .ok path)
    (hbody : (NoHeader res.headers (str "content-encoding") ∧ body = res.body) ∨
      ∃ enc, LastHeader res.headers (str "content-encoding") enc ∧
        ((enc = str "gzip" ∧ Inflate.gunzip res.body = some decoded) ∨
          (enc = str "deflate" ∧ Inflate.inflate res.body = some decoded) ∨
          (enc ≠ str "gzip" ∧ enc ≠ str "deflate" ∧ decoded = res.body)) ∧ (body = decoded ∨ body = res.body))
    (htree : hdr.tree.lookupPath [str "http_assets", path] = .found (sha body).1 ∨
      ((∀ v, hdr.tree.lookupPath [str "http_assets", path] ≠ .found v) ∧
        hdr.tree.lookupPath [str "http_assets", str "/index.html"] = .found (sha body).1)) :
    verifyPair env req res minV =
      .ok { response := some { statusCode := none, headers := [], body := res.body }, version := 1 } := by
  have hval : validateBody hdr.tree path (sha body) = true := by
    unfold validateBody
    rcases htree with h | ⟨h1, h2⟩
    · rw [h]; simp
    · split
      · rename_i v hv; exact absurd hv (h1 v)
      · rw [h2]; simp
  refine verifyPair_ok.2 ⟨hdr, hc, by rw [hv]; exact hmin, .inl ⟨hv, v1_ok.2 ?_⟩⟩
  rcases hbody with ⟨h1, rfl⟩ | ⟨enc, h1, h2, h3⟩
  · have hg := headerGet_none.2 h1
    refine ⟨path, res.body, verifyCert_ok.2 hver, hpath, ?_, validateTree_true.2 hroot, .inl hval, rfl⟩
    rw [hg]; rfl
  · have hg := headerGet_some.2 h1
    refine ⟨path, decoded, verifyCert_ok.2 hver, hpath, ?_, validateTree_true.2 hroot, ?_, rfl⟩
    · rw [hg]
      unfold decodeBody
      rcases h2 with ⟨rfl, h2⟩ | ⟨rfl, h2⟩ | ⟨a, b, rfl⟩
      · rw [if_pos rfl, h2]; rfl
      · rw [if_neg (by decide), if_pos rfl, h2]; rfl
      · rw [if_neg (by simpa using a), if_neg (by simpa using b)]
    · rcases h3 with rfl | rfl
      · exact .inl hval
      · exact .inr ⟨by rw [hg]; rfl, hval⟩

end

/-! ## Counterexamples -/

/-- Two wildcard entries made with the interface, `/a` and `/a/`. -/
def exTwoWild : List CtOp :=
  [.insert ⟨.wildcard (str "/a"), .responseOnly h1 h0⟩, .insert ⟨.wildcard (str "/a/"), .responseOnly h1 h1⟩]

/-- The claim of C24 is false for a request whose last segment is literally `<*>`: the wildcard `/a` is accepted for
the request path `/a/<*>` although the tree (shown in full) has the more specific wildcard `/a/`, which matches too.
The last segment is mistaken for a terminator and stripped. -/
theorem C24_counterexample : letI := toySHA; ∃ t, ctRun exTwoWild = some t ∧
    validateExprPath [str "http_expr", str "a", str "<*>"] (str "/a/<*>") t.full = .ok () ∧
    t.full.HasNode [str "http_expr", str "a", [], str "<*>"]
      (.labeled h1.1 (.labeled [] (.labeled h1.1 (.leaf [])))) ∧
    Matches ⟨[str "a"], true⟩ (ofPath (str "/a/<*>")) ∧ MoreSpecific ⟨[str "a"], true⟩ (ofPath (str "/a")) := by
  let _ := toySHA
  refine ⟨_, rfl, rfl, ?_, ⟨by decide, by decide⟩, .inr (by decide)⟩
  show HasNode (.labeled (str "http_expr") (.labeled (str "a") (.fork (.labeled [] (.labeled (str "<*>") _)) _))) _ _
  exact .down (.down (.left (.down (.down (.here _)))))

/-- A certified tree of version 1 in which the paths `/a.js` and `/index.html` have different values. -/
def exV1Tree : HashTree :=
  .labeled (str "http_assets") (.fork (.labeled (str "/a.js") (.leaf h0.1)) (.labeled (str "/index.html") (.leaf h1.1)))

/-- Of C28 "only when the former is not found" is all that can be said: from a response that prunes the entry for the
requested path, the body of `/index.html` is accepted for it, although the certified tree has another body for that
path. -/
theorem C28_counterexample_index : letI := toySHA; ∃ t, Prunes t exV1Tree ∧ exV1Tree.WellFormed ∧
    exV1Tree.HasLeaf [str "http_assets", str "/a.js"] h0.1 ∧ h0 ≠ h1 ∧
    ∀ bodySha : Hash, validateBody t (str "/a.js") bodySha = true ↔ bodySha = h1 := by
  let _ := toySHA
  refine ⟨.labeled (str "http_assets") (.fork (.pruned (HashTree.digest (.labeled (str "/a.js") (.leaf h0.1))))
    (.labeled (str "/index.html") (.leaf h1.1))), ?_, ?_, ?_, by decide, ?_⟩
  · exact .labeled (.fork (.prune _) (.labeled (.leaf _)))
  · unfold WellFormed exV1Tree; simp only [WF, HashTree.labels]; decide
  · exact .down (.left (.down (.here _)))
  · intro b
    have : validateBody (.labeled (str "http_assets") (.fork (.pruned (HashTree.digest (.labeled (str "/a.js") (.leaf h0.1))))
      (.labeled (str "/index.html") (.leaf h1.1)))) (str "/a.js") b = (b.1 == h1.1) := rfl
    rw [this, beq_iff_eq, Subtype.ext_iff]

end Verif.Props
