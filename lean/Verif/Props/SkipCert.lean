import Verif.Props.CelGrammar
import Verif.Model.SkipCert
import Verif.Props.Complete

set_option linter.unusedSimpArgs false

/-!
# Property C51: switching certification off for a whole canister
-/

namespace Verif.Props
open Verif HashTree PathShape

section
variable [SHA]

theorem skipTree_wf : skipAssetTree.WellFormed := by
  unfold WellFormed skipAssetTree
  simp [WF, HashTree.labels]

/-- The paths in the tree are the beginnings of one path. -/
theorem skipTree_node {p : List Bytes} {n : HashTree} (h : skipAssetTree.HasNode p n) :
    p <+: [str "http_expr", str "<*>", (sha CelExpr.skip.toBytes).1] := by
  unfold skipAssetTree at h
  cases h with
  | here => exact List.nil_prefix
  | down h =>
    cases h with
    | here => exact ⟨[str "<*>", (sha CelExpr.skip.toBytes).1], rfl⟩
    | down h =>
      cases h with
      | here => exact ⟨[(sha CelExpr.skip.toBytes).1], rfl⟩
      | down h =>
        cases h with
        | here => exact ⟨[], rfl⟩

theorem skipTree_absent {p : List Bytes} (h : ¬ p <+: [str "http_expr", str "<*>", (sha CelExpr.skip.toBytes).1]) :
    skipAssetTree.lookupSubtree p = .absent := by
  have ok := lookupSubtree_ok skipTree_wf (Prunes.refl _) p
  cases e : skipAssetTree.lookupSubtree p with
  | absent => rfl
  | unknown => exact absurd e (lookupSubtree_full_ne_unknown skipTree_wf p)
  | found n =>
    rw [e] at ok
    obtain ⟨n', h1, -⟩ := ok
    exact absurd (skipTree_node h1) h

theorem not_prefix {l : List Bytes} {t : Bytes} (ht : t = exactTerm ∨ t = wildTerm)
    (h : ¬ (l = [] ∧ t = wildTerm)) : ¬ (pathPrefix :: (l ++ [t])) <+: [str "http_expr", str "<*>", (sha CelExpr.skip.toBytes).1] := by
  rintro ⟨r, hr⟩
  have hlen : (sha CelExpr.skip.toBytes).1.length = 32 := (sha CelExpr.skip.toBytes).2
  have ht3 : t.length = 3 := by rcases ht with rfl | rfl <;> rfl
  cases l with
  | nil =>
    simp only [List.nil_append, List.cons_append, List.cons.injEq] at hr
    exact h ⟨rfl, hr.2.1⟩
  | cons x l =>
    cases l with
    | nil =>
      simp only [List.nil_append, List.cons_append, List.cons.injEq] at hr
      rw [hr.2.2.1] at ht3
      omega
    | cons y l =>
      have := congrArg List.length hr
      simp at this

omit [SHA] in
theorem loop_nonempty {fuel : Nat} {pp : List Bytes} {ws : List (List Bytes)} (h : moreSpecificLoop fuel pp [] = some ws) :
    ∀ w ∈ ws, ∃ q, q ≠ [] ∧ w = q ++ [wildTerm] := by
  induction fuel generalizing pp ws with
  | zero => simp [moreSpecificLoop] at h
  | succ fuel ih =>
    unfold moreSpecificLoop at h
    split at h
    · rename_i hc
      rw [Option.map_eq_some_iff] at h
      obtain ⟨ws', h1, rfl⟩ := h
      intro w hw
      rcases List.mem_cons.1 hw with rfl | hw
      · refine ⟨pp, ?_, rfl⟩
        rintro rfl
        simp at hc
      · exact ih h1 w hw
    · simp only [Option.some.injEq] at h
      subst h
      simp

/-- The claims of a response with the headers of `add_skip_certification_header`. -/
theorem skip_claims {env : Env} {dataCert : Bytes} {c : Certificate} (res : HttpResponse)
    (hcert : certificateFromCbor env.machine dataCert = some (.ok c)) (hm : 32 < env.machine.usize) (hs : 6 ≤ env.machine.stack) :
    Claims env.machine (addSkipCertificationHeader dataCert res)
      { certificate := c, tree := skipAssetTree, version := 2, exprPath := some [pathPrefix, wildTerm] }
      [pathPrefix, wildTerm] CelExpr.skip.toBytes .skip := by
  have hfits : ∀ n, n ≤ 32 → env.machine.Fits n := by
    intro n hn
    exact ⟨by omega, by omega⟩
  have hhdr := C34_roundtrip env.machine dataCert c skipAssetTree [pathPrefix, wildTerm] hm hcert
    ⟨hfits _ (by decide), hfits _ (by decide), hfits _ (le_of_eq (sha CelExpr.skip.toBytes).2), hfits _ (by decide)⟩
    (by simpa [skipAssetTree, HashTree.height] using hs) (hfits _ (by decide)) (by
      intro s hs
      simp only [List.mem_cons, List.not_mem_nil, or_false] at hs
      rcases hs with rfl | rfl
      · exact ⟨chars_str (by decide), hfits _ (by decide)⟩
      · exact ⟨chars_str (by decide), hfits _ (by decide)⟩)
  refine ⟨⟨utf8 (v2HeaderText dataCert skipAssetTree [pathPrefix, wildTerm]), ⟨res.headers, certHeaderName,
    [(certExprHeaderName, CelExpr.skip.toBytes)], ?_, by decide, ?_⟩, ?_⟩, rfl, rfl, ?_, ?_⟩
  · show (res.headers ++ [_]) ++ [_] = _
    rw [List.append_assoc]
    rfl
  · intro h hh
    rw [List.mem_singleton] at hh
    subst hh
    show ¬ SameName certExprHeaderName (str "IC-Certificate")
    decide
  · rw [chars_utf8]; exact hhdr
  · exact ⟨_, _, [], rfl, by decide, by simp⟩
  · exact C78_written _ .skip (by simp [CelExpr.names])

variable [UriLib] [Bls] [Inflate]

/-- **C51.** `skip_certification_certified_data` is the root hash of the certification tree with the one entry that
skips certification for every path. -/
theorem C51_data : ∃ t, ctRun [.insert ⟨.wildcard (str ""), .mkSkip⟩] = some t ∧ t.rootHash = skipCertifiedData := by
  have e : (⟨.wildcard (str ""), .mkSkip⟩ : CertEntry).toTreePath = [wildTerm, (sha CelExpr.skip.toBytes).1] := rfl
  have hs : ∀ x : Bytes, cmpB x x = .eq := fun x => cmpB_eq.2 rfl
  simp only [ctRun, CtOp.run, CertTree.insert, e, NTree.insert, CertTree.default, NTree.default, Rb.get, Rb.insert,
    Rb.insertGo, List.foldlM, Rb.newNode, Rb.setColor, Rb.modify, Rb.mk, hs, Option.map, bind, Option.bind, pure]
  refine ⟨_, rfl, ?_⟩
  rfl

/-- **C51.** If a valid certificate carries `skip_certification_certified_data` as the certified data of the canister,
then every response with the headers of `add_skip_certification_header` is accepted for every request (with a URL that
can be parsed), and no response is returned as verified. -/
theorem C51_accepts {env : Env} {req : HttpRequest} {path dataCert : Bytes} {c : Certificate} {minV : Nat}
    (res : HttpResponse) (hpath : req.getPath = .ok path)
    (hcert : certificateFromCbor env.machine dataCert = some (.ok c))
    (hver : certVerify env.machine env.checks c env.canisterId env.rootKey env.now env.offset = .ok ())
    (hroot : c.tree.lookupPath [str "canister", env.canisterId, str "certified_data"] = .found skipCertifiedData.1)
    (hm : 32 < env.machine.usize) (hs : 6 ≤ env.machine.stack) (hmin : minV ≤ 2) :
    verifyPair env req (addSkipCertificationHeader dataCert res) minV = .ok { response := none, version := 2 } := by
  have hclaims := skip_claims res hcert hm hs
  refine (C27_skip hclaims hmin).2 ⟨rfl, hver, hroot, ⟨path, hpath, ?_⟩, .leaf [], ?_⟩
  · refine validateExprPath_ok.2 (.inr ⟨?_, rfl, rfl, ?_, ?_, ?_,
      .labeled (sha CelExpr.skip.toBytes).1 (.leaf []), rfl⟩)
    · intro h
      have := congrArg List.getLast? h
      rw [List.getLast?_append] at this
      have : some wildTerm = some exactTerm := this
      exact absurd this (by decide)
    · exact skipTree_absent (not_prefix (.inl rfl) (by simp [exactTerm_ne]))
    · show isWildcardValid [pathPrefix] (pathPrefix :: pathParts path) = true
      simp [isWildcardValid, List.isPrefixOf]
    · obtain ⟨ws, hws⟩ := C19_terminates (pathPrefix :: pathParts path) [pathPrefix, wildTerm]
      refine ⟨ws, hws, fun w hw => ?_⟩
      have h1 : stripAffixes [pathPrefix, wildTerm] = [] := by decide
      have h2 : ∀ pp, isWildcardValid [] pp = true := fun pp => by simp [isWildcardValid]
      simp only [moreSpecificWildcards, h1, h2, if_true] at hws
      obtain ⟨q, hq, rfl⟩ := loop_nonempty hws w hw
      exact skipTree_absent (not_prefix (.inr rfl) (by simp [hq]))
  · have : cmpB (sha CelExpr.skip.toBytes).1 (sha CelExpr.skip.toBytes).1 = .eq := cmpB_eq.2 rfl
    show (match (HashTree.labeled (sha CelExpr.skip.toBytes).1 (.leaf [])).lookupLabel (sha CelExpr.skip.toBytes).1 with
      | .found n => lookupSubtree [] n
      | .unknown => .unknown
      | .absent => .absent
      | .greater => .absent
      | .less => .absent) = _
    simp only [lookupLabel, this, lookupSubtree]

/-- **C51.** Conversely, if the certificate of an accepted response is one whose state tree records
`skip_certification_certified_data`, then no response is returned as verified, and the response claims the expression
for no certification, at the path for all requests (or else there is a collision of SHA-256). In particular version 1
responses are not accepted. -/
theorem C51_only_skip {env : Env} {req : HttpRequest} {res : HttpResponse} {minV : Nat} {info : VerificationInfo}
    {hdr : CertHeader} {S : HashTree} (hc : CarriesHeader env.machine res hdr) (h : verifyPair env req res minV = .ok info)
    (hC : Certifies hdr.certificate env.canisterId S skipAssetTree) :
    (info = { response := none, version := 2 } ∧
      ∃ expr, Claims env.machine res hdr [str "http_expr", str "<*>"] expr .skip ∧ sha expr = sha CelExpr.skip.toBytes) ∨
    CollisionIn hdr.certificate.tree.hashed S.hashed ∨ CollisionIn hdr.tree.hashed skipAssetTree.hashed := by
  obtain ⟨hdr', h1, -, h2⟩ := verifyPair_ok.1 h
  have := carriesHeader_unique h1 hc
  subst this
  rcases h2 with ⟨hv, -⟩ | ⟨hv, expr, e, cel, h3, h4, h5, h6⟩
  · obtain ⟨-, -, path, enc, decoded, body, -, -, -, -, h7⟩ := C28_sound hc hv h
    rcases h7 S _ hC with (h8 | ⟨-, h8⟩) | h8
    · obtain ⟨r, hr⟩ := skipTree_node h8
      simp only [List.cons_append, List.cons.injEq] at hr
      exact absurd hr.1 (by decide)
    · obtain ⟨r, hr⟩ := skipTree_node h8
      simp only [List.cons_append, List.cons.injEq] at hr
      exact absurd hr.1 (by decide)
    · exact .inr h8
  · have hcl : Claims env.machine res hdr' e expr cel := ⟨hc, hv, h4, h3, h5⟩
    rcases (C23_sound hcl h).2 S _ hC with hvo | hcol | hcol
    rotate_left
    · exact .inr (.inl hcol)
    · exact .inr (.inr hcol)
    obtain ⟨_, _, _, _, hpath, hfin⟩ := v2_ok.1 h6
    obtain ⟨L, u, hu, rfl⟩ := accepted_shape hpath
    have hlong : ∀ (a b c : Bytes) {n : HashTree}, ¬ skipAssetTree.HasNode (str "http_expr" :: (L ++ [u]) ++ [a, b, c]) n := by
      intro a b c n hn
      obtain ⟨r, hr⟩ := skipTree_node hn
      have := congrArg List.length hr
      simp at this
      omega
    cases cel with
    | skip =>
      obtain ⟨n, hn⟩ := hvo
      obtain ⟨r, hr⟩ := skipTree_node hn
      have hlen := congrArg List.length hr
      simp only [List.length_append, List.length_cons, List.length_nil] at hlen
      have hL : L = [] := List.length_eq_zero_iff.1 (by omega)
      have hr' : r = [] := List.length_eq_zero_iff.1 (by omega)
      subst hL; subst hr'
      simp only [List.nil_append, List.cons_append, List.append_nil, List.cons.injEq, and_true, true_and] at hr
      obtain ⟨rfl, hs⟩ := hr
      exact .inl ⟨hfin.2, expr, hcl, Subtype.ext hs⟩
    | responseOnly rc => exact absurd hvo (hlong _ _ _)
    | full qc rc =>
      obtain ⟨qh, -, hn⟩ := hvo
      exact absurd hn (hlong _ _ _)

/-! ## Concrete cases -/

end

section
attribute [local instance] toySHA toyUri toyBls toyInflate

/-- The hypotheses of `C51_accepts` are met: anything is accepted, for any request. -/
theorem exSkipAll (res : HttpResponse) : verifyPair exEnv ⟨str "POST", str "/any/<*>?q", [], str "body"⟩
    (addSkipCertificationHeader (encCertificate (exStateCert skipCertifiedData.1)) res) 2 =
      .ok { response := none, version := 2 } :=
  C51_accepts (path := str "/any/<*>") res rfl
    (C37_certificate_roundtrip exMachine (exStateCert skipCertifiedData.1) (by decide) (by decide) (by decide +kernel) (by decide)
      (by intro d hd; simp [exStateCert] at hd) (by decide)).1
    (exCert_verifies _) rfl (by decide) (by decide) (by decide)

/-- The hypotheses of `C51_only_skip` are met by it. -/
example (res : HttpResponse) : ∃ hdr info, CarriesHeader exEnv.machine
      (addSkipCertificationHeader (encCertificate (exStateCert skipCertifiedData.1)) res) hdr ∧
    verifyPair exEnv ⟨str "POST", str "/any/<*>?q", [], str "body"⟩
      (addSkipCertificationHeader (encCertificate (exStateCert skipCertifiedData.1)) res) 2 = .ok info ∧
    Certifies hdr.certificate exEnv.canisterId (exStateCert skipCertifiedData.1).tree skipAssetTree := by
  have hcert := (C37_certificate_roundtrip exMachine (exStateCert skipCertifiedData.1) (by decide) (by decide)
    (by decide +kernel) (by decide) (by intro d hd; simp [exStateCert] at hd) (by decide)).1
  have hcl := skip_claims (env := exEnv) res hcert (by decide) (by decide)
  refine ⟨_, _, hcl.header, exSkipAll res, ?_⟩
  refine ⟨?_, rfl, ?_, skipTree_wf⟩
  · unfold WellFormed exStateCert; simp only [WF, HashTree.labels]; decide
  · exact .left (.down (.down (.down (.here _))))

end
end Verif.Props
