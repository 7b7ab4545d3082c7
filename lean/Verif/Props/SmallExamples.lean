import Verif.Model.SmallExamples
import Verif.Props.SkipCert
import Verif.Props.Candid

set_option linter.unusedSectionVars false

/-! # C70: the example canisters that skip certification and that upgrade to update calls -/

namespace Verif.Props
open Verif HashTree PathShape

section
variable [SHA] [UriLib] [Bls] [Inflate]

/-- **C70.** Once installed, the canister that skips certification answers every query that has a data certificate, at
any time, and the answer is accepted for every request with a parsable URL if the certificate is valid and carries the
data that `init` set. It has status 200, a page with the time of the query, one `content-length` header, the length of
that page, and nothing in it is returned as verified. -/
theorem C70_skip {env : Env} {req : HttpRequest} {path dataCert : Bytes} {c : Certificate} {minV : Nat} (time : Nat)
    (hpath : req.getPath = .ok path)
    (hcert : certificateFromCbor env.machine dataCert = some (.ok c))
    (hver : certVerify env.machine env.checks c env.canisterId env.rootKey env.now env.offset = .ok ())
    (hroot : c.tree.lookupPath [str "canister", env.canisterId, str "certified_data"] = .found skipCanisterInit)
    (hm : 32 < env.machine.usize) (hs : 6 ≤ env.machine.stack) (hmin : minV ≤ 2) :
    ∃ res, skipCanisterRequest (some dataCert) time = some res ∧
      verifyPair env req res minV = .ok { response := none, version := 2 } ∧
      res.status = 200 ∧ (∃ pre post, res.body = pre ++ decimal time ++ post) ∧
      ∀ v, (str "content-length", v) ∈ res.headers ↔ v = decimal res.body.length := by
  refine ⟨_, rfl, C51_accepts _ hpath hcert hver hroot hm hs hmin, rfl, ⟨_, _, rfl⟩, fun v => ?_⟩
  have h1 : ∀ p ∈ customSecurityHeaders, p.1 ≠ str "content-length" := by decide +kernel
  have n1 : str "content-type" ≠ str "content-length" := by decide +kernel
  have n2 : certHeaderName ≠ str "content-length" := by decide +kernel
  have n3 : certExprHeaderName ≠ str "content-length" := by decide +kernel
  simp only [addSkipCertificationHeader, addV2CertificateHeader, skipResponse, FullResponse.plain, ResponseBuilder.build,
    ResponseBuilder.withBody, ResponseBuilder.withHeaders, ResponseBuilder.withStatus, ResponseBuilder.new, List.mem_append,
    List.mem_cons, List.not_mem_nil, or_false, Prod.mk.injEq, n1.symm, n2.symm, n3.symm, false_and, true_and, or_false]
  constructor
  · rintro (h | h)
    · exact absurd rfl (h1 _ h)
    · exact h
  · exact fun h => .inr h

/-- Without a data certificate (an update call) the query method of that canister traps. -/
example (time : Nat) : skipCanisterRequest none time = none := rfl

/-- **C70.** With the data that `init` set certified, no response to any request is ever returned as verified (or else
there is a collision of SHA-256 among what the two sides hash). -/
theorem C70_skip_only {env : Env} {req : HttpRequest} {res : HttpResponse} {minV : Nat} {info : VerificationInfo}
    {hdr : CertHeader} {S : HashTree} (hc : CarriesHeader env.machine res hdr) (h : verifyPair env req res minV = .ok info)
    (hwf : S.WellFormed) (hroot : S.digest = hdr.certificate.tree.digest)
    (hdata : S.HasLeaf [str "canister", env.canisterId, str "certified_data"] skipCanisterInit) :
    info = { response := none, version := 2 } ∨
    CollisionIn hdr.certificate.tree.hashed S.hashed ∨ CollisionIn hdr.tree.hashed skipAssetTree.hashed := by
  rcases C51_only_skip hc h ⟨hwf, hroot, hdata, skipTree_wf⟩ with h | h
  · exact .inl h.1
  · exact .inr h

end

/-- **C70.** What a gateway decodes from the answer to a query of the other canister always asks for an update call, and
what it decodes from the answer to the update call is the teapot. -/
theorem C70_upgrade :
    (∃ q, decodeResponse (encodeResponse upgradeQuery) = some q ∧ q.upgrade = some true ∧ q.status = 200 ∧ q.body = []) ∧
    (∃ u, decodeUpdateResponse (encodeUpdateResponse upgradeUpdate) = some u ∧ u.status = 418 ∧ u.body = str "I'm a teapot") := by
  obtain ⟨h1, h2, -⟩ := C69_response upgradeQuery upgradeUpdate (by decide) (by decide)
  exact ⟨⟨_, h1, rfl, rfl, rfl⟩, ⟨_, h2, rfl, rfl⟩⟩

/-- **C70.** The Motoko version of that canister cannot be told from the Rust one: what a gateway decodes from its answers is the
same, both as the type of query answers and as the type of update answers. -/
theorem C70_motoko :
    decodeResponse motokoQuery = some upgradeQuery ∧ decodeUpdateResponse motokoUpdate = some upgradeUpdate ∧
    decodeResponse motokoQuery = decodeResponse (encodeResponse upgradeQuery) ∧
    decodeUpdateResponse motokoUpdate = decodeUpdateResponse (encodeUpdateResponse upgradeUpdate) := by
  obtain ⟨h1, h2, -⟩ := C69_response upgradeQuery upgradeUpdate (by decide) (by decide)
  have e1 : decodeResponse motokoQuery = some upgradeQuery := by decide +kernel
  have e2 : decodeUpdateResponse motokoUpdate = some upgradeUpdate := by decide +kernel
  exact ⟨e1, e2, e1.trans h1.symm, e2.trans h2.symm⟩

section examples
attribute [local instance] toySHA toyUri toyBls toyInflate

/-- The hypotheses of `C70_skip` are met. -/
example (time : Nat) : ∃ res, skipCanisterRequest (some (encCertificate (exStateCert skipCanisterInit))) time = some res ∧
    verifyPair exEnv ⟨str "POST", str "/any/<*>?q", [], str "body"⟩ res 2 = .ok { response := none, version := 2 } := by
  obtain ⟨res, h1, h2, -⟩ := C70_skip (env := exEnv) (req := ⟨str "POST", str "/any/<*>?q", [], str "body"⟩) (path := str "/any/<*>")
    (dataCert := encCertificate (exStateCert skipCanisterInit)) (minV := 2) time rfl
    (C37_certificate_roundtrip exMachine (exStateCert skipCertifiedData.1) (by decide) (by decide) (by decide +kernel) (by decide)
      (by intro d hd; simp [exStateCert] at hd) (by decide)).1
    (exCert_verifies _) rfl (by decide) (by decide) (by decide)
  exact ⟨res, h1, h2⟩

end examples
end Verif.Props
