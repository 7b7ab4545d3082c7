import Verif.Spec.Network
import Verif.Props.EndToEnd

set_option linter.unusedSimpArgs false
set_option linter.unusedSectionVars false

/-!
# C79: what is accepted was certified within the time window
-/

namespace Verif.Props
open Verif HashTree PathShape NTree

theorem prunes_hasNode {w T n : HashTree} {p : List Bytes} [SHA] (hp : Prunes w T) (h : HasNode w p n) :
    ∃ n', HasNode T p n' ∧ Prunes n n' := by
  induction h generalizing T with
  | here t => exact ⟨T, .here _, hp⟩
  | left _ ih => cases hp with | fork a b => obtain ⟨n', h1, h2⟩ := ih a; exact ⟨n', .left h1, h2⟩
  | right _ ih => cases hp with | fork a b => obtain ⟨n', h1, h2⟩ := ih b; exact ⟨n', .right h1, h2⟩
  | down _ ih => cases hp with | labeled a => obtain ⟨n', h1, h2⟩ := ih a; exact ⟨n', .down h1, h2⟩

theorem prunes_hasLeaf {w T : HashTree} {p : List Bytes} {v : Bytes} [SHA] (hp : Prunes w T) (h : HasLeaf w p v) : HasLeaf T p v := by
  obtain ⟨n', h1, h2⟩ := prunes_hasNode hp h
  cases h2
  exact h1

section
variable [SHA] [UriLib] [Bls] [Inflate]

omit [UriLib] [Inflate] in
/-- A verified certificate, of an honest network, shows the certified data the canister had at a time in the window. -/
theorem fresh_cert {net : Network} {m : Machine} {checks : Bool} {c : Certificate} {id root : Bytes} {now off : Nat}
    (hn : net.Honest m id root) (hf : net.NoForgery m root c) (h : certVerify m checks c id root now off = .ok ()) :
    (∃ t key S, InWindow t now off ∧ net.signed key S ∧ S.digest = c.tree.digest ∧ Prunes c.tree S ∧
      ∀ d, S.HasLeaf [str "canister", id, str "certified_data"] d → d = net.data t) ∨ net.Collision m c := by
  obtain ⟨⟨t, ⟨v, ht, hv⟩, hw⟩, hs⟩ := C40_chain m checks c id root now off h
  have key : ∀ k, k = root ∨ net.inCharge k → SignedBy c k →
      (∃ t key S, InWindow t now off ∧ net.signed key S ∧ S.digest = c.tree.digest ∧ Prunes c.tree S ∧
        ∀ d, S.HasLeaf [str "canister", id, str "certified_data"] d → d = net.data t) ∨ net.Collision m c := by
    intro k hk hsig
    obtain ⟨S, h1, h2⟩ := hf.outer k hk hsig
    rcases digest_eq_prunes (hn.complete k S h1).full h2.symm with hp | hc
    · exact .inl ⟨t, k, S, hw, h1, h2, hp, fun d hd => hn.truthful k S v t d hk h1 (prunes_hasLeaf hp ht) hv hd⟩
    · exact .inr (.outer h1 h2 hc)
  rcases hs with ⟨-, hs⟩ | ⟨d, k, hd, ⟨i, ranges, rc, lo, hi, g1, g2, g3, g4, g5, g6, g7, g8, g9⟩, hs⟩
  · exact key root (.inl rfl) hs
  · obtain ⟨S, h1, h2⟩ := hf.inner d i hd g1 root (.inl rfl) g3
    rcases digest_eq_prunes (hn.complete _ S h1).full h2.symm with hp | hc
    · exact key k (.inr (hn.delegates S d.subnetId rc ranges lo hi k h1 (prunes_hasLeaf hp g4) g5 g6 g7 g8 (prunes_hasLeaf hp g9))) hs
    · exact .inr (.inner hd g1 h1 h2 hc)

/-- An accepted response has a certificate that verifies and shows the root hash of its tree. -/
theorem accepted_cert {env : Env} {req : HttpRequest} {res : HttpResponse} {minV : Nat} {info : VerificationInfo}
    {hdr : CertHeader} (hc : CarriesHeader env.machine res hdr) (h : verifyPair env req res minV = .ok info) :
    certVerify env.machine env.checks hdr.certificate env.canisterId env.rootKey env.now env.offset = .ok () ∧
    hdr.certificate.tree.lookupPath [str "canister", env.canisterId, str "certified_data"] = .found hdr.tree.digest.1 := by
  obtain ⟨hdr', h1, -, h3⟩ := verifyPair_ok.1 h
  have := carriesHeader_unique h1 hc
  subst this
  rcases h3 with ⟨-, h4⟩ | ⟨-, _, _, _, -, -, -, h4⟩
  · obtain ⟨_, _, g1, -, -, g4, -⟩ := v1_ok.1 h4
    exact ⟨verifyCert_ok.1 g1, validateTree_true.1 g4⟩
  · obtain ⟨_, -, g1, g4, -⟩ := v2_ok.1 h4
    exact ⟨verifyCert_ok.1 g1, validateTree_true.1 g4⟩

/-- The same, with the state tree. -/
theorem fresh_state {net : Network} {env : Env} {req : HttpRequest} {res : HttpResponse} {minV : Nat} {info : VerificationInfo}
    {hdr : CertHeader} (hn : net.Honest env.machine env.canisterId env.rootKey) (hf : net.NoForgery env.machine env.rootKey hdr.certificate)
    (hc : CarriesHeader env.machine res hdr) (h : verifyPair env req res minV = .ok info) :
    (∃ t key S, InWindow t env.now env.offset ∧ net.signed key S ∧ S.digest = hdr.certificate.tree.digest ∧
      S.HasLeaf [str "canister", env.canisterId, str "certified_data"] hdr.tree.digest.1 ∧ net.data t = hdr.tree.digest.1) ∨
    net.Collision env.machine hdr.certificate := by
  obtain ⟨g1, g2⟩ := accepted_cert hc h
  rcases fresh_cert hn hf g1 with ⟨t, key, S, h1, h2, h3, h4, h5⟩ | hcol
  · rcases C01_found_is_true (hn.complete key S h2) h3.symm g2 with h6 | h6
    · exact .inl ⟨t, key, S, h1, h2, h3, h6, (h5 _ h6).symm⟩
    · exact .inr (.outer h2 h3 h6)
  · exact .inr hcol

/-- **C79** If a response is accepted, of either version, then the root hash of its tree was the certified data of the canister at a time
in the window: at most `offset` before and at most `offset` after the time of verification. -/
theorem C79_fresh {net : Network} {env : Env} {req : HttpRequest} {res : HttpResponse} {minV : Nat} {info : VerificationInfo}
    {hdr : CertHeader} (hn : net.Honest env.machine env.canisterId env.rootKey) (hf : net.NoForgery env.machine env.rootKey hdr.certificate)
    (hc : CarriesHeader env.machine res hdr) (h : verifyPair env req res minV = .ok info) :
    (∃ t, InWindow t env.now env.offset ∧ net.data t = hdr.tree.digest.1) ∨ net.Collision env.machine hdr.certificate := by
  rcases fresh_state hn hf hc h with ⟨t, _, _, h1, -, -, -, h2⟩ | h
  · exact .inl ⟨t, h1, h2⟩
  · exact .inr h

/-- **C79**, version 1: let `tree t` be the tree whose root hash the canister had certified at time `t`. If a version 1 response is accepted,
then at some time in the window this tree had the hash of the body, as sent or decompressed, for the path or for `/index.html`. -/
theorem C79_version1 {net : Network} {env : Env} {req : HttpRequest} {res : HttpResponse} {minV : Nat} {info : VerificationInfo}
    {hdr : CertHeader} (hn : net.Honest env.machine env.canisterId env.rootKey) (hf : net.NoForgery env.machine env.rootKey hdr.certificate)
    (hc : CarriesHeader env.machine res hdr) (hv : hdr.version = 1) (h : verifyPair env req res minV = .ok info)
    (tree : Nat → HashTree) (hwf : ∀ t, (tree t).WellFormed) (hdata : ∀ t, net.data t = (tree t).digest.1) :
    (∃ t path body, InWindow t env.now env.offset ∧ req.getPath = .ok path ∧
      (body = res.body ∨ Inflate.gunzip res.body = some body ∨ Inflate.inflate res.body = some body) ∧
      ((tree t).HasLeaf [str "http_assets", path] (sha body).1 ∨
        (tree t).HasLeaf [str "http_assets", str "/index.html"] (sha body).1)) ∨
    net.Collision env.machine hdr.certificate ∨
    ∃ t, InWindow t env.now env.offset ∧ CollisionIn hdr.tree.hashed (tree t).hashed := by
  rcases fresh_state hn hf hc h with ⟨t, key, S, h1, h2, h3, h4, h5⟩ | h
  swap
  · exact .inr (.inl h)
  obtain ⟨-, -, path, enc, decoded, body, g1, -, g2, g3, g4⟩ := C28_sound hc hv h
  have hb : body = res.body ∨ Inflate.gunzip res.body = some body ∨ Inflate.inflate res.body = some body := by
    rcases g3 with rfl | rfl
    · rcases g2 with ⟨-, g⟩ | ⟨-, g⟩ | ⟨-, -, g⟩
      · exact .inr (.inl g)
      · exact .inr (.inr g)
      · exact .inl g
    · exact .inl rfl
  rcases g4 S (tree t) ⟨hn.complete key S h2, h3, by rw [← hdata, h5]; exact h4, hwf t⟩ with (g | ⟨-, g⟩) | g | g
  · exact .inl ⟨t, path, body, h1, g1, hb, .inl g⟩
  · exact .inl ⟨t, path, body, h1, g1, hb, .inr g⟩
  · exact .inr (.inl (.outer h2 h3 g))
  · exact .inr (.inr ⟨t, h1, g⟩)

/-- **C79**, version 2: replay is bounded by the window. If a version 2 response whose expression asks for certification is accepted, then
at some time in the window there was an entry for it in the tree: inserted, not deleted since, at the expression path of the response, and
made from a request and a response that agree with the received ones in all certified parts. -/
theorem C79_version2 {net : Network} {env : Env} {req : HttpRequest} {res : HttpResponse} {minV : Nat} {info : VerificationInfo}
    {hdr : CertHeader} {e : List Bytes} {expr : Bytes} {cel : CelExpr}
    (hn : net.Honest env.machine env.canisterId env.rootKey) (hf : net.NoForgery env.machine env.rootKey hdr.certificate)
    (hc : Claims env.machine res hdr e expr cel) (hcel : cel ≠ .skip) (h : verifyPair env req res minV = .ok info)
    {hist : Nat → List CtOp} (hh : CertifiesTree net hist)
    (origin : CertEntry → Origin) (made : ∀ t f, CtOp.insert f ∈ hist t → (origin f).Made f.cert ∧
      (∀ n ∈ (origin f).cel.names, CarriedName n) ∧ (origin f).cel.NoPseudo ∧ (origin f).response.NoPseudo) :
    (∃ t f, InWindow t env.now env.offset ∧ CtOp.insert f ∈ hist t ∧ ctSpec (hist t) f.toTreePath ∧ f.path.toExprPath = e ∧
      (origin f).cel = cel ∧ SameCertified cel (origin f).request req (origin f).response res) ∨
    net.Collision env.machine hdr.certificate ∨
    ∃ t T, InWindow t env.now env.offset ∧ ctRun (hist t) = some T ∧ (CollisionIn hdr.tree.hashed T.full.hashed ∨
      ∃ f, CtOp.insert f ∈ hist t ∧ ctSpec (hist t) f.toTreePath ∧ f.path.toExprPath = e ∧
        (CollisionIn [(origin f).cel.toBytes] [expr] ∨
        CollisionIn (certHashed (origin f).cel (origin f).request (origin f).response) (certHashed cel req res))) := by
  rcases fresh_state hn hf hc.header h with ⟨t, key, S, h1, h2, h3, h4, h5⟩ | h
  swap
  · exact .inr (.inl h)
  obtain ⟨T, hT, hd⟩ := hh t
  have hv := (ctRun_valid hT).2
  have hroot : T.rootHash = T.full.digest := by
    show labeledHash pathPrefix (AsHashTree.rootHash T.tree) = _; rw [root_eq_digest hv]; rfl
  have hC : Certifies hdr.certificate env.canisterId S T.full :=
    ⟨hn.complete key S h2, h3, by rw [← hroot, ← hd, h5]; exact h4, wf_tree hv⟩
  rcases C23_end_to_end hc h hcel hT hC origin (made t) with ⟨f, g⟩ | g | g | ⟨f, g1, g2, g3, g4⟩
  · exact .inl ⟨t, f, h1, g⟩
  · exact .inr (.inl (.outer h2 h3 g))
  · exact .inr (.inr ⟨t, T, h1, hT, .inl g⟩)
  · exact .inr (.inr ⟨t, T, h1, hT, .inr ⟨f, g1, g2, g3, g4⟩⟩)

/-- **C79**, the contrapositive with deletion: once an entry is gone for longer than the offset, nothing that was certified by it is
accepted any more. If from time `gone` on there is no entry at the expression path of the response that was made from a request and a
response that agree with the received ones, then the response is rejected at every time after `gone + offset`, or there is a collision. -/
theorem C79_expires {net : Network} {env : Env} {req : HttpRequest} {res : HttpResponse} {minV : Nat}
    {hdr : CertHeader} {e : List Bytes} {expr : Bytes} {cel : CelExpr}
    (hn : net.Honest env.machine env.canisterId env.rootKey) (hf : net.NoForgery env.machine env.rootKey hdr.certificate)
    (hc : Claims env.machine res hdr e expr cel) (hcel : cel ≠ .skip)
    {hist : Nat → List CtOp} (hh : CertifiesTree net hist)
    (origin : CertEntry → Origin) (made : ∀ t f, CtOp.insert f ∈ hist t → (origin f).Made f.cert ∧
      (∀ n ∈ (origin f).cel.names, CarriedName n) ∧ (origin f).cel.NoPseudo ∧ (origin f).response.NoPseudo)
    {gone : Nat} (hgone : ∀ t, gone ≤ t → ∀ f, CtOp.insert f ∈ hist t → ctSpec (hist t) f.toTreePath → f.path.toExprPath = e →
      ¬ SameCertified cel (origin f).request req (origin f).response res)
    (hlate : gone + env.offset < env.now) :
    (¬ ∃ info, verifyPair env req res minV = .ok info) ∨
    net.Collision env.machine hdr.certificate ∨
    ∃ t T, InWindow t env.now env.offset ∧ ctRun (hist t) = some T ∧ (CollisionIn hdr.tree.hashed T.full.hashed ∨
      ∃ f, CtOp.insert f ∈ hist t ∧ ctSpec (hist t) f.toTreePath ∧ f.path.toExprPath = e ∧
        (CollisionIn [(origin f).cel.toBytes] [expr] ∨
        CollisionIn (certHashed (origin f).cel (origin f).request (origin f).response) (certHashed cel req res))) := by
  by_cases h : ∃ info, verifyPair env req res minV = .ok info
  · obtain ⟨info, h⟩ := h
    rcases C79_version2 hn hf hc hcel h hh origin made with ⟨t, f, h1, h2, h3, h4, -, h5⟩ | h
    · exact absurd h5 (hgone t (by have := h1.2; omega) f h2 h3 h4)
    · exact .inr h
  · exact .inl h

end
end Verif.Props
