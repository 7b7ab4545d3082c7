import Verif.Props.AssetFail

set_option linter.unusedSimpArgs false
set_option linter.unusedSectionVars false

/-!
# C49 for requests of published URLs

Responses for the very path of the request, whole or in chunks, verify without the provisos that fallbacks need.
-/

namespace Verif.Props
open Verif HashTree PathShape

section
variable [SHA] [UriLib] [GlobLib] [UnstableSort] [Bls] [Inflate]

/-- **C49**, for requests of a published URL. Let everything the router holds be certified (C76_certified: after any history of
certifications, failed ones included). A GET request without body and query, with or without a Range header, is answered with the
response, or a chunk of it, published for its path. With a certificate that is valid (C40) and carries the root hash of the router's
tree, the response verifies for the request without its Range header, and verification returns its status, body and headers.
(For the request with its Range header a chunk is never accepted, see C50.)

No provisos on slashes, `http_expr`, `<*>` or fallback scopes: only no URL may have a segment `<$>` or `<*>` followed by the hash of
one of the two expressions the router uses. -/
theorem C49_found {env : Env} {calls : List RouterCall} {r : Router} {req : HttpRequest} {res : HttpResponse}
    {path dataCert : Bytes} {c : Certificate} {minV : Nat} {m : Machine} {range : Option Nat}
    -- the router
    (hcalls : ∀ c ∈ calls, c.Faithful ∧ ∀ o, c ≠ .shared o) (hr : routerRun calls = some r)
    (hheld : ∀ k x, r.responses k = some x → ctSpec (treeLog calls) x.entry.toTreePath)
    (hhide : ∀ c ∈ calls, ∀ i, c.About i → ∀ j : Item, ¬ i.certPath.Hides (sha j.cel.toBytes))
    (hitems : ∀ c ∈ calls, ∀ i, c.About i → i.certPath = .exact path →
      HttpRequest.getQuery { method := str "GET", url := i.url, headers := [], body := [] } = .ok none)
    -- the request
    (hpath : req.getPath = .ok path) (hget : req.method = str "GET") (hbody : req.body = []) (hquery : req.getQuery = .ok none)
    (hrange : AsksFrom m req range) (hutf : ∀ h ∈ req.headers, (chars h.2).isSome)
    (hfound : ∃ y, Chooses (Accepts req) (r.held path range) y)
    -- the response
    (hserve : r.serveAsset m dataCert req = some (.ok res))
    -- the certificate is valid and certifies the root hash of the tree
    (hcert : certificateFromCbor env.machine dataCert = some (.ok c))
    (hver : certVerify env.machine env.checks c env.canisterId env.rootKey env.now env.offset = .ok ())
    (hroot : c.tree.lookupPath [str "canister", env.canisterId, str "certified_data"] = .found r.rootHash.1)
    -- sizes
    (hm : 32 < env.machine.usize)
    (hurl : (chars path).isSome ∧ env.machine.Fits (path.length + 9))
    (hfit : r.tree.full.Fits env.machine ∧ r.tree.full.height + 3 ≤ env.machine.stack)
    (hmin : minV ≤ 2) :
    ∃ info v, verifyPair env { req with headers := req.headers.filter (fun h => ¬ SameName h.1 (str "range")) } res minV = .ok info ∧
      info.version = 2 ∧ LastHeader res.headers (str "IC-Certificate") v ∧
      info.response = some
        { statusCode := some res.status, body := res.body,
          headers := certifiedRespHeaders (.headerExclusions []) res.headers ++ [(str "IC-Certificate", v)] } := by
  obtain ⟨hct, -, -⟩ := routerRun_iff.1 hr
  have hf : ∀ c ∈ calls, c.Faithful := fun c hc => (hcalls c hc).1
  -- what is served
  rcases C45_serve hr m dataCert hutf hpath hrange with ⟨x, w, hans, -, hs, hw, -, -⟩ | ⟨-, hs⟩
  swap
  · rw [hs] at hserve; cases hserve
  rw [hs] at hserve
  simp only [Option.some.injEq, Except.ok.injEq] at hserve
  subst hserve
  -- the item
  obtain ⟨c0, hc0, i, hi, hx, hspec, hip⟩ : ∃ c ∈ calls, ∃ i, c.About i ∧ i.Answer x ∧
      ctSpec (treeLog calls) x.entry.toTreePath ∧ i.certPath = .exact path := by
    have hex : ∀ k, r.responses k = some x → k.path = path → ∃ c ∈ calls, ∃ i, c.About i ∧ i.Answer x ∧
        ctSpec (treeLog calls) x.entry.toTreePath ∧ i.certPath = .exact path := by
      intro k hk hp
      obtain ⟨c, c1, i, i1, i2, i3, i4⟩ := (held_about hf hr).1 hk
      refine ⟨c, c1, i, i1, i4, hheld k x hk, ?_⟩
      rw [certPath_exact i2]
      have : i.certPath.url = path := by
        rw [← hp, ← i3]
        cases i <;> first | rfl | cases i2
      rw [this]
    have hh : ∀ e, r.held path range e = some x → ∃ c ∈ calls, ∃ i, c.About i ∧ i.Answer x ∧
        ctSpec (treeLog calls) x.entry.toTreePath ∧ i.certPath = .exact path := by
      intro e he
      unfold Router.held at he
      split at he
      · rename_i y hy
        split at he
        · exact hex _ he rfl
        · simp only [Option.some.injEq] at he
          subst he
          exact hex _ hy rfl
      · cases he
    cases hans with
    | exact hch =>
      cases hch with
      | encoded _ h _ => exact hh _ h
      | plain _ h => exact hh _ h
    | fallback hno _ _ _ =>
      obtain ⟨y, hy⟩ := hfound
      exact absurd hy (hno y)
  have hxp : x.entry.path = .exact path := hx.path.trans hip
  have hq0 := hitems c0 hc0 i hi hip
  let req' : HttpRequest := { req with headers := req.headers.filter (fun h => ¬ SameName h.1 (str "range")) }
  have hpath' : req'.getPath = .ok path := hpath
  have hquery' : req'.getQuery = .ok none := hquery
  -- the certified parts agree
  have hsame : SameCertified i.cel { method := str "GET", url := i.url, headers := [], body := [] } req' i.response x.response := by
    have hnone : ∀ d : ReqCert, (∀ n ∈ d.headers, n = str "range") → certifiedReqHeaders d req'.headers = [] := by
      intro d hd
      unfold certifiedReqHeaders
      rw [List.map_eq_nil_iff, List.filter_eq_nil_iff]
      intro h hh
      simp only [decide_eq_true_eq, not_exists, not_and]
      intro n hn hs
      have := hd n hn
      subst this
      have := (List.mem_filter.1 hh).2
      rw [decide_eq_true_eq] at this
      exact this hs.symm
    have hreq : ∀ d : ReqCert, (∀ n ∈ d.headers, n = str "range") →
        SameRequest d { method := str "GET", url := i.url, headers := [], body := [] } req' := by
      intro d hd
      refine ⟨hget.symm, hbody.symm, ?_, none, none, hq0, hquery', rfl⟩
      rw [hnone d hd]
      exact List.Perm.refl _
    rw [hx.response]
    have hres : ∀ c, SameResponse c i.response i.response := fun c => ⟨rfl, rfl, List.Perm.refl _⟩
    cases i <;> exact ⟨hreq _ (by simp), hres _⟩
  have hkind : ∀ o ∈ treeLog calls, ∀ g, o.entry? = some g → MadeFor g.cert (itemKind g) := by
    intro o ho g hg
    obtain ⟨c, c1, j, y, c2, c3, rfl⟩ := entry_about hcalls ho hg
    exact itemKind_made (madeOf_madeFor c3.made)
  have hapart : ∀ o ∈ treeLog calls, ∀ g, o.entry? = some g → ¬ g.Imitates x.entry ∧ ¬ x.entry.Imitates g := by
    intro o ho g hg
    obtain ⟨c, c1, j, y, c2, c3, rfl⟩ := entry_about hcalls ho hg
    constructor
    · rintro ⟨pre, mk, post, h1, h2⟩
      refine hhide c c1 j c2 i ⟨pre, mk, post, h1, ?_⟩
      rw [← c3.path, h2, (madeOf_madeFor hx.made).celHash]
    · rintro ⟨pre, mk, post, h1, h2⟩
      refine hhide c0 hc0 i hi j ⟨pre, mk, post, h1, ?_⟩
      rw [← hx.path, h2, (madeOf_madeFor c3.made).celHash]
  have hnames : ∀ n ∈ i.cel.names, CarriedName n := by
    intro n hn
    have : n = str "range" := by
      cases i <;> simp [Item.cel, CelExpr.names] at hn <;> exact hn
    subst this
    exact plain_carried (by decide)
  have hcomp := C22_exact (env := env) (ops := treeLog calls) (f := x.entry) (p := path) (x := i.cel)
    (q := { method := str "GET", url := i.url, headers := [], body := [] }) (req := req') (r := i.response)
    (res := x.response) (path := path) (dataCert := dataCert) (c := c) (minV := minV) itemKind hkind hapart hspec hx.made hnames
    (by rw [hxp]; rfl) hpath' hsame (fun h => absurd h (item_cel_ne i)) hcert hver
    (fun t ht => by rw [hct] at ht; simp only [Option.some.injEq] at ht; subst ht; exact hroot) hm
    (by rw [hxp]; exact hurl)
    (fun t ht => by rw [hct] at ht; simp only [Option.some.injEq] at ht; subst ht; exact hfit) hmin hxp
  rcases hcomp with ⟨t, w', info, h1, h2, h3, h4, h5⟩ | ⟨o, -, g, -, h, -⟩
  swap
  · exact absurd (h.2 (item_cel_ne i)) (itemKind_ne g)
  rw [hct] at h1
  simp only [Option.some.injEq] at h1
  subst h1
  rw [hw] at h2
  simp only [Option.some.injEq, Except.ok.injEq] at h2
  subst h2
  refine ⟨info, _, h3, h4, ⟨x.response.headers, certHeaderName, [], rfl, by decide, by simp⟩, ?_⟩
  have hcrt : ∀ rc : RespCert, certifiedRespHeaders rc (addV2CertificateHeader dataCert x.response w x.entry.path.toExprPath).headers =
      certifiedRespHeaders rc x.response.headers := by
    intro rc
    show certifiedRespHeaders rc (x.response.headers ++ [_]) = _
    unfold certifiedRespHeaders
    rw [List.filter_append]
    have : ¬ rc.Certifies certHeaderName := fun h => h.1 (by decide)
    simp [this]
  rw [hcrt]
  cases i <;> exact h5

end
end Verif.Props
