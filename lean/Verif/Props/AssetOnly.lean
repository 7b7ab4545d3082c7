import Verif.Props.AssetVerify

set_option linter.unusedSimpArgs false
set_option linter.unusedSectionVars false

/-!
# Property C50: only what was announced verifies
-/

namespace Verif.Props
open Verif HashTree PathShape

section
variable [SHA] [UriLib] [GlobLib]

/-- Entries are inserted for items announced in a call of `certify_assets`. -/
theorem insert_announced {calls : List RouterCall} (hc : ∀ c ∈ calls, c.Faithful ∧ ∀ o, c ≠ .shared o) {g : CertEntry}
    (hg : CtOp.insert g ∈ treeLog calls) : ∃ assets values configs, RouterCall.certify assets values configs ∈ calls ∧
      ∃ i x, Announces assets configs i ∧ i.Answer x ∧ g = x.entry := by
  unfold treeLog at hg
  obtain ⟨e, e1, e2⟩ := List.mem_filterMap.1 hg
  obtain ⟨c, c1, c2⟩ := List.mem_flatMap.1 e1
  obtain ⟨h1, h2⟩ := hc c c1
  obtain ⟨i, x, i1, i2, i3⟩ := (effect_about h1 c2).2.2 _ g e2 rfl h2
  cases c with
  | certify assets values configs => exact ⟨assets, values, configs, c1, i, x, i1, i2, i3⟩
  | delete assets values configs =>
    exfalso
    simp only [RouterCall.effects] at c2
    rw [deleteAssets_items, Effects.mem_need] at c2
    obtain ⟨cs, -, h4⟩ := c2
    obtain ⟨j, -, h5⟩ := Effects.mem_each h4
    unfold Item.withdraw at h5
    rw [Effects.mem_need] at h5
    obtain ⟨y, -, h7⟩ := h5
    rcases List.mem_cons.1 h7 with rfl | h7
    · simp [Effect.treeOp?] at e2
    · rcases List.mem_cons.1 h7 with rfl | h7
      · cases hf : j.isFallback <;> simp [hf, Effect.treeOp?] at e2
      · cases j with
        | whole u p =>
          obtain ⟨j, -, rfl⟩ := List.mem_map.1 h7
          simp [Effect.treeOp?] at e2
        | _ => simp at h7
  | deleteAll =>
    simp only [RouterCall.effects, deleteAllAssets, List.mem_cons, List.not_mem_nil, or_false] at c2
    rcases c2 with rfl | rfl | rfl <;> simp [Effect.treeOp?] at e2
  | shared o => exact absurd rfl (h2 o)

/-- The item was announced in a call of `certify_assets`, and made the entry. -/
def MadeEntry (calls : List RouterCall) (g : CertEntry) (i : Item) : Prop :=
  (∃ assets values configs, RouterCall.certify assets values configs ∈ calls ∧ Announces assets configs i) ∧
    ∃ x, i.Answer x ∧ g = x.entry

open Classical in
/-- An item the entry was made for. -/
noncomputable def itemOf (calls : List RouterCall) (g : CertEntry) : Item :=
  if h : ∃ i, MadeEntry calls g i then h.choose else .redirect [] [] .permanent

theorem itemOf_made {calls : List RouterCall} (hc : ∀ c ∈ calls, c.Faithful ∧ ∀ o, c ≠ .shared o) {g : CertEntry}
    (hg : CtOp.insert g ∈ treeLog calls) : MadeEntry calls g (itemOf calls g) := by
  obtain ⟨assets, values, configs, h1, i, x, h2, h3, h4⟩ := insert_announced hc hg
  have h : ∃ i, MadeEntry calls g i := ⟨i, ⟨_, _, _, h1, h2⟩, x, h3, h4⟩
  unfold itemOf
  rw [dif_pos h]
  exact h.choose_spec

omit [SHA] [UriLib] [GlobLib] in
theorem item_names (i : Item) : (∀ n ∈ i.cel.names, CarriedName n) ∧ i.cel.NoPseudo := by
  constructor
  · intro n hn
    have : n = str "range" := by
      cases i <;> simp [Item.cel, CelExpr.names] at hn <;> exact hn
    subst this
    exact plain_carried (by decide)
  · cases i with
    | chunk u p k =>
      intro n hn
      simp at hn
      subst hn
      decide
    | _ => intro n hn; simp at hn

variable [Bls] [Inflate]

/-- **C50.** Let the certificate in an accepted response be one whose state tree records the root hash of the router's
tree. Then the response is one that a call of `certify_assets` announced, at the claimed path, and its entry has not
been deleted: the same status and body, and the same headers (but for the certificate headers and up to order and case
of names). The request is a GET request without body, its query agrees with that of the item's URL (both absent,
or both present, since no parameter is certified), and if the response is a chunk, the request has no Range header.
Otherwise there is a collision of SHA-256, between strings of the messages and strings that the router hashed.

In particular a response served for a request with another method, a body, or a query where the asset's URL has none,
or a chunk served for a Range request, is never accepted. -/
theorem C50_only_announced {env : Env} {calls : List RouterCall} {r : Router} {req : HttpRequest} {res : HttpResponse}
    {minV : Nat} {info : VerificationInfo} {hdr : CertHeader} {e : List Bytes} {expr : Bytes} {cel : CelExpr} {S : HashTree}
    -- the router
    (hcalls : ∀ c ∈ calls, c.Faithful ∧ ∀ o, c ≠ .shared o) (hr : routerRun calls = some r)
    (hitems : ∀ assets values configs, RouterCall.certify assets values configs ∈ calls → ∀ i, Announces assets configs i →
      ¬ i.certPath.Hides (sha expr) ∧ i.response.NoPseudo)
    -- the response is accepted
    (hc : Claims env.machine res hdr e expr cel) (h : verifyPair env req res minV = .ok info)
    (hC : Certifies hdr.certificate env.canisterId S r.tree.full) :
    (∃ assets values configs, RouterCall.certify assets values configs ∈ calls ∧ ∃ i, Announces assets configs i ∧
      (∃ x, i.Answer x ∧ ctSpec (treeLog calls) x.entry.toTreePath) ∧ i.certPath.toExprPath = e ∧
      res.status = i.status ∧ res.body = i.body ∧
      (certifiedRespHeaders (.headerExclusions []) i.response.headers).Perm (certifiedRespHeaders (.headerExclusions []) res.headers) ∧
      req.method = str "GET" ∧ req.body = [] ∧
      (∃ p q, HttpRequest.getQuery { method := str "GET", url := i.url, headers := [], body := [] } = .ok p ∧
        req.getQuery = .ok q ∧ p.isSome = q.isSome) ∧
      (i.isChunk = true → ∀ x ∈ req.headers, ¬ SameName x.1 (str "range"))) ∨
    CollisionIn hdr.certificate.tree.hashed S.hashed ∨ CollisionIn hdr.tree.hashed r.tree.full.hashed ∨
    ∃ assets values configs, RouterCall.certify assets values configs ∈ calls ∧ ∃ i, Announces assets configs i ∧
      (∃ x, i.Answer x ∧ ctSpec (treeLog calls) x.entry.toTreePath) ∧ i.certPath.toExprPath = e ∧
      (CollisionIn [i.cel.toBytes] [expr] ∨
       CollisionIn (certHashed i.cel { method := str "GET", url := i.url, headers := [], body := [] } i.response)
         (certHashed cel req res)) := by
  obtain ⟨hct, -, -⟩ := routerRun_iff.1 hr
  have hmade : ∀ f, CtOp.insert f ∈ treeLog calls → ¬ f.path.Hides (sha expr) ∧ (itemOf calls f).response.NoPseudo ∧
      MadeEntry calls f (itemOf calls f) := by
    intro f hf
    have hm := itemOf_made hcalls hf
    obtain ⟨⟨assets, values, configs, h1, h2⟩, x, h3, rfl⟩ := hm
    obtain ⟨n1, n2⟩ := hitems _ _ _ h1 _ h2
    refine ⟨?_, n2, itemOf_made hcalls hf⟩
    rw [h3.path]
    exact n1
  have hcert : ∀ f, CtOp.insert f ∈ treeLog calls → MadeOf f.cert (itemOf calls f).cel
      { method := str "GET", url := (itemOf calls f).url, headers := [], body := [] } (itemOf calls f).response := by
    intro f hf
    obtain ⟨-, -, -, x, h3, h4⟩ := hmade f hf
    rw [h4] at h3 ⊢
    exact h3.made
  by_cases hcel : cel = .skip
  · subst hcel
    rcases C27_end_to_end hc h hct hC (fun f => (itemOf calls f).cel) (fun f hf =>
      ⟨(hmade f hf).1, madeOf_madeFor (hcert f hf), (item_names _).1⟩) with ⟨f, -, -, -, h4, -⟩ | h1 | h1 | ⟨f, h1, h7, h8, h2⟩
    · exact absurd h4 (item_cel_ne _)
    · exact .inr (.inl h1)
    · exact .inr (.inr (.inl h1))
    · obtain ⟨-, -, ⟨assets, values, configs, h3, h4⟩, x, h5, h6⟩ := hmade f h1
      exact .inr (.inr (.inr ⟨assets, values, configs, h3, _, h4, ⟨x, h5, h6 ▸ h7⟩, by rw [← h5.path, ← h6]; exact h8, .inl h2⟩))
  · rcases C23_end_to_end hc h hcel hct hC (fun f => ⟨(itemOf calls f).cel, getRequest (itemOf calls f).url, (itemOf calls f).response⟩) (fun f hf =>
      ⟨hcert f hf, (item_names _).1, (item_names _).2, (hmade f hf).2.1⟩) with ⟨f, f1, f2, f3, f4, f5⟩ | h1 | h1 | ⟨f, h1, h7, h8, h2⟩
    · left
      obtain ⟨-, -, ⟨assets, values, configs, h3, h4⟩, x, h5, h6⟩ := hmade f f1
      refine ⟨assets, values, configs, h3, _, h4, ⟨x, h5, h6 ▸ f2⟩, ?_, ?_⟩
      · rw [← h5.path, ← h6]; exact f3
      generalize itemOf calls f = i at f4 f5
      simp only at f4 f5
      subst f4
      have fin : ∀ d : ReqCert, i.cel = .full d (.headerExclusions []) → (d.headers = [str "range"] ∨ i.isChunk = false) →
          res.status = i.status ∧ res.body = i.body ∧
          (certifiedRespHeaders (.headerExclusions []) i.response.headers).Perm (certifiedRespHeaders (.headerExclusions []) res.headers) ∧
          req.method = str "GET" ∧ req.body = [] ∧
          (∃ p q, HttpRequest.getQuery { method := str "GET", url := i.url, headers := [], body := [] } = .ok p ∧
            req.getQuery = .ok q ∧ p.isSome = q.isSome) ∧
          (i.isChunk = true → ∀ x ∈ req.headers, ¬ SameName x.1 (str "range")) := by
        intro d hd hch
        rw [hd] at f5
        obtain ⟨⟨g1, g2, g3, p, q, g4, g5, g6⟩, g7, g8, g9⟩ := f5
        refine ⟨g7.symm, g8.symm, g9, g1.symm, g2.symm, ⟨p, q, g4, g5, by cases p <;> cases q <;> simp_all⟩, ?_⟩
        intro hci y hy hn
        rcases hch with hch | hch
        · have hnil : certifiedReqHeaders d req.headers = [] := by
            have g3' : List.Perm [] (certifiedReqHeaders d req.headers) := g3
            exact g3'.nil_eq.symm
          unfold certifiedReqHeaders at hnil
          rw [List.map_eq_nil_iff, List.filter_eq_nil_iff] at hnil
          have := hnil y hy
          simp only [decide_eq_true_eq, not_exists, not_and] at this
          exact this (str "range") (by rw [hch]; simp) hn.symm
        · rw [hci] at hch; cases hch
      cases i with
      | chunk u p k => exact fin _ rfl (.inl rfl)
      | _ => exact fin _ rfl (.inr rfl)
    · exact .inr (.inl h1)
    · exact .inr (.inr (.inl h1))
    · obtain ⟨-, -, ⟨assets, values, configs, h3, h4⟩, x, h5, h6⟩ := hmade f h1
      exact .inr (.inr (.inr ⟨assets, values, configs, h3, _, h4, ⟨x, h5, h6 ▸ h7⟩, by rw [← h5.path, ← h6]; exact h8, h2⟩))

end
end Verif.Props
