import Verif.Props.CustomAssets

set_option linter.unusedSimpArgs false
set_option linter.unusedSectionVars false

/-!
# The example canister `custom-assets`: nothing else verifies (C67)
-/

namespace Verif.Props
open Verif HashTree PathShape

section
variable [PathGlob] [SHA] [UriLib] [Bls] [Inflate]

/-- One of the responses the canister made of the directory. -/
def Front.Made (d : Front) (shown : HttpResponse) : Prop :=
  (∃ e c, d.Offers (str "index.html") e c ∧ shown = (indexPost e c).response) ∨
  ∃ p ct e c, HasType p ct ∧ (∃ c, (p, c) ∈ d.files) ∧ d.Offers p e c ∧ shown = (filePost p ct e c).response

open Classical in
/-- What an entry was made from. -/
noncomputable def customOrigin (posts : List Post) (req : HttpRequest) (f : CertEntry) : Origin :=
  if f = uncertifiedEntry then ⟨.skip, req, ⟨200, [], []⟩⟩
  else if h : ∃ x ∈ posts, f = x.entry then ⟨customCel, req, h.choose.response⟩
  else ⟨.skip, req, ⟨200, [], []⟩⟩

omit [Bls] [Inflate] in
theorem post_noPseudo (x : Post) : x.response.NoPseudo := by
  have h : ∀ n ∈ str "content-length" :: str "content-type" :: str "cache-control" :: str "content-encoding" :: certExprHeaderName ::
      customSecurityHeaders.map Prod.fst, ¬ SameName n (str ":ic-cert-status") := by decide +kernel
  intro y hy
  apply h
  simp only [Post.response, customResponse, customHeaders, Post.add, List.mem_append, List.mem_cons, List.not_mem_nil, or_false,
    Option.mem_toList, Option.mem_def, Option.map_eq_some_iff] at hy
  rcases hy with (hy | rfl | rfl) | ⟨e, -, rfl⟩ | rfl | rfl
  · exact List.mem_cons_of_mem _ (List.mem_cons_of_mem _ (List.mem_cons_of_mem _ (List.mem_cons_of_mem _
      (List.mem_cons_of_mem _ (List.mem_map.2 ⟨_, hy, rfl⟩)))))
  all_goals simp

omit [Bls] [Inflate] in
theorem customOrigin_post {posts : List Post} {req : HttpRequest} {x : Post} (hx : x ∈ posts) :
    ∃ y ∈ posts, y.entry = x.entry ∧ customOrigin posts req x.entry = ⟨customCel, req, y.response⟩ := by
  have h : ∃ y ∈ posts, x.entry = y.entry := ⟨x, hx, rfl⟩
  refine ⟨h.choose, h.choose_spec.1, h.choose_spec.2.symm, ?_⟩
  rw [customOrigin, if_neg (post_ne x), dif_pos h]

omit [Bls] [Inflate] in
theorem customOrigin_skip {posts : List Post} {req : HttpRequest} :
    customOrigin posts req uncertifiedEntry = ⟨.skip, req, ⟨200, [], []⟩⟩ := by
  rw [customOrigin, if_pos rfl]

omit [Bls] [Inflate] in
theorem post_made_of {d : Front} {m : Machine} (hd : d.Proper m) {body : Bytes} (hb : (str "index.html", body) ∈ d.files) {x : Post}
    (hx : x ∈ allPosts d body) : Front.Made d x.response := by
  rcases (mem_allPosts hd hb).1 hx with ⟨e, c, h, rfl⟩ | ⟨p, ct, e, c, h1, h2, h3, rfl⟩
  · exact .inl ⟨e, c, h, rfl⟩
  · exact .inr ⟨p, ct, e, c, h1, h2, h3, rfl⟩

omit [UriLib] [Bls] [Inflate] in
theorem post_page' (x : Post) : x.response.Page x.type x.cache x.enc x.body := by
  have h := post_page x [] .empty []
  have hne : ∀ a ∈ [str "content-type", str "cache-control", str "content-length", str "content-encoding"], a ≠ certHeaderName := by decide
  have hin : ∀ a ∈ [str "content-type", str "cache-control", str "content-length", str "content-encoding"], ∀ v,
      (a, v) ∈ (addV2CertificateHeader [] x.response .empty []).headers ↔ (a, v) ∈ x.response.headers := by
    intro a ha v
    simp [addV2CertificateHeader, hne a ha]
  refine ⟨rfl, rfl, fun v => ?_, fun v => ?_, fun v => ?_, fun v => ?_, fun v hv => ?_⟩
  · rw [← hin _ (by simp)]; exact h.type v
  · rw [← hin _ (by simp)]; exact h.cache v
  · rw [← hin _ (by simp)]; exact h.length v
  · rw [← hin _ (by simp)]; exact h.enc v
  · simp [Post.response, customResponse, customHeaders, hv]

/-- **C67.** With a certificate of the canister's state, nothing verifies for a normal path other than `/uncertified` but: a version of
the file at that path, if the patterns match it, and a version of `index.html` otherwise, with status, content and all headers as made;
or a collision is exhibited. -/
theorem C67_only {env : Env} {d : Front} (hd : d.Proper env.machine) {s : CustomSite} (hs : CustomSite.init d = some s)
    {req : HttpRequest} {res : HttpResponse} {minV : Nat} {info : VerificationInfo} {hdr : CertHeader} {S : HashTree}
    (hc : CarriesHeader env.machine res hdr) (h : verifyPair env req res minV = .ok info)
    (hC : Certifies hdr.certificate env.canisterId S s.tree.full)
    {path : Bytes} (hpath : req.getPath = .ok path) (hend : PlainEndPath path) (hnormal : NormalPath path)
    (hne : path ≠ str "/uncertified") :
    (∃ (shown : HttpResponse) (ct caching : Bytes) (e : Option Bytes) (c : Bytes), shown.Page ct caching e c ∧
      ((∃ p, d.Published path p ∧ HasType p ct ∧ caching = str "public, max-age=31536000, immutable" ∧ d.Offers p e c) ∨
        ((∀ p, ¬ d.Published path p) ∧ ct = str "text/html" ∧ caching = str "public, no-cache, no-store" ∧
          d.Offers (str "index.html") e c)) ∧
      res.status = 200 ∧ res.body = c ∧
      (certifiedRespHeaders (.headerExclusions []) shown.headers).Perm (certifiedRespHeaders (.headerExclusions []) res.headers)) ∨
    CollisionIn hdr.certificate.tree.hashed S.hashed ∨ CollisionIn hdr.tree.hashed s.tree.full.hashed ∨
    CollisionIn [CelExpr.skip.toBytes] [customCel.toBytes] ∨
    ∃ e expr cel, Claims env.machine res hdr e expr cel ∧ (CollisionIn [CelExpr.skip.toBytes] [expr] ∨
      CollisionIn [customCel.toBytes] [expr] ∨
      ∃ shown, Front.Made d shown ∧ CollisionIn (certHashed customCel req shown) (certHashed cel req res)) := by
  obtain ⟨body, hb⟩ := hd.index
  obtain ⟨s', hinit, hp, -⟩ := custom_init ((getFile_iff hd.unique).2 hb) (by
    intro t ht p hp
    by_contra h
    exact hd.dirs hp (ct := t.2) ⟨t.1, ht, by simpa using h⟩)
  rw [hs] at hinit
  simp only [Option.some.injEq] at hinit
  subst hinit
  have hct : ctRun (customOps d body) = some s.tree := hp.run
  obtain ⟨hdr', h3, -, h4⟩ := verifyPair_ok.1 h
  have := carriesHeader_unique h3 hc
  subst this
  rcases h4 with ⟨hv1, -⟩ | ⟨hv2, expr, e, cel, h5, h6, h7, h8⟩
  · obtain ⟨-, -, path, enc, decoded, body, -, -, -, -, h7⟩ := C28_sound hc hv1 h
    have hno : ∀ p v, ¬ s.tree.full.HasLeaf (str "http_assets" :: p) v := by
      intro p v hx
      unfold CertTree.full HasLeaf at hx
      generalize hq : (str "http_assets" :: p) = q at hx
      cases hx with
      | down hx =>
        have := (List.cons.inj hq).1
        exact absurd this (by decide)
    rcases h7 S _ hC with (h8 | ⟨-, h8⟩) | h8 | h8
    · exact absurd h8 (hno _ _)
    · exact absurd h8 (hno _ _)
    · exact .inr (.inl h8)
    · exact .inr (.inr (.inl h8))
  have hcl : Claims env.machine res hdr' e expr cel := ⟨hc, hv2, h6, h5, h7⟩
  have hmade : ∀ f, CtOp.insert f ∈ customOps d body → (customOrigin (allPosts d body) req f).Made f.cert ∧
      (∀ n ∈ (customOrigin (allPosts d body) req f).cel.names, CarriedName n) ∧ (customOrigin (allPosts d body) req f).cel.NoPseudo ∧
      (customOrigin (allPosts d body) req f).response.NoPseudo := by
    intro f hf
    rcases custom_ops ⟨_, hf, rfl⟩ with rfl | ⟨x, hx, rfl⟩
    · rw [customOrigin_skip]
      refine ⟨.skip, by simp [CelExpr.names], trivial, ?_⟩
      intro x hx
      cases hx
    · obtain ⟨y, hy, hye, ho⟩ := customOrigin_post (req := req) hx
      rw [ho, ← hye]
      exact ⟨post_made y req, by simp [customCel, customCert, CelExpr.names], trivial, post_noPseudo y⟩
  have hcollide : ∀ f, CtOp.insert f ∈ customOps d body →
      (CollisionIn [(customOrigin (allPosts d body) req f).cel.toBytes] [expr] ∨
        CollisionIn (certHashed (customOrigin (allPosts d body) req f).cel (customOrigin (allPosts d body) req f).request
          (customOrigin (allPosts d body) req f).response) (certHashed cel req res)) →
      CollisionIn [CelExpr.skip.toBytes] [expr] ∨ CollisionIn [customCel.toBytes] [expr] ∨
      ∃ shown, Front.Made d shown ∧ CollisionIn (certHashed customCel req shown) (certHashed cel req res) := by
    intro f hf hx
    rcases custom_ops ⟨_, hf, rfl⟩ with rfl | ⟨x, hx', rfl⟩
    · rw [customOrigin_skip] at hx
      rcases hx with hx | ⟨a, ha, -⟩
      · exact .inl hx
      · cases ha
    · obtain ⟨y, hy, -, ho⟩ := customOrigin_post (req := req) hx'
      rw [ho] at hx
      rcases hx with hx | hx
      · exact .inr (.inl hx)
      · exact .inr (.inr ⟨_, post_made_of hd hb hy, hx⟩)
  rcases C24_best_path_partial hcl h hpath hend hC (C24_api_tree hct) with ⟨-, hbest⟩ | k | k
  rotate_left
  · exact .inr (.inl k)
  · exact .inr (.inr (.inl k))
  have hexact : ∀ {f : CertEntry} {u : Bytes}, f.path.toExprPath = e → f.path = .exact u → NormalPath u → u = path := by
    intro f u f1 f2 hu
    rw [f2, toExprPath_cons] at f1
    have f1 : str "http_expr" :: ((PathShape.ofPath u).labels ++ [str "<$>"]) = e := f1
    rcases hbest with hb | ⟨-, w, -, hb, -⟩
    · rw [← f1] at hb
      have hb := (List.cons.inj hb).2
      exact normal_inj hu hnormal (labels_inj (ofPath_proper _) (ofPath_proper _) (List.append_cancel_right hb))
    · rw [← f1] at hb
      have := congrArg List.getLast? hb
      have e1 : (str "http_expr" :: ((PathShape.ofPath u).labels ++ [str "<$>"])).getLast? = some (str "<$>") := by
        rw [← List.cons_append, List.getLast?_append]; rfl
      have e2 : (str "http_expr" :: w.labels ++ [str "<*>"]).getLast? = some (str "<*>") := by
        rw [List.getLast?_append]; rfl
      rw [e1, e2] at this
      exact absurd this (by decide)
  by_cases hcel : cel = .skip
  · subst hcel
    rcases C27_end_to_end hcl h hct hC (fun f => (customOrigin (allPosts d body) req f).cel) (fun f hf =>
        ⟨HttpPath.not_hides (custom_made hd hb ⟨_, hf, rfl⟩).1 _, madeOf_madeFor (hmade f hf).1, (hmade f hf).2.1⟩) with
      ⟨f, k1, k2, k3, k4, k5⟩ | k | k | ⟨f, k1, k2, -, k3⟩
    · rcases custom_ops ⟨_, k1, rfl⟩ with rfl | ⟨x, hx, rfl⟩
      · exact absurd (hexact k3 (by unfold uncertifiedEntry; with_reducible rfl) (normal_of_bool (by decide))).symm hne
      · obtain ⟨y, hy, -, ho⟩ := customOrigin_post (req := req) hx
        rw [ho] at k4
        simp [customCel] at k4
    · exact .inr (.inl k)
    · exact .inr (.inr (.inl k))
    · exact .inr (.inr (.inr (.inr ⟨e, expr, _, hcl, hcollide f k1 (.inl k3)⟩)))
  · rcases C23_end_to_end hcl h hcel hct hC (customOrigin (allPosts d body) req) hmade with
      ⟨f, k1, k2, k3, k4, k5⟩ | k | k | ⟨f, k1, k2, -, k3⟩
    rotate_left
    · exact .inr (.inl k)
    · exact .inr (.inr (.inl k))
    · exact .inr (.inr (.inr (.inr ⟨e, expr, _, hcl, hcollide f k1 k3⟩)))
    rcases custom_ops ⟨_, k1, rfl⟩ with rfl | ⟨x, hx, rfl⟩
    · rw [customOrigin_skip] at k4
      exact absurd k4.symm hcel
    obtain ⟨y, hy, hye, ho⟩ := customOrigin_post (req := req) hx
    rw [ho] at k4 k5
    rw [← hye] at k3
    simp only at k4 k5
    rw [← k4] at k5
    obtain ⟨r1, r2, r3⟩ := k5
    have hyp : y.entry.path = y.treePath := by unfold Post.entry; with_reducible rfl
    by_cases hcol : CollisionIn [CelExpr.skip.toBytes] [customCel.toBytes]
    · exact .inr (.inr (.inr (.inl hcol)))
    left
    refine ⟨y.response, y.type, y.cache, y.enc, y.body, post_page' y, ?_, r1.symm, r2.symm, r3⟩
    rcases (mem_allPosts hd hb).1 hy with ⟨e', c, hoff, rfl⟩ | ⟨p, ct, e', c, hty, ⟨c', hin⟩, hoff, rfl⟩
    · right
      refine ⟨?_, rfl, rfl, hoff⟩
      rintro p ⟨rfl, ⟨c', hin⟩, ct, hty⟩
      have hnone : ¬ ∃ n, s.tree.full.HasNode (str "http_expr" :: (PathShape.ofPath (slashByte :: p)).labels ++ [str "<$>"]) n := by
        rcases hbest with hb | ⟨hb, -⟩
        · exfalso
          have : (indexPost e' c).entry.path = .wildcard (str "") := by rw [hyp]; simp only [indexPost]
          rw [← k3, this] at hb
          have := congrArg List.getLast? hb
          have e2 : (str "http_expr" :: (PathShape.ofPath (slashByte :: p)).labels ++ [str "<$>"]).getLast? = some (str "<$>") := by
            rw [List.getLast?_append]; rfl
          rw [e2] at this
          exact absurd this (by decide)
        · exact hb
      refine hnone ?_
      have hz : filePost p ct none c' ∈ allPosts d body := (mem_allPosts hd hb).2 (.inr ⟨p, ct, none, c', hty, ⟨c', hin⟩, .plain hin, rfl⟩)
      have hzp : (filePost p ct none c').entry.path = .exact (slashByte :: p) := by unfold Post.entry; simp only [filePost]
      generalize filePost p ct none c' = z at hz hzp
      rcases entries_api_clean (customOps d body) z.entry customCel (madeOf_madeFor (post_made z req))
        (by rw [hzp]; exact (hd.names hin hty).2.2.1) customKind
        (fun o ho f hf => (custom_made hd hb ⟨o, ho, hf⟩).1) (fun o ho f hf => (custom_made hd hb ⟨o, ho, hf⟩).2) with
        ⟨t, t1, -, t3, -⟩ | ⟨o, o1, g, o2, o3, o4⟩
      · rw [hct] at t1
        simp only [Option.some.injEq] at t1
        subst t1
        have hl := t3.2 ((custom_spec _ _ _).2 (.inr ⟨z, hz, rfl⟩))
        have u3 : z.entry.toTreePath = (PathShape.ofPath (slashByte :: p)).labels ++ str "<$>" :: z.entry.cert.toTreePath := by
          obtain ⟨t, u1, u2, u3⟩ := entryPath_eq z.entry
          rw [hzp] at u2 u3
          have u2 : (PathShape.ofPath (slashByte :: p)).labels ++ [str "<$>"] = (PathShape.ofPath (slashByte :: p)).labels ++ [t] := u2
          have := (List.cons.inj (List.append_cancel_left u2)).1
          rw [← this] at u3
          exact u3
        unfold HasLeaf at hl
        rw [u3] at hl
        obtain ⟨n, hn, -⟩ := HasNode.split (p := str "http_expr" :: (PathShape.ofPath (slashByte :: p)).labels ++ [str "<$>"])
          (q := z.entry.cert.toTreePath) (by simpa using hl)
        exact ⟨n, hn⟩
      · exfalso
        have := o3.2 (by simp [customCel])
        rw [this] at o4
        exact hcol o4
    · left
      have : slashByte :: p = path := hexact k3 (by rw [hyp]; simp only [filePost]) (hd.names hin hty).2.1
      exact ⟨p, ⟨this.symm, ⟨c', hin⟩, ct, hty⟩, hty, rfl, hoff⟩

end
end Verif.Props
