import Verif.Props.AssetsExample

set_option linter.unusedSimpArgs false
set_option linter.unusedSectionVars false

/-!
# The example canister `assets`: nothing else verifies (C63)
-/

namespace Verif.Props
open Verif HashTree PathShape

section
variable [GlobLib]

theorem page_encoding_nc {c : Bytes} {e : Option AssetEncoding} {ct : Option Bytes} {hs : List Header} {a b : Header}
    (ha : a.1 ≠ str "content-encoding") (hb : b.1 ≠ str "content-encoding")
    (hh : ∀ h ∈ hs, h.1 ≠ str "content-encoding") (x : Bytes) :
    (str "content-encoding", x) ∈ (a :: Page.allHeaders ⟨c, e, ct, hs⟩ ++ [b]) ↔ e.map AssetEncoding.token = some x := by
  have hne : ∀ {h : Header}, h.1 ≠ str "content-encoding" → (str "content-encoding", x) ≠ h := by
    rintro h h1 rfl
    exact h1 rfl
  have h1 : (str "content-encoding", x) ∉ hs := fun h => hh _ h rfl
  have h2 : (str "content-encoding", x) ∉ (ct.map (fun ct => (str "content-type", ct))).toList := by
    cases ct with
    | none => simp
    | some ct => simp only [Option.map_some, Option.toList_some, List.mem_singleton]; exact hne name_type
  simp only [Page.allHeaders, List.mem_append, List.mem_cons, List.not_mem_nil, or_false, h1, h2, hne ha, hne hb, false_or]
  cases e with
  | none => simp
  | some e => simp [eq_comm]

theorem offers_picks {d : Dir} {p : Bytes} {e : Option AssetEncoding} {c : Bytes} (h : d.Offers p e c) :
    d.Picks p (fun x => some x = e) e c := by
  cases h with
  | plain h => exact .plain (by simp) (by simp) h
  | brotli a b c => exact .brotli rfl (.brotli a b c)
  | gzip a b c => exact .gzip (by simp) rfl (.gzip a b c)

/-- What is announced for a path is shown there to some client. -/
theorem item_shown {d : Dir} {m : Machine} (hd : d.Proper m) {i : Item} (hi : Announces d.collect siteConfigs i) :
    (i.isFallback = false → ∃ accepts, d.Shows accepts i.certPath.url i.response) ∧
    (i.isFallback = true → i.certPath = .wildcard (str "/") ∧ ∀ path, path ≠ str "/old-url" →
      (∀ p c, path = slashByte :: p → ¬ d.HasFile p c) → ∃ accepts, d.Shows accepts path i.response) := by
  rcases (site_announces hd).1 hi with ⟨p, path, e, c, st, a1, a2, a3, rfl⟩ | ⟨e, c, st, a1, a3, rfl⟩ | rfl
  · refine ⟨fun _ => ?_, fun h => (by cases h)⟩
    have hs := site_governs a3
    obtain ⟨⟨c₀, h⟩, -⟩ := offers_file a1
    rcases a2 with rfl | ⟨rfl, rfl⟩
    · refine ⟨_, .file rfl (offers_picks a1) rfl rfl (fun x => page_encoding_nc name_length name_expr hs.names x) ?_⟩
      intro hc y hy
      exact List.mem_append_left _ (List.mem_cons_of_mem _ (List.mem_append_left _ (List.mem_append_left _ (hs.safe hc hy))))
    · refine ⟨_, .index (path := str "/") (show str "/" ≠ str "/old-url" by decide) ?_ (offers_picks a1) rfl rfl
        (fun x => page_encoding_nc name_length name_expr hs.names x) ?_⟩
      · intro p c hp hf
        have hp : [slashByte] = slashByte :: p := hp
        simp only [List.cons.injEq, true_and] at hp
        exact (hd.names hf).1 hp.symm
      · intro y hy
        exact List.mem_append_left _ (List.mem_cons_of_mem _ (List.mem_append_left _ (List.mem_append_left _ (hs.safe (.inl rfl) hy))))
  · refine ⟨fun h => (by cases h), fun _ => ⟨rfl, fun path hold hnf => ?_⟩⟩
    have hs := site_governs a3
    refine ⟨_, .index hold hnf (offers_picks a1) rfl rfl (fun x => page_encoding_nc name_length name_expr hs.names x) ?_⟩
    intro y hy
    exact List.mem_append_left _ (List.mem_cons_of_mem _ (List.mem_append_left _ (List.mem_append_left _ (hs.safe (.inl rfl) hy))))
  · refine ⟨fun _ => ⟨fun _ => False, .moved rfl rfl rfl (by decide)⟩, fun h => (by cases h)⟩

theorem site_noPseudo {d : Dir} {m : Machine} (hd : d.Proper m) {i : Item} (hi : Announces d.collect siteConfigs i) :
    i.response.NoPseudo := by
  have hsite : ∀ {a : Asset} {st}, Governs siteConfigs a st → ∀ h ∈ st.headers, ¬ SameName h.1 (str ":ic-cert-status") := by
    intro a st h
    unfold siteConfigs at h
    simp only [governs_cons, governs_nil, AssetConfig.Matches, AssetConfig.settings, not_false_eq_true, true_and, false_and,
      false_or] at h
    have h1 : ∀ h ∈ getAssetHeaders [immutableCache], ¬ SameName h.1 (str ":ic-cert-status") := by decide
    have h2 : ∀ h ∈ getAssetHeaders [(str "cache-control", str "public, no-cache, no-store")],
        ¬ SameName h.1 (str ":ic-cert-status") := by decide
    rcases h with ⟨h, rfl⟩ | ⟨h0, ⟨h, rfl⟩ | ⟨h1, ⟨h, rfl⟩ | ⟨h2, ⟨h, rfl⟩ | ⟨h3, ⟨h, rfl⟩ | ⟨h4, rfl⟩⟩⟩⟩⟩
    · exact h2
    · exact h1
    · assumption
    · assumption
    · assumption
    · simp
  have hlen : ¬ SameName (str "content-length") (str ":ic-cert-status") := by decide
  have hexp : ¬ SameName (str "IC-CertificateExpression") (str ":ic-cert-status") := by decide
  have hct : ¬ SameName (str "content-type") (str ":ic-cert-status") := by decide
  have hce : ¬ SameName (str "content-encoding") (str ":ic-cert-status") := by decide
  have hlo : ¬ SameName (str "location") (str ":ic-cert-status") := by decide
  have hall : ∀ {a : Asset} {st e c}, Governs siteConfigs a st →
      ∀ h ∈ Page.allHeaders ⟨c, e, st.contentType, st.headers⟩, ¬ SameName h.1 (str ":ic-cert-status") := by
    intro a st e c hg h hh
    simp only [Page.allHeaders, List.mem_append] at hh
    rcases hh with (hh | hh) | hh
    · exact hsite hg h hh
    · simp only [Option.mem_toList, Option.map_eq_some_iff] at hh
      obtain ⟨_, -, rfl⟩ := hh
      exact hct
    · simp only [Option.mem_toList, Option.map_eq_some_iff] at hh
      obtain ⟨_, -, rfl⟩ := hh
      exact hce
  have hfin : (∀ h ∈ i.headers, ¬ SameName h.1 (str ":ic-cert-status")) → i.response.NoPseudo := by
    intro h x hx
    simp only [Item.response, List.cons_append, List.mem_cons, List.mem_append, List.not_mem_nil, or_false] at hx
    rcases hx with rfl | hx | rfl
    · exact hlen
    · exact h x hx
    · exact hexp
  apply hfin
  rcases (site_announces hd).1 hi with ⟨p, path, e, c, st, a1, a2, a3, rfl⟩ | ⟨e, c, st, a1, a3, rfl⟩ | rfl
  · exact hall a3
  · exact hall a3
  · intro h hh
    have hh : h ∈ [(str "location", str "/")] := hh
    rw [List.mem_singleton] at hh
    subst hh
    exact hlo

end

section
variable [SHA] [UriLib] [GlobLib] {dir : Dir} {values : List Asset} {s : Site}

/-- The entries of the tree are those of the items, and the one for the metrics. -/
theorem site_entries (hv : IsValues dir.collect values) {g : CertEntry} {o : CtOp}
    (ho : o ∈ treeLog (siteCalls dir values)) (hg : o.entry? = some g) :
    g = metricsEntry ∨ ∃ i x, Announces dir.collect siteConfigs i ∧ i.Answer x ∧ g = x.entry := by
  rcases entry_about_shared (site_faithful hv) ho hg with ⟨c, c1, j, y, c2, c3, rfl⟩ | hd'
  · exact .inr ⟨j, y, site_about c1 c2, c3, rfl⟩
  · have := site_direct hd'
    subst this
    exact .inl (Option.some.inj hg).symm

/-- An item of the site that the entry was made for. -/
def SiteItem (dir : Dir) (g : CertEntry) (i : Item) : Prop :=
  Announces dir.collect siteConfigs i ∧ ∃ x, i.Answer x ∧ g = x.entry

open Classical in
/-- What an entry was made from. -/
noncomputable def siteOrigin (dir : Dir) (g : CertEntry) : Origin :=
  if h : ∃ i, SiteItem dir g i then ⟨h.choose.cel, getRequest h.choose.url, h.choose.response⟩
  else ⟨.skip, getRequest (str "/metrics"), ⟨200, [], []⟩⟩

theorem siteOrigin_made (hv : IsValues dir.collect values) {g : CertEntry} {o : CtOp}
    (ho : o ∈ treeLog (siteCalls dir values)) (hg : o.entry? = some g) :
    (∃ i, SiteItem dir g i ∧ siteOrigin dir g = ⟨i.cel, getRequest i.url, i.response⟩) ∨
    (g = metricsEntry ∧ siteOrigin dir g = ⟨.skip, getRequest (str "/metrics"), ⟨200, [], []⟩⟩) := by
  by_cases h : ∃ i, SiteItem dir g i
  · left
    refine ⟨h.choose, h.choose_spec, ?_⟩
    unfold siteOrigin
    rw [dif_pos h]
  · right
    rcases site_entries hv ho hg with h1 | ⟨i, x, h1, h2, h3⟩
    · refine ⟨h1, ?_⟩
      unfold siteOrigin
      rw [dif_neg h]
    · exact absurd ⟨i, h1, x, h2, h3⟩ h

variable [Bls] [Inflate]

/-- **C63.** With a certificate of the canister's state, nothing but the site verifies for a path other than that of the metrics:
a response that verifies has the status, the body and the certified headers of what the site shows at the path to some client
(which encodings a client accepts is not certified), and answers a GET request without body and query. Otherwise there is a
collision of SHA-256 between the messages and what the canister hashed. -/
theorem C63_only {env : Env} (hd : dir.Proper env.machine) (hm : 32 < env.machine.usize) (hv : IsValues dir.collect values)
    (hs : Site.init dir values = some s)
    (huri : ∀ u, u = str "/" ∨ u = str "/old-url" ∨ (∃ p c, dir.HasFile p c ∧ u = slashByte :: p) →
      (HttpRequest.getQuery { method := str "GET", url := u, headers := [], body := [] }) = .ok none)
    {req : HttpRequest} {res : HttpResponse} {minV : Nat} {info : VerificationInfo} {hdr : CertHeader} {S : HashTree}
    (hc : CarriesHeader env.machine res hdr) (h : verifyPair env req res minV = .ok info)
    (hC : Certifies hdr.certificate env.canisterId S s.router.tree.full)
    {path : Bytes} (hpath : req.getPath = .ok path) (hend : PlainEndPath path) (hnormal : NormalPath path)
    (hnm : path ≠ str "/metrics") :
    (∃ accepts shown, dir.Shows accepts path shown ∧ res.status = shown.status ∧ res.body = shown.body ∧
      (certifiedRespHeaders (.headerExclusions []) shown.headers).Perm (certifiedRespHeaders (.headerExclusions []) res.headers) ∧
      req.method = str "GET" ∧ req.body = [] ∧ req.getQuery = .ok none) ∨
    CollisionIn hdr.certificate.tree.hashed S.hashed ∨ CollisionIn hdr.tree.hashed s.router.tree.full.hashed ∨
    (∃ i, Announces dir.collect siteConfigs i ∧ CollisionIn [CelExpr.skip.toBytes] [i.cel.toBytes]) ∨
    ∃ e expr cel, Claims env.machine res hdr e expr cel ∧ (CollisionIn [CelExpr.skip.toBytes] [expr] ∨
      ∃ i, Announces dir.collect siteConfigs i ∧ (CollisionIn [i.cel.toBytes] [expr] ∨
        CollisionIn (certHashed i.cel (getRequest i.url) i.response) (certHashed cel req res))) := by
  obtain ⟨hr, -, hok⟩ := site_init hs
  obtain ⟨hct, -, -⟩ := routerRun_iff.1 hr
  obtain ⟨hdr', h3, -, h4⟩ := verifyPair_ok.1 h
  have := carriesHeader_unique h3 hc
  subst this
  rcases h4 with ⟨hv1, -⟩ | ⟨hv2, expr, e, cel, h5, h6, h7, h8⟩
  · obtain ⟨-, -, path, enc, decoded, body, -, -, -, -, h7⟩ := C28_sound hc hv1 h
    have hno : ∀ p v, ¬ s.router.tree.full.HasLeaf (str "http_assets" :: p) v := by
      intro p v hx
      unfold CertTree.full HasLeaf at hx
      generalize hq : (str "http_assets" :: p) = q at hx
      cases hx with
      | down hx =>
        have := (List.cons.inj hq).1
        exact absurd this (by decide)
    rcases h7 S _ hC with (h8 | ⟨-, h8⟩) | h8 | h8
    · exact absurd h8 (hno _ _)
    · exact absurd h8 (hno _ _)
    · exact .inr (.inl h8)
    · exact .inr (.inr (.inl h8))
  have hcl : Claims env.machine res hdr' e expr cel := ⟨hc, hv2, h6, h5, h7⟩
  -- the entries
  have hsi : ∀ {g i}, SiteItem dir g i → g.path = i.certPath ∧ MadeOf g.cert i.cel (getRequest i.url) i.response ∧ g.path.Clean := by
    rintro g i ⟨h1, x, h2, rfl⟩
    refine ⟨h2.path, h2.made, ?_⟩
    rw [h2.path]
    exact (site_paths hd hm h1).1.2.1
  have hmade : ∀ o ∈ treeLog (siteCalls dir values), ∀ f, CtOp.entry? o = some f → (siteOrigin dir f).Made f.cert ∧
      (∀ n ∈ (siteOrigin dir f).cel.names, CarriedName n) ∧ (siteOrigin dir f).cel.NoPseudo ∧
      (siteOrigin dir f).response.NoPseudo := by
    intro o ho f hf
    rcases siteOrigin_made hv ho hf with ⟨i, i1, i2⟩ | ⟨rfl, i2⟩
    · rw [i2]
      exact ⟨(hsi i1).2.1, (item_names i).1, (item_names i).2, site_noPseudo hd i1.1⟩
    · rw [i2]
      refine ⟨.skip, by simp [CelExpr.names], trivial, ?_⟩
      intro x hx
      cases hx
  have hcollide : ∀ f, CtOp.insert f ∈ treeLog (siteCalls dir values) →
      (CollisionIn [(siteOrigin dir f).cel.toBytes] [expr] ∨
        CollisionIn (certHashed (siteOrigin dir f).cel (siteOrigin dir f).request (siteOrigin dir f).response) (certHashed cel req res)) →
      (CollisionIn [CelExpr.skip.toBytes] [expr] ∨
      ∃ i, Announces dir.collect siteConfigs i ∧ (CollisionIn [i.cel.toBytes] [expr] ∨
        CollisionIn (certHashed i.cel (getRequest i.url) i.response) (certHashed cel req res))) := by
    intro f hf hx
    rcases siteOrigin_made hv hf rfl with ⟨i, i1, i2⟩ | ⟨rfl, i2⟩
    · rw [i2] at hx
      exact .inr ⟨i, i1.1, hx⟩
    · rw [i2] at hx
      rcases hx with hx | ⟨a, ha, -⟩
      · exact .inl hx
      · cases ha
  rcases C24_best_path_partial hcl h hpath hend hC (C24_api_tree hct) with ⟨-, hbest⟩ | k | k
  rotate_left
  · exact .inr (.inl k)
  · exact .inr (.inr (.inl k))
  have hexact : ∀ {f : CertEntry} {u : Bytes}, f.path.toExprPath = e → f.path = .exact u → NormalPath u → u = path := by
    intro f u f1 f2 hu
    rw [f2, toExprPath_cons] at f1
    have f1 : str "http_expr" :: ((PathShape.ofPath u).labels ++ [str "<$>"]) = e := f1
    rcases hbest with hb | ⟨-, w, -, hb, -⟩
    · rw [← f1] at hb
      have hb := (List.cons.inj hb).2
      exact normal_inj hu hnormal (labels_inj (ofPath_proper _) (ofPath_proper _) (List.append_cancel_right hb))
    · rw [← f1] at hb
      have := congrArg List.getLast? hb
      have e1 : (str "http_expr" :: ((PathShape.ofPath u).labels ++ [str "<$>"])).getLast? = some (str "<$>") := by
        rw [← List.cons_append, List.getLast?_append]; rfl
      have e2 : (str "http_expr" :: w.labels ++ [str "<*>"]).getLast? = some (str "<*>") := by
        rw [List.getLast?_append]; rfl
      rw [e1, e2] at this
      exact absurd this (by decide)
  by_cases hcel : cel = .skip
  · subst hcel
    rcases C27_end_to_end hcl h hct hC (fun f => (siteOrigin dir f).cel) (fun f hf => by
        refine ⟨HttpPath.not_hides ?_ _, madeOf_madeFor (hmade _ hf f rfl).1, (hmade _ hf f rfl).2.1⟩
        rcases siteOrigin_made hv hf rfl with ⟨i, i1, i2⟩ | ⟨rfl, i2⟩
        · exact (hsi i1).2.2
        · exact metrics_clean) with ⟨f, k1, k2, k3, k4, k5⟩ | k | k | ⟨f, k1, k2, -, k3⟩
    · rcases siteOrigin_made hv k1 rfl with ⟨i, i1, i2⟩ | ⟨rfl, i2⟩
      · rw [i2] at k4
        exact absurd k4 (item_cel_ne i)
      · exact absurd (hexact k3 rfl (normal_of_bool (by decide))).symm hnm
    · exact .inr (.inl k)
    · exact .inr (.inr (.inl k))
    · exact .inr (.inr (.inr (.inr ⟨e, expr, _, hcl, hcollide f k1 (.inl k3)⟩)))
  · rcases C23_end_to_end hcl h hcel hct hC (siteOrigin dir) (fun f hf => hmade _ hf f rfl) with ⟨f, k1, k2, k3, k4, k5⟩ | k | k | ⟨f, k1, k2, -, k3⟩
    rotate_left
    · exact .inr (.inl k)
    · exact .inr (.inr (.inl k))
    · exact .inr (.inr (.inr (.inr ⟨e, expr, _, hcl, hcollide f k1 k3⟩)))
    rcases siteOrigin_made hv k1 rfl with ⟨i, i1, i2⟩ | ⟨rfl, i2⟩
    swap
    · rw [i2] at k4
      exact absurd k4.symm hcel
    obtain ⟨i3, i4, i5⟩ := hsi i1
    obtain ⟨⟨n1, -⟩, n2⟩ := site_paths hd hm i1.1
    rw [i2] at k4 k5
    simp only at k4 k5
    have hsame : res.status = i.response.status ∧ res.body = i.response.body ∧
        (certifiedRespHeaders (.headerExclusions []) i.response.headers).Perm (certifiedRespHeaders (.headerExclusions []) res.headers) ∧
        req.method = str "GET" ∧ req.body = [] ∧ req.getQuery = .ok none := by
      have fin : ∀ d : ReqCert, i.cel = .full d (.headerExclusions []) → res.status = i.response.status ∧ res.body = i.response.body ∧
          (certifiedRespHeaders (.headerExclusions []) i.response.headers).Perm (certifiedRespHeaders (.headerExclusions []) res.headers) ∧
          req.method = str "GET" ∧ req.body = [] ∧ req.getQuery = .ok none := by
        intro d hde
        rw [← k4, hde] at k5
        obtain ⟨⟨g1, g2, -, p, q, g4, g5, g6⟩, g7, g8, g9⟩ := k5
        refine ⟨g7.symm, g8.symm, g9, g1.symm, g2.symm, ?_⟩
        have := huri _ n2
        have g4 : HttpRequest.getQuery { method := str "GET", url := i.url, headers := [], body := [] } = .ok p := g4
        rw [this] at g4
        cases g4
        cases q with
        | none => exact g5
        | some q => simp at g6
      cases i <;> exact fin _ rfl
    cases hf : i.isFallback with
    | false =>
      obtain ⟨accepts, hsh⟩ := (item_shown hd i1.1).1 hf
      have : i.certPath.url = path := hexact k3 (i3.trans (certPath_exact hf)) n1
      rw [this] at hsh
      exact .inl ⟨accepts, _, hsh, hsame⟩
    | true =>
      obtain ⟨hw, hsh⟩ := (item_shown hd i1.1).2 hf
      -- nothing is certified for the very path
      by_cases hcol : ∃ i, Announces dir.collect siteConfigs i ∧ CollisionIn [CelExpr.skip.toBytes] [i.cel.toBytes]
      · exact .inr (.inr (.inr (.inl hcol)))
      have hnone : ¬ ∃ n, s.router.tree.full.HasNode (str "http_expr" :: (PathShape.ofPath path).labels ++ [str "<$>"]) n := by
        rcases hbest with hb | ⟨hb, -⟩
        · exfalso
          rw [← k3, i3, hw] at hb
          have := congrArg List.getLast? hb
          have e2 : (str "http_expr" :: (PathShape.ofPath path).labels ++ [str "<$>"]).getLast? = some (str "<$>") := by
            rw [List.getLast?_append]; rfl
          rw [e2] at this
          exact absurd this (by decide)
        · exact hb
      have hfree : ∀ j, Announces dir.collect siteConfigs j → j.isFallback = false → j.certPath.url ≠ path := by
        intro j hj hjf hjp
        refine hnone ?_
        obtain ⟨y, hy⟩ : ∃ y, j.Answer y := by
          have := ((C45_certify_succeeds hv).1 hok).2 j hj
          obtain ⟨y, hy⟩ := (Item.prepare_isOk).2 ⟨this.2, this.1⟩
          exact ⟨y, Item.prepare_ok.1 hy⟩
        have hspec : ctSpec (treeLog (siteCalls dir values)) y.entry.toTreePath :=
          (C45_certify_tree (calls := [.shared (.insert metricsEntry)]) hv hok _).2 (.inr ⟨j, y, hj, hy, rfl⟩)
        rcases entries_api_clean (treeLog (siteCalls dir values)) y.entry j.cel (madeOf_madeFor hy.made)
          (by rw [hy.path]; exact (site_paths hd hm hj).1.2.1) (fun f => (siteOrigin dir f).cel)
          (fun o ho f hf => by
            rcases siteOrigin_made hv ho hf with ⟨i, i1, i2⟩ | ⟨rfl, i2⟩
            · exact (hsi i1).2.2
            · exact metrics_clean)
          (fun o ho f hf => madeOf_madeFor (hmade o ho f hf).1) with ⟨t, t1, -, t3, -⟩ | ⟨o, o1, g, o2, o3, o4⟩
        · rw [hct] at t1
          simp only [Option.some.injEq] at t1
          subst t1
          have hl := t3.2 hspec
          have hp : y.entry.path = .exact path := by rw [hy.path, certPath_exact hjf, hjp]
          have u3 : y.entry.toTreePath = (PathShape.ofPath path).labels ++ str "<$>" :: y.entry.cert.toTreePath := by
            obtain ⟨t, u1, u2, u3⟩ := entryPath_eq y.entry
            rw [hp] at u2 u3
            have u2 : (PathShape.ofPath path).labels ++ [str "<$>"] = (PathShape.ofPath path).labels ++ [t] := u2
            have := (List.cons.inj (List.append_cancel_left u2)).1
            rw [← this] at u3
            exact u3
          unfold HasLeaf at hl
          rw [u3] at hl
          obtain ⟨n, hn, -⟩ := HasNode.split (p := str "http_expr" :: (PathShape.ofPath path).labels ++ [str "<$>"])
            (q := y.entry.cert.toTreePath) (by simpa using hl)
          exact ⟨n, hn⟩
        · exfalso
          have := o3.2 (item_cel_ne j)
          rw [this] at o4
          exact hcol ⟨j, hj, o4⟩
      obtain ⟨accepts, hsh⟩ := hsh path
        (fun hp => hfree _ ((site_announces hd).2 (.inr (.inr rfl))) rfl hp.symm)
        (fun p c hp hf => by
          obtain ⟨st, hst⟩ := governs_exists siteConfigs (Asset.new p [])
          exact hfree _ ((site_announces hd).2 (.inl ⟨p, path, none, c, st, .plain hf, .inl hp, hst, rfl⟩)) rfl rfl)
      exact .inl ⟨accepts, _, hsh, hsame⟩

end
end Verif.Props
