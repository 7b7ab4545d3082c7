import Verif.Props.AssetVerify
import Verif.Spec.Shared

/-!
# A router on a shared certification tree (C62)
-/

set_option linter.unusedSimpArgs false
set_option linter.unusedSectionVars false

namespace Verif.Props
open Verif HashTree PathShape

section
variable [SHA] [UriLib] [GlobLib]

/-- The entries of the tree's history come from items that calls were about, or were given directly. -/
theorem entry_about_shared {calls : List RouterCall} (hc : ∀ c ∈ calls, c.Faithful) {o : CtOp} {g : CertEntry}
    (ho : o ∈ treeLog calls) (hg : o.entry? = some g) :
    (∃ c ∈ calls, ∃ i x, c.About i ∧ i.Answer x ∧ g = x.entry) ∨ RouterCall.shared o ∈ calls := by
  unfold treeLog at ho
  obtain ⟨e, e1, e2⟩ := List.mem_filterMap.1 ho
  obtain ⟨c, c1, c2⟩ := List.mem_flatMap.1 e1
  by_cases hs : ∃ o', c = .shared o'
  · obtain ⟨o', rfl⟩ := hs
    right
    simp only [RouterCall.effects, List.mem_singleton] at c2
    subst c2
    cases o' <;> simp only [CtOp.effect, Effect.treeOp?, Option.some.injEq] at e2 <;> rw [← e2] <;> exact c1
  · left
    push Not at hs
    exact ⟨c, c1, (effect_about (hc c c1) c2).2.2 o g e2 hg hs⟩

theorem treeLog_shared (calls : List RouterCall) (o : CtOp) : treeLog (calls ++ [.shared o]) = treeLog calls ++ [o] := by
  rw [treeLog_append]
  congr 1
  unfold treeLog
  cases o <;> rfl

theorem routerRun_shared {calls : List RouterCall} {o : CtOp} {r r' : Router} (h : routerRun calls = some r)
    (h' : routerRun (calls ++ [.shared o]) = some r') : r'.responses = r.responses ∧ r'.fallbacks = r.fallbacks := by
  obtain ⟨-, a2, a3⟩ := routerRun_iff.1 h
  obtain ⟨-, b2, b3⟩ := routerRun_iff.1 h'
  have he : effectsOf (calls ++ [.shared o]) = effectsOf calls ++ [o.effect] := by
    rw [effectsOf_append]; rfl
  rw [he, List.foldl_append] at b2 b3
  rw [b2, b3, a2, a3]
  cases o <;> exact ⟨rfl, rfl⟩

/-- Entries with the same tree path are both exact or both wildcards, for paths of the same shape, if the paths are clean. -/
theorem entry_shape_inj {e g : CertEntry} (he : e.path.Clean) (hg : g.path.Clean) (h : e.toTreePath = g.toTreePath) :
    PathShape.ofPath e.path.url = PathShape.ofPath g.path.url ∧
      ((∃ a b, e.path = .exact a ∧ g.path = .exact b) ∨ ∃ a b, e.path = .wildcard a ∧ g.path = .wildcard b) := by
  have hterm : ∀ g : CertEntry, ∀ y ∈ g.cert.toTreePath, ¬ (y = exactTerm ∨ y = wildTerm) := by
    intro g y hy hterm
    have hl := term_len hterm
    have : y.length = 0 ∨ y.length = 32 := by
      cases hfc : g.cert with
      | skip a => rw [hfc] at hy; simp [HttpCert.toTreePath] at hy; rw [hy]; exact .inr a.2
      | responseOnly a b =>
        rw [hfc] at hy; simp [HttpCert.toTreePath] at hy
        rcases hy with rfl | rfl | rfl
        · exact .inr a.2
        · exact .inl rfl
        · exact .inr b.2
      | full a b c =>
        rw [hfc] at hy; simp [HttpCert.toTreePath] at hy
        rcases hy with rfl | rfl | rfl
        · exact .inr a.2
        · exact .inr b.2
        · exact .inr c.2
    omega
  obtain ⟨t, t1, t2, t3⟩ := entryPath_eq e
  obtain ⟨u, u1, u2, u3⟩ := entryPath_eq g
  rw [t3, u3] at h
  obtain ⟨k1, k2, -⟩ := cut_single (S := fun x => x = exactTerm ∨ x = wildTerm) (D := e.cert.toTreePath) t1 (clean_labels hg)
    (hterm g) (by rw [h])
  refine ⟨labels_inj (ofPath_proper _) (ofPath_proper _) k1, ?_⟩
  cases hpe : e.path with
  | exact a =>
    cases hpg : g.path with
    | exact b => exact .inl ⟨a, b, rfl, rfl⟩
    | wildcard b =>
      rw [hpe] at t2; rw [hpg] at u2
      have e1 : t = exactTerm := by
        have := List.append_inj_right' t2 rfl; simpa using this.symm
      have e2 : u = wildTerm := by
        have := List.append_inj_right' u2 rfl; simpa using this.symm
      rw [e1, e2] at k2; exact absurd k2 (by decide)
  | wildcard a =>
    cases hpg : g.path with
    | wildcard b => exact .inr ⟨a, b, rfl, rfl⟩
    | exact b =>
      rw [hpe] at t2; rw [hpg] at u2
      have e1 : t = wildTerm := by
        have := List.append_inj_right' t2 rfl; simpa using this.symm
      have e2 : u = exactTerm := by
        have := List.append_inj_right' u2 rfl; simpa using this.symm
      rw [e1, e2] at k2; exact absurd k2 (by decide)

/-! ## In step -/

/-- **C62**, the invariant. A new router is in step with a new tree. -/
theorem C62_start {r : Router} (hr : routerRun [] = some r) : InStepShared [] r := by
  have := C49_start hr
  exact ⟨this.responses, this.fallbacks, fun p hp => by
    obtain ⟨e, h1, h2, h3⟩ := this.certified p hp
    exact ⟨e, h1, h2, .inr h3⟩⟩

/-- **C62**, the invariant. Successful certification keeps the router in step with the shared tree. -/
theorem C62_certify {calls : List RouterCall} {assets values : List Asset} {configs : List AssetConfig} {r r' : Router}
    (hv : IsValues assets values) (hok : (RouterCall.certify assets values configs).Succeeds)
    (hr : routerRun calls = some r) (hr' : routerRun (calls ++ [.certify assets values configs]) = some r')
    (h : InStepShared calls r) : InStepShared (calls ++ [.certify assets values configs]) r' := by
  refine ⟨?_, ?_, ?_⟩
  · intro k x hx
    rw [C45_certify_tree hv hok]
    rcases (C45_certify hv hok hr hr' k).1 with ⟨i, y, h1, h2, h3, h4, h5⟩ | ⟨-, h5⟩
    · rw [hx] at h5
      simp only [Option.some.injEq] at h5
      subst h5
      exact .inr ⟨i, x, h1, h4, rfl⟩
    · exact .inl (h.responses k x (by rw [← h5]; exact hx))
  · intro k x hx
    rw [C45_certify_tree hv hok]
    rcases (C45_certify hv hok hr hr' k).2 with ⟨i, y, h1, h2, h3, h4, h5⟩ | ⟨-, h5⟩
    · rw [hx] at h5
      simp only [Option.some.injEq] at h5
      subst h5
      exact .inr ⟨i, x, h1, h4, rfl⟩
    · exact .inl (h.fallbacks k x (by rw [← h5]; exact hx))
  · intro p hp
    rw [C45_certify_tree hv hok] at hp
    rcases hp with hp | ⟨i, x, h1, h2, rfl⟩
    · obtain ⟨e, e0, e1, e2⟩ := h.certified p hp
      refine ⟨e, by rw [treeLog_append]; exact List.mem_append_left _ e0, e1, ?_⟩
      rcases e2 with e2 | e2
      · exact .inl (List.mem_append_left _ e2)
      right
      cases hpe : e.path with
      | exact a =>
        rw [hpe] at e2
        simp only at e2 ⊢
        rcases (C45_certify hv hok hr hr' ⟨a, none, none⟩).1 with ⟨i, y, -, -, -, -, h5⟩ | ⟨-, h5⟩
        · rw [h5]; simp
        · rw [h5]; exact e2
      | wildcard a =>
        rw [hpe] at e2
        simp only at e2 ⊢
        rcases (C45_certify hv hok hr hr' ⟨a, none, none⟩).2 with ⟨i, y, -, -, -, -, h5⟩ | ⟨-, h5⟩
        · rw [h5]; simp
        · rw [h5]; exact e2
    · refine ⟨x.entry, mem_ctSpec_insert hv hok h1 h2, rfl, .inr ?_⟩
      obtain ⟨j, j1, j2, j3⟩ := plain_announced h1
      rw [h2.path]
      cases hf : i.isFallback with
      | false =>
        rw [certPath_exact hf]
        simp only
        rcases (C45_certify hv hok hr hr' ⟨i.certPath.url, none, none⟩).1 with ⟨i, y, -, -, -, -, h5⟩ | ⟨h5, -⟩
        · rw [h5]; simp
        · exact absurd j3 (h5 j j1 (j2.trans hf))
      | true =>
        rw [certPath_wild hf]
        simp only
        rcases (C45_certify hv hok hr hr' ⟨i.certPath.url, none, none⟩).2 with ⟨i, y, -, -, -, -, h5⟩ | ⟨h5, -⟩
        · rw [h5]; simp
        · exact absurd j3 (h5 j j1 (j2.trans hf))

/-- **C62**, the invariant. Deleting everything leaves the router in step with the tree. -/
theorem C62_delete_all {calls : List RouterCall} {r : Router} (hr : routerRun (calls ++ [.deleteAll]) = some r) :
    InStepShared (calls ++ [.deleteAll]) r := by
  obtain ⟨rfl, h⟩ := C47_delete_all hr
  exact ⟨fun k x h => (by cases h), fun k x h => (by cases h), fun p hp => absurd hp (h p)⟩

/-- **C62**, the invariant. Inserting directly into the tree keeps the router in step with it. -/
theorem C62_insert {calls : List RouterCall} {g : CertEntry} {r r' : Router} (hr : routerRun calls = some r)
    (hr' : routerRun (calls ++ [.shared (.insert g)]) = some r') (h : InStepShared calls r) :
    InStepShared (calls ++ [.shared (.insert g)]) r' := by
  obtain ⟨e1, e2⟩ := routerRun_shared hr hr'
  have hs : ∀ p, ctSpec (treeLog (calls ++ [.shared (.insert g)])) p ↔ p = g.toTreePath ∨ ctSpec (treeLog calls) p := by
    intro p
    rw [treeLog_shared]
    unfold ctSpec
    rw [List.foldl_append]
    rfl
  refine ⟨fun k x hx => ?_, fun k x hx => ?_, fun p hp => ?_⟩
  · rw [hs]; exact .inr (h.responses k x (by rw [← e1]; exact hx))
  · rw [hs]; exact .inr (h.fallbacks k x (by rw [← e2]; exact hx))
  · rw [hs] at hp
    rcases hp with rfl | hp
    · exact ⟨g, by rw [treeLog_shared]; simp, rfl, .inl (by unfold Direct; simp)⟩
    · obtain ⟨e, a1, a2, a3⟩ := h.certified p hp
      refine ⟨e, by rw [treeLog_shared]; exact List.mem_append_left _ a1, a2, ?_⟩
      rcases a3 with a3 | a3
      · exact .inl (List.mem_append_left _ a3)
      · rw [e1, e2]; exact .inr a3

/-- **C62**, the invariant. Deleting directly from the tree what the router does not hold keeps the router in step with it. -/
theorem C62_delete {calls : List RouterCall} {g : CertEntry} {r r' : Router} (hr : routerRun calls = some r)
    (hr' : routerRun (calls ++ [.shared (.delete g)]) = some r') (h : InStepShared calls r)
    (hn : ∀ k x, r.responses k = some x ∨ r.fallbacks k = some x → x.entry.toTreePath ≠ g.toTreePath) :
    InStepShared (calls ++ [.shared (.delete g)]) r' := by
  obtain ⟨e1, e2⟩ := routerRun_shared hr hr'
  have hs : ∀ p, ctSpec (treeLog (calls ++ [.shared (.delete g)])) p ↔ p ≠ g.toTreePath ∧ ctSpec (treeLog calls) p := by
    intro p
    rw [treeLog_shared]
    unfold ctSpec
    rw [List.foldl_append]
    rfl
  refine ⟨fun k x hx => ?_, fun k x hx => ?_, fun p hp => ?_⟩
  · rw [hs]; rw [e1] at hx; exact ⟨hn k x (.inl hx), h.responses k x hx⟩
  · rw [hs]; rw [e2] at hx; exact ⟨hn k x (.inr hx), h.fallbacks k x hx⟩
  · rw [hs] at hp
    obtain ⟨e, a1, a2, a3⟩ := h.certified p hp.2
    refine ⟨e, by rw [treeLog_shared]; exact List.mem_append_left _ a1, a2, ?_⟩
    rcases a3 with a3 | a3
    · exact .inl (List.mem_append_left _ a3)
    · rw [e1, e2]; exact .inr a3

/-- **C62**, the invariant. After any history of successful certifications, complete deletions, and direct insertions into the
shared tree, and direct deletions of entries that the router never made, the router is in step with the tree. -/
theorem C62_in_step {calls : List RouterCall} {r : Router}
    (hc : ∀ c ∈ calls, c = .deleteAll ∨ (∃ assets values configs, c = .certify assets values configs ∧
      IsValues assets values ∧ c.Succeeds) ∨ (∃ g, c = .shared (.insert g)) ∨
      ∃ g, c = .shared (.delete g) ∧ ∀ c' ∈ calls, ∀ i x, c'.About i → i.Answer x → x.entry.toTreePath ≠ g.toTreePath)
    (hr : routerRun calls = some r) : InStepShared calls r := by
  suffices H : ∀ (pre : List RouterCall), (∀ c ∈ pre, c ∈ calls) → ∀ r, routerRun pre = some r → InStepShared pre r from
    H calls (fun c h => h) r hr
  intro pre
  induction pre using List.reverseRecOn with
  | nil => intro _ r hr; exact C62_start hr
  | append_singleton pre c ih =>
    intro hp r hr
    obtain ⟨r0, h0⟩ := routerRun_some pre
    have hs := ih (fun c hc' => hp c (List.mem_append_left _ hc')) r0 h0
    rcases hc c (hp c (by simp)) with rfl | ⟨assets, values, configs, rfl, h1, h2⟩ | ⟨g, rfl⟩ | ⟨g, rfl, h1⟩
    · exact C62_delete_all hr
    · exact C62_certify h1 h2 h0 hr hs
    · exact C62_insert h0 hr hs
    · refine C62_delete h0 hr hs ?_
      have hf : ∀ c ∈ pre, c.Faithful := by
        intro c hc'
        rcases hc c (hp c (List.mem_append_left _ hc')) with rfl | ⟨assets, values, configs, rfl, h1, h2⟩ | ⟨g, rfl⟩ | ⟨g, rfl, h1⟩
        · trivial
        · exact h1
        · trivial
        · trivial
      intro k x hx
      rcases hx with hx | hx
      · obtain ⟨c, c1, i, i1, -, -, i4⟩ := (held_about hf h0).1 hx
        exact h1 c (hp c (List.mem_append_left _ c1)) i x i1 i4
      · obtain ⟨c, c1, i, i1, -, -, i4⟩ := (held_about hf h0).2 hx
        exact h1 c (hp c (List.mem_append_left _ c1)) i x i1 i4

/-! ## Verification -/

open Classical in
/-- What an entry was made for: by the router, or else directly. -/
noncomputable def sharedKind (dkind : CertEntry → CelExpr) (g : CertEntry) : CelExpr :=
  if ∃ i : Item, MadeFor g.cert i.cel then itemKind g else dkind g

theorem sharedKind_made {dkind : CertEntry → CelExpr} {g : CertEntry}
    (h : (∃ i : Item, MadeFor g.cert i.cel) ∨ MadeFor g.cert (dkind g)) : MadeFor g.cert (sharedKind dkind g) := by
  unfold sharedKind
  by_cases hi : ∃ i : Item, MadeFor g.cert i.cel
  · rw [if_pos hi]
    obtain ⟨i, hi⟩ := hi
    exact itemKind_made hi
  · rw [if_neg hi]
    rcases h with h | h
    · exact absurd h hi
    · exact h

theorem sharedKind_skip {dkind : CertEntry → CelExpr} {g : CertEntry} (h : sharedKind dkind g = .skip) : dkind g = .skip := by
  unfold sharedKind at h
  split at h
  · exact absurd h (itemKind_ne g)
  · exact h

variable [UnstableSort] [Bls] [Inflate]

/-- **C62.** What the router serves from a shared tree verifies, unless an entry inserted directly takes precedence. Let the
router be in step with the tree (`C62_in_step`), the paths and scopes it was given be normal and clean and the asset URLs without
query, and what was inserted directly be certifications made with the interface for clean paths. A plain request of a normal path,
to which the entries inserted directly give way, is served with a certificate that is valid and carries the root hash of the tree.
Then verification of the served response succeeds, and returns its status, body and headers. (Or the texts of the skip
expression and of an expression of the router have the same hash.) -/
theorem C62_verifies {env : Env} {calls : List RouterCall} {r : Router} {req : HttpRequest} {res : HttpResponse}
    {path dataCert : Bytes} {c : Certificate} {minV : Nat} {m : Machine}
    -- the router
    (hf : ∀ c ∈ calls, c.Faithful) (hr : routerRun calls = some r) (hstep : InStepShared calls r)
    (hitems : ∀ c ∈ calls, ∀ i, c.About i → NormalPath i.certPath.url ∧ i.certPath.Clean ∧
      (HttpRequest.getQuery { method := str "GET", url := i.url, headers := [], body := [] }) = .ok none)
    -- the entries given directly
    (dkind : CertEntry → CelExpr) (hdirect : ∀ o, RouterCall.shared o ∈ calls → ∀ g, o.entry? = some g →
      g.path.Clean ∧ MadeFor g.cert (dkind g))
    (hway : ∀ g, Direct calls g → ctSpec (treeLog calls) g.toTreePath → GivesWay r path g)
    -- the request
    (hpath : req.getPath = .ok path) (hget : req.method = str "GET") (hbody : req.body = []) (hquery : req.getQuery = .ok none)
    (hrange : ∀ h ∈ req.headers, ¬ SameName h.1 (str "range")) (hutf : ∀ h ∈ req.headers, (chars h.2).isSome)
    (hnormal : NormalPath path) (hstart : (pathSegments path).head? ≠ some (str "http_expr")) (hend : PlainEndPath path)
    (hscope : path.getLast? = some slashByte ∨ r.fallbacks ⟨path, none, none⟩ = none)
    -- the response
    (hserve : r.serveAsset m dataCert req = some (.ok res))
    -- the certificate is valid and certifies the root hash of the tree
    (hcert : certificateFromCbor env.machine dataCert = some (.ok c))
    (hver : certVerify env.machine env.checks c env.canisterId env.rootKey env.now env.offset = .ok ())
    (hroot : c.tree.lookupPath [str "canister", env.canisterId, str "certified_data"] = .found r.rootHash.1)
    -- sizes
    (hm : 32 < env.machine.usize)
    (hurl : ∀ c ∈ calls, ∀ i, c.About i → (chars i.certPath.url).isSome ∧ env.machine.Fits (i.certPath.url.length + 9))
    (hfit : r.tree.full.Fits env.machine ∧ r.tree.full.height + 3 ≤ env.machine.stack)
    (hmin : minV ≤ 2) :
    (∃ info v, verifyPair env req res minV = .ok info ∧ info.version = 2 ∧
      LastHeader res.headers (str "IC-Certificate") v ∧
      info.response = some
        { statusCode := some res.status, body := res.body,
          headers := certifiedRespHeaders (.headerExclusions []) res.headers ++ [(str "IC-Certificate", v)] }) ∨
    ∃ i : Item, CollisionIn [CelExpr.skip.toBytes] [i.cel.toBytes] := by
  obtain ⟨hct, -, -⟩ := routerRun_iff.1 hr
  -- what is served
  rcases C45_serve hr m dataCert hutf hpath (.noHeader hrange) with ⟨x, w, hans, -, hs, hw, -, -⟩ | ⟨-, hs⟩
  swap
  · rw [hs] at hserve; cases hserve
  rw [hs] at hserve
  simp only [Option.some.injEq, Except.ok.injEq] at hserve
  subst hserve
  have hclean : ∀ g, CtOp.insert g ∈ treeLog calls → g.path.Clean := by
    intro g hg
    rcases entry_about_shared hf hg rfl with ⟨c, c1, i, y, c2, c3, rfl⟩ | hd
    · rw [c3.path]
      exact (hitems c c1 i c2).2.1
    · exact (hdirect _ hd g rfl).1
  have hheldn : ∀ {k : RequestKey} {y}, r.responses k = some y ∨ r.fallbacks k = some y → NormalPath k.path := by
    intro k y hk
    rcases hk with hk | hk
    · obtain ⟨c, c1, i, i1, i2, i3, i4⟩ := (held_about hf hr).1 hk
      have : i.certPath.url = k.path := by
        rw [← i3]
        cases i <;> first | rfl | cases i2
      rw [← this]
      exact (hitems c c1 i i1).1
    · obtain ⟨c, c1, i, i1, i2, i3, i4⟩ := (held_about hf hr).2 hk
      have : i.certPath.url = k.path := by
        rw [← i3]
        cases i <;> first | rfl | cases i2
      rw [← this]
      exact (hitems c c1 i i1).1
  -- the item
  obtain ⟨c0, hc0, i, hi, hx, hspec, hresp⟩ : ∃ c ∈ calls, ∃ i, c.About i ∧ i.Answer x ∧
      ctSpec (treeLog calls) x.entry.toTreePath ∧ Responds (treeLog calls) path x.entry.path := by
    have hex : ∀ k, r.responses k = some x → k.path = path → ∃ c ∈ calls, ∃ i, c.About i ∧ i.Answer x ∧
        ctSpec (treeLog calls) x.entry.toTreePath ∧ Responds (treeLog calls) path x.entry.path := by
      intro k hk hp
      obtain ⟨c, c1, i, i1, i2, i3, i4⟩ := (held_about hf hr).1 hk
      refine ⟨c, c1, i, i1, i4, hstep.responses k x hk, ?_⟩
      rw [i4.path, certPath_exact i2]
      have : i.certPath.url = path := by
        rw [← hp, ← i3]
        cases i <;> first | rfl | cases i2
      rw [this]
      rfl
    have hheld : ∀ e, r.held path none e = some x → ∃ c ∈ calls, ∃ i, c.About i ∧ i.Answer x ∧
        ctSpec (treeLog calls) x.entry.toTreePath ∧ Responds (treeLog calls) path x.entry.path := by
      intro e he
      unfold Router.held at he
      split at he
      · rename_i y hy
        split at he
        · exact hex _ he rfl
        · simp only [Option.some.injEq] at he
          subst he
          exact hex _ hy rfl
      · cases he
    cases hans with
    | exact hch =>
      cases hch with
      | encoded _ h _ => exact hheld _ h
      | plain _ h => exact hheld _ h
    | @fallback scope _ hno henc hch hlong =>
      have hfb : ∃ e, r.heldFallback scope e = some x := by
        cases hch with
        | encoded _ h _ => exact ⟨_, h⟩
        | plain _ h => exact ⟨_, h⟩
      obtain ⟨e, he⟩ := hfb
      obtain ⟨c, c1, i, i1, i2, i3, i4⟩ := (held_about hf hr).2 he
      refine ⟨c, c1, i, i1, i4, hstep.fallbacks _ x he, ?_⟩
      have hsc : i.certPath.url = scope := by
        have := congrArg RequestKey.path i3
        cases i <;> exact this
      have hs : NormalPath scope := by
        rw [← hsc]; exact (hitems c c1 i i1).1
      rw [i4.path, certPath_wild i2, hsc]
      refine ⟨encloses_matches henc, ?_⟩
      intro g g1 g2
      obtain ⟨e', e0, e1, e2⟩ := hstep.certified _ g2
      obtain ⟨hsh, hkind⟩ := entry_shape_inj (hclean e' e0) (hclean g g1) e1
      rcases e2 with hd | e2
      · -- inserted directly: it gives way
        have hg := hway e' hd (by rw [e1]; exact g2)
        unfold GivesWay at hg
        rcases hkind with ⟨a, b, ha, hb⟩ | ⟨a, b, ha, hb⟩
        · rw [ha, hb] at hsh
          rw [ha] at hg
          rw [hb]
          have hsh : PathShape.ofPath a = PathShape.ofPath b := hsh
          show PathShape.ofPath b ≠ _
          rw [← hsh]
          exact hg
        · rw [ha, hb] at hsh
          rw [ha] at hg
          rw [hb]
          have hsh : PathShape.ofPath a = PathShape.ofPath b := hsh
          show ¬ (PathShape.Matches (PathShape.ofPath b) _ ∧ PathShape.MoreSpecific (PathShape.ofPath b) _)
          rw [← hsh]
          exact hg scope e henc (by rw [he]; simp)
      · rcases hkind with ⟨a, b, ha, hb⟩ | ⟨v, b, ha, hb⟩
        · rw [ha, hb] at hsh
          rw [ha] at e2
          rw [hb]
          simp only at e2
          have hsh : PathShape.ofPath a = PathShape.ofPath b := hsh
          obtain ⟨y, hy⟩ := Option.ne_none_iff_exists'.1 e2
          have hn : NormalPath a := hheldn (.inl hy)
          show PathShape.ofPath b ≠ _
          rw [← hsh]
          intro hq
          have : a = path := normal_inj hn hnormal hq
          subst this
          obtain ⟨y, hy⟩ := chooses_exists (accepts := Accepts req) (av := r.held a none)
            (fun hc => e2 ((held_ne_none (router_inv hr).1).1 hc))
          exact hno y hy
        · rw [ha, hb] at hsh
          rw [ha] at e2
          rw [hb]
          simp only at e2
          have hsh : PathShape.ofPath v = PathShape.ofPath b := hsh
          obtain ⟨y, hy⟩ := Option.ne_none_iff_exists'.1 e2
          have hn : NormalPath v := hheldn (.inr hy)
          show ¬ (PathShape.Matches (PathShape.ofPath b) _ ∧ PathShape.MoreSpecific (PathShape.ofPath b) _)
          rw [← hsh]
          rintro ⟨h1, h2⟩
          rcases matches_encloses hn hnormal h1 with h3 | ⟨h3, h4⟩
          · have hlt := specific_longer hn hs h1 (encloses_matches henc) h2
            obtain ⟨y, hy⟩ := chooses_exists (accepts := Accepts req) (av := r.heldFallback v) (fun hc => e2 hc)
            exact hlong v h3 hlt y hy
          · subst h3
            rcases hscope with h5 | h5
            · exact h4 h5
            · exact e2 h5
  obtain ⟨-, hcl, hq0⟩ := hitems c0 hc0 i hi
  -- the certified parts agree
  have hsame : SameCertified i.cel { method := str "GET", url := i.url, headers := [], body := [] } req i.response x.response := by
    have hnone : ∀ d : ReqCert, (∀ n ∈ d.headers, n = str "range") → certifiedReqHeaders d req.headers = [] := by
      intro d hd
      unfold certifiedReqHeaders
      rw [List.map_eq_nil_iff, List.filter_eq_nil_iff]
      intro h hh
      simp only [decide_eq_true_eq, not_exists, not_and]
      intro n hn hs
      have := hd n hn
      subst this
      exact hrange h hh hs.symm
    have hreq : ∀ d : ReqCert, (∀ n ∈ d.headers, n = str "range") →
        SameRequest d { method := str "GET", url := i.url, headers := [], body := [] } req := by
      intro d hd
      refine ⟨hget.symm, hbody.symm, ?_, none, none, hq0, hquery, rfl⟩
      rw [hnone d hd]
      exact List.Perm.refl _
    rw [hx.response]
    have hres : ∀ c, SameResponse c i.response i.response := fun c => ⟨rfl, rfl, List.Perm.refl _⟩
    cases i <;> exact ⟨hreq _ (by simp), hres _⟩
  have hkind : ∀ o ∈ treeLog calls, ∀ g, o.entry? = some g → g.path.Clean ∧ MadeFor g.cert (sharedKind dkind g) := by
    intro o ho g hg
    rcases entry_about_shared hf ho hg with ⟨c, c1, j, y, c2, c3, rfl⟩ | hd
    · refine ⟨?_, sharedKind_made (.inl ⟨j, madeOf_madeFor c3.made⟩)⟩
      rw [c3.path]
      exact (hitems c c1 j c2).2.1
    · obtain ⟨d1, d2⟩ := hdirect o hd g hg
      exact ⟨d1, sharedKind_made (.inr d2)⟩
  have hnames : ∀ n ∈ i.cel.names, CarriedName n := by
    intro n hn
    have : n = str "range" := by
      cases i <;> simp [Item.cel, CelExpr.names] at hn <;> exact hn
    subst this
    exact plain_carried (by decide)
  have hcomp := complete_clean (env := env) (ops := treeLog calls) (f := x.entry) (x := i.cel)
    (q := { method := str "GET", url := i.url, headers := [], body := [] }) (req := req) (r := i.response)
    (res := x.response) (path := path) (dataCert := dataCert) (c := c) (minV := minV) (sharedKind dkind) hkind
    (by rw [hx.path]; exact hcl) hspec hx.made hnames hresp hpath hsame (fun h => absurd h (item_cel_ne i)) hcert hver
    (fun t ht => by rw [hct] at ht; simp only [Option.some.injEq] at ht; subst ht; exact hroot) hm
    (by rw [hx.path]; exact hurl c0 hc0 i hi)
    (fun t ht => by rw [hct] at ht; simp only [Option.some.injEq] at ht; subst ht; exact hfit) hmin hstart hend
  rcases hcomp with ⟨t, w', info, h1, h2, h3, h4, h5⟩ | ⟨o, -, g, -, h, hcol⟩
  swap
  · right
    have hk := h.2 (item_cel_ne i)
    rw [hk] at hcol
    exact ⟨i, hcol⟩
  left
  rw [hct] at h1
  simp only [Option.some.injEq] at h1
  subst h1
  rw [hw] at h2
  simp only [Option.some.injEq, Except.ok.injEq] at h2
  subst h2
  refine ⟨info, _, h3, h4, ⟨x.response.headers, certHeaderName, [], rfl, by decide, by simp⟩, ?_⟩
  have hcrt : ∀ rc : RespCert, certifiedRespHeaders rc (addV2CertificateHeader dataCert x.response w x.entry.path.toExprPath).headers =
      certifiedRespHeaders rc x.response.headers := by
    intro rc
    show certifiedRespHeaders rc (x.response.headers ++ [_]) = _
    unfold certifiedRespHeaders
    rw [List.filter_append]
    have : ¬ rc.Certifies certHeaderName := fun h => h.1 (by decide)
    simp [this]
  rw [hcrt]
  cases i <;> exact h5

end
end Verif.Props
