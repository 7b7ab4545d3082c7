import Verif.Props.AssetVerifyExamples
import Verif.Props.AssetOnly

set_option linter.unusedSimpArgs false
set_option linter.unusedSectionVars false

/-!
# Property C52: what was certified stays certified until it is deleted
-/

namespace Verif.Props
open Verif HashTree

section
variable [SHA] [UriLib] [GlobLib]

/-- A call of `certify_assets`, successful or not, only adds entries to the tree. -/
theorem certify_inserts {assets values : List Asset} {configs : List AssetConfig} {o : CtOp}
    (h : o ∈ treeLog [.certify assets values configs]) : ∃ e, o = .insert e := by
  unfold treeLog at h
  obtain ⟨e, e1, e2⟩ := List.mem_filterMap.1 h
  simp only [List.flatMap_cons, List.flatMap_nil, List.append_nil, RouterCall.effects] at e1
  rw [certifyAssets_items, Effects.mem_need] at e1
  obtain ⟨cs, h1, h2⟩ := e1
  obtain ⟨i, -, h3⟩ := Effects.mem_each h2
  rw [put_list] at h3
  split at h3
  · rename_i x hx
    rcases List.mem_cons.1 h3 with rfl | h3
    · simp only [Effect.treeOp?, Option.some.injEq] at e2
      exact ⟨_, e2.symm⟩
    · rw [List.mem_singleton] at h3
      subst h3
      cases hf : i.isFallback <;> rw [hf] at e2 <;> simp [Effect.treeOp?] at e2
  · simp at h3

omit [UriLib] [GlobLib] in
theorem ctSpec_keeps {ops later : List CtOp} (h : ∀ o ∈ later, ∃ e, o = .insert e) {p : List Bytes} (hp : ctSpec ops p) :
    ctSpec (ops ++ later) p := by
  induction later using List.reverseRecOn with
  | nil => simpa using hp
  | append_singleton later o ih =>
    obtain ⟨e, rfl⟩ := h o (by simp)
    have := ih (fun o ho => h o (by simp [ho]))
    unfold ctSpec at this ⊢
    rw [← List.append_assoc, List.foldl_append]
    exact .inr this

/-- **C52.** Every response announced by a successful `certify_assets` stays certified through any number of later calls
of `certify_assets` (successful or not), whatever they certify, be it other content for the same path. -/
theorem C52_persists {before later : List RouterCall} {assets values : List Asset} {configs : List AssetConfig}
    (hv : IsValues assets values) (hok : (RouterCall.certify assets values configs).Succeeds)
    (hlater : ∀ c ∈ later, ∃ a v cs, c = .certify a v cs) {i : Item} (hi : Announces assets configs i) :
    ∃ x, i.Answer x ∧ ctSpec (treeLog (before ++ .certify assets values configs :: later)) x.entry.toTreePath := by
  obtain ⟨items, h1, h2, -⟩ := certify_list hv hok
  obtain ⟨x, hx⟩ := h2 i ((h1 i).2 hi)
  have hx := Item.prepare_ok.1 hx
  refine ⟨x, hx, ?_⟩
  have e : before ++ .certify assets values configs :: later = (before ++ [.certify assets values configs]) ++ later := by simp
  rw [e, treeLog_append]
  refine ctSpec_keeps ?_ ((C45_certify_tree hv hok _).2 (.inr ⟨i, x, hi, hx, rfl⟩))
  intro o ho
  unfold treeLog at ho
  obtain ⟨ef, e1, e2⟩ := List.mem_filterMap.1 ho
  obtain ⟨c, c1, c2⟩ := List.mem_flatMap.1 e1
  obtain ⟨a, v, cs, rfl⟩ := hlater c c1
  refine certify_inserts (assets := a) (values := v) (configs := cs) ?_
  unfold treeLog
  exact List.mem_filterMap.2 ⟨ef, by simpa using c2, e2⟩

/-- **C52.** Only deleting revokes: a call after which something certified before is certified no longer is not a call of
`certify_assets`. -/
theorem C52_only_delete {calls : List RouterCall} {c : RouterCall} {p : List Bytes} (h : ctSpec (treeLog calls) p)
    (h' : ¬ ctSpec (treeLog (calls ++ [c])) p) :
    (∃ a v cs, c = .delete a v cs) ∨ c = .deleteAll ∨ ∃ o, c = .shared o ∧ ∀ e, o ≠ .insert e := by
  cases c with
  | certify a v cs =>
    exfalso
    rw [treeLog_append] at h'
    exact h' (ctSpec_keeps (fun o ho => certify_inserts ho) h)
  | delete a v cs => exact .inl ⟨a, v, cs, rfl⟩
  | deleteAll => exact .inr (.inl rfl)
  | shared o =>
    refine .inr (.inr ⟨o, rfl, ?_⟩)
    rintro e rfl
    rw [treeLog_append] at h'
    refine h' (ctSpec_keeps (fun o ho => ?_) h)
    simp only [treeLog, List.flatMap_cons, List.flatMap_nil, List.append_nil, RouterCall.effects] at ho
    simp [Effect.treeOp?, CtOp.effect] at ho
    exact ⟨e, ho⟩

variable [Bls] [Inflate]

/-- **C52.** What is certified in the router's tree verifies, even if the router does not serve it any more: a replica
can answer a plain request with it. -/
theorem C52_replay {env : Env} {calls : List RouterCall} {r : Router} {req : HttpRequest} {i : Item} {x : CertifiedResponse}
    {path dataCert : Bytes} {c : Certificate} {minV : Nat}
    -- the router
    (hcalls : ∀ c ∈ calls, c.Faithful ∧ ∀ o, c ≠ .shared o) (hr : routerRun calls = some r)
    (hitems : ∀ c ∈ calls, ∀ i, c.About i → i.certPath.Clean)
    -- the item
    (hx : i.Answer x) (hspec : ctSpec (treeLog calls) x.entry.toTreePath) (hexact : i.isFallback = false)
    (hi : i.certPath.Clean ∧ (chars i.certPath.url).isSome ∧ env.machine.Fits (i.certPath.url.length + 9) ∧
      (HttpRequest.getQuery { method := str "GET", url := i.url, headers := [], body := [] }) = .ok none)
    -- the request
    (hpath : req.getPath = .ok path) (hurl : i.certPath.url = path) (hget : req.method = str "GET") (hbody : req.body = [])
    (hquery : req.getQuery = .ok none) (hrange : ∀ h ∈ req.headers, ¬ SameName h.1 (str "range"))
    (hstart : (pathSegments path).head? ≠ some (str "http_expr")) (hend : PlainEndPath path)
    -- the certificate is valid and certifies the root hash of the tree
    (hcert : certificateFromCbor env.machine dataCert = some (.ok c))
    (hver : certVerify env.machine env.checks c env.canisterId env.rootKey env.now env.offset = .ok ())
    (hroot : c.tree.lookupPath [str "canister", env.canisterId, str "certified_data"] = .found r.rootHash.1)
    -- sizes
    (hm : 32 < env.machine.usize)
    (hfit : r.tree.full.Fits env.machine ∧ r.tree.full.height + 3 ≤ env.machine.stack)
    (hmin : minV ≤ 2) :
    ∃ w info v, verifyPair env req (addV2CertificateHeader dataCert i.response w x.entry.path.toExprPath) minV = .ok info ∧
      info.version = 2 ∧ info.response = some
        { statusCode := some i.status, body := i.body,
          headers := certifiedRespHeaders (.headerExclusions []) i.response.headers ++ [(str "IC-Certificate", v)] } := by
  obtain ⟨hct, -, -⟩ := routerRun_iff.1 hr
  have hresp : Responds (treeLog calls) path x.entry.path := by
    rw [hx.path, certPath_exact hexact, hurl]
    rfl
  have hsame : SameCertified i.cel { method := str "GET", url := i.url, headers := [], body := [] } req i.response i.response := by
    have hnone : ∀ d : ReqCert, (∀ n ∈ d.headers, n = str "range") → certifiedReqHeaders d req.headers = [] := by
      intro d hd
      unfold certifiedReqHeaders
      rw [List.map_eq_nil_iff, List.filter_eq_nil_iff]
      intro h hh
      simp only [decide_eq_true_eq, not_exists, not_and]
      intro n hn hs
      have := hd n hn
      subst this
      exact hrange h hh hs.symm
    have hreq : ∀ d : ReqCert, (∀ n ∈ d.headers, n = str "range") →
        SameRequest d { method := str "GET", url := i.url, headers := [], body := [] } req := by
      intro d hd
      refine ⟨hget.symm, hbody.symm, ?_, none, none, hi.2.2.2, hquery, rfl⟩
      rw [hnone d hd]
      exact List.Perm.refl _
    have hres : ∀ c, SameResponse c i.response i.response := fun c => ⟨rfl, rfl, List.Perm.refl _⟩
    cases i <;> exact ⟨hreq _ (by simp), hres _⟩
  have hkind : ∀ o ∈ treeLog calls, ∀ g, o.entry? = some g → g.path.Clean ∧ MadeFor g.cert (itemKind g) := by
    intro o ho g hg
    obtain ⟨c, c1, j, y, c2, c3, rfl⟩ := entry_about hcalls ho hg
    refine ⟨?_, itemKind_made (madeOf_madeFor c3.made)⟩
    rw [c3.path]
    exact hitems c c1 j c2
  have hcomp := complete_clean (env := env) (ops := treeLog calls) (f := x.entry) (x := i.cel)
    (q := { method := str "GET", url := i.url, headers := [], body := [] }) (req := req) (r := i.response)
    (res := i.response) (path := path) (dataCert := dataCert) (c := c) (minV := minV) itemKind hkind
    (by rw [hx.path]; exact hi.1) hspec hx.made (item_names i).1 hresp hpath hsame (fun h => absurd h (item_cel_ne i)) hcert hver
    (fun t ht => by rw [hct] at ht; simp only [Option.some.injEq] at ht; subst ht; exact hroot) hm
    (by rw [hx.path]; exact ⟨hi.2.1, hi.2.2.1⟩)
    (fun t ht => by rw [hct] at ht; simp only [Option.some.injEq] at ht; subst ht; exact hfit) hmin hstart hend
  rcases hcomp with ⟨t, w', info, h1, h2, h3, h4, h5⟩ | ⟨o, -, g, -, h, -⟩
  swap
  · exact absurd (h.2 (item_cel_ne i)) (itemKind_ne g)
  refine ⟨w', info, utf8 (v2HeaderText dataCert w' x.entry.path.toExprPath), h3, h4, ?_⟩
  cases i <;> exact h5

end

/-! ## A concrete case: old content of a changed asset -/

section
attribute [local instance] toySHA toyUri toyGlob mergeSorting toyBls toyInflate

def exTwice : List RouterCall :=
  [.certify (exAssets (str "old")) (exAssets (str "old")).reverse exConfigs,
   .certify (exAssets (str "new")) (exAssets (str "new")).reverse exConfigs]

def exTwiceCert : Bytes := encCertificate (exStateCert (rootOf exTwice))

set_option linter.constructorNameAsVariable false in
/-- **C52.** After the content of an asset has been changed by certifying it again, the router serves the new content,
and the old content still verifies for the same request and against the same root hash. -/
theorem C52_old_content : ∃ r res old info, routerRun exTwice = some r ∧
    r.serveAsset exMachine exTwiceCert (exAsk (str "/a.txt") []) = some (.ok res) ∧ res.body = str "new" ∧
    old.body = str "old" ∧ verifyPair exEnv (exAsk (str "/a.txt") []) old 2 = .ok info ∧
    info.response.map (fun v => v.body) = some (str "old") := by
  obtain ⟨r, hr⟩ := routerRun_some exTwice
  have t1 : (match routerRun exTwice with
    | some r => (match r.serveAsset exMachine exTwiceCert (exAsk (str "/a.txt") []) with
      | some (.ok res) => decide (res.body = str "new")
      | _ => false)
    | none => false) = true := by decide +kernel
  have t2 : (match routerRun exTwice with
    | some r => decide (r.tree.full.Fits exMachine ∧ r.tree.full.height + 3 ≤ exMachine.stack)
    | none => false) = true := by decide +kernel
  rw [hr] at t1 t2
  simp only [decide_eq_true_eq] at t2
  dsimp only at t1
  split at t1
  swap
  · cases t1
  rename_i res hres
  rw [decide_eq_true_eq] at t1
  have hann : Announces (exAssets (str "old")) exConfigs (.whole (str "/a.txt") (exPage (str "old") none)) := by
    rw [exAnnounced]
    exact .inr (.inr (.inr (.inr (.inl (by simp [pageItems])))))
  obtain ⟨x, hx, hspec⟩ := C52_persists (before := []) (later := [.certify (exAssets (str "new")) (exAssets (str "new")).reverse exConfigs])
    (exValues (str "old")) (exCertifies (str "old")) (by simp) hann
  have e : ([] : List RouterCall) ++ RouterCall.certify (exAssets (str "old")) (exAssets (str "old")).reverse exConfigs ::
      [.certify (exAssets (str "new")) (exAssets (str "new")).reverse exConfigs] = exTwice := rfl
  rw [e] at hspec
  have hi : (Item.whole (str "/a.txt") (exPage (str "old") none)).certPath.Clean ∧
      (chars (Item.whole (str "/a.txt") (exPage (str "old") none)).certPath.url).isSome ∧
      exEnv.machine.Fits ((Item.whole (str "/a.txt") (exPage (str "old") none)).certPath.url.length + 9) ∧
      (HttpRequest.getQuery { method := str "GET", url := (Item.whole (str "/a.txt") (exPage (str "old") none)).url, headers := [], body := [] }) = .ok none := by
    have e1 : (Item.whole (str "/a.txt") (exPage (str "old") none)).certPath = .exact (str "/a.txt") := rfl
    have e2 : (Item.whole (str "/a.txt") (exPage (str "old") none)).url = str "/a.txt" := rfl
    have e3 : exEnv.machine = exMachine := rfl
    rw [e1, e2, e3]
    obtain ⟨-, p1, p2, p3⟩ := exPaths_ok (.exact (str "/a.txt")) (by decide)
    exact ⟨p1, p2, p3, rfl⟩
  obtain ⟨w, info, v, h1, -, h3⟩ := C52_replay (env := exEnv) (minV := 2) (path := str "/a.txt") (r := r) (x := x)
    (i := .whole (str "/a.txt") (exPage (str "old") none))
    (calls := exTwice) (c := exStateCert (rootOf exTwice)) (dataCert := exTwiceCert) (req := exAsk (str "/a.txt") [])
    (by
      intro c hc
      simp only [exTwice, List.mem_cons, List.not_mem_nil, or_false] at hc
      rcases hc with rfl | rfl
      · exact ⟨exValues _, by simp⟩
      · exact ⟨exValues _, by simp⟩) hr
    (by
      intro c hc i hi
      simp only [exTwice, List.mem_cons, List.not_mem_nil, or_false] at hc
      have hp : ∀ {u : Bytes} {p : Page}, i ∈ pageItems u p → i.certPath = .exact u := by
        intro u p h
        rcases mem_pageItems.1 h with rfl | ⟨-, n, rfl, -⟩ <;> rfl
      have hmem : i.certPath ∈ exPaths := by
        rcases hc with rfl | rfl <;>
        rcases (exAnnounced _ i).1 hi with h | h | rfl | h | h | rfl | h | rfl <;>
        first
        | (rw [hp h]; decide)
        | simp [Item.certPath, exPaths]
      exact (exPaths_ok _ hmem).2.1)
    hx (by with_reducible exact hspec) rfl hi rfl rfl rfl rfl rfl (by simp [exAsk]) (by decide)
    (.inr ⟨by decide, by decide⟩)
    (C37_certificate_roundtrip exMachine (exStateCert (rootOf exTwice)) (by decide +kernel) (by decide +kernel)
      (by decide +kernel) (by decide +kernel) (by intro d hd; simp [exStateCert] at hd) (by decide +kernel)).1
    (exCert_verifies _) (by rw [← rootOf_eq hr]; rfl) (by decide) t2 (by decide)
  exact ⟨r, res, _, info, hr, hres, t1, rfl, h1, by rw [h3]; rfl⟩

end
end Verif.Props
