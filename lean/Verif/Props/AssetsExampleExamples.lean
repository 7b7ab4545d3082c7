import Verif.Props.AssetsExampleOnly
import Verif.Props.AssetSharedExamples

set_option linter.unusedSimpArgs false
set_option linter.unusedSectionVars false

/-!
# C63: the hypotheses can be met

A site with `index.html` and, in a subdirectory, a script with a compressed version; a request of the script by a client that accepts
brotli.
-/

namespace Verif.Props
open Verif HashTree PathShape

/-- Patterns `**/*` followed by an extension. -/
@[instance_reducible] def suffixGlob : GlobLib := ⟨fun p => some (fun a => (p.drop 4).isSuffixOf a)⟩

section
attribute [local instance] toySHA toyUri suffixGlob mergeSorting toyBls toyInflate

def exSite : Dir :=
  .mk [(str "index.html", str "home")] [.mk [(str "assets/app.js", str "code"), (str "assets/app.js.br", str "brot")] []]

def exSiteFiles : List (Bytes × Bytes) :=
  [(str "index.html", str "home"), (str "assets/app.js", str "code"), (str "assets/app.js.br", str "brot")]

theorem exSite_files {p c : Bytes} : exSite.HasFile p c ↔ (p, c) ∈ exSiteFiles := by
  constructor
  · intro h
    unfold exSite at h
    cases h with
    | here h => rw [List.mem_singleton] at h; rw [h]; exact List.mem_cons_self
    | sub h1 h =>
      rw [List.mem_singleton] at h1
      subst h1
      cases h with
      | here h => exact List.mem_cons_of_mem _ h
      | sub h1 _ => cases h1
  · intro h
    rcases List.mem_cons.1 h with h | h
    · exact .here (by rw [h]; exact List.mem_cons_self)
    · exact .sub List.mem_cons_self (.here h)

theorem exSite_proper : exSite.Proper exMachine where
  unique := by
    intro p c c' h h'
    rw [exSite_files] at h h'
    have : ∀ x ∈ exSiteFiles, ∀ y ∈ exSiteFiles, x.1 = y.1 → x.2 = y.2 := by decide
    exact this _ h _ h' rfl
  index := ⟨_, exSite_files.2 List.mem_cons_self⟩
  free := by
    intro c h
    rw [exSite_files] at h
    have : ∀ x ∈ exSiteFiles, x.1 ≠ str "old-url" := by decide
    exact this _ h rfl
  names := by
    intro p c h
    rw [exSite_files] at h
    have h1 : ∀ x ∈ exSiteFiles, x.1 ≠ [] ∧ ((slashByte :: x.1).head? == some slashByte && noDouble (slashByte :: x.1)) = true ∧
      exMachine.Fits (x.1.length + 10) := by decide
    obtain ⟨a1, a2, a3⟩ := h1 _ h
    refine ⟨a1, normal_of_bool a2, ?_, ?_, a3⟩
    · unfold HttpPath.Clean
      have : ∀ x ∈ exSiteFiles, str "<$>" ∉ pathSegments (HttpPath.exact (slashByte :: x.1)).url ∧
        str "<*>" ∉ pathSegments (HttpPath.exact (slashByte :: x.1)).url := by decide
      exact this _ h
    · simp only [exSiteFiles, List.mem_cons, Prod.mk.injEq, List.not_mem_nil, or_false] at h
      rcases h with ⟨rfl, -⟩ | ⟨rfl, -⟩ | ⟨rfl, -⟩
      · exact chars_str (s := "/index.html") (by decide)
      · exact chars_str (s := "/assets/app.js") (by decide)
      · exact chars_str (s := "/assets/app.js.br") (by decide)
  small := by
    intro p c h
    rw [exSite_files] at h
    have h1 : ∀ x ∈ exSiteFiles, x.2.length ≤ 2000000 := by decide
    exact h1 _ h

theorem exSite_values : IsValues exSite.collect exSite.collect.reverse := by
  intro a
  rw [List.mem_reverse, current_iff]
  intro a ha b hb hp
  obtain ⟨p, c, h1, rfl⟩ := (mem_collect _ _).1 ha
  obtain ⟨q, d, h2, rfl⟩ := (mem_collect _ _).1 hb
  have hp : p = q := hp
  subst hp
  rw [exSite_proper.unique h1 h2]

def exSiteState : Option Site := Site.init exSite exSite.collect.reverse

/-- The certified data, evaluated (see `exSite_facts`). -/
def exSiteRoot : Bytes := 
  [0, 0, 0, 0, 0, 0, 0, 0, 0, 0, 0, 0, 0, 0, 0, 16, 105, 99, 45, 104, 97, 115, 104, 116, 114, 101, 101, 45, 108, 101, 97, 102]

def exSiteCert : Bytes := encCertificate (exStateCert exSiteRoot)

/-- A client that accepts brotli asks for the script. -/
def exScript : HttpRequest := exAsk (str "/assets/app.js") [(str "accept-encoding", str "br")]

theorem exSite_uri : ∀ u, u = str "/" ∨ u = str "/old-url" ∨ (∃ p c, exSite.HasFile p c ∧ u = slashByte :: p) →
      (HttpRequest.getQuery { method := str "GET", url := u, headers := [], body := [] }) = .ok none := by
  rintro u (rfl | rfl | ⟨p, c, h, rfl⟩)
  · rfl
  · rfl
  · rw [exSite_files] at h
    simp only [exSiteFiles, List.mem_cons, Prod.mk.injEq, List.not_mem_nil, or_false] at h
    rcases h with ⟨rfl, -⟩ | ⟨rfl, -⟩ | ⟨rfl, -⟩ <;> rfl

theorem exSite_decoded : certificateFromCbor exEnv.machine exSiteCert = some (.ok (exStateCert exSiteRoot)) :=
  (C37_certificate_roundtrip exMachine (exStateCert exSiteRoot) (by decide +kernel) (by decide +kernel)
      (by decide +kernel) (by decide +kernel) (by intro d hd; simp [exStateCert] at hd) (by decide +kernel)).1

/-- What the examples need to know of the state, evaluated. -/
theorem exSite_facts : ∃ s, exSiteState = some s ∧ s.certifiedData = exSiteRoot ∧
    (s.router.tree.full.Fits exMachine ∧ s.router.tree.full.height + 3 ≤ exMachine.stack) ∧
    ∃ x w, s.router.assetForRequest (str "/assets/app.js") [str "br"] none = some x ∧
      (x.entry.path = .exact (str "/assets/app.js") ∧ x.response.status = 200 ∧ x.response.body = str "brot" ∧
        x.response.headers.getLast? = some (str "IC-CertificateExpression", celOfWholes.toBytes)) ∧
      s.router.tree.witness x.entry (str "/assets/app.js") = some (.ok w) ∧ (w.Fits exMachine ∧ w.height + 3 ≤ exMachine.stack) := by
  have t : (match exSiteState with
    | some s => decide (s.certifiedData = exSiteRoot) &&
      (decide (s.router.tree.full.Fits exMachine ∧ s.router.tree.full.height + 3 ≤ exMachine.stack) &&
      (match s.router.assetForRequest (str "/assets/app.js") [str "br"] none with
      | some x => decide (x.entry.path = .exact (str "/assets/app.js") ∧ x.response.status = 200 ∧ x.response.body = str "brot" ∧
          x.response.headers.getLast? = some (str "IC-CertificateExpression", celOfWholes.toBytes)) &&
        (match s.router.tree.witness x.entry (str "/assets/app.js") with
        | some (.ok w) => decide (w.Fits exMachine ∧ w.height + 3 ≤ exMachine.stack)
        | _ => false)
      | none => false))
    | none => false) = true := by decide +kernel
  split at t
  swap
  · cases t
  rename_i s hs
  simp only [Bool.and_eq_true, decide_eq_true_eq] at t
  obtain ⟨t1, t2, t3⟩ := t
  split at t3
  swap
  · cases t3
  rename_i x hx
  simp only [Bool.and_eq_true, decide_eq_true_eq] at t3
  obtain ⟨t3, t4⟩ := t3
  split at t4
  swap
  · cases t4
  rename_i w hw
  rw [decide_eq_true_eq] at t4
  exact ⟨s, hs, t1, t2, x, w, hx, t3, hw, t4⟩

theorem no_item_collision (i : Item) : ¬ CollisionIn [CelExpr.skip.toBytes] [i.cel.toBytes] := by
  intro hcol
  revert hcol
  cases i <;> (unfold CollisionIn; simp only [List.mem_singleton, exists_eq_left, Item.cel]; decide +kernel)

/-- All hypotheses of `C63_verifies` are met; the answer is the compressed script, and verifies. -/
theorem exScript_verifies {s : Site} (hs : exSiteState = some s) {x : CertifiedResponse} {w : HashTree}
    (hroot : s.certifiedData = exSiteRoot)
    (hfits : s.router.tree.full.Fits exMachine ∧ s.router.tree.full.height + 3 ≤ exMachine.stack)
    (hx : s.router.assetForRequest (str "/assets/app.js") [str "br"] none = some x)
    (hw : s.router.tree.witness x.entry (str "/assets/app.js") = some (.ok w)) : ∃ info,
    s.httpRequest exMachine exSiteCert [] exScript =
      some (addV2CertificateHeader exSiteCert x.response w x.entry.path.toExprPath) ∧
    exSite.Shows (Accepts exScript) (str "/assets/app.js")
      (addV2CertificateHeader exSiteCert x.response w x.entry.path.toExprPath) ∧
    verifyPair exEnv exScript (addV2CertificateHeader exSiteCert x.response w x.entry.path.toExprPath) 2 = .ok info ∧
    info.version = 2 := by
  have hserve : s.httpRequest exMachine exSiteCert [] exScript =
      some (addV2CertificateHeader exSiteCert x.response w x.entry.path.toExprPath) := by
    unfold Site.httpRequest Router.serveAsset
    have e1 : exScript.getPath = .ok (str "/assets/app.js") := rfl
    have e2 : rangeBegin exMachine exScript = .ok none := rfl
    have e3 : preferredEncodings exScript = [str "br"] := by decide +kernel
    simp only [e1, e2, e3, hx, hw]
    rw [if_neg (by decide)]
  obtain ⟨res, r1, r2, r3⟩ := C63_verifies (m := exMachine) (env := exEnv) (minV := 2) (path := str "/assets/app.js")
    exSite_proper exSite_values hs exSite_uri (req := exScript) exSiteCert [] rfl (by decide) rfl rfl rfl
    (by decide) (by intro h hh; rw [List.mem_singleton.1 hh]; exact chars_str (by decide)) (normal_of_bool (by decide)) (by decide)
    (.inr ⟨by decide, by decide⟩) exSite_decoded (exCert_verifies _) (by rw [hroot]; rfl) (by decide) hfits
    (by decide)
  rw [hserve] at r1
  simp only [Option.some.injEq] at r1
  subst r1
  rcases r3 with ⟨info, v, h1, h2, -⟩ | ⟨i, hcol⟩
  · exact ⟨info, hserve, r2, h1, h2⟩
  · exact absurd hcol (no_item_collision i)

/-- The client is answered with the compressed script, which verifies. -/
example : ∃ s res info, Site.init exSite exSite.collect.reverse = some s ∧
    s.httpRequest exMachine exSiteCert [] exScript = some res ∧ res.status = 200 ∧ res.body = str "brot" ∧
    exSite.Shows (Accepts exScript) (str "/assets/app.js") res ∧ verifyPair exEnv exScript res 2 = .ok info ∧ info.version = 2 := by
  obtain ⟨s, hs, hroot, hfits, x, w, hx, ⟨-, h1, h2, -⟩, hw, -⟩ := exSite_facts
  obtain ⟨info, k1, k2, k3, k4⟩ := exScript_verifies hs hroot hfits hx hw
  exact ⟨s, _, info, hs, k1, h1, h2, k2, k3, k4⟩

/-- All hypotheses of `C63_metrics` are met. -/
example : ∃ s res, Site.init exSite exSite.collect.reverse = some s ∧
    s.httpRequest exMachine exSiteCert (str "{}") (exAsk (str "/metrics") []) = some res ∧ res.body = str "{}" ∧
    verifyPair exEnv (exAsk (str "/metrics") []) res 2 = .ok { response := none, version := 2 } := by
  obtain ⟨s, hs, hroot, hfits, -⟩ := exSite_facts
  obtain ⟨res, r1, -, r2, -, r3⟩ := C63_metrics (m := exMachine) (env := exEnv) (minV := 2)
    exSite_proper exSite_values hs (req := exAsk (str "/metrics") []) exSiteCert (str "{}") rfl
    exSite_decoded (exCert_verifies _) (by rw [hroot]; rfl) (by decide) hfits (by decide)
  rcases r3 with h1 | ⟨i, hcol⟩
  · exact ⟨s, res, hs, r1, r2, h1⟩
  · exact absurd hcol (no_item_collision i)

/-- All hypotheses of `C63_only` are met, by the same response. -/
example : ∃ s res info hdr, Site.init exSite exSite.collect.reverse = some s ∧
    CarriesHeader exEnv.machine res hdr ∧ verifyPair exEnv exScript res 2 = .ok info ∧
    Certifies hdr.certificate exEnv.canisterId (exStateCert exSiteRoot).tree s.router.tree.full := by
  obtain ⟨s, hs, hroot', hfits, x, w, hx, ⟨x2, -, -, x3⟩, hw, t1⟩ := exSite_facts
  obtain ⟨info, -, -, h5, -⟩ := exScript_verifies hs hroot' hfits hx hw
  have hclaims := served_claims (env := exEnv) (dataCert := exSiteCert) (i := .redirect [] [] .permanent) (x := x) (w := w)
    (by decide) exSite_decoded x3 (by rw [x2]; exact ⟨chars_str (by decide), by decide⟩) t1
  obtain ⟨hr, hroot, -⟩ := site_init hs
  obtain ⟨hct, -, -⟩ := routerRun_iff.1 hr
  obtain ⟨-, hv⟩ := ctRun_valid hct
  refine ⟨s, _, info, _, hs, hclaims.1, h5, ⟨?_, rfl, ?_, NTree.wf_tree hv⟩⟩
  · unfold WellFormed exStateCert; simp only [WF, HashTree.labels]; decide
  · have hd : w.digest = s.router.rootHash ∧ w.digest = s.router.tree.full.digest := by
      obtain ⟨w', k1, k2, k3, -⟩ := C21_exact_witness hct (str "/assets/app.js") x.entry.cert (str "/assets/app.js")
      rw [← x2] at k1
      have k1 : s.router.tree.witness x.entry (str "/assets/app.js") = _ := k1
      rw [hw] at k1
      simp only [Option.some.injEq, Except.ok.injEq] at k1
      subst k1
      exact ⟨k2, k3.digest_eq⟩
    rw [← hd.2, hd.1, ← hroot', hroot]
    exact .left (.down (.down (.down (.here _))))

end
end Verif.Props
