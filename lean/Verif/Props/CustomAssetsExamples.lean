import Verif.Props.CustomAssetsOnly
import Verif.Props.AssetsExampleExamples

set_option linter.unusedSimpArgs false
set_option linter.unusedSectionVars false

/-!
# C67: the hypotheses can be met

A directory with `index.html` and a script with a compressed version; a request of the script by a client that accepts brotli.
-/

namespace Verif.Props
open Verif HashTree PathShape

/-- Patterns `assets/**/*` followed by an extension. -/
@[instance_reducible] def endGlob : PathGlob := ⟨fun p a => (str "assets/").isPrefixOf a && (p.drop 11).isSuffixOf a⟩

section
attribute [local instance] toySHA toyUri endGlob toyBls toyInflate

def exCustom : Front :=
  ⟨[(str "index.html", str "home"), (str "assets/app.js", str "code"), (str "assets/app.js.br", str "brot")], [str "assets"]⟩

theorem exCustom_proper : exCustom.Proper exMachine where
  unique := by
    intro p c c' h h'
    have : ∀ x ∈ exCustom.files, ∀ y ∈ exCustom.files, x.1 = y.1 → x.2 = y.2 := by decide
    exact this _ h _ h' rfl
  index := ⟨_, List.mem_cons_self⟩
  dirs := by
    rintro p ct hp ⟨g, h1, h2⟩
    have : ∀ p ∈ exCustom.dirs, ∀ t ∈ [(str "assets/**/*.css", str "text/css"), (str "assets/**/*.js", str "text/javascript"),
      (str "assets/**/*.ico", str "image/x-icon"), (str "assets/**/*.svg", str "image/svg+xml")], PathGlob.hits t.1 p = false := by decide
    rw [this _ hp _ h1] at h2
    cases h2
  names := by
    intro p c ct h ht
    have h1 : ∀ x ∈ exCustom.files, x.1 ≠ str "uncertified" ∧ ((slashByte :: x.1).head? == some slashByte && noDouble (slashByte :: x.1)) = true ∧
      exMachine.Fits (x.1.length + 10) := by decide
    obtain ⟨a1, a2, a3⟩ := h1 _ h
    refine ⟨a1, normal_of_bool a2, ?_, ?_, a3⟩
    · unfold HttpPath.Clean
      have : ∀ x ∈ exCustom.files, str "<$>" ∉ pathSegments (HttpPath.exact (slashByte :: x.1)).url ∧
        str "<*>" ∉ pathSegments (HttpPath.exact (slashByte :: x.1)).url := by decide
      exact this _ h
    · simp only [exCustom, List.mem_cons, Prod.mk.injEq, List.not_mem_nil, or_false] at h
      rcases h with ⟨rfl, -⟩ | ⟨rfl, -⟩ | ⟨rfl, -⟩
      · exact chars_str (s := "/index.html") (by decide)
      · exact chars_str (s := "/assets/app.js") (by decide)
      · exact chars_str (s := "/assets/app.js.br") (by decide)

def exCustomState : Option CustomSite := CustomSite.init exCustom

/-- The certified data, evaluated (see `exCustom_facts`). -/
def exCustomRoot : Bytes :=
  [102, 97, 101, 108, 45, 101, 101, 114, 116, 104, 115, 97, 104, 45, 99, 105, 16, 0, 0, 0, 0, 0, 0, 0, 0, 0, 0, 0, 0, 0, 0, 0]

def exCustomCert : Bytes := encCertificate (exStateCert exCustomRoot)

theorem exCustom_decoded : certificateFromCbor exEnv.machine exCustomCert = some (.ok (exStateCert exCustomRoot)) :=
  (C37_certificate_roundtrip exMachine (exStateCert exCustomRoot) (by decide +kernel) (by decide +kernel)
      (by decide +kernel) (by decide +kernel) (by intro d hd; simp [exStateCert] at hd) (by decide +kernel)).1

theorem exCustom_facts {s : CustomSite} (hs : CustomSite.init exCustom = some s) : s.certifiedData = exCustomRoot ∧
    s.tree.full.Fits exMachine ∧ s.tree.full.height + 3 ≤ exMachine.stack := by
  have t : exCustomState.map (fun s => decide (s.certifiedData = exCustomRoot ∧ s.tree.full.Fits exMachine ∧
      s.tree.full.height + 3 ≤ exMachine.stack)) = some true := by decide +kernel
  unfold exCustomState at t
  rw [hs] at t
  simpa using t

theorem exCustom_certified {s : CustomSite} (hs : CustomSite.init exCustom = some s) : CustomCertified exEnv s exCustomCert := by
  obtain ⟨h1, h2⟩ := exCustom_facts hs
  exact ⟨⟨_, exCustom_decoded, exCert_verifies _, by rw [h1]; rfl⟩, by decide, h2⟩

theorem exCustom_collision : ¬ CollisionIn [CelExpr.skip.toBytes] [customCel.toBytes] := by
  unfold CollisionIn; simp only [List.mem_singleton, exists_eq_left]; decide +kernel

theorem exCustom_collision' : ¬ CollisionIn [customCel.toBytes] [CelExpr.skip.toBytes] := by
  unfold CollisionIn; simp only [List.mem_singleton, exists_eq_left]; decide +kernel

theorem exCustom_type : HasType (str "assets/app.js") (str "text/javascript") := ⟨str "assets/**/*.js", by simp, by decide⟩

/-- All hypotheses of `C67_serves` are met: the client is answered with the compressed script, which verifies. -/
example : ∃ s res info, CustomSite.init exCustom = some s ∧ s.httpRequest exCustomCert [] exScript = some res ∧ res.status = 200 ∧
    res.body = str "brot" ∧ (str "content-type", str "text/javascript") ∈ res.headers ∧
    verifyPair exEnv exScript res 2 = .ok info ∧ info.version = 2 := by
  obtain ⟨s, hs, h⟩ := C67_serves exCustom_proper
  rcases h exEnv exCustomCert [] exScript (str "/assets/app.js") 2 rfl (exCustom_certified hs) rfl (normal_of_bool (by decide))
    (by decide) (by decide) (by unfold PlainEndPath; decide) (by decide) with
    ⟨res, info, ct, caching, e, c, hd, h1, h2, h3, h4, h5, -⟩ | h
  · rcases h3 with ⟨p, ⟨p1, -, -⟩, p2, -, p3⟩ | ⟨h3, -⟩
    · have : p = str "assets/app.js" := (List.cons.inj p1).2.symm
      subst this
      have hct : ct = str "text/javascript" := by
        obtain ⟨pre, g, post, q1, q2, -⟩ := p2
        have : ∀ t ∈ [(str "assets/**/*.css", str "text/css"), (str "assets/**/*.js", str "text/javascript"),
          (str "assets/**/*.ico", str "image/x-icon"), (str "assets/**/*.svg", str "image/svg+xml")],
          PathGlob.hits t.1 (str "assets/app.js") = true → t.2 = str "text/javascript" := by decide
        exact this (g, ct) (by rw [q1]; simp) q2
      have hb : Mentions exScript (str "br") := ⟨str "br", ⟨[], str "accept-encoding", [], rfl, by decide, by simp⟩, [], [], rfl⟩
      have ho : exCustom.Offers (str "assets/app.js") (some (str "br")) (str "brot") := .encoded (.inl rfl) (by decide)
      have hc : c = str "brot" := by
        cases p3 with
        | brotli _ h' => exact offers_unique exCustom_proper.unique h' ho
        | gzip h' _ _ => exact absurd ⟨hb, _, ho⟩ h'
        | plain h' _ _ => exact absurd ⟨hb, _, ho⟩ h'
      exact ⟨s, res, info, hs, h1, h2.status, by rw [h2.body, hc], (h2.type _).2 hct.symm, h4, h5⟩
    · exact absurd ⟨rfl, ⟨str "code", by decide⟩, _, exCustom_type⟩ (h3 (str "assets/app.js"))
  · exact absurd h exCustom_collision

/-- All hypotheses of `C67_uncertified` are met. -/
example : ∃ s res info, CustomSite.init exCustom = some s ∧
    s.httpRequest exCustomCert (str "now") (exAsk (str "/uncertified") []) = some res ∧ res.body = str "now" ∧
    verifyPair exEnv (exAsk (str "/uncertified") []) res 2 = .ok info := by
  obtain ⟨s, hs, h⟩ := C67_uncertified exCustom_proper
  rcases h exEnv exCustomCert (str "now") (exAsk (str "/uncertified") []) 2 rfl (exCustom_certified hs) rfl (by decide) with
    ⟨res, info, h1, -, h2, h3, -⟩ | h
  · exact ⟨s, res, info, hs, h1, h2, h3⟩
  · exact absurd h exCustom_collision'

/-- All hypotheses of `C67_only` are met, by the answer with the script itself. -/
example : ∃ s res info hdr, CustomSite.init exCustom = some s ∧
    CarriesHeader exEnv.machine res hdr ∧ verifyPair exEnv exScript res 2 = .ok info ∧
    Certifies hdr.certificate exEnv.canisterId (exStateCert exCustomRoot).tree s.tree.full ∧
    exScript.getPath = .ok (str "/assets/app.js") ∧ NormalPath (str "/assets/app.js") := by
  have hb : (str "index.html", str "home") ∈ exCustom.files := List.mem_cons_self
  obtain ⟨s, hs, hp, hr⟩ := custom_init ((getFile_iff exCustom_proper.unique).2 hb) (by
    intro t ht p hp
    by_contra h
    exact exCustom_proper.dirs hp (ct := t.2) ⟨t.1, ht, by simpa using h⟩)
  have hx : filePost (str "assets/app.js") (str "text/javascript") none (str "code") ∈ allPosts exCustom (str "home") :=
    (mem_allPosts exCustom_proper hb).2 (.inr ⟨_, _, none, _, exCustom_type, ⟨str "code", by decide⟩, .plain (by decide), rfl⟩)
  rcases post_verifies (env := exEnv) exCustom_proper hb hp hr (exCustom_certified hs) hx (req := exScript)
    (path := str "/assets/app.js") rfl
    (post_responds exCustom_proper hb (normal_of_bool (by decide)) (by decide) hx (.inl rfl)) (by decide)
    (by unfold PlainEndPath; decide) (minV := 2) (by decide) with ⟨w, info, w1, w2, -, -, w3⟩ | h
  swap
  · exact absurd h exCustom_collision
  have hrun : ctRun (customOps exCustom (str "home")) = some s.tree := hp.run
  obtain ⟨-, hv⟩ := ctRun_valid hrun
  refine ⟨s, _, info, _, hs, w3 _ exCustom_decoded, w2, ⟨?_, rfl, ?_, NTree.wf_tree hv⟩, rfl, normal_of_bool (by decide)⟩
  · unfold WellFormed exStateCert; simp only [WF, HashTree.labels]; decide
  · have hroot : s.tree.full.digest = s.tree.rootHash := by
      obtain ⟨w', k1, k2, k3, -⟩ := C21_exact_witness hrun (str "/assets/app.js") .mkSkip (str "/assets/app.js")
      rw [← k2, k3.digest_eq]
    rw [hroot, ← hr, (exCustom_facts hs).1]
    exact .left (.down (.down (.down (.here _))))

end
end Verif.Props
