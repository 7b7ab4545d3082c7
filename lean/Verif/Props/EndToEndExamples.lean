import Verif.Props.Complete

set_option linter.unusedSimpArgs false

/-!
# C23, C24, C27: concrete cases that meet the hypotheses
-/

namespace Verif.Props
open Verif HashTree PathShape NTree
section
attribute [local instance] toySHA toyUri toyBls toyInflate

theorem exServe_fits (t : CertTree) (ht : ctRun exServeOps = some t) :
    t.full.Fits exMachine ∧ t.full.height + 3 ≤ exMachine.stack := by
  have : (match ctRun exServeOps with
    | some t => decide (t.full.Fits exMachine ∧ t.full.height + 3 ≤ exMachine.stack)
    | none => true) = true := by decide +kernel
  rw [ht] at this
  exact of_decide_eq_true this

theorem exServe_root (t : CertTree) (ht : ctRun exServeOps = some t) : exRoot = t.rootHash.1 := by
  have : (match ctRun exServeOps with | some t => t.rootHash.1 | none => []) = t.rootHash.1 := by rw [ht]
  exact this

theorem exServe_no_collision : ∀ o ∈ exServeOps, ∀ g, o.entry? = some g →
    ∀ x, x = CelExpr.skip ∨ x = .responseOnly exCert → ¬ CollisionIn [(exKind g).toBytes] [x.toBytes] := by
  have key : ∀ a b, (a = CelExpr.skip ∨ a = .responseOnly exCert) → (b = CelExpr.skip ∨ b = .responseOnly exCert) →
      ¬ CollisionIn [a.toBytes] [b.toBytes] := by
    rintro a b ha hb ⟨x, hx, y, hy, h1, h2⟩
    rw [List.mem_singleton] at hx hy
    subst hx; subst hy
    revert h1 h2
    rcases ha with rfl | rfl <;> rcases hb with rfl | rfl
    · simp
    · intro _ h; exact absurd (congrArg Subtype.val h) (by decide +kernel)
    · intro _ h; exact absurd (congrArg Subtype.val h) (by decide +kernel)
    · simp
  intro o ho g hg x hx
  refine key _ _ ?_ hx
  unfold exKind
  split <;> simp

theorem exServe_made : ∀ o ∈ exServeOps, ∀ g, o.entry? = some g → g.path.Clean ∧ MadeFor g.cert (exKind g) := by
  intro o ho g hg
  simp only [exServeOps, List.mem_cons, List.not_mem_nil, or_false] at ho
  rcases ho with rfl | rfl <;> simp only [CtOp.entry?, Option.some.injEq] at hg <;> subst hg
  · exact ⟨⟨by decide, by decide⟩, .responseOnly (bh := none) ((C44_response_only _ _ _ _).2 ⟨rfl, rfl⟩)⟩
  · exact ⟨⟨by decide, by decide⟩, .skip⟩

theorem exState_certifies (t : CertTree) (ht : ctRun exServeOps = some t) :
    Certifies (exStateCert exRoot) [5] (exStateCert exRoot).tree t.full := by
  obtain ⟨-, hv⟩ := ctRun_valid ht
  refine ⟨?_, rfl, ?_, wf_tree hv⟩
  · unfold WellFormed exStateCert; simp only [WF, HashTree.labels]; decide
  · have e : t.full.digest.1 = exRoot := by
      rw [exServe_root t ht]
      obtain ⟨t', h1, h2, _⟩ := (entries_api_clean exServeOps ⟨.exact (str "/b"), .mkSkip⟩ .skip .skip ⟨by decide, by decide⟩ exKind
        (fun o ho g hg => (exServe_made o ho g hg).1) (fun o ho g hg => (exServe_made o ho g hg).2)).resolve_right (by
          rintro ⟨o, ho, g, hg, _, h⟩
          exact exServe_no_collision o ho g hg _ (.inl rfl) h)
      rw [ht] at h1
      simp only [Option.some.injEq] at h1
      subst h1
      rw [h2]
    rw [e]
    exact .left (.down (.down (.down (.here _))))

/-- The origins of the entries. -/
def exOrigin (e : CertEntry) : Origin := ⟨exKind e, exGet, exCertified⟩

/-- A response that is accepted, whose expression asks for certification, with a tree made with the interface: all
hypotheses of C23 and C24. -/
theorem exServe_accepted : ∃ hdr e expr cel info res t, Claims exEnv.machine res hdr e expr cel ∧
    verifyPair exEnv exGet res 2 = .ok info ∧ cel ≠ .skip ∧ cel = .responseOnly exCert ∧
    hdr.certificate = exStateCert exRoot ∧ ctRun exServeOps = some t ∧
    Certifies hdr.certificate exEnv.canisterId (exStateCert exRoot).tree t.full ∧
    exGet.getPath = .ok (str "/a/x") ∧ PlainEndPath (str "/a/x") ∧
    ∀ f, CtOp.insert f ∈ exServeOps → (exOrigin f).Made f.cert ∧
      (∀ n ∈ (exOrigin f).cel.names, CarriedName n) ∧ (exOrigin f).cel.NoPseudo ∧ (exOrigin f).response.NoPseudo := by
  have hmade : MadeOf exServed.cert (.responseOnly exCert) exGet exCertified :=
    .responseOnly (bh := none) ((C44_response_only _ _ _ _).2 ⟨rfl, rfl⟩) (by simp)
  have hcar : ∀ n ∈ (CelExpr.responseOnly exCert).names, CarriedName n := by
    intro n hn
    simp [CelExpr.names, exCert] at hn
    subst hn
    exact plain_carried (by decide)
  obtain ⟨t, w, info, h1, h2, h3, h4, h5⟩ := (complete_core (env := exEnv) (ops := exServeOps) (f := exServed)
    (x := .responseOnly exCert) (q := exGet) (req := exGet) (r := exCertified) (res := exServedResponse) (minV := 2)
    (dataCert := encCertificate (exStateCert exRoot)) (path := str "/a/x")
    (c := exStateCert exRoot) exKind exServe_made ⟨by decide, by decide⟩ (.inr (.inl rfl)) hmade hcar
    (by
      refine ⟨⟨by decide, by decide⟩, ?_⟩
      intro g hg _
      simp only [exServeOps, List.mem_cons, CtOp.insert.injEq, List.not_mem_nil, or_false] at hg
      rcases hg with rfl | rfl
      · rintro ⟨_, h⟩
        simp only [moreSpecific_iff] at h
        omega
      · decide) rfl ⟨rfl, rfl, List.Perm.refl _⟩ (by intro h; simp at h)
    (C37_certificate_roundtrip exMachine (exStateCert exRoot) (by decide) (by decide) (by decide +kernel) (by decide)
      (by intro d hd; simp [exStateCert] at hd) (by decide)).1
    (exCert_verifies _) (by
      intro t ht
      rw [← exServe_root t ht]
      rfl) (by decide) ⟨chars_str (by decide), by decide⟩ exServe_fits (by decide) (by decide)
    (.inr ⟨by decide, by decide⟩)).resolve_right (by
      rintro ⟨o, ho, g, hg, _, h⟩
      exact exServe_no_collision o ho g hg _ (.inr rfl) h)
  refine ⟨_, _, _, _, info, _, t, h4, h3, by simp, rfl, rfl, h1, exState_certifies t h1, rfl, .inr ⟨by decide, by decide⟩, ?_⟩
  intro f hf
  simp only [exServeOps, List.mem_cons, CtOp.insert.injEq, List.not_mem_nil, or_false] at hf
  rcases hf with rfl | rfl
  · exact ⟨hmade, hcar, trivial, by intro x hx; simp [exOrigin, exCertified] at hx; rcases hx with rfl | rfl <;> decide⟩
  · exact ⟨.skip, by intro n hn; simp [exOrigin, exKind, CelExpr.names, HttpCert.isSkip, HttpCert.mkSkip] at hn, trivial,
      by intro x hx; simp [exOrigin, exCertified] at hx; rcases hx with rfl | rfl <;> decide⟩

/-- A response at `/b`, for which certification is skipped. -/
def exSkipped : HttpResponse :=
  { status := 404, headers := [(str "ic-certificateexpression", CelExpr.skip.toBytes)], body := str "anything" }

/-- The same for a skipped certification: all hypotheses of C27. -/
theorem exSkip_accepted : ∃ hdr e expr info res t, Claims exEnv.machine res hdr e expr .skip ∧
    verifyPair exEnv ⟨str "POST", str "/b", [], []⟩ res 2 = .ok info ∧ hdr.certificate = exStateCert exRoot ∧ ctRun exServeOps = some t ∧
    Certifies hdr.certificate exEnv.canisterId (exStateCert exRoot).tree t.full ∧
    ∀ f, CtOp.insert f ∈ exServeOps → f.path.Clean ∧ MadeFor f.cert (exKind f) ∧ ∀ n ∈ (exKind f).names, CarriedName n := by
  obtain ⟨t, w, info, h1, h2, h3, h4, h5⟩ := (complete_core (env := exEnv) (ops := exServeOps)
    (f := ⟨.exact (str "/b"), .mkSkip⟩)
    (x := .skip) (q := exGet) (req := ⟨str "POST", str "/b", [], []⟩) (r := exCertified) (res := exSkipped) (minV := 2)
    (dataCert := encCertificate (exStateCert exRoot)) (path := str "/b")
    (c := exStateCert exRoot) exKind exServe_made ⟨by decide, by decide⟩ (.inl rfl) .skip (by simp [CelExpr.names])
    rfl rfl trivial (by
      intro _
      exact ⟨[], _, [], rfl, by decide, by simp⟩)
    (C37_certificate_roundtrip exMachine (exStateCert exRoot) (by decide) (by decide) (by decide +kernel) (by decide)
      (by intro d hd; simp [exStateCert] at hd) (by decide)).1
    (exCert_verifies _) (by
      intro t ht
      rw [← exServe_root t ht]
      rfl) (by decide) ⟨chars_str (by decide), by decide⟩ exServe_fits (by decide) (by decide)
    (.inr ⟨by decide, by decide⟩)).resolve_right (by
      rintro ⟨o, ho, g, hg, _, h⟩
      exact exServe_no_collision o ho g hg _ (.inl rfl) h)
  refine ⟨_, _, _, info, _, t, h4, h3, rfl, h1, exState_certifies t h1, ?_⟩
  intro f hf
  obtain ⟨k1, k2⟩ := exServe_made _ hf f rfl
  refine ⟨k1, k2, ?_⟩
  intro n hn
  unfold exKind at hn
  split at hn
  · simp [CelExpr.names] at hn
  · simp [CelExpr.names, exCert] at hn
    subst hn
    exact plain_carried (by decide)

/-- A version 1 tree: the body `hi` at `/a.js`, something else at `/index.html`. -/
def exAssetTree : HashTree :=
  .labeled (str "http_assets") (.fork (.labeled (str "/a.js") (.leaf (sha (str "hi")).1))
    (.labeled (str "/index.html") (.leaf (sha (str "index")).1)))

deriving instance DecidableEq for Certificate
deriving instance DecidableEq for CertHeader

def exV1Text : List Char :=
  "certificate=:".toList ++ b64Encode true (encCertificate (exStateCert exAssetTree.digest.1)) ++ ":, tree=:".toList ++
  b64Encode true (selfDescribe ++ encTree exAssetTree) ++ ":".toList

def exV1Response (body : Bytes) : HttpResponse :=
  { status := 200, headers := [(str "IC-Certificate", utf8 exV1Text)], body }

theorem exV1_header (body : Bytes) : CarriesHeader exMachine (exV1Response body)
    { certificate := exStateCert exAssetTree.digest.1, tree := exAssetTree, version := 1, exprPath := none } := by
  refine ⟨utf8 exV1Text, ⟨[], _, [], rfl, by decide, by simp⟩, ?_⟩
  rw [chars_utf8]
  have : (match headerFrom exMachine exV1Text with
    | .ok h => decide (h = { certificate := exStateCert exAssetTree.digest.1, tree := exAssetTree, version := 1, exprPath := none })
    | _ => false) = true := by decide +kernel
  revert this
  show _ → headerFrom exMachine exV1Text = _
  cases headerFrom exMachine exV1Text with
  | ok h => intro h1; exact congrArg _ (of_decide_eq_true h1)
  | err e => intro h1; exact absurd h1 (by simp)
  | crash => intro h1; exact absurd h1 (by simp)

/-- The hypotheses of C28: accepted for its path, and for an unknown path with the body of `/index.html`. -/
example : verifyPair exEnv ⟨str "GET", str "/a.js", [], []⟩ (exV1Response (str "hi")) 1 =
      .ok { response := some { statusCode := none, headers := [], body := str "hi" }, version := 1 } ∧
    verifyPair exEnv ⟨str "GET", str "/zzz", [], []⟩ (exV1Response (str "index")) 1 =
      .ok { response := some { statusCode := none, headers := [], body := str "index" }, version := 1 } := by
  constructor
  · exact C28_accepts (path := str "/a.js") (decoded := []) (exV1_header _) rfl (by decide) (exCert_verifies _) rfl rfl
      (.inl ⟨by intro h hh; simp [exV1Response] at hh; subst hh; decide, rfl⟩) (.inl rfl)
  · exact C28_accepts (path := str "/zzz") (decoded := []) (exV1_header _) rfl (by decide) (exCert_verifies _) rfl rfl
      (.inl ⟨by intro h hh; simp [exV1Response] at hh; subst hh; decide, rfl⟩) (.inr ⟨by
        intro v h
        have : exAssetTree.lookupPath [str "http_assets", str "/zzz"] = .absent := rfl
        simp only [this] at h
        exact absurd h (by simp), rfl⟩)

end
end Verif.Props
