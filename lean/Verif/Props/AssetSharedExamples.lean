import Verif.Props.AssetShared
import Verif.Props.AssetSharedOnly
import Verif.Props.AssetVerifyExamples

set_option linter.unusedSimpArgs false
set_option linter.unusedSectionVars false

/-!
# C62: entries given directly stay or go; a concrete case
-/

namespace Verif.Props
open Verif HashTree PathShape

section
variable [SHA] [UriLib] [GlobLib]

/-- **C62.** What the canister inserted directly stays certified while the router certifies assets, and while more is inserted
directly. -/
theorem C62_kept {calls later : List RouterCall} {g : CertEntry}
    (hl : ∀ c ∈ later, (∃ assets values configs, c = .certify assets values configs ∧ IsValues assets values ∧ c.Succeeds) ∨
      ∃ g', c = .shared (.insert g')) :
    ctSpec (treeLog (calls ++ [.shared (.insert g)] ++ later)) g.toTreePath := by
  induction later using List.reverseRecOn with
  | nil =>
    rw [List.append_nil, treeLog_shared]
    unfold ctSpec
    rw [List.foldl_append]
    exact .inl rfl
  | append_singleton later c ih =>
    have ih := ih (fun c hc => hl c (List.mem_append_left _ hc))
    rw [← List.append_assoc]
    rcases hl c (by simp) with ⟨assets, values, configs, rfl, h1, h2⟩ | ⟨g', rfl⟩
    · rw [C45_certify_tree h1 h2]
      exact .inl ih
    · rw [treeLog_shared]
      unfold ctSpec at ih ⊢
      rw [List.foldl_append]
      exact .inr ih

/-- **C62.** Deleting all assets of the router wipes the shared tree: what the canister inserted directly is no longer certified,
so that nothing can be verified until it is inserted again. -/
theorem C62_wiped (calls : List RouterCall) : ∃ r, routerRun (calls ++ [.deleteAll]) = some r ∧
    (∀ p, ¬ ctSpec (treeLog (calls ++ [.deleteAll])) p) ∧ r.tree.full = .labeled (str "http_expr") .empty := by
  obtain ⟨r, hr⟩ := routerRun_some (calls ++ [.deleteAll])
  obtain ⟨h1, h2⟩ := C47_delete_all hr
  refine ⟨r, hr, h2, ?_⟩
  subst h1
  rfl

end

section
attribute [local instance] toySHA toyUri toyGlob mergeSorting toyBls toyInflate

def exMetrics : CertEntry := ⟨.exact (str "/metrics"), .mkSkip⟩

/-- The canister inserts an entry for its metrics, the router certifies assets. -/
def exSharedCalls : List RouterCall := .shared (.insert exMetrics) :: exRouterCalls

theorem exShared_step {r : Router} (hr : routerRun exSharedCalls = some r) : InStepShared exSharedCalls r :=
  C62_in_step (by
    intro c hc
    rw [exSharedCalls, List.mem_cons, exRouterCalls, List.mem_singleton] at hc
    rcases hc with hc | hc
    · exact .inr (.inr (.inl ⟨_, hc⟩))
    · exact .inr (.inl ⟨_, _, _, hc, exValues _, hc ▸ exCertifies _⟩)) hr

theorem exShared_about {c : RouterCall} (hc : c ∈ exSharedCalls) {i : Item} (hi : c.About i) : c ∈ exRouterCalls := by
  rw [exSharedCalls, List.mem_cons] at hc
  rcases hc with rfl | hc
  · exact absurd hi (by simp [RouterCall.About])
  · exact hc

/-- All hypotheses of C62 are met, by the response to a request of a path that does not exist. -/
theorem exShared_verifies : ∃ r res info, routerRun exSharedCalls = some r ∧
    r.serveAsset exMachine (encCertificate (exStateCert (rootOf exSharedCalls))) exMissing = some (.ok res) ∧
    res.status = 404 ∧ res.body = str "hello" ∧
    verifyPair exEnv exMissing res 2 = .ok info ∧ info.version = 2 := by
  obtain ⟨r, hr⟩ := routerRun_some exSharedCalls
  have t1 : (match routerRun exSharedCalls with
    | some r => (match r.serveAsset exMachine (encCertificate (exStateCert (rootOf exSharedCalls))) exMissing with
      | some (.ok res) => decide (res.status = 404 ∧ res.body = str "hello")
      | _ => false)
    | none => false) = true := by decide +kernel
  have t2 : (match routerRun exSharedCalls with
    | some r => decide (r.tree.full.Fits exMachine ∧ r.tree.full.height + 3 ≤ exMachine.stack ∧
        r.fallbacks ⟨str "/missing/page", none, none⟩ = none)
    | none => false) = true := by decide +kernel
  rw [hr] at t1 t2
  simp only [decide_eq_true_eq] at t2
  dsimp only at t1
  split at t1
  swap
  · cases t1
  rename_i res hres
  rw [decide_eq_true_eq] at t1
  have hmem : ∀ o, RouterCall.shared o ∈ exSharedCalls → o = .insert exMetrics := by
    intro o ho
    simpa [exSharedCalls, exRouterCalls] using ho
  have hgives : GivesWay r (str "/missing/page") exMetrics := by
    show PathShape.ofPath (str "/metrics") ≠ PathShape.ofPath (str "/missing/page")
    decide
  have := C62_verifies (env := exEnv) (minV := 2) (path := str "/missing/page")
    (c := exStateCert (rootOf exSharedCalls))
    (by
      intro c hc
      rw [exSharedCalls, List.mem_cons] at hc
      rcases hc with rfl | hc
      · trivial
      · exact (exRouter_calls c hc).1) hr (exShared_step hr)
    (by
      intro c hc i hi
      obtain ⟨p1, p2⟩ := exRouter_paths c (exShared_about hc hi) i hi
      obtain ⟨p3, p4, -⟩ := exPaths_ok _ p1
      refine ⟨p3, p4, ?_⟩
      simp only [List.mem_cons, List.not_mem_nil, or_false] at p2
      rcases p2 with h | h | h | h <;> rw [h] <;> rfl)
    (fun _ => .skip)
    (by
      intro o ho g hg
      rw [hmem o ho] at hg
      simp only [CtOp.entry?, Option.some.injEq] at hg
      subst hg
      exact ⟨by unfold HttpPath.Clean exMetrics; decide, .skip⟩)
    (by
      intro g hg _
      have := hmem _ hg
      simp only [CtOp.insert.injEq] at this
      subst this
      exact hgives)
    rfl rfl rfl rfl (by simp [exMissing, exAsk]) (by simp [exMissing, exAsk]) (normal_of_bool (by decide)) (by decide)
    (.inr ⟨by decide, by decide⟩) (.inr t2.2.2) hres
    (C37_certificate_roundtrip exMachine (exStateCert (rootOf exSharedCalls)) (by decide +kernel) (by decide +kernel)
      (by decide +kernel) (by decide +kernel) (by intro d hd; simp [exStateCert] at hd) (by decide +kernel)).1
    (exCert_verifies _) (by rw [← rootOf_eq hr]; rfl) (by decide)
    (fun c hc i hi => (exPaths_ok _ (exRouter_paths c (exShared_about hc hi) i hi).1).2.2) ⟨t2.1, t2.2.1⟩ (by decide)
  rcases this with ⟨info, v, h1, h2, -⟩ | ⟨i, hcol⟩
  · exact ⟨r, res, info, hr, hres, t1.1, t1.2, h1, h2⟩
  · exfalso
    revert hcol
    cases i <;> (unfold CollisionIn; simp only [List.mem_singleton, exists_eq_left, Item.cel]; decide +kernel)

/-- All hypotheses of C62_only are met, by the same response. -/
theorem exShared_claims : ∃ r res info hdr e expr cel, routerRun exSharedCalls = some r ∧
    Claims exEnv.machine res hdr e expr cel ∧ verifyPair exEnv exMissing res 2 = .ok info ∧
    Certifies hdr.certificate exEnv.canisterId (exStateCert (rootOf exSharedCalls)).tree r.tree.full ∧
    (∀ assets values configs, RouterCall.certify assets values configs ∈ exSharedCalls → ∀ i, Announces assets configs i →
      i.certPath.Clean ∧ i.response.NoPseudo) ∧ (∀ c ∈ exSharedCalls, c.Faithful) ∧
    ∀ g, Direct exSharedCalls g → g.path.Clean ∧ (⟨.skip, exMissing, res⟩ : Origin).Made g.cert := by
  obtain ⟨r, res, info, hr, hs, -, -, h5, -⟩ := exShared_verifies
  have t1 : (match routerRun exSharedCalls with
    | some r => (match r.assetForRequest (str "/missing/page") [] none with
      | some x => decide (x.entry.path = .wildcard (str "/") ∧
          x.response.headers.getLast? = some (str "IC-CertificateExpression", celOfWholes.toBytes)) &&
        (match r.tree.witness x.entry (str "/missing/page") with
        | some (.ok w) => decide (w.Fits exMachine ∧ w.height + 3 ≤ exMachine.stack)
        | _ => false)
      | none => false)
    | none => false) = true := by decide +kernel
  rw [hr] at t1
  dsimp only at t1
  split at t1
  swap
  · cases t1
  rename_i x hx
  rw [Bool.and_eq_true, decide_eq_true_eq] at t1
  obtain ⟨⟨x2, x3⟩, t1⟩ := t1
  split at t1
  swap
  · cases t1
  rename_i w hw
  rw [decide_eq_true_eq] at t1
  have hserve : r.serveAsset exMachine (encCertificate (exStateCert (rootOf exSharedCalls))) exMissing =
      some (.ok (addV2CertificateHeader (encCertificate (exStateCert (rootOf exSharedCalls))) x.response w x.entry.path.toExprPath)) := by
    unfold Router.serveAsset
    have e1 : exMissing.getPath = .ok (str "/missing/page") := rfl
    have e2 : rangeBegin exMachine exMissing = .ok none := rfl
    have e3 : preferredEncodings exMissing = [] := rfl
    simp only [e1, e2, e3, hx, hw]
  rw [hserve] at hs
  simp only [Option.some.injEq, Except.ok.injEq] at hs
  subst hs
  have hcert := (C37_certificate_roundtrip exMachine (exStateCert (rootOf exSharedCalls)) (by decide +kernel) (by decide +kernel)
      (by decide +kernel) (by decide +kernel) (by intro d hd; simp [exStateCert] at hd) (by decide +kernel)).1
  have hclaims := served_claims (env := exEnv) (dataCert := (encCertificate (exStateCert (rootOf exSharedCalls)))) (i := .redirect [] [] .permanent) (x := x) (w := w)
    (by decide) hcert x3 (by rw [x2]; exact ⟨chars_str (by decide), by decide⟩) t1
  obtain ⟨hct, -, -⟩ := routerRun_iff.1 hr
  obtain ⟨-, hv⟩ := ctRun_valid hct
  refine ⟨r, _, info, _, _, _, _, hr, hclaims, h5, ⟨?_, rfl, ?_, NTree.wf_tree hv⟩, ?_, ?_, ?_⟩
  · unfold WellFormed exStateCert; simp only [WF, HashTree.labels]; decide
  · have hd : w.digest = r.rootHash ∧ w.digest = r.tree.full.digest := by
      obtain ⟨w', ws, k1, k2, k3, -⟩ := C21_wildcard_witness hct (str "/") x.entry.cert (str "/missing/page") (by decide)
      rw [← x2] at k1
      have k1 : r.tree.witness x.entry (str "/missing/page") = _ := k1
      rw [hw] at k1
      simp only [Option.some.injEq, Except.ok.injEq] at k1
      subst k1
      exact ⟨k2, k3.digest_eq⟩
    rw [← hd.2, hd.1, ← rootOf_eq hr]
    exact .left (.down (.down (.down (.here _))))
  · intro assets values configs hc i hi
    have hc := exShared_about hc (i := i) hi
    obtain ⟨p1, -⟩ := exRouter_paths _ hc i hi
    refine ⟨(exPaths_ok _ p1).2.1, ?_⟩
    rw [exRouterCalls, List.mem_singleton, RouterCall.certify.injEq] at hc
    obtain ⟨rfl, rfl, rfl⟩ := hc
    have hn : ∀ n ∈ str "content-length" :: str "IC-CertificateExpression" :: str "cache-control" :: ownNames,
        ¬ SameName n (str ":ic-cert-status") := by decide
    intro h hh
    refine hn _ ?_
    simp only [Item.response, List.mem_append, List.mem_cons, List.not_mem_nil, or_false] at hh
    rcases hh with (rfl | hh) | rfl
    · exact List.mem_cons_self
    · exact List.mem_cons_of_mem _ (List.mem_cons_of_mem _ (exHeaderNames _ i hi h hh))
    · exact List.mem_cons_of_mem _ List.mem_cons_self
  · intro c hc
    rw [exSharedCalls, List.mem_cons] at hc
    rcases hc with rfl | hc
    · trivial
    · exact (exRouter_calls c hc).1
  · intro g hg
    have : g = exMetrics := by simpa [Direct, exSharedCalls, exRouterCalls] using hg
    subst this
    exact ⟨by unfold HttpPath.Clean exMetrics; decide, .skip⟩

end
end Verif.Props
