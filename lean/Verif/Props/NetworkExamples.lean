import Verif.Props.NetworkRouter
import Verif.Props.EndToEndExamples
import Verif.Props.AssetVerifyExamples

set_option linter.unusedSimpArgs false

/-!
# C79: concrete cases that meet the hypotheses
-/

namespace Verif.Props
open Verif HashTree PathShape NTree
section
attribute [local instance] toySHA toyUri toyBls toyInflate

/-- The calls until a time: at time 100 two entries are inserted, at time 101 one of them is deleted. -/
def exHist (t : Nat) : List CtOp := if t < 100 then [] else if t = 100 then exServeOps else exServeOps ++ [.delete exServed]

/-- The root hash at a time. -/
def exData (t : Nat) : Bytes := match ctRun (exHist t) with | some T => T.rootHash.1 | none => []

/-- A network with one subnet, which signed the state of time 100, with this root hash. -/
def exNetOf (root : Bytes) (data : Nat → Bytes) : Network :=
  { signed := fun key S => key = exRootKey ∧ S = (exStateCert root).tree, inCharge := fun _ => False, data := data }

def exNet : Network := exNetOf exRoot exData

theorem exNet_tree : CertifiesTree exNet exHist := by
  intro t
  have h1 : ∃ T, ctRun ([] : List CtOp) = some T := ⟨_, rfl⟩
  have h2 : ∃ T, ctRun exServeOps = some T := by
    rw [← Option.isSome_iff_exists]; decide +kernel
  have h3 : ∃ T, ctRun (exServeOps ++ [.delete exServed]) = some T := by
    rw [← Option.isSome_iff_exists]; decide +kernel
  have : ∃ T, ctRun (exHist t) = some T := by
    unfold exHist
    split
    · exact h1
    · split
      · exact h2
      · exact h3
  obtain ⟨T, hT⟩ := this
  exact ⟨T, hT, by show exData t = _; unfold exData; rw [hT]⟩

theorem exNetOf_honest {root : Bytes} {data : Nat → Bytes} (h100 : data 100 = root) :
    (exNetOf root data).Honest exEnv.machine exEnv.canisterId exEnv.rootKey := by
  refine ⟨?_, ?_, ?_⟩
  · rintro key S ⟨-, rfl⟩
    unfold WellFormed exStateCert; simp only [WF, HashTree.labels]; decide
  · rintro S subnet rc ranges lo hi key ⟨-, rfl⟩ h
    exfalso
    unfold exStateCert at h
    rcases h with _ | h | h
    · rcases h
    · rcases h
  · rintro key S v t d - ⟨-, rfl⟩ ht hv h
    have hv' : t = 100 := by
      unfold exStateCert at ht
      rcases ht with _ | ht | ht
      · rcases ht
      · rcases ht with _ | _ | _ | ht
        cases ht
        have : lebRead (lebU64 100) = some 100 := by decide +kernel
        rw [this] at hv
        exact (Option.some.inj hv).symm
    subst hv'
    have e : d = root := by
      unfold exStateCert at h
      rcases h with _ | h | h
      · rcases h with _ | _ | _ | h
        rcases h with _ | _ | _ | h
        rcases h with _ | _ | _ | h
        cases h
        rfl
      · rcases h
    rw [e]
    exact h100.symm

theorem exNet_honest : exNet.Honest exEnv.machine exEnv.canisterId exEnv.rootKey := exNetOf_honest rfl

theorem exNetOf_noForgery (root : Bytes) (data : Nat → Bytes) {c : Certificate} (hc : c = exStateCert root) :
    (exNetOf root data).NoForgery exEnv.machine exEnv.rootKey c := by
  subst hc
  refine ⟨?_, ?_⟩
  · rintro key (rfl | hk) -
    · exact ⟨_, ⟨rfl, rfl⟩, rfl⟩
    · exact hk.elim
  · intro d i hd
    simp [exStateCert] at hd

theorem exHist_insert {t : Nat} {f : CertEntry} (hf : CtOp.insert f ∈ exHist t) : CtOp.insert f ∈ exServeOps := by
  unfold exHist at hf
  split at hf
  · simp at hf
  · split at hf
    · exact hf
    · simpa using hf

/-- All hypotheses of C79 at once: the network is honest, no signature is forged, and a response that asks for certification is
accepted. -/
theorem exNet_accepted : ∃ hdr e expr cel info res,
    exNet.Honest exEnv.machine exEnv.canisterId exEnv.rootKey ∧
    exNet.NoForgery exEnv.machine exEnv.rootKey hdr.certificate ∧
    Claims exEnv.machine res hdr e expr cel ∧ cel ≠ .skip ∧ verifyPair exEnv exGet res 2 = .ok info ∧
    CertifiesTree exNet exHist ∧
    ∀ t f, CtOp.insert f ∈ exHist t → (exOrigin f).Made f.cert ∧
      (∀ n ∈ (exOrigin f).cel.names, CarriedName n) ∧ (exOrigin f).cel.NoPseudo ∧ (exOrigin f).response.NoPseudo := by
  obtain ⟨hdr, e, expr, cel, info, res, t, h1, h2, h3, h4, h5, h6, h7, -, -, h8⟩ := exServe_accepted
  refine ⟨hdr, e, expr, cel, info, res, exNet_honest, exNetOf_noForgery _ _ h5, h1, h3, h2, exNet_tree, ?_⟩
  intro t f hf
  exact h8 f (exHist_insert hf)

/-- At time 111 the window begins at 101, when the entry was already deleted: what is accepted then has the root hash of a later tree. -/
example (hdr : CertHeader) (e : List Bytes) (expr : Bytes) (cel : CelExpr) (res : HttpResponse) (info : VerificationInfo)
    (hf : exNet.NoForgery exEnv.machine exEnv.rootKey hdr.certificate)
    (hc : Claims exEnv.machine res hdr e expr cel) (h : verifyPair { exEnv with now := 111 } exGet res 2 = .ok info) :
    (∃ t, 101 ≤ t ∧ t ≤ 121 ∧ exData t = hdr.tree.digest.1) ∨ exNet.Collision exEnv.machine hdr.certificate := by
  rcases C79_fresh (env := { exEnv with now := 111 }) exNet_honest hf hc.header h with ⟨t, h1, h2⟩ | h
  · have h3 : InWindow t 111 10 := h1
    unfold InWindow at h3
    exact .inl ⟨t, by omega, by omega, h2⟩
  · exact .inr h

/-- All hypotheses of `C79_skip`. -/
theorem exNet_skip : ∃ hdr e expr info res,
    exNet.Honest exEnv.machine exEnv.canisterId exEnv.rootKey ∧
    exNet.NoForgery exEnv.machine exEnv.rootKey hdr.certificate ∧
    Claims exEnv.machine res hdr e expr .skip ∧ verifyPair exEnv ⟨str "POST", str "/b", [], []⟩ res 2 = .ok info ∧
    CertifiesTree exNet exHist ∧
    ∀ t f, CtOp.insert f ∈ exHist t → ¬ f.path.Hides (sha expr) ∧ MadeFor f.cert (exKind f) ∧
      ∀ n ∈ (exKind f).names, CarriedName n := by
  obtain ⟨hdr, e, expr, info, res, t, h1, h2, h3, h4, h5, h6⟩ := exSkip_accepted
  refine ⟨hdr, e, expr, info, res, exNet_honest, exNetOf_noForgery _ _ h3, h1, h2, exNet_tree, ?_⟩
  intro t f hf
  obtain ⟨k1, k2, k3⟩ := h6 f (exHist_insert hf)
  exact ⟨HttpPath.not_hides k1 _, k2, k3⟩

/-- All hypotheses of `C79_version1`: the canister certified the version 1 tree `exAssetTree`. -/
example : (exNetOf exAssetTree.digest.1 (fun _ => exAssetTree.digest.1)).Honest exEnv.machine exEnv.canisterId exEnv.rootKey ∧
    (exNetOf exAssetTree.digest.1 (fun _ => exAssetTree.digest.1)).NoForgery exEnv.machine exEnv.rootKey
      (exStateCert exAssetTree.digest.1) ∧
    (∀ t : Nat, (exNetOf exAssetTree.digest.1 (fun _ => exAssetTree.digest.1)).data t = ((fun _ => exAssetTree) t).digest.1) :=
  ⟨exNetOf_honest rfl, exNetOf_noForgery _ _ rfl, fun _ => rfl⟩

end

section
attribute [local instance] toySHA toyUri toyGlob mergeSorting toyBls toyInflate

/-- All hypotheses of `C79_router`: a canister that made the calls `exRouterCalls` before time 100. -/
theorem exNet_router : ∃ net : Network, ∃ hdr e expr cel info res,
    net.Honest exEnv.machine exEnv.canisterId exEnv.rootKey ∧ net.NoForgery exEnv.machine exEnv.rootKey hdr.certificate ∧
    Claims exEnv.machine res hdr e expr cel ∧ verifyPair exEnv exMissing res 2 = .ok info ∧
    (∀ t, ∃ r, routerRun (if t < 100 then [] else exRouterCalls) = some r ∧ net.data t = r.rootHash.1) ∧
    (∀ t, ∀ c ∈ (if t < 100 then [] else exRouterCalls), c.Faithful ∧ ∀ o, c ≠ .shared o) ∧
    (∀ t assets values configs, RouterCall.certify assets values configs ∈ (if t < 100 then [] else exRouterCalls) →
      ∀ i, Announces assets configs i → ¬ i.certPath.Hides (sha expr) ∧ i.response.NoPseudo) := by
  obtain ⟨r, res, info, hdr, e, expr, cel, h1, h2, h3, h4, h5, h6⟩ := exMissing_claims
  refine ⟨exNetOf (rootOf exRouterCalls) (fun t => rootOf (if t < 100 then [] else exRouterCalls)), hdr, e, expr, cel, info, res,
    exNetOf_honest rfl, exNetOf_noForgery _ _ h4, h2, h3, ?_, ?_, ?_⟩
  · intro t
    obtain ⟨r, hr⟩ := routerRun_some (if t < 100 then [] else exRouterCalls)
    exact ⟨r, hr, rootOf_eq hr⟩
  · intro t c hc
    split at hc
    · simp at hc
    · exact exRouter_calls c hc
  · intro t a v c hc i hi
    split at hc
    · simp at hc
    · obtain ⟨k1, k2⟩ := h6 a v c hc i hi
      exact ⟨HttpPath.not_hides k1 _, k2⟩

end
end Verif.Props
