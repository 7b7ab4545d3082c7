import Verif.Props.AssetFail
import Verif.Props.AssetVerifyExamples

set_option linter.unusedSimpArgs false
set_option linter.unusedSectionVars false

/-!
# C76: concrete cases, and the proviso on encodings
-/

namespace Verif.Props
open Verif HashTree PathShape

/-- A URI library that rejects spaces. -/
@[instance_reducible] def pickyUri : UriLib :=
  ⟨fun u => if 0x20 ∈ u then none else some (u.takeWhile (· ≠ 0x3F), (u.splitOn 0x3F)[1]?), some⟩

section
attribute [local instance] toySHA pickyUri toyGlob mergeSorting toyBls toyInflate

def exFailAssets : List Asset := [Asset.new (str "a") (str "hello"), Asset.new (str "a.br") (str "h")]

/-- The second alias is not a URL. -/
def exFailConfigs : List AssetConfig := [.file (str "a") none [] [] [str "/b c"] [(.brotli, str ".br")]]

def exHomeAssets : List Asset := [Asset.new (str "h") (str "home")]
def exHomeConfigs : List AssetConfig := [.file (str "h") none [] [⟨str "/", some 404⟩] [] []]

def exFailCalls : List RouterCall :=
  [.certify exHomeAssets exHomeAssets exHomeConfigs, .certify exFailAssets exFailAssets exFailConfigs]

def exFailRoot : Bytes :=
  match routerRun exFailCalls with
  | some r => r.rootHash.1
  | none => []

/-- The first call succeeds, the second fails after publishing the brotli page at `/a`. -/
theorem exFail_results : (certifyAssets exHomeAssets exHomeAssets exHomeConfigs).2 = .ok () ∧
    (certifyAssets exFailAssets exFailAssets exFailConfigs).2 ≠ .ok () ∧
    (certifyAssets exFailAssets exFailAssets exFailConfigs).1.length = 2 := by
  refine ⟨?_, ?_, by decide +kernel⟩
  · have : (match (certifyAssets exHomeAssets exHomeAssets exHomeConfigs).2 with
      | .ok () => true
      | .error _ => false) = true := by decide +kernel
    revert this
    generalize (certifyAssets exHomeAssets exHomeAssets exHomeConfigs).2 = z
    rcases z with _ | ⟨⟩ <;> simp
  · have : (match (certifyAssets exFailAssets exFailAssets exFailConfigs).2 with
      | .ok () => true
      | .error _ => false) = false := by decide +kernel
    revert this
    generalize (certifyAssets exFailAssets exFailAssets exFailConfigs).2 = z
    rcases z with _ | ⟨⟩ <;> simp

theorem exHome_values : IsValues exHomeAssets exHomeAssets := by
  intro a
  constructor
  · intro h
    rw [exHomeAssets, List.mem_singleton] at h
    subst h
    exact ⟨[], [], rfl, by simp⟩
  · rintro ⟨pre, post, h, -⟩
    rw [h]; simp

theorem exFail_values : IsValues exFailAssets exFailAssets := by
  intro a
  constructor
  · intro h
    rw [exFailAssets, List.mem_cons, List.mem_singleton] at h
    rcases h with rfl | rfl
    · exact ⟨[], [Asset.new (str "a.br") (str "h")], rfl, by decide⟩
    · exact ⟨[Asset.new (str "a") (str "hello")], [], rfl, by simp⟩
  · rintro ⟨pre, post, h, -⟩
    rw [h]; simp

/-- C76, C49: the proviso on encodings is needed. After a successful call with a fallback for `/`, a second call fails
at an alias that is not a URL, having published `/a` in its brotli encoding only. A client that does not accept brotli
and asks for `/a` is answered with the fallback, and this answer does not verify, because `/a` is certified. -/
theorem C76_counterexample_encodings : ∃ r res, routerRun exFailCalls = some r ∧
    (certifyAssets exFailAssets exFailAssets exFailConfigs).2 ≠ .ok () ∧
    r.serveAsset exMachine (encCertificate (exStateCert exFailRoot)) (exAsk (str "/a") []) = some (.ok res) ∧
    res.status = 404 ∧ r.rootHash.1 = exFailRoot ∧
    verifyPair exEnv (exAsk (str "/a") []) res 2 = .err .exactMightExist := by
  obtain ⟨r, hr⟩ := routerRun_some exFailCalls
  have hroot : r.rootHash.1 = exFailRoot := by unfold exFailRoot; rw [hr]
  have t1 : (match routerRun exFailCalls with
    | some r => (match r.assetForRequest (str "/a") [] none with
      | some x => decide (x.response.status = 404 ∧ x.entry.path = HttpPath.wildcard (str "/") ∧
          x.response.headers.getLast? = some (str "IC-CertificateExpression", celOfWholes.toBytes)) &&
        (match r.tree.witness x.entry (str "/a") with
        | some (.ok w) => validateTree [5] (exStateCert exFailRoot) w &&
            (match validateExprPath (HttpPath.wildcard (str "/")).toExprPath (str "/a") w with
            | .err .exactMightExist => decide (w.Fits exMachine ∧ w.height + 3 ≤ exMachine.stack)
            | _ => false)
        | _ => false)
      | none => false)
    | none => false) = true := by decide +kernel
  rw [hr] at t1
  dsimp only at t1
  split at t1
  swap
  · cases t1
  rename_i x hx
  rw [Bool.and_eq_true, decide_eq_true_eq] at t1
  obtain ⟨⟨x1, x2, x3⟩, t1⟩ := t1
  split at t1
  swap
  · cases t1
  rename_i w hw
  rw [Bool.and_eq_true] at t1
  obtain ⟨w1, t1⟩ := t1
  split at t1
  swap
  · cases t1
  rename_i hv
  rw [decide_eq_true_eq] at t1
  have hserve : r.serveAsset exMachine (encCertificate (exStateCert exFailRoot)) (exAsk (str "/a") []) =
      some (.ok (addV2CertificateHeader (encCertificate (exStateCert exFailRoot)) x.response w x.entry.path.toExprPath)) := by
    unfold Router.serveAsset
    have e1 : (exAsk (str "/a") []).getPath = .ok (str "/a") := rfl
    have e2 : rangeBegin exMachine (exAsk (str "/a") []) = .ok none := rfl
    have e3 : preferredEncodings (exAsk (str "/a") []) = [] := rfl
    simp only [e1, e2, e3, hx, hw]
  refine ⟨r, _, hr, exFail_results.2.1, hserve, x1, hroot, ?_⟩
  have hcert := (C37_certificate_roundtrip exMachine (exStateCert exFailRoot) (by decide +kernel) (by decide +kernel)
      (by decide +kernel) (by decide +kernel) (by intro d hd; simp [exStateCert] at hd) (by decide +kernel)).1
  have hclaims := served_claims (env := exEnv) (dataCert := encCertificate (exStateCert exFailRoot))
    (i := .redirect [] [] .permanent) (x := x) (w := w) (by decide) hcert x3
    (by rw [x2]; exact ⟨chars_str (by decide), by decide⟩) t1
  rw [verifyPair_claims hclaims _ (by decide)]
  unfold v2Verification
  have e1 : (exAsk (str "/a") []).getPath = .ok (str "/a") := rfl
  have e2 : exEnv.verifyCert (exStateCert exFailRoot) = .ok () := verifyCert_ok.2 (exCert_verifies _)
  have e3 : validateTree exEnv.canisterId (exStateCert exFailRoot) w = true := w1
  simp only [e1, e2, e3, x2, hv, Out.ofExcept, bind, Out.bind]
  simp

/-- C76 and C45: a failing call that publishes something. -/
example : IsValues exFailAssets exFailAssets ∧ ¬ (RouterCall.certify exFailAssets exFailAssets exFailConfigs).Succeeds ∧
    ∃ r, routerRun [.certify exFailAssets exFailAssets exFailConfigs] = some r ∧
      (r.responses ⟨str "/a", some (str "br"), none⟩).isSome ∧ r.responses ⟨str "/a", none, none⟩ = none := by
  refine ⟨exFail_values, exFail_results.2.1, ?_⟩
  have h : (match routerRun [.certify exFailAssets exFailAssets exFailConfigs] with
    | some r => (r.responses ⟨str "/a", some (str "br"), none⟩).isSome && (r.responses ⟨str "/a", none, none⟩).isNone
    | none => false) = true := by decide +kernel
  split at h
  · rename_i r hr
    rw [Bool.and_eq_true, Option.isNone_iff_eq_none] at h
    exact ⟨r, hr, h.1, h.2⟩
  · cases h

/-- C76_in_step: the same second call without the encoding. -/
def exFailPlain : List AssetConfig := [.file (str "a") none [] [] [str "/b c"] []]

example : ¬ (RouterCall.certify exHomeAssets exHomeAssets exHomeConfigs :: [.certify exFailAssets exFailAssets exFailPlain]).Forall
      RouterCall.Succeeds ∧
    ∃ r, routerRun [.certify exHomeAssets exHomeAssets exHomeConfigs, .certify exFailAssets exFailAssets exFailPlain] = some r ∧
      InStep [.certify exHomeAssets exHomeAssets exHomeConfigs, .certify exFailAssets exFailAssets exFailPlain] r ∧
      (r.responses ⟨str "/a", none, none⟩).isSome := by
  have hfail : ¬ (RouterCall.certify exFailAssets exFailAssets exFailPlain).Succeeds := by
    have : (match (certifyAssets exFailAssets exFailAssets exFailPlain).2 with
      | .ok () => true
      | .error _ => false) = false := by decide +kernel
    unfold RouterCall.Succeeds RouterCall.effects
    dsimp only
    revert this
    generalize (certifyAssets exFailAssets exFailAssets exFailPlain).2 = z
    rcases z with _ | ⟨⟩ <;> simp
  refine ⟨by simp [hfail], ?_⟩
  have h : (match routerRun [.certify exHomeAssets exHomeAssets exHomeConfigs, .certify exFailAssets exFailAssets exFailPlain] with
    | some r => (r.responses ⟨str "/a", none, none⟩).isSome
    | none => false) = true := by decide +kernel
  split at h
  · rename_i r hr
    refine ⟨r, hr, C76_in_step ?_ hr, h⟩
    intro c hc
    rw [List.mem_cons, List.mem_singleton] at hc
    rcases hc with rfl | rfl
    · exact .inr ⟨_, _, _, rfl, exHome_values, .inl exFail_results.1⟩
    · refine .inr ⟨_, _, _, rfl, exFail_values, .inr ?_⟩
      have hnone : ∀ a s, Governs exFailPlain a s → s.encodings = [] := by
        intro a s hs
        rcases hs with ⟨pre, d, post, h1, -, -, rfl⟩ | ⟨-, rfl⟩
        · have : d ∈ exFailPlain := by rw [h1]; simp
          rw [exFailPlain, List.mem_singleton] at this
          subst this; rfl
        · rfl
      have hvar : ∀ a s e c, Governs exFailPlain a s → Variant exFailAssets a s e c → e = none := by
        intro a s e c hs hvv
        cases hvv with
        | plain => rfl
        | encoded h1 => rw [hnone a s hs] at h1; cases h1
      intro i hi
      cases hi with
      | whole a1 a2 a3 a4 => have := hvar _ _ _ _ a2 a3; subst this; rfl
      | chunk a1 a2 a3 a4 _ _ => have := hvar _ _ _ _ a2 a3; subst this; rfl
      | fallback a1 a2 a3 a4 => have := hvar _ _ _ _ a2 a3; subst this; rfl
      | redirect _ => rfl
  · cases h

/-- C76_delete: a deletion that fails. -/
example : IsValues exFailAssets exFailAssets ∧ ¬ (RouterCall.delete exFailAssets exFailAssets exFailConfigs).Succeeds := by
  refine ⟨exFail_values, fun h => ?_⟩
  have h := ((C76_delete_succeeds exFail_values).1 h).2 (.whole (str "/b c") ⟨str "hello", none, none, []⟩)
    (.whole (a := Asset.new (str "a") (str "hello")) (s := ⟨none, [], [], [str "/b c"], [(.brotli, str ".br")]⟩)
      ((exFail_values _).1 (by simp [exFailAssets])) (.inl ⟨[], _, [], rfl, rfl, by simp, rfl⟩) .plain (.inr (by simp)))
  exact absurd h.1 (by decide)

end

/-- A pattern library that rejects `[`. -/
@[instance_reducible] def pickyGlob : GlobLib := ⟨fun p => if p = str "[" then none else some (fun a => p == a)⟩

section
attribute [local instance] toySHA toyUri pickyGlob

/-- C76_bad_pattern. -/
example : ¬ (RouterCall.certify exHomeAssets exHomeAssets [.pattern (str "[") none [] []]).Succeeds ∧
    routerRun [.certify exHomeAssets exHomeAssets exHomeConfigs, .certify exHomeAssets exHomeAssets [.pattern (str "[") none [] []]] =
      routerRun [.certify exHomeAssets exHomeAssets exHomeConfigs] := by
  have h := C76_bad_pattern (calls := [.certify exHomeAssets exHomeAssets exHomeConfigs]) (assets := exHomeAssets)
    (values := exHomeAssets) (configs := [.pattern (str "[") none [] []]) (List.mem_singleton.2 rfl) (by decide) _ (.inl rfl)
  exact ⟨h.1, h.2.1⟩

end
end Verif.Props
