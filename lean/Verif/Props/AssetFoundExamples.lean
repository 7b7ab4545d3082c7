import Verif.Props.AssetFound
import Verif.Props.AssetVerifyExamples

set_option linter.unusedSimpArgs false
set_option linter.unusedSectionVars false

/-!
# C49_found, C76_certified: a concrete case
-/

namespace Verif.Props
open Verif HashTree PathShape

section
attribute [local instance] toySHA toyUri toyGlob mergeSorting toyBls toyInflate

attribute [local irreducible] exRouterCalls

/-- All hypotheses of C49_found (and of C76_certified, from which the first of them follows) are met: the response for an alias of
an asset verifies. -/
theorem exAlias_verifies : ∃ r res info, routerRun exRouterCalls = some r ∧
    r.serveAsset exMachine exDataCert (exAsk (str "/alias") []) = some (.ok res) ∧ res.status = 200 ∧ res.body = str "hello" ∧
    verifyPair exEnv (exAsk (str "/alias") []) res 2 = .ok info ∧ info.version = 2 := by
  obtain ⟨r, hr⟩ := routerRun_some exRouterCalls
  have t1 : (match routerRun exRouterCalls with
    | some r => (match r.serveAsset exMachine exDataCert (exAsk (str "/alias") []) with
      | some (.ok res) => decide (res.status = 200 ∧ res.body = str "hello")
      | _ => false)
    | none => false) = true := by decide +kernel
  have t2 : (match routerRun exRouterCalls with
    | some r => decide (r.tree.full.Fits exMachine ∧ r.tree.full.height + 3 ≤ exMachine.stack ∧
        (r.held (str "/alias") none none).isSome)
    | none => false) = true := by decide +kernel
  rw [hr] at t1 t2
  simp only [decide_eq_true_eq] at t2
  obtain ⟨y, hy⟩ := Option.isSome_iff_exists.1 t2.2.2
  dsimp only at t1
  split at t1
  swap
  · cases t1
  rename_i res hres
  rw [decide_eq_true_eq] at t1
  have hheld : ∀ k x, r.responses k = some x → ctSpec (treeLog exRouterCalls) x.entry.toTreePath := by
    intro k x hx
    have hc : ∀ c ∈ exRouterCalls, c = .deleteAll ∨
        ∃ assets values configs, c = .certify assets values configs ∧ IsValues assets values := by
      intro c hc
      rw [exRouterCalls, List.mem_singleton] at hc
      exact .inr ⟨_, _, _, hc, exValues _⟩
    have := C76_certified hc hr k x (.inl hx)
    exact this
  have hhide : ∀ c ∈ exRouterCalls, ∀ i, c.About i → ∀ j : Item, ¬ i.certPath.Hides (sha j.cel.toBytes) := by
    intro c hc i hi j ⟨pre, m, post, h1, h2⟩
    have hp := (exRouter_paths c hc i hi).1
    have hm : m ∈ pathSegments i.certPath.url := by rw [h2]; simp
    have : ∀ p ∈ exPaths, ∀ m ∈ pathSegments p.url, ¬ (m = str "<$>" ∨ m = str "<*>") := by decide
    exact this _ hp _ hm h1
  have hitems : ∀ c ∈ exRouterCalls, ∀ i, c.About i → i.certPath = .exact (str "/alias") →
      HttpRequest.getQuery { method := str "GET", url := i.url, headers := [], body := [] } = .ok none := by
    intro c hc i hi _
    have p2 := (exRouter_paths c hc i hi).2
    simp only [List.mem_cons, List.not_mem_nil, or_false] at p2
    rcases p2 with h | h | h | h <;> rw [h] <;> rfl
  have hfound : ∃ y, Chooses (Accepts (exAsk (str "/alias") [])) (r.held (str "/alias") none) y :=
    ⟨y, .plain (fun e he => absurd he (no_accept _ e)) hy⟩
  have hcert := (C37_certificate_roundtrip exMachine (exStateCert (rootOf exRouterCalls)) (by decide +kernel) (by decide +kernel)
      (by decide +kernel) (by decide +kernel) (by intro d hd; simp [exStateCert] at hd) (by decide +kernel)).1
  have hroot : (exStateCert (rootOf exRouterCalls)).tree.lookupPath [str "canister", exEnv.canisterId, str "certified_data"] =
      .found r.rootHash.1 := by rw [← rootOf_eq hr]; rfl
  have hask : AsksFrom exMachine (exAsk (str "/alias") []) none := .noHeader (by simp [exAsk])
  obtain ⟨info, v, h1, h2, -, -⟩ := C49_found (env := exEnv) (minV := 2) exRouter_calls hr hheld hhide hitems
    (req := exAsk (str "/alias") []) rfl rfl rfl rfl hask (by simp [exAsk]) hfound hres hcert
    (exCert_verifies _) hroot (by decide) ⟨chars_str (by decide), by decide⟩ ⟨t2.1, t2.2.1⟩ (by decide)
  exact ⟨r, res, info, hr, hres, t1.1, t1.2, h1, h2⟩

end
end Verif.Props
