import Verif.Props.AssetRange

set_option linter.unusedSimpArgs false
set_option linter.unusedSectionVars false

/-!
# Property C47: what is left after deletion
-/

namespace Verif.Props
open Verif HashTree

section
variable [SHA] [UriLib] [GlobLib]

/-- **C47.** After a successful `delete_assets` that is about all that was held for a path, the path is served only by
fallbacks; if there is none either, the request is an error. -/
theorem C47_not_served [UnstableSort] {calls : List RouterCall} {assets values : List Asset} {configs : List AssetConfig}
    {r r' : Router} (hv : IsValues assets values) (hok : (RouterCall.delete assets values configs).Succeeds)
    (hr : routerRun calls = some r) (hr' : routerRun (calls ++ [.delete assets values configs]) = some r')
    {path : Bytes} (hall : ∀ e b, r.responses ⟨path, e, b⟩ ≠ none →
      ∃ i, Announces assets configs i ∧ i.isFallback = false ∧ i.key = ⟨path, e, b⟩)
    (m : Machine) (dataCert : Bytes) {req : HttpRequest} (hutf : ∀ h ∈ req.headers, (chars h.2).isSome)
    {range : Option Nat} (hpath : req.getPath = .ok path) (hrange : AsksFrom m req range) :
    (∀ x, Answers r' path (Accepts req) range x →
      ∃ scope e, Encloses scope path ∧ r'.heldFallback scope e = some x) ∧
    ((∀ scope e, Encloses scope path → r'.heldFallback scope e = none) →
      r'.serveAsset m dataCert req = some (.error (.noAsset path))) := by
  have hnone : ∀ e b, r'.responses ⟨path, e, b⟩ = none := by
    intro e b
    obtain ⟨c1, c2, -, -⟩ := C47_delete hv hok hr hr' ⟨path, e, b⟩
    by_cases h : ∃ i, Announces assets configs i ∧ i.isFallback = false ∧ i.key = ⟨path, e, b⟩
    · exact c1 h
    · rw [c2 (fun i a1 a2 a3 => h ⟨i, a1, a2, a3⟩)]
      by_contra hne
      exact h (hall e b hne)
  have hheld : ∀ e, r'.held path range e = none := by
    intro e
    unfold Router.held
    rw [hnone]
  have key : ∀ x, Answers r' path (Accepts req) range x →
      ∃ scope e, Encloses scope path ∧ r'.heldFallback scope e = some x := by
    intro x hx
    cases hx with
    | exact h =>
      cases h with
      | encoded _ h2 _ => rw [hheld] at h2; cases h2
      | plain _ h2 => rw [hheld] at h2; cases h2
    | @fallback scope _ h1 h2 h3 h4 =>
      cases h3 with
      | @encoded e _ _ h5 _ => exact ⟨scope, some e, h2, h5⟩
      | plain _ h5 => exact ⟨scope, none, h2, h5⟩
  refine ⟨key, fun hfb => ?_⟩
  rcases C45_serve hr' m dataCert hutf hpath hrange with ⟨x, w, h1, -⟩ | ⟨-, h⟩
  · obtain ⟨s, e, h2, h3⟩ := key x h1
    rw [hfb s e h2] at h3
    cases h3
  · exact h

/-- **C47.** `delete_assets` undoes `certify_assets`: certifying and then deleting the same leaves nothing at the places
of the items, and all else as it was. -/
theorem C47_undo {calls : List RouterCall} {assets values values' : List Asset} {configs : List AssetConfig}
    {r r' : Router} (hv : IsValues assets values) (hv' : IsValues assets values')
    (hok : (RouterCall.certify assets values configs).Succeeds) (hok' : (RouterCall.delete assets values' configs).Succeeds)
    (hr : routerRun calls = some r)
    (hr' : routerRun (calls ++ [.certify assets values configs, .delete assets values' configs]) = some r')
    (k : RequestKey) :
    ((∃ i, Announces assets configs i ∧ i.isFallback = false ∧ i.key = k) → r'.responses k = none) ∧
    ((∀ i, Announces assets configs i → i.isFallback = false → i.key ≠ k) → r'.responses k = r.responses k) ∧
    ((∃ i, Announces assets configs i ∧ i.isFallback = true ∧ i.key = k) → r'.fallbacks k = none) ∧
    ((∀ i, Announces assets configs i → i.isFallback = true → i.key ≠ k) → r'.fallbacks k = r.fallbacks k) := by
  obtain ⟨r1, h1⟩ := routerRun_some (calls ++ [.certify assets values configs])
  have hr2 : routerRun ((calls ++ [.certify assets values configs]) ++ [.delete assets values' configs]) = some r' := by
    rw [List.append_assoc]; exact hr'
  obtain ⟨a1, a2, a3, a4⟩ := C47_delete hv' hok' h1 hr2 k
  obtain ⟨b1, b2⟩ := C45_certify hv hok hr h1 k
  refine ⟨a1, fun h => ?_, a3, fun h => ?_⟩
  · rw [a2 h]
    rcases b1 with ⟨i, -, c1, c2, c3, -⟩ | ⟨-, b⟩
    · exact absurd c3 (h i c1 c2)
    · exact b
  · rw [a4 h]
    rcases b2 with ⟨i, -, c1, c2, c3, -⟩ | ⟨-, b⟩
    · exact absurd c3 (h i c1 c2)
    · exact b

/-- What a chunk and what a whole asset is certified with. -/
def celOfChunks : CelExpr := .full { headers := [str "range"], queryParams := [] } (.headerExclusions [])
def celOfWholes : CelExpr := .full { headers := [], queryParams := [] } (.headerExclusions [])

theorem madeOf_labels {cert : HttpCert} {d : ReqCert} {c : RespCert} {q : HttpRequest} {rp : HttpResponse}
    (h : MadeOf cert (.full d c) q rp) : ∃ a b : Hash, cert.toTreePath = [(sha (CelExpr.full d c).toBytes).1, a.1, b.1] := by
  cases h with
  | full h _ =>
    unfold HttpCert.mkFull at h
    simp only [bind, Except.bind, pure, Except.pure] at h
    cases hv : validateExprHeader rp (CelExpr.full d c).toBytes with
    | error e => rw [hv] at h; cases h
    | ok u =>
      rw [hv] at h
      cases hq : requestHash q d with
      | error e => simp only [hq] at h; cases h
      | ok a =>
        simp only [hq, Except.ok.injEq] at h
        subst h
        exact ⟨_, _, rfl⟩

theorem chunk_entry_ne {i j : Item} {x y : CertifiedResponse} (hx : i.Answer x) (hy : j.Answer y)
    (hi : i.isChunk = true) (hj : j.isChunk = false) (hne : sha celOfChunks.toBytes ≠ sha celOfWholes.toBytes) :
    x.entry.toTreePath ≠ y.entry.toTreePath := by
  intro h
  have h1 : i.cel = celOfChunks := by cases i <;> simp_all [Item.isChunk] <;> rfl
  have h2 : j.cel = celOfWholes := by cases j <;> simp_all [Item.isChunk] <;> rfl
  have hm := hx.made
  have hn := hy.made
  rw [h1] at hm
  rw [h2] at hn
  obtain ⟨a, b, e1⟩ := madeOf_labels hm
  obtain ⟨c, d, e2⟩ := madeOf_labels hn
  unfold CertEntry.toTreePath at h
  rw [e1, e2] at h
  have := (List.append_inj' h rfl).2
  simp only [List.cons.injEq] at this
  exact hne (Subtype.ext this.1)

/-- **C47** is false of the chunks of large assets: after `certify_assets` and `delete_assets` of the same assets, both
successful, the tree still certifies the responses for all chunks. (The hypothesis says that two fixed texts, the
expressions for chunks and for other responses, have different hashes.) -/
theorem C47_counterexample_chunks {calls : List RouterCall} {assets values values' : List Asset}
    {configs : List AssetConfig} (hv : IsValues assets values) (hv' : IsValues assets values')
    (hok : (RouterCall.certify assets values configs).Succeeds) (hok' : (RouterCall.delete assets values' configs).Succeeds)
    (hne : sha celOfChunks.toBytes ≠ sha celOfWholes.toBytes)
    {url : Bytes} {p : Page} {i : Nat} (hc : Announces assets configs (.chunk url p i)) :
    ∃ x, Item.Answer (.chunk url p i) x ∧
      ctSpec (treeLog (calls ++ [.certify assets values configs, .delete assets values' configs])) x.entry.toTreePath := by
  obtain ⟨items, h1, h2, h3⟩ := certify_list hv hok
  obtain ⟨x, hx⟩ := h2 _ ((h1 _).2 hc)
  have hx' := Item.prepare_ok.1 hx
  refine ⟨x, hx', ?_⟩
  have : calls ++ [.certify assets values configs, .delete assets values' configs] =
      (calls ++ [.certify assets values configs]) ++ [.delete assets values' configs] := by simp
  rw [this, C47_delete_tree_partial hv' hok', C45_certify_tree hv hok]
  exact ⟨.inr ⟨_, x, hc, hx', rfl⟩, fun j y _ hj hy => chunk_entry_ne hx' hy rfl hj hne⟩

end

end Verif.Props
