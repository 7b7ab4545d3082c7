import Verif.Spec.Normal

/-!
# A router that shares its certification tree with the canister (`AssetRouter::with_tree`)
-/

namespace Verif

/-- The canister inserted the entry into the shared tree itself. -/
def Direct (calls : List RouterCall) (e : CertEntry) : Prop := RouterCall.shared (.insert e) ∈ calls

/-- The router and the tree agree: what the router holds is certified, and for whatever is certified the router holds something
(unencoded, not a chunk) at the same path or scope, or the canister inserted it directly. -/
structure InStepShared [SHA] [UriLib] [GlobLib] (calls : List RouterCall) (r : Router) : Prop where
  responses : ∀ k x, r.responses k = some x → ctSpec (treeLog calls) x.entry.toTreePath
  fallbacks : ∀ k x, r.fallbacks k = some x → ctSpec (treeLog calls) x.entry.toTreePath
  certified : ∀ p, ctSpec (treeLog calls) p → ∃ e : CertEntry, .insert e ∈ treeLog calls ∧ e.toTreePath = p ∧
    (Direct calls e ∨ match e.path with
    | .exact a => r.responses ⟨a, none, none⟩ ≠ none
    | .wildcard v => r.fallbacks ⟨v, none, none⟩ ≠ none)

/-- The entry inserted directly does not take precedence over what the router answers the path with: it is not the exact path,
nor a wildcard for the path that is more specific than a scope the router has a fallback for. -/
def GivesWay [SHA] [UriLib] (r : Router) (path : Bytes) (e : CertEntry) : Prop :=
  match e.path with
  | .exact a => PathShape.ofPath a ≠ PathShape.ofPath path
  | .wildcard v => ∀ scope enc, Encloses scope path → r.heldFallback scope enc ≠ none →
      ¬ (PathShape.Matches (PathShape.ofPath v) (PathShape.ofPath path) ∧
        PathShape.MoreSpecific (PathShape.ofPath v) (PathShape.ofPath scope))

/-- The item was announced in a call of `certify_assets`, at this expression path, and its entry is certified now. -/
def RouterSource [SHA] [UriLib] [GlobLib] (calls : List RouterCall) (e : List Bytes) (i : Item) : Prop :=
  ∃ assets values configs, RouterCall.certify assets values configs ∈ calls ∧ Announces assets configs i ∧
    (∃ x, i.Answer x ∧ ctSpec (treeLog calls) x.entry.toTreePath) ∧ i.certPath.toExprPath = e

/-- The canister inserted the entry directly, at this expression path, and it is certified now. -/
def DirectSource [SHA] [UriLib] [GlobLib] (calls : List RouterCall) (e : List Bytes) (g : CertEntry) : Prop :=
  Direct calls g ∧ ctSpec (treeLog calls) g.toTreePath ∧ g.path.toExprPath = e

/-- What an announced item was certified for. -/
def Item.origin (i : Item) : Origin :=
  ⟨i.cel, { method := str "GET", url := i.url, headers := [], body := [] }, i.response⟩

end Verif
