import Verif.Spec.Asset

/-!
# Specification vocabulary for the router and its tree together
-/

namespace Verif

/-- A path that begins with a slash and has no repeated slashes. -/
def NormalPath (p : Bytes) : Prop :=
  p.head? = some slashByte ∧ ∀ a b, p ≠ a ++ slashByte :: slashByte :: b

/-- The router and its certification tree agree: what is held is certified, and for whatever is certified something
(unencoded, not a chunk) is held at the same path or scope. -/
structure InStep [SHA] [UriLib] [GlobLib] (calls : List RouterCall) (r : Router) : Prop where
  responses : ∀ k x, r.responses k = some x → ctSpec (treeLog calls) x.entry.toTreePath
  fallbacks : ∀ k x, r.fallbacks k = some x → ctSpec (treeLog calls) x.entry.toTreePath
  certified : ∀ p, ctSpec (treeLog calls) p → ∃ e : CertEntry, .insert e ∈ treeLog calls ∧ e.toTreePath = p ∧
    match e.path with
    | .exact a => r.responses ⟨a, none, none⟩ ≠ none
    | .wildcard v => r.fallbacks ⟨v, none, none⟩ ≠ none

/-- The call is about the item. -/
def RouterCall.About [GlobLib] : RouterCall → Item → Prop
  | .certify assets _ configs, i => Announces assets configs i
  | .delete assets _ configs, i => Announces assets configs i
  | _, _ => False

end Verif
