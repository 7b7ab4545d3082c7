import Verif.Lemmas.CertTree

set_option linter.unusedSimpArgs false
set_option linter.unusedSectionVars false

/-! Every node of a certification tree belongs to an entry that is currently certified. -/

namespace Verif
open HashTree PathShape NTree

theorem ct_spec_of_nspec {p : List Bytes} {v : Bytes} (ops : List CtOp) (m : List Bytes → Option Bytes)
    (s : List Bytes → Prop) (h : (ops.map CtOp.toNOp).foldl NOp.spec m p = some v) (h0 : m p = some v → s p) :
    (ops.foldl CtOp.spec s) p ∧ (m p = some v ∨ ∃ e, CtOp.insert e ∈ ops ∧ e.toTreePath = p) := by
  induction ops generalizing m s with
  | nil => exact ⟨h0 h, .inl h⟩
  | cons o ops ih =>
    simp only [List.foldl_cons, List.map_cons] at h ⊢
    have step : o.toNOp.spec m p = some v → o.spec s p ∧ (m p = some v ∨ ∃ e, CtOp.insert e ∈ o :: ops ∧ e.toTreePath = p) := by
      intro h1
      cases o with
      | insert e =>
        simp only [CtOp.toNOp, NOp.spec, CtOp.spec] at h1 ⊢
        split at h1
        · rename_i he; exact ⟨.inl he, .inr ⟨e, by simp, he.symm⟩⟩
        · split at h1
          · simp at h1
          · exact ⟨.inr (h0 h1), .inl h1⟩
      | delete e =>
        simp only [CtOp.toNOp, NOp.spec, CtOp.spec] at h1 ⊢
        split at h1
        · simp at h1
        · rename_i he
          refine ⟨⟨?_, h0 h1⟩, .inl h1⟩
          rintro rfl; exact he (List.prefix_refl _)
      | clear => simp [CtOp.toNOp, NOp.spec] at h1
    obtain ⟨h1, h2⟩ := ih _ (o.spec s) h (fun h1 => (step h1).1)
    refine ⟨h1, ?_⟩
    rcases h2 with h2 | ⟨e, h2, h3⟩
    · exact (step h2).2
    · exact .inr ⟨e, by simp [h2], h3⟩

section
variable [SHA]

/-- A node of the tree lies on the path of a certified entry; a leaf is at its end. -/
theorem ct_node_entry {ops : List CtOp} {t : CertTree} (h : ctRun ops = some t) {p : List Bytes} {n : HashTree}
    (hp : p ≠ []) (hn : HasNode t.full (str "http_expr" :: p) n) :
    ∃ e, CtOp.insert e ∈ ops ∧ ctSpec ops e.toTreePath ∧ p <+: e.toTreePath ∧
      (∀ v, n = .leaf v → e.toTreePath = p) := by
  obtain ⟨h1, h2⟩ := ctRun_valid h
  obtain ⟨nt, h3, h4, h5⟩ := nRun_ok (ops.map CtOp.toNOp)
  rw [h1] at h3
  simp at h3
  subst h3
  unfold CertTree.full at hn
  rw [hasNode_labeled, hasNode_iff_sub _ h2] at hn
  obtain ⟨s, hs, rfl⟩ := hn
  obtain ⟨hv1, hv2, hv3⟩ := sub_get (q := []) h2 hs
  obtain ⟨q, v, hq⟩ := exists_leaf hv2 (hv3 hp)
  have hq' : get (p ++ q) t.tree = some v := by rw [(sub_get (q := q) h2 hs).1, hq]
  rw [h5] at hq'
  obtain ⟨k1, k2⟩ := ct_spec_of_nspec ops (fun _ => none) (fun _ => False) hq' (by simp)
  rcases k2 with k2 | ⟨e, k2, k3⟩
  · simp at k2
  · refine ⟨e, k2, by rw [k3]; exact k1, by rw [k3]; exact List.prefix_append _ _, ?_⟩
    intro b hb
    cases s with
    | leaf x =>
      cases q with
      | nil => simpa using k3
      | cons y q => simp [NTree.get] at hq
    | nested s =>
      rw [asHashTree_nested] at hb
      cases s with
      | nil => exact absurd rfl (hv3 hp)
      | node c l k x r hh =>
        rw [Rb.asHashTree_node, Rb.dataTree, Rb.threeWay_labeled] at hb
        split at hb <;> split at hb <;> simp at hb

end
end Verif
