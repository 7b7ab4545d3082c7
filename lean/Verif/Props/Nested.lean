import Verif.Lemmas.Nested
import Verif.Spec.Toy

set_option linter.unusedSimpArgs false
set_option linter.unusedSectionVars false

/-!
# Properties C13–C17: nested trees and merging
-/

namespace Verif.Props
open Verif HashTree NTree
variable {V : Type} [SHA] [AsHashTree V]

/-- **C13.** Every history of `insert`, `delete`, `clear` runs to completion, and afterwards `get`,
`contains_leaf` and `contains_path` answer as the map from paths to leaves does. -/
theorem C13_path_map (ops : List (NOp V)) :
    ∃ t : NTree V, nRun ops = some t ∧
      (∀ p, t.get p = nSpec ops p) ∧
      (∀ p, t.containsLeaf p = (nSpec ops p).isSome) ∧
      (∀ p, t.containsPath p = true ↔ p = [] ∨ ∃ q, p <+: q ∧ (nSpec ops q).isSome) := by
  obtain ⟨t, h1, h2, h3⟩ := nRun_ok ops
  refine ⟨t, h1, h3, fun p => ?_, fun p => ?_⟩
  · rw [containsLeaf_iff, h3]
  · rw [containsPath_iff_leaf p h2]
    simp only [h3]

/-- **C13**, effect of one `insert`: exactly that leaf becomes visible; leaves neither above nor below are kept. -/
theorem C13_insert {ops : List (NOp V)} {t : NTree V} (h : nRun ops = some t) (p : List Bytes) (v : V) :
    ∃ t', t.insert p v = some t' ∧ t'.get p = some v ∧
      (∀ q, q ≠ p → (q <+: p ∨ p <+: q) → t'.get q = none) ∧
      (∀ q, ¬ q <+: p → ¬ p <+: q → t'.get q = t.get q) := by
  obtain ⟨t', h1, _, _, h3⟩ := insert_ok p v (nRun_valid h)
  refine ⟨t', h1, ?_, fun q hq hpq => ?_, fun q hq1 hq2 => ?_⟩
  · rw [h3]; simp [insSpec]
  · rw [h3]; simp [insSpec, hq, hpq]
  · rw [h3]
    have : q ≠ p := fun e => hq1 (e ▸ List.prefix_refl q)
    simp [insSpec, this, hq1, hq2]

/-- **C13**, effect of one `delete`: exactly the leaves at or below the path disappear. -/
theorem C13_delete {ops : List (NOp V)} {t : NTree V} (h : nRun ops = some t) (p : List Bytes) :
    ∃ t', t.delete p = some t' ∧ ∀ q, t'.get q = if p <+: q then none else t.get q := by
  obtain ⟨t', h1, _, h3⟩ := delete_ok p (nRun_valid h)
  exact ⟨t', h1, h3⟩

/-- **C14.** After any history, a path other than the root is present only if some leaf lies at or below it:
deletion leaves no empty inner node behind. -/
theorem C14_no_husk {ops : List (NOp V)} {t : NTree V} (h : nRun ops = some t) {p : List Bytes} (hp : p ≠ [])
    (hc : t.containsPath p = true) : ∃ q v, p <+: q ∧ t.get q = some v := by
  rcases (containsPath_iff_leaf p (nRun_valid h)).1 hc with h' | ⟨q, h1, h2⟩
  · exact absurd h' hp
  · obtain ⟨v, hv⟩ := Option.isSome_iff_exists.1 h2
    exact ⟨q, v, h1, hv⟩

/-- **C14**, seen in the hash tree: after any history ending in the deletion of every leaf, the root hash is
the hash of the empty tree again. -/
theorem C14_empty_again {ops : List (NOp V)} {t : NTree V} (h : nRun ops = some t)
    (hnone : ∀ p, nSpec ops p = none) : rootHash t = HashTree.digest .empty := by
  obtain ⟨t', h1, h2, h3⟩ := nRun_ok ops
  rw [h] at h1; simp at h1; subst h1
  by_cases he : t = .nested .nil
  · subst he; rfl
  · obtain ⟨q, v, hq⟩ := exists_leaf h2 he
    rw [h3, hnone] at hq; simp at hq

/-- **C15.** After any history the root hash is the digest of the full tree, the full tree is well formed,
and `witness(path)` never panics and prunes the full tree, for every path, present or not. -/
theorem C15_hashes [LawfulAsHashTree V] {ops : List (NOp V)} {t : NTree V} (h : nRun ops = some t) :
    rootHash t = (asHashTree t).digest ∧ (asHashTree t).WellFormed ∧
    ∀ p, ∃ w, t.witness p = some w ∧ Prunes w (asHashTree t) ∧ w.digest = rootHash t := by
  have hv := nRun_valid h
  refine ⟨root_eq_digest hv, wf_tree hv, fun p => ?_⟩
  obtain ⟨w, h1, h2⟩ := witness_prunes p hv
  exact ⟨w, h1, h2, by rw [root_eq_digest hv, h2.digest_eq]⟩

/-- **C15**, content of the full tree: it has the leaf of value `v` at path `p` iff `get(p)` returns a value
with that tree. -/
theorem C15_full_tree_content [LeafValue V] {ops : List (NOp V)} {t : NTree V} (h : nRun ops = some t)
    (p : List Bytes) (b : Bytes) :
    HasLeaf (asHashTree t) p b ↔ ∃ v, t.get p = some v ∧ asHashTree v = .leaf b := by
  have hv := nRun_valid h
  rw [HasLeaf, hasNode_iff_sub p hv]
  constructor
  · rintro ⟨s, hs, he⟩
    cases s with
    | leaf v =>
      rw [asHashTree_leaf] at he
      refine ⟨v, ?_, he.symm⟩
      have := (sub_get (q := []) hv hs).1
      rw [List.append_nil] at this
      rw [this]; rfl
    | nested s =>
      rw [asHashTree_nested] at he
      cases s with
      | nil => simp [Rb.asHashTreeRb, Rb.fullWitnessTree] at he
      | node c l k x r hh =>
        rw [Rb.asHashTree_node, Rb.dataTree, Rb.threeWay_labeled] at he
        split at he <;> split at he <;> simp at he
  · rintro ⟨v, hg, he⟩
    exact ⟨.leaf v, get_sub hv hg, by rw [asHashTree_leaf]; exact he.symm⟩

/-- **C16.** `lookup_subtree(path)` in `witness(path)` decides the path: found iff `contains_path(path)`, with the
complete subtree; otherwise absent. For a stored leaf the lookup returns its bytes. -/
theorem C16_witness_decides [LeafValue V] {ops : List (NOp V)} {t : NTree V} (h : nRun ops = some t)
    (p : List Bytes) :
    ∃ w, t.witness p = some w ∧
      (t.containsPath p = true → ∃ n, w.lookupSubtree p = .found n ∧ n.Full ∧ HasNode (asHashTree t) p n) ∧
      (t.containsPath p = false → w.lookupSubtree p = .absent) ∧
      (∀ v b, t.get p = some v → asHashTree v = .leaf b → w.lookupPath p = .found b) := by
  have hv := nRun_valid h
  obtain ⟨w, h1, h2⟩ := witness_prunes p hv
  have hd := witness_decides p hv h1
  refine ⟨w, h1, fun hc => ?_, fun hc => ?_, fun v b hg he => ?_⟩
  · rw [containsPath_iff p hv] at hc
    obtain ⟨s, hs⟩ := Option.isSome_iff_exists.1 hc
    rw [hs] at hd
    exact ⟨_, hd, (wf_tree (sub_get (q := []) hv hs).2.1).full, (hasNode_iff_sub p hv _).2 ⟨s, hs, rfl⟩⟩
  · rw [containsPath_iff p hv] at hc
    cases hs : sub p t with
    | none => rw [hs] at hd; exact hd
    | some s => rw [hs] at hc; simp at hc
  · rw [get_sub hv hg] at hd
    simp only [asHashTree_leaf, he] at hd
    rw [lookupPath_eq, hd]

/-- **C17.** Merging two prunings of one tree does not panic, keeps the digest, and every definite answer of
either operand is still given (values found may only be revealed more, never changed). -/
theorem C17_merge {a b T : HashTree} (hT : T.WellFormed) (ha : Prunes a T) (hb : Prunes b T) :
    ∃ m, mergeHashTrees a b = some m ∧ m.digest = T.digest ∧ Prunes m T ∧
      ∀ p, (∀ x, a.lookupPath p = .found x ∨ b.lookupPath p = .found x → m.lookupPath p = .found x) ∧
        (a.lookupSubtree p = .absent ∨ b.lookupSubtree p = .absent → m.lookupSubtree p = .absent) ∧
        (∀ n, a.lookupSubtree p = .found n ∨ b.lookupSubtree p = .found n →
          ∃ n', m.lookupSubtree p = .found n' ∧ Prunes n n') := by
  obtain ⟨m, h1, h2, h3, h4⟩ := merge_spec ha hb
  refine ⟨m, h1, h2.digest_eq, h2, fun p => ⟨fun x hx => ?_, fun hx => ?_, fun n hn => ?_⟩⟩
  · have key : ∀ c, Prunes c m → c.lookupPath p = .found x → m.lookupPath p = .found x := by
      intro c hc hx
      have hm := lookupSubtree_mono hT hc h2 p
      rw [lookupPath_eq] at hx ⊢
      cases e : c.lookupSubtree p with
      | absent => rw [e] at hx; simp at hx
      | unknown => rw [e] at hx; simp at hx
      | found n =>
        rw [e] at hx hm
        obtain ⟨n', e', hp⟩ := hm
        cases n <;> simp at hx
        subst hx
        cases hp
        rw [e']
    rcases hx with hx | hx
    · exact key a h3 hx
    · exact key b h4 hx
  · rcases hx with hx | hx
    · have := lookupSubtree_mono hT h3 h2 p
      rw [hx] at this; exact this
    · have := lookupSubtree_mono hT h4 h2 p
      rw [hx] at this; exact this
  · rcases hn with hx | hx
    · have := lookupSubtree_mono hT h3 h2 p
      rw [hx] at this; exact this
    · have := lookupSubtree_mono hT h4 h2 p
      rw [hx] at this; exact this

/-- **C17**, n-ary: folding `merge_hash_trees` over any number of prunings of one tree, as the certification
tree does, does not panic; the result prunes the tree and is at least as revealing as each operand. -/
theorem C17_merge_many {T a : HashTree} (hT : T.WellFormed) (ha : Prunes a T) (ws : List HashTree)
    (hw : ∀ w ∈ ws, Prunes w T) :
    ∃ m, ws.foldlM (fun acc w => mergeHashTrees acc w) a = some m ∧ m.digest = T.digest ∧ Prunes m T ∧
      ∀ w ∈ a :: ws, ∀ p,
        (∀ x, w.lookupPath p = .found x → m.lookupPath p = .found x) ∧
        (w.lookupSubtree p = .absent → m.lookupSubtree p = .absent) := by
  have key : ∃ m, ws.foldlM (fun acc w => mergeHashTrees acc w) a = some m ∧ Prunes m T ∧
      ∀ w ∈ a :: ws, Prunes w m := by
    induction ws generalizing a with
    | nil => exact ⟨a, rfl, ha, by simp [Prunes.refl]⟩
    | cons w ws ih =>
      obtain ⟨m, h1, h2, h3, h4⟩ := merge_spec ha (hw w (by simp))
      obtain ⟨m', g1, g2, g3⟩ := ih h2 (fun x hx => hw x (by simp [hx]))
      refine ⟨m', by simp [List.foldlM, h1, g1], g2, ?_⟩
      intro x hx
      simp at hx
      have hm := g3 m (by simp)
      rcases hx with rfl | rfl | hx
      · exact h3.trans hm
      · exact h4.trans hm
      · exact g3 x (by simp [hx])
  obtain ⟨m, h1, h2, h3⟩ := key
  refine ⟨m, h1, h2.digest_eq, h2, fun w hw' p => ?_⟩
  have hm := lookupSubtree_mono hT (h3 w hw') h2 p
  refine ⟨fun x hx => ?_, fun hx => by rw [hx] at hm; exact hm⟩
  rw [lookupPath_eq] at hx ⊢
  cases e : w.lookupSubtree p with
  | absent => rw [e] at hx; simp at hx
  | unknown => rw [e] at hx; simp at hx
  | found n =>
    rw [e] at hx hm
    obtain ⟨n', e', hp⟩ := hm
    cases n <;> simp at hx
    subst hx
    cases hp
    rw [e']

/-! ### Concrete instances -/

section examples

/-- overlapping inserts, replacement of a leaf by a subtree, and a deletion that removes two levels -/
def exNOps : List (NOp Bytes) :=
  [.insert [str "a"] (str "1"), .insert [str "a", str "b"] (str "2"), .insert [str "a", str "c", str "d"] (str "3"),
   .insert [str "e"] (str "4"), .delete [str "a", str "c", str "d"]]

example : nSpec exNOps [str "a", str "b"] = some (str "2") := by decide
example : nSpec exNOps [str "a"] = none := by decide
example : letI := toySHA; (nRun exNOps).map (fun t => t.containsPath [str "a", str "c"]) = some false := by
  let _ := toySHA; rfl
example : letI := toySHA; (nRun exNOps).map (fun t => t.get [str "a", str "b"]) = some (some (str "2")) := by
  let _ := toySHA; rfl
/-- a witness of presence, one of absence, and their merge -/
example : letI := toySHA; (do
    let t ← nRun exNOps
    let w1 ← t.witness [str "a", str "b"]
    let w2 ← t.witness [str "b"]
    let m ← mergeHashTrees w1 w2
    some (w1.lookupPath [str "a", str "b"], w1.lookupSubtree [str "e"], w2.lookupSubtree [str "b"],
      m.lookupPath [str "a", str "b"], m.lookupSubtree [str "b"])) =
    some (.found (str "2"), .unknown, .absent, .found (str "2"), .absent) := by
  let _ := toySHA; rfl
/-- merging trees that are not witnesses of one tree can panic -/
example : mergeHashTrees (.leaf [1]) (.leaf [2]) = none := by decide

end examples
end Verif.Props
