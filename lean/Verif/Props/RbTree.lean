import Verif.Lemmas.RbComplete
import Verif.Lemmas.RbIter
import Verif.Spec.RbTree
import Verif.Spec.Toy

set_option linter.unusedSimpArgs false
set_option linter.unusedSectionVars false

/-!
# Properties C06–C12: the authenticated red-black tree
-/

namespace Verif
namespace Rb
variable {V : Type} [SHA] [AsHashTree V]

theorem op_valid {t : Rb V} (ht : Valid t) (o : RbOp V) :
    ∃ t', o.run t = some t' ∧ Valid t' ∧ ∀ k, t'.get k = o.spec t.get k := by
  cases o with
  | insert k v =>
    obtain ⟨t', h1, h2, h3⟩ := insert_spec ht k v
    refine ⟨t', h1, h2, fun x => ?_⟩
    rw [get_eq_lookL h2.sorted, h3, lookL_insL]
    simp only [RbOp.spec, get_eq_lookL ht.sorted]
  | delete k =>
    obtain ⟨t', h1, h2, h3⟩ := delete_spec ht k
    refine ⟨t', h1, h2, fun x => ?_⟩
    rw [get_eq_lookL h2.sorted, h3, lookL_delL]
    simp only [RbOp.spec, get_eq_lookL ht.sorted]
  | modify k f =>
    obtain ⟨t', h1, h2, h3⟩ := modify_spec ht k (fun v => some (f v)) f (fun _ _ => rfl)
    refine ⟨t', h1, h2, fun x => ?_⟩
    rw [get_eq_lookL h2.sorted, h3, lookL_modL]
    simp only [RbOp.spec, get_eq_lookL ht.sorted]

theorem run_from {t : Rb V} (ht : Valid t) (ops : List (RbOp V)) :
    ∃ t', ops.foldlM (fun t o => o.run t) t = some t' ∧ Valid t' ∧ ∀ k, t'.get k = ops.foldl RbOp.spec t.get k := by
  induction ops generalizing t with
  | nil => exact ⟨t, rfl, ht, fun _ => rfl⟩
  | cons o ops ih =>
    obtain ⟨t1, h1, h2, h3⟩ := op_valid ht o
    obtain ⟨t2, g1, g2, g3⟩ := ih h2
    refine ⟨t2, by simp [List.foldlM, h1, g1], g2, fun k => ?_⟩
    rw [g3, List.foldl_cons]
    have e : (fun key => t1.get key) = RbOp.spec (fun key => t.get key) o := funext h3
    rw [e]

theorem rbRun_valid {ops : List (RbOp V)} {t : Rb V} (h : rbRun ops = some t) : Valid t := by
  obtain ⟨t', h1, h2, _⟩ := run_from (valid_nil (V := V)) ops
  rw [rbRun, h1] at h
  simp at h; subst h; exact h2

theorem blackDepth_eq {t : Rb V} {n : Nat} (h : BH t n) : t.blackDepth = n := by
  induction t generalizing n with
  | nil => simp [BH] at h; simp [blackDepth, h]
  | node c l k v r hh ihl ihr =>
    obtain ⟨m, hm, b1, b2⟩ := BH_node.1 h
    simp only [blackDepth, ihl b1]
    cases c <;> simp_all

theorem leftLeaning_of {t : Rb V} {n : Nat} (h : BH t n) (hl : LL t) : t.LeftLeaning := by
  induction t generalizing n with
  | nil => trivial
  | node c l k v r hh ihl ihr =>
    obtain ⟨m, hm, b1, b2⟩ := BH_node.1 h
    obtain ⟨h1, h2, h3, h4⟩ := hl
    refine ⟨?_, ?_, by rw [blackDepth_eq b1, blackDepth_eq b2], ihl b1 ?_, ihr b2 ?_⟩ <;> simp_all

theorem depth_eq_height (t : Rb V) : t.depth = t.height := by
  induction t with
  | nil => rfl
  | node c l k v r h ihl ihr => simp [depth, height, ihl, ihr]

theorem vok_lawful [LawfulAsHashTree V] (t : Rb V) : VOK t := fun _ v _ => LawfulAsHashTree.root v

end Rb

namespace Props
open Verif HashTree Rb
variable {V : Type} [SHA] [AsHashTree V]

/-- **C06.** Every history of `insert`, `delete` and `modify` calls runs to completion, and afterwards `get`
answers exactly like the ordinary map after the same calls. -/
theorem C06_map (ops : List (RbOp V)) :
    ∃ t, rbRun ops = some t ∧ ∀ k, t.get k = rbSpec ops k := by
  obtain ⟨t', h1, _, h3⟩ := run_from (valid_nil (V := V)) ops
  exact ⟨t', h1, fun k => h3 k⟩

/-- **C07.** No history panics, and the tree is always a left-leaning red-black tree with a black root,
of height at most `2·log₂(n+1)`, where `n` is the number of entries. -/
theorem C07_no_panic_balanced (ops : List (RbOp V)) :
    ∃ t, rbRun ops = some t ∧ t.LeftLeaning ∧ t.isRed = false ∧
      t.depth ≤ 2 * Nat.log2 (t.forEach.length + 1) := by
  obtain ⟨t, h1, h2, _⟩ := run_from (valid_nil (V := V)) ops
  refine ⟨t, h1, ?_, h2.black, ?_⟩
  · obtain ⟨n, hb⟩ := h2.bh
    exact leftLeaning_of hb h2.ll
  · obtain ⟨n, hb⟩ := h2.bh
    have a := height_le hb h2.ll
    have b := size_ge hb
    rw [h2.black] at a
    rw [depth_eq_height, ← size_eq_length]
    have c : n ≤ Nat.log2 (t.size + 1) := (Nat.le_log2 (by omega)).2 b
    simp at a
    omega

/-- **C08.** After any history the stored root hash is the digest of the full hash tree. -/
theorem C08_root_hash [LawfulAsHashTree V] {ops : List (RbOp V)} {t : Rb V} (h : rbRun ops = some t) :
    t.rootHashRb = t.asHashTreeRb.digest :=
  (digest_asHashTree (rbRun_valid h).hash (vok_lawful t)).symm

/-- **C08**, what the full tree holds: it is well formed, and has under `k` exactly the tree of the value
`get k` returns. -/
theorem C08_full_tree_content [LawfulAsHashTree V] {ops : List (RbOp V)} {t : Rb V} (h : rbRun ops = some t) :
    t.asHashTreeRb.WellFormed ∧
      ∀ k n, HasNode t.asHashTreeRb [k] n ↔ ∃ v, t.get k = some v ∧ n = asHashTree v := by
  have hv := rbRun_valid h
  have hw := (wf_asHashTree hv.sorted (fun _ v _ => LawfulAsHashTree.wf v)).1
  refine ⟨hw, fun k n => ?_⟩
  have := range_decides (nodeFn_data (V := V)) hv.sorted (lo := none) (hi := none) (x := k) trivial trivial
  change t.asHashTreeRb.lookupSubtree [k] = _ at this
  rw [← lookupSubtree_eq_found_iff hw, this]
  cases t.get k <;> simp [eq_comm]

/-- **C09.** Each witness-producing call returns a pruning of the full tree, so its digest is the root hash.
`witness`, `keys` and `keys_with_prefix` never panic; `key_range` and `value_range` do not panic when
`first ≤ last`. -/
theorem C09_witness_digest [LawfulAsHashTree V] {ops : List (RbOp V)} {t : Rb V} (h : rbRun ops = some t) :
    (∀ key, ∃ w, t.witness key = some w ∧ Prunes w t.asHashTreeRb ∧ w.digest = t.rootHashRb) ∧
    t.keys.digest = t.rootHashRb ∧
    (∀ pre, ∃ w, t.keysWithPrefix pre = some w ∧ w.digest = t.rootHashRb) ∧
    (∀ a b, a ≤ b → ∃ w, t.keyRange a b = some w ∧ w.digest = t.rootHashRb) ∧
    (∀ a b, a ≤ b → ∃ w, t.valueRange a b = some w ∧ w.digest = t.rootHashRb) := by
  have hv := rbRun_valid h
  have vok := vok_lawful t
  have hr := C08_root_hash h
  refine ⟨fun key => ?_, ?_, fun pre => ?_, fun a b hab => ?_, fun a b hab => ?_⟩
  · obtain ⟨w, h1, h2⟩ := nestedWitness_prunes (key := key) (f := fun v => some (asHashTree v)) hv.hash vok hv.sorted
      (fun _ _ => rfl) (fun v w _ hw => by simp at hw; subst hw; exact Prunes.refl _)
    exact ⟨w, h1, h2, by rw [hr, h2.digest_eq]⟩
  · rw [hr]
    exact (prunes_full nodeFn_witness (gok_witness vok)).digest_eq
  · exact ⟨_, prefixWitness_ok hv.sorted pre _, by
      rw [hr]; exact (rangeWitnessRelease_prunes nodeFn_witness _ _ hv.hash vok (gok_witness vok)).digest_eq⟩
  · exact ⟨_, rangeWitness_ok hv.sorted hab _, by
      rw [hr]; exact (rangeWitnessRelease_prunes nodeFn_witness _ _ hv.hash vok (gok_witness vok)).digest_eq⟩
  · exact ⟨_, rangeWitness_ok hv.sorted hab _, by
      rw [hr]; exact (rangeWitnessRelease_prunes nodeFn_data _ _ hv.hash vok (gok_data _)).digest_eq⟩

/-- **C09**, any bounds: whatever the requested range (also inverted ones), the release build of the range
witness has the root hash as digest, and when the debug build does not fail its assertion it returns
the same tree. -/
theorem C09_any_range_digest [LawfulAsHashTree V] {ops : List (RbOp V)} {t : Rb V} (h : rbRun ops = some t)
    (first last : Bytes) :
    (t.rangeWitnessRelease (t.lowerBound first) (t.upperBound last) witnessTree).digest = t.rootHashRb ∧
    (t.rangeWitnessRelease (t.lowerBound first) (t.upperBound last) dataTree).digest = t.rootHashRb ∧
    (∀ w, t.keyRange first last = some w → w.digest = t.rootHashRb) ∧
    (∀ w, t.valueRange first last = some w → w.digest = t.rootHashRb) := by
  have hv := rbRun_valid h
  have vok := vok_lawful t
  have hr := C08_root_hash h
  have h1 : (t.rangeWitnessRelease (t.lowerBound first) (t.upperBound last) witnessTree).digest = t.rootHashRb := by
    rw [hr]; exact (rangeWitnessRelease_prunes nodeFn_witness _ _ hv.hash vok (gok_witness vok)).digest_eq
  have h2 : (t.rangeWitnessRelease (t.lowerBound first) (t.upperBound last) dataTree).digest = t.rootHashRb := by
    rw [hr]; exact (rangeWitnessRelease_prunes nodeFn_data _ _ hv.hash vok (gok_data _)).digest_eq
  exact ⟨h1, h2, fun w hw => by rw [rangeWitness_release hw]; exact h1,
    fun w hw => by rw [rangeWitness_release hw]; exact h2⟩

/-- **C09**, `nested_witness` with a caller-supplied value witness: if the closure returns a pruning of the
value's tree (for instance a witness of a nested tree), the result is a pruning of the whole tree. -/
theorem C09_nested_witness [LawfulAsHashTree V] {ops : List (RbOp V)} {t : Rb V} (h : rbRun ops = some t)
    (key : Bytes) (f : V → HashTree) (hf : ∀ v, Prunes (f v) (asHashTree v)) :
    ∃ w, t.nestedWitness key (fun v => some (f v)) = some w ∧ Prunes w t.asHashTreeRb ∧
      w.digest = t.rootHashRb := by
  have hv := rbRun_valid h
  obtain ⟨w, h1, h2⟩ := nestedWitness_prunes (key := key) (f := fun v => some (f v)) hv.hash (vok_lawful t) hv.sorted
    (fun _ _ => rfl) (fun v w _ hw => by simp at hw; subst hw; exact hf v)
  exact ⟨w, h1, h2, by rw [C08_root_hash h, h2.digest_eq]⟩

/-- **C10.** The witness for a key proves presence (with the value) or absence: never unknown. -/
theorem C10_witness_decides {ops : List (RbOp V)} {t : Rb V} (h : rbRun ops = some t) (key : Bytes) :
    ∃ w, t.witness key = some w ∧
      (∀ v, t.get key = some v → w.lookupSubtree [key] = .found (asHashTree v)) ∧
      (t.get key = none → w.lookupSubtree [key] = .absent) := by
  have hv := rbRun_valid h
  have : ∃ w, t.witness key = some w := by
    obtain ⟨o, ho, _⟩ := lookupWitness_some (key := key) (f := fun v : V => some (asHashTree v))
      (t := t) (fun _ _ => rfl) hv.sorted
    unfold witness nestedWitness
    cases o with
    | some w => exact ⟨w, by simp [ho]⟩
    | none =>
      simp only [ho, Option.bind_eq_bind, Option.bind_some]
      exact ⟨_, rangeWitness_ok hv.sorted (le_refl key) witnessTree⟩
  obtain ⟨w, hw⟩ := this
  have hd := nestedWitness_decides hv.sorted hw
  refine ⟨w, hw, fun v hg => ?_, fun hg => ?_⟩
  · rw [hd, hg]; rfl
  · rw [hd, hg]

/-- **C11.** Range and prefix witnesses decide every key they are asked about. -/
theorem C11_ranges_decide {ops : List (RbOp V)} {t : Rb V} (h : rbRun ops = some t) :
    (∀ a b, a ≤ b → ∃ w, t.keyRange a b = some w ∧ ∀ x, a ≤ x → x ≤ b →
      (∀ v, t.get x = some v → w.lookupSubtree [x] = .found (.pruned (rootHash v))) ∧
      (t.get x = none → w.lookupSubtree [x] = .absent)) ∧
    (∀ a b, a ≤ b → ∃ w, t.valueRange a b = some w ∧ ∀ x, a ≤ x → x ≤ b →
      (∀ v, t.get x = some v → w.lookupSubtree [x] = .found (asHashTree v)) ∧
      (t.get x = none → w.lookupSubtree [x] = .absent)) ∧
    (∀ pre, ∃ w, t.keysWithPrefix pre = some w ∧ ∀ x, pre <+: x →
      (∀ v, t.get x = some v → w.lookupSubtree [x] = .found (.pruned (rootHash v))) ∧
      (t.get x = none → w.lookupSubtree [x] = .absent)) ∧
    (∀ x, (∀ v, t.get x = some v → t.keys.lookupSubtree [x] = .found (.pruned (rootHash v))) ∧
      (t.get x = none → t.keys.lookupSubtree [x] = .absent)) := by
  have hv := rbRun_valid h
  refine ⟨fun a b hab => ⟨_, rangeWitness_ok hv.sorted hab _, fun x ha hb => ?_⟩,
    fun a b hab => ⟨_, rangeWitness_ok hv.sorted hab _, fun x ha hb => ?_⟩,
    fun pre => ⟨_, prefixWitness_ok hv.sorted pre _, fun x hx => ?_⟩, fun x => ?_⟩
  · rw [range_decides nodeFn_witness hv.sorted (loBound_of_lowerBound hv.sorted ha) (hiBound_of_upperBound hv.sorted hb)]
    exact ⟨fun v hg => by rw [hg], fun hg => by rw [hg]⟩
  · rw [range_decides nodeFn_data hv.sorted (loBound_of_lowerBound hv.sorted ha) (hiBound_of_upperBound hv.sorted hb)]
    exact ⟨fun v hg => by rw [hg], fun hg => by rw [hg]⟩
  · rw [range_decides nodeFn_witness hv.sorted (loBound_of_lowerBound hv.sorted (prefix_le hx)) (hiBound_of_prefix hx)]
    exact ⟨fun v hg => by rw [hg], fun hg => by rw [hg]⟩
  · have := range_decides (nodeFn_witness (V := V)) hv.sorted (lo := none) (hi := none) (x := x) trivial trivial
    change t.keys.lookupSubtree [x] = _ at this
    rw [this]
    exact ⟨fun v hg => by rw [hg], fun hg => by rw [hg]⟩

/-- **C12.** The iterator terminates and yields exactly the entries `for_each` visits: strictly sorted, and
`(k, v)` among them iff `get k` returns `v`. -/
theorem C12_iteration {ops : List (RbOp V)} {t : Rb V} (h : rbRun ops = some t) :
    (∀ fuel n, 3 * t.forEach.length < fuel → t.forEach.length < n →
      t.iter.collect fuel n = some t.forEach) ∧
    t.forEach.Pairwise (fun a b => a.1 < b.1) ∧
    ∀ k v, (k, v) ∈ t.forEach ↔ t.get k = some v := by
  have hv := rbRun_valid h
  refine ⟨fun fuel n hf hn => ?_, hv.sorted, fun k v => ?_⟩
  · obtain ⟨h1, h2, h3⟩ := iter_ok t
    have := collect_spec fuel n t.iter h1 (by rw [h3, size_eq_length]; exact hf) (by rw [h2]; exact hn)
    rw [this, h2]
  · rw [get_eq_lookL hv.sorted]
    exact ⟨lookL_of_mem hv.sorted, lookL_mem⟩

/-- Entries of a strictly sorted list are determined by lookups. -/
theorem sorted_ext {xs ys : List (Bytes × V)} (hx : SortedL xs) (hy : SortedL ys)
    (h : ∀ p, p ∈ xs ↔ p ∈ ys) : xs = ys := by
  induction xs generalizing ys with
  | nil =>
    cases ys with
    | nil => rfl
    | cons y ys => exact absurd ((h y).2 (by simp)) (by simp)
  | cons x xs ih =>
    cases ys with
    | nil => exact absurd ((h x).1 (by simp)) (by simp)
    | cons y ys =>
      simp only [SortedL, List.pairwise_cons] at hx hy
      have hxy : x = y := by
        have h1 := (h x).1 (by simp)
        have h2 := (h y).2 (by simp)
        simp at h1 h2
        rcases h1 with h1 | h1
        · exact h1
        · rcases h2 with h2 | h2
          · exact h2.symm
          · exact absurd (lt_trans (hy.1 _ h1) (hx.1 _ h2)) (lt_irrefl _)
      subst hxy
      congr 1
      refine ih hx.2 hy.2 (fun p => ?_)
      have := h p
      simp at this
      constructor
      · intro hp
        rcases this.1 (.inr hp) with rfl | hq
        · exact absurd (hx.1 _ hp) (lt_irrefl _)
        · exact hq
      · intro hp
        rcases this.2 (.inr hp) with rfl | hq
        · exact absurd (hy.1 _ hp) (lt_irrefl _)
        · exact hq

/-- **C12.** `==` on two trees is `true` iff they hold the same entries, whatever histories built them. -/
theorem C12_eq_iff_same_content [DecidableEq V] {ops ops' : List (RbOp V)} {t t' : Rb V}
    (h : rbRun ops = some t) (h' : rbRun ops' = some t') (fuel n : Nat)
    (hf : 3 * (t.forEach.length + t'.forEach.length) < fuel) (hn : t.forEach.length < n) :
    ∃ b, Iter.eq fuel n t.iter t'.iter = some b ∧ (b = true ↔ ∀ k, t.get k = t'.get k) := by
  have hv := rbRun_valid h
  have hv' := rbRun_valid h'
  obtain ⟨h1, h2, h3⟩ := iter_ok t
  obtain ⟨g1, g2, g3⟩ := iter_ok t'
  rw [size_eq_length] at h3 g3
  refine ⟨_, iterEq_spec fuel n t.iter t'.iter h1 g1 (by omega) (by omega) (by rw [h2]; exact hn), ?_⟩
  rw [h2, g2, decide_eq_true_iff]
  constructor
  · intro he k
    rw [get_eq_lookL hv.sorted, get_eq_lookL hv'.sorted, he]
  · intro hk
    refine sorted_ext hv.sorted hv'.sorted (fun p => ?_)
    obtain ⟨k, v⟩ := p
    rw [(C12_iteration h).2.2, (C12_iteration h').2.2, hk]

/-! ### Concrete instances (hypotheses are satisfiable, conclusions are not trivial) -/

section examples

/-- A history that inserts five keys, deletes two (one of them an inner node) and modifies one. -/
def exOps : List (RbOp Bytes) :=
  [.insert (str "d") (str "4"), .insert (str "b") (str "2"), .insert (str "a") (str "1"),
   .insert (str "c") (str "3"), .insert (str "e") (str "5"), .delete (str "b"), .modify (str "c") (fun v => v ++ v),
   .delete (str "e")]

example : letI := toySHA; (rbRun exOps).map (fun t => t.forEach) =
    some [(str "a", str "1"), (str "c", str "33"), (str "d", str "4")] := by
  let _ := toySHA; rfl
example : letI := toySHA; (rbRun exOps).map (fun t => t.get (str "c")) = some (some (str "33")) := by
  let _ := toySHA; rfl
example : letI := toySHA; (rbRun exOps).map (fun t => t.get (str "b")) = some none := by
  let _ := toySHA; rfl
/-- A witness of absence and a witness of presence, for the tree of `exOps`. -/
example : letI := toySHA; ((rbRun exOps).bind (fun t => t.witness (str "b"))).map
    (fun w => w.lookupSubtree [str "b"]) = some .absent := by
  let _ := toySHA; rfl
example : letI := toySHA; ((rbRun exOps).bind (fun t => t.witness (str "c"))).map
    (fun w => w.lookupSubtree [str "c"]) = some (.found (.leaf (str "33"))) := by
  let _ := toySHA; rfl
/-- The witness of presence really prunes: another present key is unknown in it. -/
example : letI := toySHA; ((rbRun exOps).bind (fun t => t.witness (str "c"))).map
    (fun w => w.lookupSubtree [str "a"]) = some .unknown := by
  let _ := toySHA; rfl
/-- An inverted range fails the debug assertion: `key_range("d", "a")` has bounds `d > a`. -/
example : letI := toySHA; (rbRun exOps).map (fun t => t.keyRange (str "d") (str "a")) = some none := by
  let _ := toySHA; rfl

end examples
end Props
end Verif
