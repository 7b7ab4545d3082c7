import Verif.Lemmas.Lookup
import Verif.Spec.Toy

set_option linter.unusedSimpArgs false

/-!
# Properties C01–C05: hash trees
-/

namespace Verif.Props
open Verif HashTree

section
variable [SHA]

/-- **C01.** `Found` answers on any tree with the digest of a well-formed certified tree are true of the
certified tree, or an explicit collision is exhibited. -/
theorem C01_found_is_true {w T : HashTree} (hT : WellFormed T) (hd : w.digest = T.digest)
    {p : List Bytes} {v : Bytes} (h : w.lookupPath p = .found v) :
    HasLeaf T p v ∨ CollisionIn w.hashed T.hashed := by
  rcases digest_eq_prunes hT.full hd with hp | hc
  · left
    rw [lookupPath_eq] at h
    have ok := lookupSubtree_ok hT hp p
    cases e : w.lookupSubtree p with
    | absent => rw [e] at h; simp at h
    | unknown => rw [e] at h; simp at h
    | found n =>
      rw [e] at h ok
      obtain ⟨n', hn, hpn⟩ := ok
      cases n <;> simp at h
      subst h
      cases hpn
      exact hn
  · exact .inr hc

/-- **C01**, subtree version: a node found in a digest-equal tree is a pruned view of the node the
certified tree has at that path. -/
theorem C01_found_subtree_is_true {w T n : HashTree} (hT : WellFormed T)
    (hd : w.digest = T.digest) {p : List Bytes} (h : w.lookupSubtree p = .found n) :
    (∃ n', HasNode T p n' ∧ Prunes n n') ∨ CollisionIn w.hashed T.hashed := by
  rcases digest_eq_prunes hT.full hd with hp | hc
  · left
    have ok := lookupSubtree_ok hT hp p
    rw [h] at ok
    exact ok
  · exact .inr hc

/-- **C02.** `Absent` answers of `lookup_path` mean the certified tree has no leaf at that path. -/
theorem C02_absent_path_is_true {w T : HashTree} (hT : WellFormed T) (hd : w.digest = T.digest)
    {p : List Bytes} (h : w.lookupPath p = .absent) :
    (¬ ∃ v, HasLeaf T p v) ∨ CollisionIn w.hashed T.hashed := by
  rcases digest_eq_prunes hT.full hd with hp | hc
  · left
    rw [lookupPath_eq] at h
    have ok := lookupSubtree_ok hT hp p
    rintro ⟨v, hv⟩
    cases e : w.lookupSubtree p with
    | absent => rw [e] at ok; exact ok ⟨_, hv⟩
    | unknown => rw [e] at h; simp at h
    | found n =>
      rw [e] at h ok
      obtain ⟨n', hn, hpn⟩ := ok
      have := HasNode.unique hT hn hv
      subst this
      cases n <;> simp at h
      cases hpn
  · exact .inr hc

/-- **C02.** `Absent` answers of `lookup_subtree` mean the certified tree has nothing at that path. -/
theorem C02_absent_subtree_is_true {w T : HashTree} (hT : WellFormed T)
    (hd : w.digest = T.digest) {p : List Bytes} (h : w.lookupSubtree p = .absent) :
    (¬ ∃ n, HasNode T p n) ∨ CollisionIn w.hashed T.hashed := by
  rcases digest_eq_prunes hT.full hd with hp | hc
  · left
    have ok := lookupSubtree_ok hT hp p
    rw [h] at ok
    exact ok
  · exact .inr hc

/-- Two different views with one certified digest can never contradict each other (Found against
Absent), unless a collision with the certified tree is exhibited. -/
theorem C02_no_contradiction {w₁ w₂ T : HashTree} (hT : WellFormed T) (h1 : w₁.digest = T.digest)
    (h2 : w₂.digest = T.digest) {p : List Bytes} {v : Bytes} (hf : w₁.lookupPath p = .found v) :
    w₂.lookupPath p ≠ .absent ∧ (∀ v', w₂.lookupPath p = .found v' → v' = v) ∨
      CollisionIn w₁.hashed T.hashed ∨ CollisionIn w₂.hashed T.hashed := by
  rcases C01_found_is_true hT h1 hf with hl | hc
  · by_cases hc2 : CollisionIn w₂.hashed T.hashed
    · exact .inr (.inr hc2)
    · refine .inl ⟨fun ha => ?_, fun v' hv' => ?_⟩
      · rcases C02_absent_path_is_true hT h2 ha with h | h
        · exact h ⟨v, hl⟩
        · exact hc2 h
      · rcases C01_found_is_true hT h2 hv' with h | h
        · have := HasNode.unique hT h hl
          simpa using this
        · exact absurd h hc2
  · exact .inr (.inl hc)

/-- **C03.** A tree with the digest of a full tree is that tree with some subtrees pruned, or an
explicit collision is exhibited. -/
theorem C03_digest_binds {w T : HashTree} (hT : T.Full) (hd : w.digest = T.digest) :
    Prunes w T ∨ CollisionIn w.hashed T.hashed :=
  digest_eq_prunes hT hd

theorem Prunes.eq_of_full {w T : HashTree} (hp : HashTree.Prunes w T) (hw : w.Full) : w = T := by
  induction hp with
  | prune t => exact hw.elim
  | empty => rfl
  | leaf _ => rfl
  | labeled _ ih => rw [ih hw]
  | fork _ _ ih1 ih2 => rw [ih1 hw.1, ih2 hw.2]

/-- **C03.** Two full trees with one digest are equal, or an explicit collision is exhibited: node
kinds, labels, leaf contents and structure are all bound by the digest. -/
theorem C03_digest_injective {t T : HashTree} (ht : t.Full) (hT : T.Full)
    (hd : t.digest = T.digest) : t = T ∨ CollisionIn t.hashed T.hashed := by
  rcases digest_eq_prunes hT hd with hp | hc
  · exact .inl (Prunes.eq_of_full hp ht)
  · exact .inr hc

/-- **C03.** Conversely pruning never changes the digest. -/
theorem C03_prune_keeps_digest {w T : HashTree} (h : Prunes w T) : w.digest = T.digest :=
  h.digest_eq

end

/-- **C04.** `lookup_path` finds `v` exactly when `lookup_subtree` finds a leaf holding `v`. -/
theorem C04_found_iff (t : HashTree) (p : List Bytes) (v : Bytes) :
    t.lookupPath p = .found v ↔ t.lookupSubtree p = .found (.leaf v) := by
  let _ := toySHA
  rw [lookupPath_eq]
  cases t.lookupSubtree p with
  | absent => simp
  | unknown => simp
  | found n => cases n <;> simp

/-- **C04.** The other verdicts of `lookup_path` in terms of `lookup_subtree`. -/
theorem C04_other_verdicts (t : HashTree) (p : List Bytes) :
    (t.lookupPath p = .absent ↔ t.lookupSubtree p = .absent ∨ t.lookupSubtree p = .found .empty) ∧
    (t.lookupPath p = .unknown ↔
      t.lookupSubtree p = .unknown ∨ ∃ h, t.lookupSubtree p = .found (.pruned h)) ∧
    (t.lookupPath p = .error ↔
      (∃ l r, t.lookupSubtree p = .found (.fork l r)) ∨
      ∃ lab s, t.lookupSubtree p = .found (.labeled lab s)) := by
  let _ := toySHA
  rw [lookupPath_eq]
  cases t.lookupSubtree p with
  | absent => simp
  | unknown => simp
  | found n => cases n <;> simp

/-- **C04.** On a well-formed full tree the lookups are exact: never Unknown, Found precisely for the
nodes that are there. -/
theorem C04_exact_on_full {T : HashTree} (hT : WellFormed T) (p : List Bytes) :
    (∀ n, T.lookupSubtree p = .found n ↔ HasNode T p n) ∧
    (T.lookupSubtree p = .absent ↔ ¬ ∃ n, HasNode T p n) ∧
    T.lookupSubtree p ≠ .unknown := by
  let _ := toySHA
  exact ⟨fun n => lookupSubtree_eq_found_iff hT, lookupSubtree_eq_absent_iff hT,
    lookupSubtree_full_ne_unknown hT p⟩

/-- Specification for `list_paths`: walking from the root, forks are transparent, labels are consumed,
and the walk ends in a leaf. -/
inductive Reaches : HashTree → List Bytes → Bytes → Prop
  | leaf (b) : Reaches (.leaf b) [] b
  | left {l r p v} : Reaches l p v → Reaches (.fork l r) p v
  | right {l r p v} : Reaches r p v → Reaches (.fork l r) p v
  | down {lab t p v} : Reaches t p v → Reaches (.labeled lab t) (lab :: p) v

theorem mem_listPathsFrom {t : HashTree} {q p : List Bytes} :
    p ∈ t.listPathsFrom q ↔ ∃ p' v, p = q ++ p' ∧ Reaches t p' v := by
  induction t generalizing q with
  | empty => simp [listPathsFrom]; rintro _ _ _ h; cases h
  | pruned _ => simp [listPathsFrom]; rintro _ _ _ h; cases h
  | leaf b =>
    simp only [listPathsFrom, List.mem_singleton]
    constructor
    · rintro rfl; exact ⟨[], b, by simp, .leaf b⟩
    · rintro ⟨p', v, rfl, h⟩; cases h; simp
  | labeled lab t ih =>
    simp only [listPathsFrom, ih]
    constructor
    · rintro ⟨p', v, rfl, h⟩; exact ⟨lab :: p', v, by simp, .down h⟩
    · rintro ⟨p', v, rfl, h⟩; cases h with | down h => exact ⟨_, v, by simp, h⟩
  | fork l r ihl ihr =>
    simp only [listPathsFrom, List.mem_append, ihl, ihr]
    constructor
    · rintro (⟨p', v, rfl, h⟩ | ⟨p', v, rfl, h⟩)
      · exact ⟨p', v, rfl, .left h⟩
      · exact ⟨p', v, rfl, .right h⟩
    · rintro ⟨p', v, rfl, h⟩
      cases h with
      | left h => exact .inl ⟨p', v, rfl, h⟩
      | right h => exact .inr ⟨p', v, rfl, h⟩

/-- **C05.** `list_paths` lists exactly the paths that reach a leaf (any tree, pruned or not). -/
theorem C05_list_paths (t : HashTree) (p : List Bytes) :
    p ∈ t.listPaths ↔ ∃ v, Reaches t p v := by
  simp [listPaths, mem_listPathsFrom]

theorem reaches_iff_hasLeaf {b : Bool} {t : HashTree} (ht : WF b t) {p : List Bytes} {v : Bytes} :
    Reaches t p v ↔ HasLeaf t p v := by
  constructor
  · intro h
    induction h generalizing b with
    | leaf b => exact .here _
    | @left l r p v h ih =>
      have := ih ht.1
      cases p with
      | nil => cases this; exact absurd ht (by simp [WF])
      | cons s p => exact .left this
    | @right l r p v h ih =>
      have := ih ht.2.1
      cases p with
      | nil => cases this; exact absurd ht (by simp [WF])
      | cons s p => exact .right this
    | down _ ih => exact .down (ih ht)
  · intro h
    unfold HasLeaf at h
    generalize hn : HashTree.leaf v = n at h
    induction h generalizing b with
    | here t => subst hn; exact .leaf v
    | left _ ih => exact .left (ih ht.1 hn)
    | right _ ih => exact .right (ih ht.2.1 hn)
    | down _ ih => exact .down (ih ht hn)

theorem listPathsFrom_head {b : Bool} {t : HashTree} (ht : WF b t) {q p : List Bytes}
    (hb : b = false) (hp : p ∈ t.listPathsFrom q) :
    ∃ s p', p = q ++ s :: p' ∧ s ∈ t.labels := by
  obtain ⟨p', v, rfl, h⟩ := mem_listPathsFrom.1 hp
  have hl := (reaches_iff_hasLeaf ht).1 h
  cases p' with
  | nil =>
    subst hb
    cases hl
    simp [WF] at ht
  | cons s p' => exact ⟨s, p', rfl, HasNode.mem_labels hl⟩

theorem listPathsFrom_nodup {b : Bool} {t : HashTree} (ht : WF b t) (q : List Bytes) :
    (t.listPathsFrom q).Nodup := by
  induction t generalizing b q with
  | empty => simp [listPathsFrom]
  | pruned _ => simp [listPathsFrom]
  | leaf _ => simp [listPathsFrom]
  | labeled lab t ih => exact ih ht _
  | fork l r ihl ihr =>
    simp only [listPathsFrom]
    refine List.nodup_append.2 ⟨ihl ht.1 q, ihr ht.2.1 q, ?_⟩
    rintro a ha b hb rfl
    obtain ⟨s1, p1, e1, h1⟩ := listPathsFrom_head ht.1 rfl ha
    obtain ⟨s2, p2, e2, h2⟩ := listPathsFrom_head ht.2.1 rfl hb
    rw [e1] at e2
    simp at e2
    obtain ⟨rfl, _⟩ := e2
    exact lt_irrefl _ (ht.2.2 _ h1 _ h2)

/-- **C05.** On a well-formed full tree, `list_paths` has no duplicates and lists precisely the paths
`lookup_path` finds. -/
theorem C05_list_paths_wf {T : HashTree} (hT : WellFormed T) :
    T.listPaths.Nodup ∧ ∀ p, p ∈ T.listPaths ↔ ∃ v, T.lookupPath p = .found v := by
  let _ := toySHA
  refine ⟨listPathsFrom_nodup hT [], fun p => ?_⟩
  rw [C05_list_paths]
  constructor
  · rintro ⟨v, hv⟩
    refine ⟨v, ?_⟩
    rw [lookupPath_eq, (lookupSubtree_eq_found_iff hT).2 ((reaches_iff_hasLeaf hT).1 hv)]
  · rintro ⟨v, hv⟩
    rw [C04_found_iff] at hv
    exact ⟨v, (reaches_iff_hasLeaf hT).2 ((lookupSubtree_eq_found_iff hT).1 hv)⟩

/-! ## Non-vacuity -/

/-- A three-entry certified tree with a nested level. -/
def exTree : HashTree :=
  .fork (.labeled (str "a") (.fork (.labeled (str "x") (.leaf (str "1")))
      (.labeled (str "y") (.leaf (str "2")))))
    (.fork (.labeled (str "b") (.leaf (str "3"))) (.labeled (str "d") .empty))

example : WellFormed exTree := by
  simp only [exTree, WellFormed, WF, labels, true_and, and_true, List.mem_singleton,
    List.mem_append, forall_eq, forall_eq_or_imp]
  simp [← cmpB_lt, str]
  decide

/-- a view revealing `a/x` only -/
def exView : HashTree :=
  letI := toySHA
  .fork (.labeled (str "a") (.fork (.labeled (str "x") (.leaf (str "1")))
      (.pruned (HashTree.labeled (str "y") (.leaf (str "2"))).digest)))
    (.pruned (HashTree.fork (.labeled (str "b") (.leaf (str "3"))) (.labeled (str "d") .empty)).digest)

example : letI := toySHA; exView.digest = exTree.digest ∧
    exView.lookupPath [str "a", str "x"] = .found (str "1") ∧
    exView.lookupPath [str "a", str "w"] = .absent ∧
    exView.lookupPath [str "b"] = .unknown := by
  decide

example : exTree.listPaths = [[str "a", str "x"], [str "a", str "y"], [str "b"]] := by decide

/-! ## The well-formedness hypothesis is needed

`lookup_label` stops at the first verdict other than Greater/Unknown, so an `Empty` (or a `Leaf`) as
left child of a fork hides the right child. The two trees below have the same digest for *every*
hash function, yet one says Found and the other Absent. Such a tree is never produced by `RbTree`
(see C09/C15), but a certified tree built by hand could have this shape. -/
theorem C02_needs_wellformed [SHA] :
    let T : HashTree := .fork .empty (.labeled (str "a") (.leaf (str "v")))
    let w : HashTree := .fork (.pruned HashTree.empty.digest) (.labeled (str "a") (.leaf (str "v")))
    w.digest = T.digest ∧ HasLeaf T [str "a"] (str "v") ∧
      T.lookupPath [str "a"] = .absent ∧ w.lookupPath [str "a"] = .found (str "v") := by
  refine ⟨rfl, .right (.down (.here _)), rfl, rfl⟩

end Verif.Props
