import Verif.Lemmas.RbOps
import Verif.Lemmas.Lookup

set_option linter.unusedSimpArgs false
set_option linter.unusedSectionVars false

namespace Verif
namespace Rb
open HashTree
variable {V : Type} [SHA] [AsHashTree V]

/-- the stored values' hashes agree with their trees (the contract of `AsHashTree`) -/
def VOK (t : Rb V) : Prop := ∀ k v, (k, v) ∈ t.forEach → rootHash v = (asHashTree v).digest

theorem VOK.left {c : Color} {l r : Rb V} {k : Bytes} {v : V} {h : Hash} (hv : VOK (.node c l k v r h)) :
    VOK l := fun k' v' hm => hv k' v' (by simp [forEach, hm])
theorem VOK.right {c : Color} {l r : Rb V} {k : Bytes} {v : V} {h : Hash} (hv : VOK (.node c l k v r h)) :
    VOK r := fun k' v' hm => hv k' v' (by simp [forEach, hm])
theorem VOK.here {c : Color} {l r : Rb V} {k : Bytes} {v : V} {h : Hash} (hv : VOK (.node c l k v r h)) :
    rootHash v = (asHashTree v).digest := hv k v (by simp [forEach])

/-! ### three_way_fork -/

theorem threeWay_labeled (L R : HashTree) (k : Bytes) (X : HashTree) :
    threeWayFork L (.labeled k X) R =
      if L = .empty then (if R = .empty then .labeled k X else .fork (.labeled k X) R)
      else if R = .empty then .fork L (.labeled k X) else .fork L (.fork (.labeled k X) R) := by
  cases L <;> cases R <;> simp [threeWayFork]

theorem threeWay_ne_empty {l m r : HashTree} (hm : m ≠ .empty) : threeWayFork l m r ≠ .empty := by
  cases l <;> cases m <;> cases r <;> simp_all [threeWayFork]

theorem prunes_threeWay {l m r L X R : HashTree} {k : Bytes} (hl : Prunes l L)
    (hm : Prunes m (.labeled k X)) (hr : Prunes r R) (el : l = .empty ↔ L = .empty)
    (er : r = .empty ↔ R = .empty) :
    Prunes (threeWayFork l m r) (threeWayFork L (.labeled k X) R) := by
  rw [threeWay_labeled]
  by_cases h1 : L = .empty
  · have hl' := el.2 h1
    subst hl' h1
    by_cases h2 : R = .empty
    · have hr' := er.2 h2
      subst hr' h2
      cases m <;> simp [threeWayFork, hm]
    · have hr' : r ≠ .empty := fun h => h2 (er.1 h)
      simp only [if_true, h2, if_false]
      cases r <;> first | exact absurd rfl hr' | exact .fork hm hr
  · have hl' : l ≠ .empty := fun h => h1 (el.1 h)
    simp only [h1, if_false]
    by_cases h2 : R = .empty
    · have hr' := er.2 h2
      subst hr' h2
      simp only [if_true]
      cases l <;> first | exact absurd rfl hl' | exact .fork hl hm
    · have hr' : r ≠ .empty := fun h => h2 (er.1 h)
      simp only [h2, if_false]
      cases m with
      | pruned mh =>
        cases r with
        | empty => exact absurd rfl hr'
        | pruned rh =>
          have e1 := hm.digest_eq
          have e2 := hr.digest_eq
          simp only [HashTree.digest] at e1 e2
          have hmr : Prunes (.pruned (forkHash mh rh)) (.fork (.labeled k X) R) := by
            have := Prunes.prune (HashTree.fork (.labeled k X) R)
            simp only [HashTree.digest, forkHash, e1, e2] at this ⊢
            exact this
          cases l with
          | empty => exact absurd rfl hl'
          | pruned lh =>
            have e3 := hl.digest_eq
            simp only [HashTree.digest] at e3
            have := Prunes.prune (HashTree.fork L (.fork (.labeled k X) R))
            simp only [threeWayFork]
            simp only [HashTree.digest, forkHash, e1, e2, e3] at this ⊢
            exact this
          | _ => exact .fork hl hmr
        | _ => cases l <;> first | exact absurd rfl hl' | exact .fork hl (.fork hm hr)
      | _ => cases r <;> cases l <;>
          first | exact absurd rfl hl' | exact absurd rfl hr' | exact .fork hl (.fork hm hr)

/-! ### The full tree -/

theorem fullWitness_empty_iff {f : Bytes → V → HashTree} (hf : ∀ k v, f k v ≠ .empty) (t : Rb V) :
    t.fullWitnessTree f = .empty ↔ t = .nil := by
  cases t with
  | nil => simp [fullWitnessTree]
  | node c l k v r h => simp [fullWitnessTree, threeWay_ne_empty (hf k v)]

theorem dataTree_ne_empty (k : Bytes) (v : V) : dataTree k v ≠ .empty := by simp [dataTree]
theorem witnessTree_ne_empty (k : Bytes) (v : V) : witnessTree k v ≠ .empty := by simp [witnessTree]

theorem asHashTree_empty_iff (t : Rb V) : t.asHashTreeRb = .empty ↔ t = .nil :=
  fullWitness_empty_iff dataTree_ne_empty t

theorem childHashTree_empty_iff (t : Rb V) : t.childHashTree = .empty ↔ t = .nil := by
  cases t <;> simp [childHashTree]

theorem asHashTree_node {c : Color} {l r : Rb V} {k : Bytes} {v : V} {h : Hash} :
    (Rb.node c l k v r h).asHashTreeRb = threeWayFork l.asHashTreeRb (dataTree k v) r.asHashTreeRb := rfl

/-- The incrementally stored root hash is the digest of the full tree. -/
theorem digest_asHashTree {t : Rb V} (hh : HashOK t) (hv : VOK t) :
    t.asHashTreeRb.digest = t.rootHashRb := by
  induction t with
  | nil => rfl
  | node c l k v r h ihl ihr =>
    obtain ⟨e, h1, h2⟩ := hh
    have i1 := ihl h1 hv.left
    have i2 := ihr h2 hv.right
    have i3 := hv.here
    rw [asHashTree_node, dataTree, threeWay_labeled]
    subst e
    by_cases hl : l = .nil
    · rw [if_pos ((asHashTree_empty_iff l).2 hl)]
      subst hl
      by_cases hr : r = .nil
      · rw [if_pos ((asHashTree_empty_iff r).2 hr)]
        subst hr
        simp [rootHashRb, computeHash, HashTree.digest, dataHash, labeledHash, i3]
      · rw [if_neg (fun h => hr ((asHashTree_empty_iff r).1 h))]
        cases r with
        | nil => exact absurd rfl hr
        | node =>
          simp only [rootHashRb] at i2
          simp [rootHashRb, computeHash, HashTree.digest, dataHash, labeledHash, forkHash, i3, i2]
    · rw [if_neg (fun h => hl ((asHashTree_empty_iff l).1 h))]
      cases l with
      | nil => exact absurd rfl hl
      | node =>
        simp only [rootHashRb] at i1
        by_cases hr : r = .nil
        · rw [if_pos ((asHashTree_empty_iff r).2 hr)]
          subst hr
          simp [rootHashRb, computeHash, HashTree.digest, dataHash, labeledHash, forkHash, i3, i1]
        · rw [if_neg (fun h => hr ((asHashTree_empty_iff r).1 h))]
          cases r with
          | nil => exact absurd rfl hr
          | node =>
            simp only [rootHashRb] at i2
            simp [rootHashRb, computeHash, HashTree.digest, dataHash, labeledHash, forkHash, i3, i1, i2]

theorem labels_fullWitness {f : Bytes → V → HashTree} {g : V → HashTree}
    (hf : ∀ k v, f k v = .labeled k (g v)) (t : Rb V) :
    (t.fullWitnessTree f).labels = t.forEach.map Prod.fst := by
  induction t with
  | nil => rfl
  | node c l k v r h ihl ihr =>
    simp only [fullWitnessTree, hf, threeWay_labeled, forEach, List.map_append, List.map_cons, ← ihl, ← ihr]
    split
    · next h1 => rw [h1]; split <;> rename_i h2 <;> simp [labels, h2]
    · split <;> rename_i h2 <;> simp [labels, h2]

/-- The full tree of a sorted map with well-formed values is a well-formed hash tree. -/
theorem wf_asHashTree {t : Rb V} (hs : t.Sorted) (hv : ∀ k v, (k, v) ∈ t.forEach → WF true (asHashTree v)) :
    WF true t.asHashTreeRb ∧ (t ≠ .nil → WF false t.asHashTreeRb) := by
  induction t with
  | nil => exact ⟨rfl, fun h => absurd rfl h⟩
  | node c l k v r h ihl ihr =>
    have hs0 : SortedL (l.forEach ++ (k, v) :: r.forEach) := hs
    obtain ⟨s1, s2, s3, s4⟩ := sortedL_node.1 hs0
    have i1 := ihl s1 (fun k' v' hm => hv k' v' (by simp [forEach, hm]))
    have i2 := ihr s2 (fun k' v' hm => hv k' v' (by simp [forEach, hm]))
    have i3 := hv k v (by simp [forEach])
    have key : WF false (Rb.node c l k v r h).asHashTreeRb := by
      rw [asHashTree_node, dataTree, threeWay_labeled]
      have el := fun (h : l = .nil) => (asHashTree_empty_iff l).2 h
      have er := fun (h : r = .nil) => (asHashTree_empty_iff r).2 h
      have ll := labels_fullWitness (f := dataTree) (g := asHashTree) (fun _ _ => rfl) l
      have lr := labels_fullWitness (f := dataTree) (g := asHashTree) (fun _ _ => rfl) r
      change l.asHashTreeRb.labels = _ at ll
      change r.asHashTreeRb.labels = _ at lr
      have s3' : ∀ a ∈ l.asHashTreeRb.labels, a < k := by
        rw [ll]; intro a ha; simp at ha; obtain ⟨b, hb⟩ := ha; exact s3 _ hb
      have s4' : ∀ a ∈ r.asHashTreeRb.labels, k < a := by
        rw [lr]; intro a ha; simp at ha; obtain ⟨b, hb⟩ := ha; exact s4 _ hb
      split
      · split
        · exact i3
        · next hr => exact ⟨i3, i2.2 (fun h => hr (er h)), by simpa [labels] using s4'⟩
      · next hl =>
        split
        · exact ⟨i1.2 (fun h => hl (el h)), i3, by simpa [labels] using s3'⟩
        · next hr =>
          refine ⟨i1.2 (fun h => hl (el h)), ⟨i3, i2.2 (fun h => hr (er h)), by simpa [labels] using s4'⟩, ?_⟩
          intro a ha b hb
          simp [labels] at hb
          rcases hb with rfl | hb
          · exact s3' a ha
          · exact lt_trans (s3' a ha) (s4' b hb)
    exact ⟨key.weaken, fun _ => key⟩

/-! ### Witnesses are prunings of the full tree -/

theorem prunes_child {t : Rb V} (hh : HashOK t) (hv : VOK t) :
    Prunes t.childHashTree t.asHashTreeRb := by
  have := digest_asHashTree hh hv
  cases t with
  | nil => exact .empty
  | node c l k v r h =>
    simp only [childHashTree, rootHashRb] at this ⊢
    rw [← this]; exact .prune _

/-- a node function usable in witnesses: shows the key, and a pruning of the value -/
def NodeFn (f : Bytes → V → HashTree) (g : V → HashTree) : Prop := ∀ k v, f k v = .labeled k (g v)

theorem nodeFn_data : NodeFn (V := V) dataTree asHashTree := fun _ _ => rfl
theorem nodeFn_witness : NodeFn (V := V) witnessTree (fun v => .pruned (rootHash v)) := fun _ _ => rfl

theorem NodeFn.ne_empty {f : Bytes → V → HashTree} {g : V → HashTree} (h : NodeFn f g) (k : Bytes) (v : V) :
    f k v ≠ .empty := by rw [h]; simp

/-- values are shown truthfully -/
def GOK (g : V → HashTree) (t : Rb V) : Prop := ∀ k v, (k, v) ∈ t.forEach → Prunes (g v) (asHashTree v)

theorem GOK.left {g : V → HashTree} {c : Color} {l r : Rb V} {k : Bytes} {v : V} {h : Hash}
    (hv : GOK g (.node c l k v r h)) : GOK g l := fun k' v' hm => hv k' v' (by simp [forEach, hm])
theorem GOK.right {g : V → HashTree} {c : Color} {l r : Rb V} {k : Bytes} {v : V} {h : Hash}
    (hv : GOK g (.node c l k v r h)) : GOK g r := fun k' v' hm => hv k' v' (by simp [forEach, hm])
theorem GOK.here {g : V → HashTree} {c : Color} {l r : Rb V} {k : Bytes} {v : V} {h : Hash}
    (hv : GOK g (.node c l k v r h)) : Prunes (g v) (asHashTree v) := hv k v (by simp [forEach])

theorem gok_data (t : Rb V) : GOK asHashTree t := fun _ _ _ => Prunes.refl _
theorem gok_witness {t : Rb V} (hv : VOK t) : GOK (fun v => .pruned (rootHash v)) t := by
  intro k v hm
  show Prunes (.pruned (rootHash v)) _
  rw [hv k v hm]; exact .prune _

theorem prunes_data {k : Bytes} {v : V} (hv : rootHash v = (asHashTree v).digest) :
    Prunes (.pruned (dataHash k v)) (dataTree k v) := by
  have : dataHash k v = (dataTree k v).digest := by
    simp [dataHash, dataTree, HashTree.digest, labeledHash, hv]
  rw [this]; exact .prune _

theorem prunes_full {f : Bytes → V → HashTree} {g : V → HashTree} (hf : NodeFn f g) {t : Rb V}
    (hg : GOK g t) : Prunes (t.fullWitnessTree f) t.asHashTreeRb := by
  induction t with
  | nil => exact .empty
  | node c l k v r h ihl ihr =>
    rw [asHashTree_node]
    simp only [fullWitnessTree]
    refine prunes_threeWay (ihl hg.left) ?_ (ihr hg.right) ?_ ?_
    · rw [hf]; exact .labeled hg.here
    · rw [fullWitness_empty_iff hf.ne_empty, asHashTree_empty_iff]
    · rw [fullWitness_empty_iff hf.ne_empty, asHashTree_empty_iff]

theorem boundTree_ne_empty {f : Bytes → V → HashTree} {g : V → HashTree} (hf : NodeFn f g) (b : KeyBound)
    (k : Bytes) (v : V) : boundTree f b k v ≠ .empty := by
  cases b
  · exact hf.ne_empty k v
  · exact witnessTree_ne_empty k v

theorem prunes_bound {f : Bytes → V → HashTree} {g : V → HashTree} (hf : NodeFn f g) (b : KeyBound)
    {k : Bytes} {v : V} (hg : Prunes (g v) (asHashTree v)) (hv : rootHash v = (asHashTree v).digest) :
    Prunes (boundTree f b k v) (.labeled k (asHashTree v)) := by
  cases b with
  | exact _ => simp only [boundTree]; rw [hf]; exact .labeled hg
  | neighbor _ => simp only [boundTree, witnessTree, hv]; exact .labeled (.prune _)

theorem witnessAbove_prunes {f : Bytes → V → HashTree} {g : V → HashTree} (hf : NodeFn f g) (lo : KeyBound)
    {t : Rb V} (hh : HashOK t) (hv : VOK t) (hg : GOK g t) :
    Prunes (t.witnessAbove lo f) t.asHashTreeRb ∧ (t.witnessAbove lo f = .empty ↔ t = .nil) := by
  induction t with
  | nil => exact ⟨.empty, by simp [witnessAbove]⟩
  | node c l k v r h ihl ihr =>
    obtain ⟨e, h1, h2⟩ := hh
    rw [asHashTree_node]
    simp only [witnessAbove]
    have i1 := ihl h1 hv.left hg.left
    have i2 := ihr h2 hv.right hg.right
    cases cmpB k lo.key with
    | eq =>
      refine ⟨prunes_threeWay (prunes_child h1 hv.left) (prunes_bound hf lo hg.here hv.here)
        (prunes_full hf hg.right) ?_ ?_, ?_⟩
      · rw [childHashTree_empty_iff, asHashTree_empty_iff]
      · rw [fullWitness_empty_iff hf.ne_empty, asHashTree_empty_iff]
      · simp [threeWay_ne_empty (boundTree_ne_empty hf lo k v)]
    | lt =>
      refine ⟨prunes_threeWay (prunes_child h1 hv.left) (prunes_data hv.here) i2.1 ?_ ?_, ?_⟩
      · rw [childHashTree_empty_iff, asHashTree_empty_iff]
      · rw [i2.2, asHashTree_empty_iff]
      · simp [threeWay_ne_empty]
    | gt =>
      refine ⟨prunes_threeWay i1.1 (by rw [hf]; exact .labeled hg.here) (prunes_full hf hg.right) ?_ ?_, ?_⟩
      · rw [i1.2, asHashTree_empty_iff]
      · rw [fullWitness_empty_iff hf.ne_empty, asHashTree_empty_iff]
      · simp [threeWay_ne_empty (hf.ne_empty k v)]

theorem witnessBelow_prunes {f : Bytes → V → HashTree} {g : V → HashTree} (hf : NodeFn f g) (hi : KeyBound)
    {t : Rb V} (hh : HashOK t) (hv : VOK t) (hg : GOK g t) :
    Prunes (t.witnessBelow hi f) t.asHashTreeRb ∧ (t.witnessBelow hi f = .empty ↔ t = .nil) := by
  induction t with
  | nil => exact ⟨.empty, by simp [witnessBelow]⟩
  | node c l k v r h ihl ihr =>
    obtain ⟨e, h1, h2⟩ := hh
    rw [asHashTree_node]
    simp only [witnessBelow]
    have i1 := ihl h1 hv.left hg.left
    have i2 := ihr h2 hv.right hg.right
    cases cmpB k hi.key with
    | eq =>
      refine ⟨prunes_threeWay (prunes_full hf hg.left) (prunes_bound hf hi hg.here hv.here)
        (prunes_child h2 hv.right) ?_ ?_, ?_⟩
      · rw [fullWitness_empty_iff hf.ne_empty, asHashTree_empty_iff]
      · rw [childHashTree_empty_iff, asHashTree_empty_iff]
      · simp [threeWay_ne_empty (boundTree_ne_empty hf hi k v)]
    | gt =>
      refine ⟨prunes_threeWay i1.1 (prunes_data hv.here) (prunes_child h2 hv.right) ?_ ?_, ?_⟩
      · rw [i1.2, asHashTree_empty_iff]
      · rw [childHashTree_empty_iff, asHashTree_empty_iff]
      · simp [threeWay_ne_empty]
    | lt =>
      refine ⟨prunes_threeWay (prunes_full hf hg.left) (by rw [hf]; exact .labeled hg.here) i2.1 ?_ ?_, ?_⟩
      · rw [fullWitness_empty_iff hf.ne_empty, asHashTree_empty_iff]
      · rw [i2.2, asHashTree_empty_iff]
      · simp [threeWay_ne_empty (hf.ne_empty k v)]

/-- every middle part used by `witnessBetween` -/
theorem prunes_both {f : Bytes → V → HashTree} {g : V → HashTree} (hf : NodeFn f g) (lo hi : KeyBound)
    {k : Bytes} {v : V} (hg : Prunes (g v) (asHashTree v)) (hv : rootHash v = (asHashTree v).digest) :
    Prunes (match lo, hi with
          | .exact _, _ => f k v
          | _, .exact _ => f k v
          | _, _ => witnessTree k v) (.labeled k (asHashTree v)) := by
  have h1 : Prunes (f k v) (.labeled k (asHashTree v)) := by rw [hf]; exact .labeled hg
  have h2 : Prunes (witnessTree k v) (.labeled k (asHashTree v)) := by
    simp only [witnessTree, hv]; exact .labeled (.prune _)
  cases lo <;> cases hi <;> assumption

theorem both_ne_empty {f : Bytes → V → HashTree} {g : V → HashTree} (hf : NodeFn f g) (lo hi : KeyBound)
    {k : Bytes} {v : V} : (match lo, hi with
          | .exact _, _ => f k v
          | _, .exact _ => f k v
          | _, _ => witnessTree k v) ≠ .empty := by
  cases lo <;> cases hi <;> first | exact hf.ne_empty k v | exact witnessTree_ne_empty k v

theorem witnessBetween_prunes {f : Bytes → V → HashTree} {g : V → HashTree} (hf : NodeFn f g)
    (lo hi : KeyBound) {t : Rb V} (hh : HashOK t) (hv : VOK t) (hg : GOK g t) :
    Prunes (t.witnessBetween lo hi f) t.asHashTreeRb ∧ (t.witnessBetween lo hi f = .empty ↔ t = .nil) := by
  induction t with
  | nil => exact ⟨.empty, by simp [witnessBetween]⟩
  | node c l k v r h ihl ihr =>
    have hp := prunes_child hh hv
    obtain ⟨e, h1, h2⟩ := hh
    rw [asHashTree_node]
    have i1 := ihl h1 hv.left hg.left
    have i2 := ihr h2 hv.right hg.right
    have c1 := prunes_child h1 hv.left
    have c2 := prunes_child h2 hv.right
    have ef1 : l.childHashTree = .empty ↔ l.asHashTreeRb = .empty := by
      rw [childHashTree_empty_iff, asHashTree_empty_iff]
    have ef2 : r.childHashTree = .empty ↔ r.asHashTreeRb = .empty := by
      rw [childHashTree_empty_iff, asHashTree_empty_iff]
    have eg1 : l.witnessBetween lo hi f = .empty ↔ l.asHashTreeRb = .empty := by
      rw [i1.2, asHashTree_empty_iff]
    have eg2 : r.witnessBetween lo hi f = .empty ↔ r.asHashTreeRb = .empty := by
      rw [i2.2, asHashTree_empty_iff]
    have pf : Prunes (f k v) (.labeled k (asHashTree v)) := by rw [hf]; exact .labeled hg.here
    have pp : Prunes (.pruned h) (threeWayFork l.asHashTreeRb (dataTree k v) r.asHashTreeRb) := by
      simpa [childHashTree, asHashTree_node] using hp
    simp only [witnessBetween]
    cases h3 : cmpB lo.key k <;> cases h4 : cmpB k hi.key <;> simp only
    · exact ⟨prunes_threeWay i1.1 pf i2.1 eg1 eg2, by simp [threeWay_ne_empty (hf.ne_empty k v)]⟩
    · exact ⟨prunes_threeWay i1.1 (prunes_bound hf hi hg.here hv.here) c2 eg1 ef2,
        by simp [threeWay_ne_empty (boundTree_ne_empty hf hi k v)]⟩
    · exact ⟨prunes_threeWay i1.1 (prunes_data hv.here) c2 eg1 ef2, by simp [threeWay_ne_empty]⟩
    · exact ⟨prunes_threeWay c1 (prunes_bound hf lo hg.here hv.here) i2.1 ef1 eg2,
        by simp [threeWay_ne_empty (boundTree_ne_empty hf lo k v)]⟩
    · exact ⟨prunes_threeWay c1 (prunes_both hf lo hi hg.here hv.here) c2 ef1 ef2,
        ⟨fun h => absurd h (threeWay_ne_empty (both_ne_empty hf lo hi)), fun h => by simp at h⟩⟩
    · exact ⟨prunes_threeWay c1 (prunes_bound hf lo hg.here hv.here) i2.1 ef1 eg2,
        by simp [threeWay_ne_empty (boundTree_ne_empty hf lo k v)]⟩
    · exact ⟨prunes_threeWay c1 (prunes_data hv.here) i2.1 ef1 eg2, by simp [threeWay_ne_empty]⟩
    · exact ⟨prunes_threeWay i1.1 (prunes_bound hf hi hg.here hv.here) c2 eg1 ef2,
        by simp [threeWay_ne_empty (boundTree_ne_empty hf hi k v)]⟩
    · exact ⟨pp, by simp⟩

theorem rangeWitnessRelease_prunes {f : Bytes → V → HashTree} {g : V → HashTree} (hf : NodeFn f g)
    (lo hi : Option KeyBound) {t : Rb V} (hh : HashOK t) (hv : VOK t) (hg : GOK g t) :
    Prunes (t.rangeWitnessRelease lo hi f) t.asHashTreeRb := by
  cases lo <;> cases hi <;> simp only [rangeWitnessRelease]
  · exact prunes_full hf hg
  · exact (witnessBelow_prunes hf _ hh hv hg).1
  · exact (witnessAbove_prunes hf _ hh hv hg).1
  · exact (witnessBetween_prunes hf _ _ hh hv hg).1

theorem rangeWitness_release {t : Rb V} {lo hi : Option KeyBound} {f : Bytes → V → HashTree} {w : HashTree}
    (h : t.rangeWitness lo hi f = some w) : w = t.rangeWitnessRelease lo hi f := by
  cases lo <;> cases hi <;> simp only [rangeWitness, rangeWitnessRelease] at h ⊢
  · simpa using h.symm
  · simpa using h.symm
  · simpa using h.symm
  · split at h <;> simp at h; exact h.symm

theorem lookupWitness_prunes {key : Bytes} {f : V → Option HashTree} {t : Rb V} (hh : HashOK t) (hv : VOK t)
    (hf : ∀ v w, (key, v) ∈ t.forEach → f v = some w → Prunes w (asHashTree v)) {w : HashTree}
    (h : t.lookupWitness key f = some (some w)) :
    Prunes w t.asHashTreeRb ∧ w ≠ .empty ∧ t ≠ .nil := by
  induction t generalizing w with
  | nil => simp [lookupWitness] at h
  | node c l k v r hh' ihl ihr =>
    obtain ⟨e, h1, h2⟩ := hh
    rw [asHashTree_node]
    simp only [lookupWitness] at h
    cases hc : cmpB key k with
    | eq =>
      rw [hc] at h
      have := cmpB_eq.1 hc; subst this
      cases hfv : f v with
      | none => simp [hfv] at h
      | some w' =>
        simp [hfv] at h
        subst h
        refine ⟨prunes_threeWay (prunes_child h1 hv.left) (.labeled (hf v w' (by simp [forEach]) hfv))
          (prunes_child h2 hv.right) ?_ ?_, threeWay_ne_empty (by simp), by simp⟩
        · rw [childHashTree_empty_iff, asHashTree_empty_iff]
        · rw [childHashTree_empty_iff, asHashTree_empty_iff]
    | lt =>
      rw [hc] at h
      cases hl : l.lookupWitness key f with
      | none => simp [hl] at h
      | some o =>
        cases o with
        | none => simp [hl] at h
        | some s =>
          simp [hl] at h
          subst h
          obtain ⟨p1, p2, p3⟩ := ihl h1 hv.left (fun v' w' hm => hf v' w' (by simp [forEach, hm])) hl
          refine ⟨prunes_threeWay p1 (prunes_data hv.here) (prunes_child h2 hv.right) ?_ ?_,
            threeWay_ne_empty (by simp), by simp⟩
          · rw [asHashTree_empty_iff]; exact ⟨fun h => absurd h p2, fun h => absurd h p3⟩
          · rw [childHashTree_empty_iff, asHashTree_empty_iff]
    | gt =>
      rw [hc] at h
      cases hl : r.lookupWitness key f with
      | none => simp [hl] at h
      | some o =>
        cases o with
        | none => simp [hl] at h
        | some s =>
          simp [hl] at h
          subst h
          obtain ⟨p1, p2, p3⟩ := ihr h2 hv.right (fun v' w' hm => hf v' w' (by simp [forEach, hm])) hl
          refine ⟨prunes_threeWay (prunes_child h1 hv.left) (prunes_data hv.here) p1 ?_ ?_,
            threeWay_ne_empty (by simp), by simp⟩
          · rw [childHashTree_empty_iff, asHashTree_empty_iff]
          · rw [asHashTree_empty_iff]; exact ⟨fun h => absurd h p2, fun h => absurd h p3⟩

/-- `lookup_and_build_witness` finds a witness exactly when the key is present. -/
theorem lookupWitness_some {key : Bytes} {f : V → Option HashTree} {t : Rb V}
    (hf : ∀ v, (key, v) ∈ t.forEach → (f v).isSome) (hs : t.Sorted) :
    ∃ o, t.lookupWitness key f = some o ∧ (o = none ↔ t.get key = none) := by
  induction t with
  | nil => exact ⟨none, rfl, by simp [get]⟩
  | node c l k v r hh' ihl ihr =>
    have hs0 : SortedL (l.forEach ++ (k, v) :: r.forEach) := hs
    obtain ⟨s1, s2, s3, s4⟩ := sortedL_node.1 hs0
    simp only [lookupWitness, get]
    cases hc : cmpB key k with
    | eq =>
      have := cmpB_eq.1 hc; subst this
      obtain ⟨w, hw⟩ := Option.isSome_iff_exists.1 (hf v (by simp [forEach]))
      exact ⟨_, by simp [hw]; rfl, by simp⟩
    | lt =>
      obtain ⟨o, ho, hiff⟩ := ihl (fun v' hm => hf v' (by simp [forEach, hm])) s1
      cases o with
      | none => exact ⟨none, by simp [ho], hiff⟩
      | some s => exact ⟨_, by simp [ho]; rfl, by simpa using hiff⟩
    | gt =>
      obtain ⟨o, ho, hiff⟩ := ihr (fun v' hm => hf v' (by simp [forEach, hm])) s2
      cases o with
      | none => exact ⟨none, by simp [ho], hiff⟩
      | some s => exact ⟨_, by simp [ho]; rfl, by simpa using hiff⟩

/-! ### Bounds -/

theorem lowerBound_spec {t : Rb V} (hs : t.Sorted) (key : Bytes) :
    match t.lowerBound key with
    | none => ∀ a ∈ t.forEach, key < a.1
    | some b => (∃ v, (b.key, v) ∈ t.forEach) ∧ b.key ≤ key ∧
        (∀ a ∈ t.forEach, a.1 ≤ key → a.1 ≤ b.key) ∧ (b.key = key ↔ b = .exact key) := by
  induction t with
  | nil => simp [lowerBound, forEach]
  | node c l k v r h ihl ihr =>
    have hs0 : SortedL (l.forEach ++ (k, v) :: r.forEach) := hs
    obtain ⟨s1, s2, s3, s4⟩ := sortedL_node.1 hs0
    have i1 := ihl s1
    have i2 := ihr s2
    simp only [lowerBound]
    cases hc : cmpB k key with
    | lt =>
      have hk := cmpB_lt.1 hc
      cases hr : r.lowerBound key with
      | some b =>
        rw [hr] at i2
        obtain ⟨⟨v', hv'⟩, h2, h3, h4⟩ := i2
        refine ⟨⟨v', by simp [forEach, hv']⟩, h2, ?_, h4⟩
        intro a ha hle
        simp [forEach] at ha
        rcases ha with ha | rfl | ha
        · exact le_of_lt (lt_trans (s3 a ha) (s4 _ hv'))
        · exact le_of_lt (s4 _ hv')
        · exact h3 a ha hle
      | none =>
        rw [hr] at i2
        refine ⟨⟨v, by simp [forEach, KeyBound.key]⟩, le_of_lt hk, ?_, ?_⟩
        · intro a ha hle
          simp [forEach] at ha
          rcases ha with ha | rfl | ha
          · exact le_of_lt (s3 a ha)
          · exact le_refl _
          · exact absurd hle (not_le.2 (i2 a ha))
        · simp [KeyBound.key, ne_of_lt hk]
    | eq =>
      have := cmpB_eq.1 hc; subst this
      refine ⟨⟨v, by simp [forEach, KeyBound.key]⟩, le_refl _, fun a _ hle => hle, by simp [KeyBound.key]⟩
    | gt =>
      have hk := cmpB_gt.1 hc
      cases hl : l.lowerBound key with
      | some b =>
        rw [hl] at i1
        obtain ⟨⟨v', hv'⟩, h2, h3, h4⟩ := i1
        simp only
        refine ⟨⟨v', by simp [forEach, hv']⟩, h2, ?_, h4⟩
        intro a ha hle
        simp [forEach] at ha
        rcases ha with ha | rfl | ha
        · exact h3 a ha hle
        · exact absurd hle (not_le.2 hk)
        · exact absurd hle (not_le.2 (lt_trans hk (s4 a ha)))
      | none =>
        rw [hl] at i1
        simp only
        intro a ha
        simp [forEach] at ha
        rcases ha with ha | rfl | ha
        · exact i1 a ha
        · exact hk
        · exact lt_trans hk (s4 a ha)

theorem upperBound_spec {t : Rb V} (hs : t.Sorted) (key : Bytes) :
    match t.upperBound key with
    | none => ∀ a ∈ t.forEach, a.1 < key
    | some b => (∃ v, (b.key, v) ∈ t.forEach) ∧ key ≤ b.key ∧
        (∀ a ∈ t.forEach, key ≤ a.1 → b.key ≤ a.1) ∧ (b.key = key ↔ b = .exact key) := by
  induction t with
  | nil => simp [upperBound, forEach]
  | node c l k v r h ihl ihr =>
    have hs0 : SortedL (l.forEach ++ (k, v) :: r.forEach) := hs
    obtain ⟨s1, s2, s3, s4⟩ := sortedL_node.1 hs0
    have i1 := ihl s1
    have i2 := ihr s2
    simp only [upperBound]
    cases hc : cmpB k key with
    | gt =>
      have hk := cmpB_gt.1 hc
      cases hr : l.upperBound key with
      | some b =>
        rw [hr] at i1
        obtain ⟨⟨v', hv'⟩, h2, h3, h4⟩ := i1
        refine ⟨⟨v', by simp [forEach, hv']⟩, h2, ?_, h4⟩
        intro a ha hle
        simp [forEach] at ha
        rcases ha with ha | rfl | ha
        · exact h3 a ha hle
        · exact le_of_lt (s3 _ hv')
        · exact le_of_lt (lt_trans (s3 _ hv') (s4 a ha))
      | none =>
        rw [hr] at i1
        refine ⟨⟨v, by simp [forEach, KeyBound.key]⟩, le_of_lt hk, ?_, ?_⟩
        · intro a ha hle
          simp [forEach] at ha
          rcases ha with ha | rfl | ha
          · exact absurd hle (not_le.2 (i1 a ha))
          · exact le_refl _
          · exact le_of_lt (s4 a ha)
        · simp [KeyBound.key, ne_of_gt hk]
    | eq =>
      have := cmpB_eq.1 hc; subst this
      refine ⟨⟨v, by simp [forEach, KeyBound.key]⟩, le_refl _, fun a _ hle => hle, by simp [KeyBound.key]⟩
    | lt =>
      have hk := cmpB_lt.1 hc
      cases hl : r.upperBound key with
      | some b =>
        rw [hl] at i2
        obtain ⟨⟨v', hv'⟩, h2, h3, h4⟩ := i2
        simp only
        refine ⟨⟨v', by simp [forEach, hv']⟩, h2, ?_, h4⟩
        intro a ha hle
        simp [forEach] at ha
        rcases ha with ha | rfl | ha
        · exact absurd hle (not_le.2 (lt_trans (s3 a ha) hk))
        · exact absurd hle (not_le.2 hk)
        · exact h3 a ha hle
      | none =>
        rw [hl] at i2
        simp only
        intro a ha
        simp [forEach] at ha
        rcases ha with ha | rfl | ha
        · exact lt_trans (s3 a ha) hk
        · exact hk
        · exact i2 a ha

/-- the bounds used for a proof of absence (or presence) never cross -/
theorem bounds_le {t : Rb V} (hs : t.Sorted) {key key' : Bytes} (hkk : key ≤ key') {lo hi : KeyBound}
    (h1 : t.lowerBound key = some lo) (h2 : t.upperBound key' = some hi) : lo.key ≤ hi.key := by
  have a := lowerBound_spec hs key
  have b := upperBound_spec hs key'
  rw [h1] at a; rw [h2] at b
  exact le_trans a.2.1 (le_trans hkk b.2.1)

theorem rangeWitness_ok {t : Rb V} (hs : t.Sorted) {key key' : Bytes} (hkk : key ≤ key')
    (f : Bytes → V → HashTree) :
    t.rangeWitness (t.lowerBound key) (t.upperBound key') f =
      some (t.rangeWitnessRelease (t.lowerBound key) (t.upperBound key') f) := by
  cases h1 : t.lowerBound key <;> cases h2 : t.upperBound key' <;> simp only [rangeWitness, rangeWitnessRelease]
  have := bounds_le hs hkk h1 h2
  rw [if_neg]
  rw [ltB_iff]; exact not_lt.2 this

theorem nestedWitness_prunes {key : Bytes} {f : V → Option HashTree} {t : Rb V} (hh : HashOK t) (hv : VOK t)
    (hs : t.Sorted) (hsome : ∀ v, (key, v) ∈ t.forEach → (f v).isSome)
    (hf : ∀ v w, (key, v) ∈ t.forEach → f v = some w → Prunes w (asHashTree v)) :
    ∃ w, t.nestedWitness key f = some w ∧ Prunes w t.asHashTreeRb := by
  obtain ⟨o, ho, hiff⟩ := lookupWitness_some hsome hs
  unfold nestedWitness
  cases o with
  | some w =>
    exact ⟨w, by simp [ho], (lookupWitness_prunes hh hv hf ho).1⟩
  | none =>
    refine ⟨t.rangeWitnessRelease (t.lowerBound key) (t.upperBound key) witnessTree, ?_, ?_⟩
    · simp only [ho, Option.bind_eq_bind, Option.bind_some]
      exact rangeWitness_ok hs (le_refl key) witnessTree
    · exact rangeWitnessRelease_prunes nodeFn_witness _ _ hh hv (gok_witness hv)

end Rb
end Verif
