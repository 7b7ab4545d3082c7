import Verif.Lemmas.RbSize

set_option linter.unusedSimpArgs false
set_option linter.unusedSectionVars false

namespace Verif
namespace Rb
open HashTree
variable {V : Type} [SHA] [AsHashTree V] {wt : Bytes → V → Nat} {f : Bytes → V → HashTree} {lo hi : KeyBound}

/-- total weight of the entries -/
def weight (wt : Bytes → V → Nat) (t : Rb V) : Nat := (t.forEach.map (fun e => wt e.1 e.2)).sum

theorem weight_node (c : Color) (l : Rb V) (k : Bytes) (v : V) (r : Rb V) (h : Hash) :
    weight wt (.node c l k v r h) = weight wt l + wt k v + weight wt r := by
  simp [weight, forEach]; omega

theorem size_full {t : Rb V} (h : ∀ e ∈ t.forEach, (f e.1 e.2).nodes + 3 ≤ wt e.1 e.2) :
    (t.fullWitnessTree f).nodes ≤ weight wt t + 1 := by
  induction t with
  | nil => simp [fullWitnessTree, HashTree.nodes]
  | node c l k v r hh ihl ihr =>
    have a := ihl (fun e he => h e (by simp [forEach, he]))
    have b := ihr (fun e he => h e (by simp [forEach, he]))
    have k0 := h (k, v) (by simp [forEach])
    have := nodes_threeWay (l.fullWitnessTree f) (f k v) (r.fullWitnessTree f)
    simp only [fullWitnessTree]
    rw [weight_node]
    simp only at k0
    omega

theorem size_above {t : Rb V} (hs : t.Sorted)
    (h : ∀ e ∈ t.forEach, lo.key < e.1 → (f e.1 e.2).nodes + 3 ≤ wt e.1 e.2)
    (hb : ∀ e ∈ t.forEach, e.1 = lo.key → (boundTree f lo e.1 e.2).nodes + 3 ≤ wt e.1 e.2) :
    (t.witnessAbove lo f).nodes ≤ 4 * t.depth + weight wt t + 1 := by
  induction t with
  | nil => simp [witnessAbove, HashTree.nodes]
  | node c l k v r hh ihl ihr =>
    have hs0 : SortedL (l.forEach ++ (k, v) :: r.forEach) := hs
    obtain ⟨s1, s2, s3, s4⟩ := sortedL_node.1 hs0
    have cl := nodes_child l
    rw [weight_node]
    simp only [witnessAbove, depth]
    cases hc : cmpB k lo.key with
    | eq =>
      have a := size_full (wt := wt) (f := f) (t := r) (fun e he => h e (by simp [forEach, he]) (by rw [← cmpB_eq.1 hc]; exact s4 e he))
      have b := hb (k, v) (by simp [forEach]) (cmpB_eq.1 hc)
      have := nodes_threeWay l.childHashTree (boundTree f lo k v) (r.fullWitnessTree f)
      simp only at *
      omega
    | lt =>
      have i := ihr s2 (fun e he => h e (by simp [forEach, he])) (fun e he => hb e (by simp [forEach, he]))
      have := nodes_threeWay l.childHashTree (.pruned (dataHash k v)) (r.witnessAbove lo f)
      simp only [HashTree.nodes] at *
      omega
    | gt =>
      have i := ihl s1 (fun e he => h e (by simp [forEach, he])) (fun e he => hb e (by simp [forEach, he]))
      have a := size_full (wt := wt) (f := f) (t := r) (fun e he => h e (by simp [forEach, he]) (lt_trans (cmpB_gt.1 hc) (s4 e he)))
      have k0 := h (k, v) (by simp [forEach]) (cmpB_gt.1 hc)
      have := nodes_threeWay (l.witnessAbove lo f) (f k v) (r.fullWitnessTree f)
      simp only at *
      omega

theorem size_below {t : Rb V} (hs : t.Sorted)
    (h : ∀ e ∈ t.forEach, e.1 < hi.key → (f e.1 e.2).nodes + 3 ≤ wt e.1 e.2)
    (hb : ∀ e ∈ t.forEach, e.1 = hi.key → (boundTree f hi e.1 e.2).nodes + 3 ≤ wt e.1 e.2) :
    (t.witnessBelow hi f).nodes ≤ 4 * t.depth + weight wt t + 1 := by
  induction t with
  | nil => simp [witnessBelow, HashTree.nodes]
  | node c l k v r hh ihl ihr =>
    have hs0 : SortedL (l.forEach ++ (k, v) :: r.forEach) := hs
    obtain ⟨s1, s2, s3, s4⟩ := sortedL_node.1 hs0
    have cr := nodes_child r
    rw [weight_node]
    simp only [witnessBelow, depth]
    cases hc : cmpB k hi.key with
    | eq =>
      have a := size_full (wt := wt) (f := f) (t := l) (fun e he => h e (by simp [forEach, he]) (by rw [← cmpB_eq.1 hc]; exact s3 e he))
      have b := hb (k, v) (by simp [forEach]) (cmpB_eq.1 hc)
      have := nodes_threeWay (l.fullWitnessTree f) (boundTree f hi k v) r.childHashTree
      simp only at *
      omega
    | gt =>
      have i := ihl s1 (fun e he => h e (by simp [forEach, he])) (fun e he => hb e (by simp [forEach, he]))
      have := nodes_threeWay (l.witnessBelow hi f) (.pruned (dataHash k v)) r.childHashTree
      simp only [HashTree.nodes] at *
      omega
    | lt =>
      have i := ihr s2 (fun e he => h e (by simp [forEach, he])) (fun e he => hb e (by simp [forEach, he]))
      have a := size_full (wt := wt) (f := f) (t := l) (fun e he => h e (by simp [forEach, he]) (lt_trans (s3 e he) (cmpB_lt.1 hc)))
      have k0 := h (k, v) (by simp [forEach]) (cmpB_lt.1 hc)
      have := nodes_threeWay (l.fullWitnessTree f) (f k v) (r.witnessBelow hi f)
      simp only at *
      omega

theorem between_inside {t : Rb V} (hin : ∀ e ∈ t.forEach, lo.key < e.1 ∧ e.1 < hi.key) :
    t.witnessBetween lo hi f = t.fullWitnessTree f := by
  induction t with
  | nil => rfl
  | node c l k v r hh ihl ihr =>
    have k0 := hin (k, v) (by simp [forEach])
    simp only [witnessBetween, fullWitnessTree, cmpB_lt.2 k0.1, cmpB_lt.2 k0.2]
    rw [ihl (fun e he => hin e (by simp [forEach, he])), ihr (fun e he => hin e (by simp [forEach, he]))]

theorem between_above {t : Rb V} (hs : t.Sorted) (hin : ∀ e ∈ t.forEach, e.1 < hi.key) :
    t.witnessBetween lo hi f = t.witnessAbove lo f := by
  induction t with
  | nil => rfl
  | node c l k v r hh ihl ihr =>
    have hs0 : SortedL (l.forEach ++ (k, v) :: r.forEach) := hs
    obtain ⟨s1, s2, s3, s4⟩ := sortedL_node.1 hs0
    have k0 := hin (k, v) (by simp [forEach])
    have il := ihl s1 (fun e he => hin e (by simp [forEach, he]))
    have ir := ihr s2 (fun e he => hin e (by simp [forEach, he]))
    simp only [witnessBetween, witnessAbove, cmpB_lt.2 k0]
    rcases lt_trichotomy lo.key k with h | h | h
    · rw [cmpB_lt.2 h, cmpB_gt.2 h, il,
        between_inside (t := r) (fun e he => ⟨lt_trans h (s4 e he), hin e (by simp [forEach, he])⟩)]
    · rw [cmpB_eq.2 h, cmpB_eq.2 h.symm]
      simp only
      rw [between_inside (t := r) (fun e he => ⟨by rw [h]; exact s4 e he, hin e (by simp [forEach, he])⟩)]
    · rw [cmpB_gt.2 h, cmpB_lt.2 h, ir]

theorem between_below {t : Rb V} (hs : t.Sorted) (hin : ∀ e ∈ t.forEach, lo.key < e.1) :
    t.witnessBetween lo hi f = t.witnessBelow hi f := by
  induction t with
  | nil => rfl
  | node c l k v r hh ihl ihr =>
    have hs0 : SortedL (l.forEach ++ (k, v) :: r.forEach) := hs
    obtain ⟨s1, s2, s3, s4⟩ := sortedL_node.1 hs0
    have k0 := hin (k, v) (by simp [forEach])
    have il := ihl s1 (fun e he => hin e (by simp [forEach, he]))
    have ir := ihr s2 (fun e he => hin e (by simp [forEach, he]))
    simp only [witnessBetween, witnessBelow, cmpB_lt.2 k0]
    rcases lt_trichotomy k hi.key with h | h | h
    · rw [cmpB_lt.2 h, ir,
        between_inside (t := l) (fun e he => ⟨hin e (by simp [forEach, he]), lt_trans (s3 e he) h⟩)]
    · rw [cmpB_eq.2 h]
      simp only
      rw [between_inside (t := l) (fun e he => ⟨hin e (by simp [forEach, he]), by rw [← h]; exact s3 e he⟩)]
    · rw [cmpB_gt.2 h, il]

theorem size_between {t : Rb V} (hs : t.Sorted)
    (h : ∀ e ∈ t.forEach, lo.key < e.1 → e.1 < hi.key → (f e.1 e.2).nodes + 3 ≤ wt e.1 e.2)
    (hbl : ∀ e ∈ t.forEach, e.1 = lo.key → (boundTree f lo e.1 e.2).nodes + 3 ≤ wt e.1 e.2)
    (hbh : ∀ e ∈ t.forEach, e.1 = hi.key → (boundTree f hi e.1 e.2).nodes + 3 ≤ wt e.1 e.2) :
    (t.witnessBetween lo hi f).nodes ≤ 8 * t.depth + weight wt t + 1 := by
  induction t with
  | nil => simp [witnessBetween, HashTree.nodes]
  | node c l k v r hh ihl ihr =>
    have hs0 : SortedL (l.forEach ++ (k, v) :: r.forEach) := hs
    obtain ⟨s1, s2, s3, s4⟩ := sortedL_node.1 hs0
    have cl := nodes_child l
    have cr := nodes_child r
    have il := ihl s1 (fun e he => h e (by simp [forEach, he])) (fun e he => hbl e (by simp [forEach, he])) (fun e he => hbh e (by simp [forEach, he]))
    have ir := ihr s2 (fun e he => h e (by simp [forEach, he])) (fun e he => hbl e (by simp [forEach, he])) (fun e he => hbh e (by simp [forEach, he]))
    rw [weight_node]
    simp only [witnessBetween, depth]
    split
    · next c1 c2 =>
      have k0 := h (k, v) (by simp [forEach]) (cmpB_lt.1 c1) (cmpB_lt.1 c2)
      have hbl' : ∀ e ∈ l.forEach, e.1 < hi.key := fun e he => lt_trans (s3 e he) (cmpB_lt.1 c2)
      have hbr' : ∀ e ∈ r.forEach, lo.key < e.1 := fun e he => lt_trans (cmpB_lt.1 c1) (s4 e he)
      rw [between_above s1 hbl', between_below s2 hbr']
      have a := size_above (wt := wt) (f := f) (lo := lo) s1 (fun e he h1 => h e (by simp [forEach, he]) h1 (hbl' e he))
        (fun e he => hbl e (by simp [forEach, he]))
      have b := size_below (wt := wt) (f := f) (hi := hi) s2 (fun e he h1 => h e (by simp [forEach, he]) (hbr' e he) h1)
        (fun e he => hbh e (by simp [forEach, he]))
      have := nodes_threeWay (l.witnessAbove lo f) (f k v) (r.witnessBelow hi f)
      simp only at *
      omega
    · next c1 c2 =>
      have b1 := hbl (k, v) (by simp [forEach]) (cmpB_eq.1 c1).symm
      have b2 := hbh (k, v) (by simp [forEach]) (cmpB_eq.1 c2)
      have h2 : ∀ M : HashTree, M.nodes + 3 ≤ wt k v → (threeWayFork l.childHashTree M r.childHashTree).nodes ≤
          8 * (max l.depth r.depth + 1) + (weight wt l + wt k v + weight wt r) + 1 := by
        intro M hM
        have := nodes_threeWay l.childHashTree M r.childHashTree
        omega
      apply h2
      split
      · simpa [boundTree] using b1
      · simpa [boundTree] using b2
      · cases lo with
        | exact x => rename_i q1; exact (q1 x rfl).elim
        | neighbor x => simpa [boundTree] using b1
    · next c1 c2 =>
      have b2 := hbh (k, v) (by simp [forEach]) (cmpB_eq.1 (by first | exact c1 | exact c2 | assumption))
      have := nodes_threeWay (l.witnessBetween lo hi f) (boundTree f hi k v) r.childHashTree
      simp only at *
      omega
    · next c1 c2 =>
      have b2 := hbl (k, v) (by simp [forEach]) (cmpB_eq.1 (by first | exact c1 | exact c2 | assumption)).symm
      have := nodes_threeWay l.childHashTree (boundTree f lo k v) (r.witnessBetween lo hi f)
      simp only at *
      omega
    · have := nodes_threeWay (l.witnessBetween lo hi f) (.pruned (dataHash k v)) r.childHashTree
      simp only [HashTree.nodes] at *
      omega
    · have := nodes_threeWay l.childHashTree (.pruned (dataHash k v)) (r.witnessBetween lo hi f)
      simp only [HashTree.nodes] at *
      omega
    · simp only [HashTree.nodes]; omega

/-- all range witnesses: weights only for the entries between the bounds, and for the bounds -/
theorem size_range {t : Rb V} (hs : t.Sorted) {lo hi : Option KeyBound} {w : HashTree}
    (hw : t.rangeWitness lo hi f = some w)
    (h : ∀ e ∈ t.forEach, (∀ b, lo = some b → b.key < e.1) → (∀ b, hi = some b → e.1 < b.key) →
      (f e.1 e.2).nodes + 3 ≤ wt e.1 e.2)
    (hbl : ∀ b, lo = some b → ∀ e ∈ t.forEach, e.1 = b.key → (boundTree f b e.1 e.2).nodes + 3 ≤ wt e.1 e.2)
    (hbh : ∀ b, hi = some b → ∀ e ∈ t.forEach, e.1 = b.key → (boundTree f b e.1 e.2).nodes + 3 ≤ wt e.1 e.2) :
    w.nodes ≤ 8 * t.depth + weight wt t + 1 := by
  unfold rangeWitness at hw
  split at hw
  · cases hw
    have := size_full (wt := wt) (f := f) (t := t) (fun e he => h e he (by simp) (by simp))
    omega
  · cases hw
    next l =>
    have := size_above (wt := wt) (f := f) (lo := l) hs (fun e he h1 => h e he (by simpa using h1) (by simp)) (hbl l rfl)
    omega
  · cases hw
    next r =>
    have := size_below (wt := wt) (f := f) (hi := r) hs (fun e he h1 => h e he (by simp) (by simpa using h1)) (hbh r rfl)
    omega
  · next l r =>
    split at hw
    · simp at hw
    · cases hw
      exact size_between hs (fun e he h1 h2 => h e he (by simpa using h1) (by simpa using h2)) (hbl l rfl) (hbh r rfl)

end Rb
end Verif
