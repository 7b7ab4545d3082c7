import Verif.Lemmas.RbShow
import Verif.Spec.Show

set_option linter.unusedSimpArgs false
set_option linter.unusedSectionVars false

/-! How large witnesses are. -/

namespace Verif
namespace Rb
open HashTree
variable {V : Type} [SHA] [AsHashTree V]

theorem nodes_threeWay (L M R : HashTree) : (threeWayFork L M R).nodes ≤ L.nodes + M.nodes + R.nodes + 2 := by
  unfold threeWayFork
  split <;> simp only [HashTree.nodes] <;> omega

theorem nodes_child (t : Rb V) : t.childHashTree.nodes = 1 := by
  cases t <;> rfl

theorem nodes_lookup {key : Bytes} {fo : V → Option HashTree} {t : Rb V} {w : HashTree}
    (hw : t.lookupWitness key fo = some (some w)) :
    ∃ v m, (key, v) ∈ t.forEach ∧ fo v = some m ∧ w.nodes ≤ 4 * t.depth + m.nodes + 1 := by
  induction t generalizing w with
  | nil => simp [lookupWitness] at hw
  | node c l k v r hh ihl ihr =>
    simp only [lookupWitness] at hw
    have cl := nodes_child l
    have cr := nodes_child r
    cases hc : cmpB key k with
    | eq =>
      simp only [hc] at hw
      have he := cmpB_eq.1 hc
      cases e : fo v with
      | none => simp [e] at hw
      | some m =>
        simp only [e, Option.bind_eq_bind, Option.bind_some, Option.some.injEq] at hw
        subst hw
        have := nodes_threeWay l.childHashTree (.labeled k m) r.childHashTree
        simp only [HashTree.nodes] at this
        exact ⟨v, m, by simp [forEach, he], e, by simp only [depth]; omega⟩
    | lt =>
      simp only [hc] at hw
      cases e : l.lookupWitness key fo with
      | none => simp [e] at hw
      | some o =>
        cases o with
        | none => simp [e] at hw
        | some s =>
          simp only [e, Option.bind_eq_bind, Option.bind_some, Option.some.injEq] at hw
          subst hw
          obtain ⟨v', m, h1, h2, h3⟩ := ihl e
          have := nodes_threeWay s (.pruned (dataHash k v)) r.childHashTree
          simp only [HashTree.nodes] at this
          exact ⟨v', m, by simp [forEach, h1], h2, by simp only [depth]; omega⟩
    | gt =>
      simp only [hc] at hw
      cases e : r.lookupWitness key fo with
      | none => simp [e] at hw
      | some o =>
        cases o with
        | none => simp [e] at hw
        | some s =>
          simp only [e, Option.bind_eq_bind, Option.bind_some, Option.some.injEq] at hw
          subst hw
          obtain ⟨v', m, h1, h2, h3⟩ := ihr e
          have := nodes_threeWay l.childHashTree (.pruned (dataHash k v)) s
          simp only [HashTree.nodes] at this
          exact ⟨v', m, by simp [forEach, h1], h2, by simp only [depth]; omega⟩

theorem nodes_bound (b : KeyBound) (k : Bytes) (v : V) : (boundTree witnessTree b k v).nodes = 2 := by
  cases b <;> rfl

theorem full_nil {f : Bytes → V → HashTree} {t : Rb V} (h : t.forEach = []) : t.fullWitnessTree f = .empty := by
  rw [forEach_nil_iff.1 h]; rfl

theorem nodes_above {lo : KeyBound} {t : Rb V} (hs : t.Sorted) (hx : ∀ a ∈ t.forEach, ¬ lo.key < a.1) :
    (t.witnessAbove lo witnessTree).nodes ≤ 5 * t.depth + 1 := by
  induction t with
  | nil => simp [witnessAbove, HashTree.nodes]
  | node c l k v r hh ihl ihr =>
    have hs0 : SortedL (l.forEach ++ (k, v) :: r.forEach) := hs
    obtain ⟨s1, s2, s3, s4⟩ := sortedL_node.1 hs0
    have cl := nodes_child l
    have cr := nodes_child r
    simp only [witnessAbove]
    cases hc : cmpB k lo.key with
    | eq =>
      have hr : r.forEach = [] := by
        rcases List.eq_nil_or_concat r.forEach with h | ⟨L, a, h⟩
        · exact h
        · have ha : a ∈ r.forEach := by rw [h]; simp
          exact absurd (by rw [← cmpB_eq.1 hc]; exact s4 a ha) (hx a (by simp [forEach, ha]))
      have := nodes_threeWay l.childHashTree (boundTree witnessTree lo k v) (r.fullWitnessTree witnessTree)
      rw [full_nil hr, nodes_bound, cl] at this
      rw [full_nil hr]
      simp only [HashTree.nodes, depth] at *
      omega
    | lt =>
      have := nodes_threeWay l.childHashTree (.pruned (dataHash k v)) (r.witnessAbove lo witnessTree)
      have i := ihr s2 (fun a ha => hx a (by simp [forEach, ha]))
      simp only [HashTree.nodes, depth] at *
      omega
    | gt => exact absurd (cmpB_gt.1 hc) (hx (k, v) (by simp [forEach]))

theorem nodes_below {hi : KeyBound} {t : Rb V} (hs : t.Sorted) (hx : ∀ a ∈ t.forEach, ¬ a.1 < hi.key) :
    (t.witnessBelow hi witnessTree).nodes ≤ 5 * t.depth + 1 := by
  induction t with
  | nil => simp [witnessBelow, HashTree.nodes]
  | node c l k v r hh ihl ihr =>
    have hs0 : SortedL (l.forEach ++ (k, v) :: r.forEach) := hs
    obtain ⟨s1, s2, s3, s4⟩ := sortedL_node.1 hs0
    have cl := nodes_child l
    have cr := nodes_child r
    simp only [witnessBelow]
    cases hc : cmpB k hi.key with
    | eq =>
      have hr : l.forEach = [] := by
        rcases List.eq_nil_or_concat l.forEach with h | ⟨L, a, h⟩
        · exact h
        · have ha : a ∈ l.forEach := by rw [h]; simp
          exact absurd (by rw [← cmpB_eq.1 hc]; exact s3 a ha) (hx a (by simp [forEach, ha]))
      have := nodes_threeWay (l.fullWitnessTree witnessTree) (boundTree witnessTree hi k v) r.childHashTree
      rw [full_nil hr, nodes_bound, cr] at this
      rw [full_nil hr]
      simp only [HashTree.nodes, depth] at *
      omega
    | gt =>
      have := nodes_threeWay (l.witnessBelow hi witnessTree) (.pruned (dataHash k v)) r.childHashTree
      have i := ihl s1 (fun a ha => hx a (by simp [forEach, ha]))
      simp only [HashTree.nodes, depth] at *
      omega
    | lt => exact absurd (cmpB_lt.1 hc) (hx (k, v) (by simp [forEach]))

theorem nodes_between {lo hi : KeyBound} {t : Rb V} (hlt : lo.key < hi.key)
    (hx : ∀ a ∈ t.forEach, ¬ (lo.key < a.1 ∧ a.1 < hi.key)) :
    (t.witnessBetween lo hi witnessTree).nodes ≤ 5 * t.depth + 1 := by
  induction t with
  | nil => simp [witnessBetween, HashTree.nodes]
  | node c l k v r hh ihl ihr =>
    have cl := nodes_child l
    have cr := nodes_child r
    have il := ihl (fun a ha => hx a (by simp [forEach, ha]))
    have ir := ihr (fun a ha => hx a (by simp [forEach, ha]))
    have hk := hx (k, v) (by simp [forEach])
    have b1 := nodes_bound lo k v
    have b2 := nodes_bound hi k v
    simp only [witnessBetween]
    split
    · next c1 c2 => exact absurd ⟨cmpB_lt.1 c1, cmpB_lt.1 c2⟩ hk
    · next c1 c2 => rw [cmpB_eq.1 c1, ← cmpB_eq.1 c2] at hlt; exact absurd hlt (lt_irrefl _)
    · have := nodes_threeWay (l.witnessBetween lo hi witnessTree) (boundTree witnessTree hi k v) r.childHashTree
      simp only [HashTree.nodes, depth] at *
      omega
    · have := nodes_threeWay l.childHashTree (boundTree witnessTree lo k v) (r.witnessBetween lo hi witnessTree)
      simp only [HashTree.nodes, depth] at *
      omega
    · have := nodes_threeWay (l.witnessBetween lo hi witnessTree) (.pruned (dataHash k v)) r.childHashTree
      simp only [HashTree.nodes, depth] at *
      omega
    · have := nodes_threeWay l.childHashTree (.pruned (dataHash k v)) (r.witnessBetween lo hi witnessTree)
      simp only [HashTree.nodes, depth] at *
      omega
    · simp only [HashTree.nodes]; omega

/-- the proof of absence follows one path -/
theorem nodes_absent {t : Rb V} (hs : t.Sorted) {key : Bytes} (hg : t.get key = none) :
    (t.rangeWitnessRelease (t.lowerBound key) (t.upperBound key) witnessTree).nodes ≤ 5 * t.depth + 1 := by
  have a := lowerBound_spec hs key
  have b := upperBound_spec hs key
  have nk : ∀ x ∈ t.forEach, x.1 ≠ key := by
    rw [get_eq_lookL hs, lookL_none] at hg; exact hg
  cases e1 : t.lowerBound key with
  | none =>
    rw [e1] at a
    cases e2 : t.upperBound key with
    | none =>
      rw [e2] at b
      have : t.forEach = [] := by
        rcases List.eq_nil_or_concat t.forEach with h | ⟨L, x, h⟩
        · exact h
        · have hx : x ∈ t.forEach := by rw [h]; simp
          exact absurd (a x hx) (lt_asymm (b x hx))
      simp only [rangeWitnessRelease]
      rw [full_nil this]; simp [HashTree.nodes]
    | some u =>
      rw [e2] at b
      exact nodes_below hs (fun x hx => not_lt.2 (b.2.2.1 x hx (a x hx).le))
  | some l =>
    rw [e1] at a
    cases e2 : t.upperBound key with
    | none =>
      rw [e2] at b
      exact nodes_above hs (fun x hx => not_lt.2 (a.2.2.1 x hx (b x hx).le))
    | some u =>
      rw [e2] at b
      obtain ⟨⟨v, a1⟩, a2, a3, _⟩ := a
      obtain ⟨⟨v', b1⟩, b2, b3, _⟩ := b
      refine nodes_between (lt_of_lt_of_le (lt_of_le_of_ne a2 (nk _ a1)) b2) (fun x hx hc => ?_)
      rcases lt_trichotomy x.1 key with h | h | h
      · exact absurd hc.1 (not_lt.2 (a3 x hx h.le))
      · exact nk x hx h
      · exact absurd hc.2 (not_lt.2 (b3 x hx h.le))

end Rb
end Verif
