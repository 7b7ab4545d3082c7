import Verif.Lemmas.RbComplete

set_option linter.unusedSimpArgs false
set_option linter.unusedSectionVars false

/-! What witnesses show: every label visible in them and the tree under it. -/

namespace Verif
namespace Rb
open HashTree
variable {V : Type} [SHA] [AsHashTree V]

theorem hasNode_fork {l r n : HashTree} {x : Bytes} {p : List Bytes} :
    HasNode (.fork l r) (x :: p) n ↔ HasNode l (x :: p) n ∨ HasNode r (x :: p) n := by
  constructor
  · intro h; cases h with
    | left h => exact .inl h
    | right h => exact .inr h
  · rintro (h | h)
    · exact .left h
    · exact .right h

theorem hasNode_empty {n : HashTree} {x : Bytes} {p : List Bytes} : ¬ HasNode .empty (x :: p) n := nofun
theorem hasNode_pruned {n : HashTree} {h : Hash} {x : Bytes} {p : List Bytes} : ¬ HasNode (.pruned h) (x :: p) n := nofun

theorem hasNode_labeled1 {k : Bytes} {m n : HashTree} {x : Bytes} {p : List Bytes} :
    HasNode (.labeled k m) (x :: p) n ↔ x = k ∧ HasNode m p n := by
  constructor
  · intro h; cases h with | down h => exact ⟨rfl, h⟩
  · rintro ⟨rfl, h⟩; exact .down h

theorem hasNode_threeWay {L M R n : HashTree} {x : Bytes} {p : List Bytes} :
    HasNode (threeWayFork L M R) (x :: p) n ↔ HasNode L (x :: p) n ∨ HasNode M (x :: p) n ∨ HasNode R (x :: p) n := by
  unfold threeWayFork
  split <;> simp [hasNode_fork, hasNode_empty, hasNode_pruned]

theorem hasNode_child {t : Rb V} {n : HashTree} {x : Bytes} {p : List Bytes} : ¬ HasNode t.childHashTree (x :: p) n := by
  cases t with
  | nil => exact hasNode_empty
  | node => exact hasNode_pruned

variable {f : Bytes → V → HashTree} {g : V → HashTree}

theorem show_full (hf : NodeFn f g) {t : Rb V} {x : Bytes} {p : List Bytes} {n : HashTree} :
    HasNode (t.fullWitnessTree f) (x :: p) n ↔ ∃ v, (x, v) ∈ t.forEach ∧ HasNode (g v) p n := by
  induction t with
  | nil => simp [fullWitnessTree, forEach, hasNode_empty]
  | node c l k v r h ihl ihr =>
    rw [fullWitnessTree, hasNode_threeWay, ihl, ihr, hf, hasNode_labeled1]
    simp only [forEach, List.mem_append, List.mem_cons, Prod.mk.injEq]
    constructor
    · rintro (⟨w, h1, h2⟩ | ⟨rfl, h2⟩ | ⟨w, h1, h2⟩)
      · exact ⟨w, .inl h1, h2⟩
      · exact ⟨v, .inr (.inl ⟨rfl, rfl⟩), h2⟩
      · exact ⟨w, .inr (.inr h1), h2⟩
    · rintro ⟨w, h1 | ⟨rfl, rfl⟩ | h1, h2⟩
      · exact .inl ⟨w, h1, h2⟩
      · exact .inr (.inl ⟨rfl, h2⟩)
      · exact .inr (.inr ⟨w, h1, h2⟩)

/-- what a bound node shows -/
theorem show_bound (hf : NodeFn f g) {b : KeyBound} {k : Bytes} {v : V} (hb : b.key = k) {x : Bytes} {p : List Bytes}
    {n : HashTree} (h : HasNode (boundTree f b k v) (x :: p) n) :
    x = k ∧ ((HasNode (g v) p n ∧ b = .exact k) ∨ (HasNode (.pruned (rootHash v)) p n ∧ b = .neighbor k)) := by
  cases b with
  | exact y =>
    change y = k at hb
    subst hb
    simp only [boundTree, hf y v, hasNode_labeled1] at h
    exact ⟨h.1, .inl ⟨h.2, rfl⟩⟩
  | neighbor y =>
    simp only [boundTree, witnessTree, hasNode_labeled1] at h
    exact ⟨h.1, .inr ⟨h.2, by rw [← hb]; rfl⟩⟩

theorem show_above (hf : NodeFn f g) {lo : KeyBound} {t : Rb V} (hs : t.Sorted) {x : Bytes} {p : List Bytes} {n : HashTree}
    (h : HasNode (t.witnessAbove lo f) (x :: p) n) :
    ∃ v, (x, v) ∈ t.forEach ∧ lo.key ≤ x ∧ ((HasNode (g v) p n ∧ lo ≠ .neighbor x) ∨ (HasNode (.pruned (rootHash v)) p n ∧ lo = .neighbor x)) := by
  induction t with
  | nil => exact absurd h hasNode_empty
  | node c l k v r hh ihl ihr =>
    have hs0 : SortedL (l.forEach ++ (k, v) :: r.forEach) := hs
    obtain ⟨s1, s2, s3, s4⟩ := sortedL_node.1 hs0
    have ml : ∀ {y}, y ∈ l.forEach → y ∈ (Rb.node c l k v r hh).forEach := fun h => by simp [forEach, h]
    have mr : ∀ {y}, y ∈ r.forEach → y ∈ (Rb.node c l k v r hh).forEach := fun h => by simp [forEach, h]
    have mk : (k, v) ∈ (Rb.node c l k v r hh).forEach := by simp [forEach]
    simp only [witnessAbove] at h
    cases hc : cmpB k lo.key with
    | eq =>
      have he := cmpB_eq.1 hc
      rw [hc] at h
      dsimp only at h
      rw [hasNode_threeWay] at h
      rcases h with h | h | h
      · exact absurd h hasNode_child
      · have h := show_bound hf he.symm h
        obtain ⟨e0, h⟩ := h
        subst e0
        refine ⟨v, mk, le_of_eq he.symm, ?_⟩
        rcases h with ⟨h, e⟩ | h
        · exact .inl ⟨h, by rw [e]; simp⟩
        · exact .inr h
      · obtain ⟨w, h1, h2⟩ := (show_full hf).1 h
        have := s4 _ h1
        rw [he] at this
        refine ⟨w, mr h1, le_of_lt this, .inl ⟨h2, ?_⟩⟩
        rintro rfl
        exact lt_irrefl _ this
    | lt =>
      simp only [hc, hasNode_threeWay, hasNode_child, hasNode_pruned, false_or] at h
      obtain ⟨w, h1, h2⟩ := ihr s2 h
      exact ⟨w, mr h1, h2⟩
    | gt =>
      have hlt := cmpB_gt.1 hc
      simp only [hc, hasNode_threeWay, hf k v, hasNode_labeled1] at h
      rcases h with h | ⟨rfl, h⟩ | h
      · obtain ⟨w, h1, h2⟩ := ihl s1 h
        exact ⟨w, ml h1, h2⟩
      · refine ⟨v, mk, le_of_lt hlt, .inl ⟨h, ?_⟩⟩
        rintro rfl
        exact lt_irrefl _ hlt
      · obtain ⟨w, h1, h2⟩ := (show_full hf).1 h
        have := lt_trans hlt (s4 _ h1)
        refine ⟨w, mr h1, le_of_lt this, .inl ⟨h2, ?_⟩⟩
        rintro rfl
        exact lt_irrefl _ this

theorem show_below (hf : NodeFn f g) {hi : KeyBound} {t : Rb V} (hs : t.Sorted) {x : Bytes} {p : List Bytes} {n : HashTree}
    (h : HasNode (t.witnessBelow hi f) (x :: p) n) :
    ∃ v, (x, v) ∈ t.forEach ∧ x ≤ hi.key ∧ ((HasNode (g v) p n ∧ hi ≠ .neighbor x) ∨ (HasNode (.pruned (rootHash v)) p n ∧ hi = .neighbor x)) := by
  induction t with
  | nil => exact absurd h hasNode_empty
  | node c l k v r hh ihl ihr =>
    have hs0 : SortedL (l.forEach ++ (k, v) :: r.forEach) := hs
    obtain ⟨s1, s2, s3, s4⟩ := sortedL_node.1 hs0
    have ml : ∀ {y}, y ∈ l.forEach → y ∈ (Rb.node c l k v r hh).forEach := fun h => by simp [forEach, h]
    have mr : ∀ {y}, y ∈ r.forEach → y ∈ (Rb.node c l k v r hh).forEach := fun h => by simp [forEach, h]
    have mk : (k, v) ∈ (Rb.node c l k v r hh).forEach := by simp [forEach]
    simp only [witnessBelow] at h
    cases hc : cmpB k hi.key with
    | eq =>
      have he := cmpB_eq.1 hc
      rw [hc] at h
      dsimp only at h
      rw [hasNode_threeWay] at h
      rcases h with h | h | h
      · obtain ⟨w, h1, h2⟩ := (show_full hf).1 h
        have := s3 _ h1
        rw [he] at this
        refine ⟨w, ml h1, le_of_lt this, .inl ⟨h2, ?_⟩⟩
        rintro rfl
        exact lt_irrefl _ this
      · have h := show_bound hf he.symm h
        obtain ⟨e0, h⟩ := h
        subst e0
        refine ⟨v, mk, le_of_eq he, ?_⟩
        rcases h with ⟨h, e⟩ | h
        · exact .inl ⟨h, by rw [e]; simp⟩
        · exact .inr h
      · exact absurd h hasNode_child
    | gt =>
      simp only [hc, hasNode_threeWay, hasNode_child, hasNode_pruned, or_false] at h
      obtain ⟨w, h1, h2⟩ := ihl s1 h
      exact ⟨w, ml h1, h2⟩
    | lt =>
      have hlt := cmpB_lt.1 hc
      simp only [hc, hasNode_threeWay, hf k v, hasNode_labeled1] at h
      rcases h with h | ⟨rfl, h⟩ | h
      · obtain ⟨w, h1, h2⟩ := (show_full hf).1 h
        have := lt_trans (s3 _ h1) hlt
        refine ⟨w, ml h1, le_of_lt this, .inl ⟨h2, ?_⟩⟩
        rintro rfl
        exact lt_irrefl _ this
      · refine ⟨v, mk, le_of_lt hlt, .inl ⟨h, ?_⟩⟩
        rintro rfl
        exact lt_irrefl _ hlt
      · obtain ⟨w, h1, h2⟩ := ihr s2 h
        exact ⟨w, mr h1, h2⟩

theorem show_between (hf : NodeFn f g) {lo hi : KeyBound} {t : Rb V} (hs : t.Sorted) (hle : lo.key ≤ hi.key) {x : Bytes}
    {p : List Bytes} {n : HashTree} (h : HasNode (t.witnessBetween lo hi f) (x :: p) n) :
    ∃ v, (x, v) ∈ t.forEach ∧ lo.key ≤ x ∧ x ≤ hi.key ∧
      ((HasNode (g v) p n ∧ (lo ≠ .neighbor x ∨ hi = .exact x) ∧ (hi ≠ .neighbor x ∨ lo = .exact x)) ∨
        (HasNode (.pruned (rootHash v)) p n ∧ (lo = .neighbor x ∨ hi = .neighbor x))) := by
  induction t with
  | nil => exact absurd h hasNode_empty
  | node c l k v r hh ihl ihr =>
    have hs0 : SortedL (l.forEach ++ (k, v) :: r.forEach) := hs
    obtain ⟨s1, s2, s3, s4⟩ := sortedL_node.1 hs0
    have ml : ∀ {y}, y ∈ l.forEach → y ∈ (Rb.node c l k v r hh).forEach := fun h => by simp [forEach, h]
    have mr : ∀ {y}, y ∈ r.forEach → y ∈ (Rb.node c l k v r hh).forEach := fun h => by simp [forEach, h]
    have mk : (k, v) ∈ (Rb.node c l k v r hh).forEach := by simp [forEach]
    have hl : HasNode (l.witnessBetween lo hi f) (x :: p) n → ∃ v', (x, v') ∈ (Rb.node c l k v r hh).forEach ∧ lo.key ≤ x ∧
        x ≤ hi.key ∧ ((HasNode (g v') p n ∧ (lo ≠ .neighbor x ∨ hi = .exact x) ∧ (hi ≠ .neighbor x ∨ lo = .exact x)) ∨
        (HasNode (.pruned (rootHash v')) p n ∧ (lo = .neighbor x ∨ hi = .neighbor x))) := fun h => by
      obtain ⟨w, h1, h2⟩ := ihl s1 h
      exact ⟨w, ml h1, h2⟩
    have hr : HasNode (r.witnessBetween lo hi f) (x :: p) n → ∃ v', (x, v') ∈ (Rb.node c l k v r hh).forEach ∧ lo.key ≤ x ∧
        x ≤ hi.key ∧ ((HasNode (g v') p n ∧ (lo ≠ .neighbor x ∨ hi = .exact x) ∧ (hi ≠ .neighbor x ∨ lo = .exact x)) ∨
        (HasNode (.pruned (rootHash v')) p n ∧ (lo = .neighbor x ∨ hi = .neighbor x))) := fun h => by
      obtain ⟨w, h1, h2⟩ := ihr s2 h
      exact ⟨w, mr h1, h2⟩
    have nn : ∀ {b : KeyBound} {y : Bytes}, b.key ≠ y → b ≠ .neighbor y := by
      rintro b y h rfl; exact h rfl
    simp only [witnessBetween] at h
    split at h
    · next c1 c2 =>
      have c1 := cmpB_lt.1 c1
      have c2 := cmpB_lt.1 c2
      simp only [hasNode_threeWay, hf k v, hasNode_labeled1] at h
      rcases h with h | ⟨rfl, h⟩ | h
      · exact hl h
      · exact ⟨v, mk, le_of_lt c1, le_of_lt c2, .inl ⟨h, .inl (nn (ne_of_lt c1)), .inl (nn (ne_of_gt c2))⟩⟩
      · exact hr h
    · next c1 c2 =>
      have c1 := cmpB_eq.1 c1
      have c2 := cmpB_eq.1 c2
      simp only [hasNode_threeWay, hasNode_child, or_false, false_or] at h
      split at h
      · rename_i y _
        change y = k at c1
        subst c1
        rw [hf, hasNode_labeled1] at h
        obtain ⟨rfl, h⟩ := h
        exact ⟨v, mk, le_refl _, by rw [c2], .inl ⟨h, .inl (by simp), .inr rfl⟩⟩
      · rename_i y _ _
        change k = y at c2
        subst c2
        rw [hf, hasNode_labeled1] at h
        obtain ⟨rfl, h⟩ := h
        exact ⟨v, mk, by rw [c1], le_refl _, .inl ⟨h, .inr rfl, .inl (by simp)⟩⟩
      · rw [witnessTree, hasNode_labeled1] at h
        obtain ⟨rfl, h⟩ := h
        refine ⟨v, mk, by rw [c1], by rw [← c2], .inr ⟨h, .inl ?_⟩⟩
        cases lo with
        | exact y => exact ((‹∀ k : Bytes, KeyBound.exact y = KeyBound.exact k → False›) y rfl).elim
        | neighbor y => rw [← c1]; rfl
    · next c2 c1 =>
      have c2 := cmpB_eq.1 c2
      have hne : lo.key ≠ k := fun e => c1 (cmpB_eq.2 e)
      simp only [hasNode_threeWay, hasNode_child, or_false, false_or] at h
      rcases h with h | h
      · exact hl h
      · have h := show_bound hf c2.symm h
        obtain ⟨rfl, h⟩ := h
        refine ⟨v, mk, by rw [c2]; exact hle, by rw [← c2], ?_⟩
        rcases h with ⟨h, e⟩ | h
        · exact .inl ⟨h, .inr e, .inl (by rw [e]; simp)⟩
        · exact .inr ⟨h.1, .inr h.2⟩
    · rename_i c1 _
      have c1 := cmpB_eq.1 c1
      simp only [hasNode_threeWay, hasNode_child, or_false, false_or] at h
      rcases h with h | h
      · have h := show_bound hf c1 h
        obtain ⟨rfl, h⟩ := h
        refine ⟨v, mk, by rw [c1], by rw [← c1]; exact hle, ?_⟩
        rcases h with ⟨h, e⟩ | h
        · exact .inl ⟨h, .inl (by rw [e]; simp), .inr e⟩
        · exact .inr ⟨h.1, .inl h.2⟩
      · exact hr h
    · simp only [hasNode_threeWay, hasNode_child, hasNode_pruned, or_false, false_or] at h
      exact hl h
    · simp only [hasNode_threeWay, hasNode_child, hasNode_pruned, or_false, false_or] at h
      exact hr h
    · exact absurd h hasNode_pruned

/-- what `subtree_with` shows: the key it was asked for and nothing else -/
theorem show_lookup {key : Bytes} {fo : V → Option HashTree} {t : Rb V} {w : HashTree} {x : Bytes} {p : List Bytes}
    {n : HashTree} (hw : t.lookupWitness key fo = some (some w)) (h : HasNode w (x :: p) n) :
    x = key ∧ ∃ v m, (x, v) ∈ t.forEach ∧ fo v = some m ∧ HasNode m p n := by
  induction t generalizing w with
  | nil => simp [lookupWitness] at hw
  | node c l k v r hh ihl ihr =>
    simp only [lookupWitness] at hw
    cases hc : cmpB key k with
    | eq =>
      simp only [hc] at hw
      have he := cmpB_eq.1 hc
      cases e : fo v with
      | none => simp [e] at hw
      | some m =>
        simp only [e, Option.bind_eq_bind, Option.bind_some, Option.some.injEq] at hw
        subst hw
        rw [hasNode_threeWay, hasNode_labeled1] at h
        rcases h with h | ⟨rfl, h⟩ | h
        · exact absurd h hasNode_child
        · exact ⟨he.symm, v, m, by simp [forEach], e, h⟩
        · exact absurd h hasNode_child
    | lt =>
      simp only [hc] at hw
      cases e : l.lookupWitness key fo with
      | none => simp [e] at hw
      | some o =>
        cases o with
        | none => simp [e] at hw
        | some s =>
          simp only [e, Option.bind_eq_bind, Option.bind_some, Option.some.injEq] at hw
          subst hw
          rw [hasNode_threeWay] at h
          rcases h with h | h | h
          · obtain ⟨h1, v', m, h2, h3⟩ := ihl e h
            exact ⟨h1, v', m, by simp [forEach, h2], h3⟩
          · exact absurd h hasNode_pruned
          · exact absurd h hasNode_child
    | gt =>
      simp only [hc] at hw
      cases e : r.lookupWitness key fo with
      | none => simp [e] at hw
      | some o =>
        cases o with
        | none => simp [e] at hw
        | some s =>
          simp only [e, Option.bind_eq_bind, Option.bind_some, Option.some.injEq] at hw
          subst hw
          rw [hasNode_threeWay] at h
          rcases h with h | h | h
          · exact absurd h hasNode_child
          · exact absurd h hasNode_pruned
          · obtain ⟨h1, v', m, h2, h3⟩ := ihr e h
            exact ⟨h1, v', m, by simp [forEach, h2], h3⟩

/-- nothing between a prefix and the neighbour on its right lacks the prefix -/
theorem rightPrefixNeighbor_min {t : Rb V} (hs : t.Sorted) (pre : Bytes) :
    match t.rightPrefixNeighbor pre with
    | none => ∀ a ∈ t.forEach, pre < a.1 → pre <+: a.1
    | some b => ∀ a ∈ t.forEach, pre < a.1 → a.1 < b.key → pre <+: a.1 := by
  induction t with
  | nil => simp [rightPrefixNeighbor, forEach]
  | node c l k v r h ihl ihr =>
    have hs0 : SortedL (l.forEach ++ (k, v) :: r.forEach) := hs
    obtain ⟨s1, s2, s3, s4⟩ := sortedL_node.1 hs0
    have i1 := ihl s1
    have i2 := ihr s2
    simp only [rightPrefixNeighbor]
    have key : ∀ {a : Bytes × V}, a ∈ (Rb.node c l k v r h).forEach → a ∈ l.forEach ∨ a = (k, v) ∨ a ∈ r.forEach := by
      intro a ha; simpa [forEach] using ha
    have goR : (∀ a ∈ l.forEach, pre < a.1 → pre <+: a.1) → (pre < k → pre <+: k) →
        (match r.rightPrefixNeighbor pre with
        | none => ∀ a ∈ (Rb.node c l k v r h).forEach, pre < a.1 → pre <+: a.1
        | some b => ∀ a ∈ (Rb.node c l k v r h).forEach, pre < a.1 → a.1 < b.key → pre <+: a.1) := by
      intro hl hk
      cases e : r.rightPrefixNeighbor pre with
      | none =>
        rw [e] at i2
        intro a ha hp
        rcases key ha with ha | rfl | ha
        · exact hl a ha hp
        · exact hk hp
        · exact i2 a ha hp
      | some b =>
        rw [e] at i2
        intro a ha hp hb
        rcases key ha with ha | rfl | ha
        · exact hl a ha hp
        · exact hk hp
        · exact i2 a ha hp hb
    have low : k ≤ pre → ∀ a ∈ l.forEach, pre < a.1 → pre <+: a.1 := fun hk a ha hp =>
      absurd (lt_trans hp (s3 a ha)) (not_lt.2 hk)
    cases hc : cmpB k pre with
    | lt =>
      have hk := cmpB_lt.1 hc
      exact goR (low hk.le) (fun h' => absurd h' (not_lt.2 hk.le))
    | eq =>
      have hk := cmpB_eq.1 hc
      exact goR (low hk.le) (fun h' => absurd h' (not_lt.2 hk.le))
    | gt =>
      by_cases hp : isPrefixOf pre k = true
      · simp only [hp, if_true]
        have hp' := isPrefixOf_iff.1 hp
        refine goR (fun a ha hlt => ?_) (fun _ => hp')
        by_contra hn
        exact lt_asymm (s3 a ha) (lt_of_not_prefix hp' hlt hn)
      · simp only [hp, if_false, Bool.false_eq_true]
        cases e : l.rightPrefixNeighbor pre with
        | none =>
          rw [e] at i1
          intro a ha hpa hb
          rcases key ha with ha | rfl | ha
          · exact i1 a ha hpa
          · exact absurd hb (lt_irrefl _)
          · exact absurd hb (lt_asymm (s4 a ha))
        | some b =>
          rw [e] at i1
          have hb' := rightPrefixNeighbor_spec (t := l) pre
          rw [e] at hb'
          obtain ⟨⟨w, hbm⟩, _⟩ := hb'
          have hbk := s3 _ hbm
          intro a ha hpa hb
          rcases key ha with ha | rfl | ha
          · exact i1 a ha hpa hb
          · exact absurd hb (lt_asymm hbk)
          · exact absurd hb (lt_asymm (lt_trans hbk (s4 a ha)))

theorem lowerBound_exact {t : Rb V} {key x : Bytes} (h : t.lowerBound key = some (.exact x)) : x = key := by
  induction t with
  | nil => simp [lowerBound] at h
  | node c l k v r hh ihl ihr =>
    simp only [lowerBound] at h
    cases hc : cmpB k key with
    | lt =>
      simp only [hc] at h
      cases e : r.lowerBound key with
      | none => simp [e] at h
      | some b => simp only [e] at h; exact ihr (by rw [e]; exact h)
    | eq => simp only [hc, Option.some.injEq, KeyBound.exact.injEq] at h; rw [← h]; exact cmpB_eq.1 hc
    | gt => simp only [hc] at h; exact ihl h

theorem upperBound_exact {t : Rb V} {key x : Bytes} (h : t.upperBound key = some (.exact x)) : x = key := by
  induction t with
  | nil => simp [upperBound] at h
  | node c l k v r hh ihl ihr =>
    simp only [upperBound] at h
    cases hc : cmpB k key with
    | gt =>
      simp only [hc] at h
      cases e : l.upperBound key with
      | none => simp [e] at h
      | some b => simp only [e] at h; exact ihl (by rw [e]; exact h)
    | eq => simp only [hc, Option.some.injEq, KeyBound.exact.injEq] at h; rw [← h]; exact cmpB_eq.1 hc
    | lt => simp only [hc] at h; exact ihr h

theorem hasNode_pruned_iff {h : Hash} {p : List Bytes} {n : HashTree} : HasNode (.pruned h) p n ↔ p = [] ∧ n = .pruned h := by
  constructor
  · intro h; cases h; exact ⟨rfl, rfl⟩
  · rintro ⟨rfl, rfl⟩; exact .here _

end Rb
end Verif
