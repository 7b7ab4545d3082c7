import Verif.Lemmas.RbWitness

set_option linter.unusedSimpArgs false
set_option linter.unusedSectionVars false

namespace Verif
namespace Rb
open HashTree
variable {V : Type} [SHA] [AsHashTree V]

/-- how `lookup_label` combines the two sides of a fork -/
def comb (a b : LabelResult) : LabelResult :=
  match a with
  | .greater => match b with
    | .less => .absent
    | res => res
  | .unknown => match b with
    | .less => .unknown
    | res => res
  | res => res

theorem lookupLabel_fork (x : Bytes) (l r : HashTree) :
    (HashTree.fork l r).lookupLabel x = comb (l.lookupLabel x) (r.lookupLabel x) := by
  simp only [lookupLabel, comb]
  cases l.lookupLabel x <;> cases r.lookupLabel x <;> rfl

theorem lookup_threeWay (x : Bytes) {L M R : HashTree} (hm : M ≠ .empty) :
    (threeWayFork L M R).lookupLabel x =
      if L = .empty then (if R = .empty then M.lookupLabel x else comb (M.lookupLabel x) (R.lookupLabel x))
      else if R = .empty then comb (L.lookupLabel x) (M.lookupLabel x)
      else comb (L.lookupLabel x) (comb (M.lookupLabel x) (R.lookupLabel x)) := by
  cases L <;> cases M <;> cases R <;>
    first
    | exact absurd rfl hm
    | (simp only [threeWayFork, if_true, reduceCtorEq, if_false, lookupLabel_fork]; done)
    | (simp only [threeWayFork, if_true, reduceCtorEq, if_false, lookupLabel_fork]; simp [lookupLabel, comb])

/-- what a decided lookup of `x` says about the (non-empty, sorted) list of entries of a subtree -/
def RL (g : V → HashTree) (xs : List (Bytes × V)) (x : Bytes) : LabelResult → Prop
  | .less => ∀ a ∈ xs, x < a.1
  | .greater => ∀ a ∈ xs, a.1 < x
  | .absent => (∀ a ∈ xs, a.1 ≠ x) ∧ (∃ a ∈ xs, a.1 < x) ∧ (∃ b ∈ xs, x < b.1)
  | .found n => ∃ v, (x, v) ∈ xs ∧ n = g v
  | .unknown => False

variable {g : V → HashTree} {xs ys : List (Bytes × V)} {x : Bytes}

theorem RL_comb {a b : LabelResult} (ha : RL g xs x a) (hb : RL g ys x b) (nx : xs ≠ []) (ny : ys ≠ [])
    (hlt : ∀ p ∈ xs, ∀ q ∈ ys, p.1 < q.1) : RL g (xs ++ ys) x (comb a b) := by
  obtain ⟨p0, hp0⟩ := List.exists_mem_of_ne_nil _ nx
  obtain ⟨q0, hq0⟩ := List.exists_mem_of_ne_nil _ ny
  cases a with
  | unknown => exact ha.elim
  | less =>
    intro q hq
    simp at hq
    rcases hq with hq | hq
    · exact ha q hq
    · exact lt_trans (ha p0 hp0) (hlt p0 hp0 q hq)
  | absent =>
    obtain ⟨h1, ⟨u, hu, hux⟩, w, hw, hwx⟩ := ha
    refine ⟨?_, ⟨u, by simp [hu], hux⟩, w, by simp [hw], hwx⟩
    intro q hq
    simp at hq
    rcases hq with hq | hq
    · exact h1 q hq
    · exact ne_of_gt (lt_trans hwx (hlt w hw q hq))
  | found n =>
    obtain ⟨v, hv, hn⟩ := ha
    exact ⟨v, by simp [hv], hn⟩
  | greater =>
    cases b with
    | unknown => exact hb.elim
    | less =>
      refine ⟨?_, ⟨p0, by simp [hp0], ha p0 hp0⟩, q0, by simp [hq0], hb q0 hq0⟩
      intro q hq
      simp at hq
      rcases hq with hq | hq
      · exact ne_of_lt (ha q hq)
      · exact ne_of_gt (hb q hq)
    | greater =>
      intro q hq
      simp at hq
      rcases hq with hq | hq
      · exact ha q hq
      · exact hb q hq
    | absent =>
      obtain ⟨h1, ⟨u, hu, hux⟩, w, hw, hwx⟩ := hb
      refine ⟨?_, ⟨u, by simp [hu], hux⟩, w, by simp [hw], hwx⟩
      intro q hq
      simp at hq
      rcases hq with hq | hq
      · exact ne_of_lt (ha q hq)
      · exact h1 q hq
    | found n =>
      obtain ⟨v, hv, hn⟩ := hb
      exact ⟨v, by simp [hv], hn⟩

theorem RL_combU {b : LabelResult} (hb : RL g ys x b) (he : ∃ q ∈ ys, q.1 ≤ x)
    (hlt : ∀ p ∈ xs, ∀ q ∈ ys, p.1 < q.1) : RL g (xs ++ ys) x (comb .unknown b) := by
  obtain ⟨q0, hq0, hle⟩ := he
  have hx : ∀ p ∈ xs, p.1 < x := fun p hp => lt_of_lt_of_le (hlt p hp q0 hq0) hle
  cases b with
  | unknown => exact hb.elim
  | less => exact absurd hle (not_le.2 (hb q0 hq0))
  | greater =>
    intro q hq
    simp at hq
    rcases hq with hq | hq
    · exact hx q hq
    · exact hb q hq
  | absent =>
    obtain ⟨h1, ⟨u, hu, hux⟩, w, hw, hwx⟩ := hb
    refine ⟨?_, ⟨u, by simp [hu], hux⟩, w, by simp [hw], hwx⟩
    intro q hq
    simp at hq
    rcases hq with hq | hq
    · exact ne_of_lt (hx q hq)
    · exact h1 q hq
  | found n =>
    obtain ⟨v, hv, hn⟩ := hb
    exact ⟨v, by simp [hv], hn⟩

theorem RL_comb' {a b : LabelResult} (ha : RL g xs x a) (he : ∃ p ∈ xs, x ≤ p.1)
    (hlt : ∀ p ∈ xs, ∀ q ∈ ys, p.1 < q.1) : RL g (xs ++ ys) x (comb a b) := by
  obtain ⟨p0, hp0, hle⟩ := he
  have hx : ∀ q ∈ ys, x < q.1 := fun q hq => lt_of_le_of_lt hle (hlt p0 hp0 q hq)
  cases a with
  | unknown => exact ha.elim
  | greater => exact absurd hle (not_le.2 (ha p0 hp0))
  | less =>
    intro q hq
    simp at hq
    rcases hq with hq | hq
    · exact ha q hq
    · exact hx q hq
  | absent =>
    obtain ⟨h1, ⟨u, hu, hux⟩, w, hw, hwx⟩ := ha
    refine ⟨?_, ⟨u, by simp [hu], hux⟩, w, by simp [hw], hwx⟩
    intro q hq
    simp at hq
    rcases hq with hq | hq
    · exact h1 q hq
    · exact ne_of_gt (hx q hq)
  | found n =>
    obtain ⟨v, hv, hn⟩ := ha
    exact ⟨v, by simp [hv], hn⟩

/-! Six ways in which the three parts around a node can be known (K) or pruned (U). -/
section parts
variable {L M R : HashTree} {k : Bytes} {v : V}

theorem RL_KKK (hm : M ≠ .empty) (hl : L = .empty ↔ xs = []) (hr : R = .empty ↔ ys = [])
    (hs : SortedL (xs ++ (k, v) :: ys))
    (kl : xs ≠ [] → RL g xs x (L.lookupLabel x)) (km : RL g [(k, v)] x (M.lookupLabel x))
    (kr : ys ≠ [] → RL g ys x (R.lookupLabel x)) :
    RL g (xs ++ (k, v) :: ys) x ((threeWayFork L M R).lookupLabel x) := by
  obtain ⟨s1, s2, s3, s4⟩ := sortedL_node.1 hs
  rw [lookup_threeWay x hm]
  have h4 : ys ≠ [] → RL g ((k, v) :: ys) x (comb (M.lookupLabel x) (R.lookupLabel x)) := fun h =>
    RL_comb (xs := [(k, v)]) km (kr h) (by simp) h (by simpa using s4)
  by_cases h1 : L = .empty
  · have h1' := hl.1 h1
    rw [if_pos h1]; subst h1'
    by_cases h2 : R = .empty
    · have h2' := hr.1 h2
      rw [if_pos h2]; subst h2'; exact km
    · rw [if_neg h2]
      exact h4 (fun h => h2 (hr.2 h))
  · rw [if_neg h1]
    have nx : xs ≠ [] := fun h => h1 (hl.2 h)
    by_cases h2 : R = .empty
    · have h2' := hr.1 h2
      rw [if_pos h2]; subst h2'
      exact RL_comb (kl nx) km nx (by simp) (by simpa using s3)
    · rw [if_neg h2]
      refine RL_comb (kl nx) (h4 (fun h => h2 (hr.2 h))) nx (by simp) ?_
      intro p hp q hq
      simp at hq
      rcases hq with rfl | hq
      · exact s3 p hp
      · exact lt_trans (s3 p hp) (s4 q hq)

theorem s34 (hs : SortedL (xs ++ (k, v) :: ys)) : ∀ p ∈ xs, ∀ q ∈ (k, v) :: ys, p.1 < q.1 := by
  obtain ⟨s1, s2, s3, s4⟩ := sortedL_node.1 hs
  intro p hp q hq
  simp at hq
  rcases hq with rfl | hq
  · exact s3 p hp
  · exact lt_trans (s3 p hp) (s4 q hq)

theorem s43 (hs : SortedL (xs ++ (k, v) :: ys)) : ∀ p ∈ xs ++ [(k, v)], ∀ q ∈ ys, p.1 < q.1 := by
  obtain ⟨s1, s2, s3, s4⟩ := sortedL_node.1 hs
  intro p hp q hq
  simp at hp
  rcases hp with hp | rfl
  · exact lt_trans (s3 p hp) (s4 q hq)
  · exact s4 q hq

theorem RL_UKK (hm : M ≠ .empty) (hl : L = .empty ↔ xs = []) (hr : R = .empty ↔ ys = [])
    (hs : SortedL (xs ++ (k, v) :: ys)) (hkx : k ≤ x)
    (kl : xs ≠ [] → L.lookupLabel x = .unknown) (km : RL g [(k, v)] x (M.lookupLabel x))
    (kr : ys ≠ [] → RL g ys x (R.lookupLabel x)) :
    RL g (xs ++ (k, v) :: ys) x ((threeWayFork L M R).lookupLabel x) := by
  obtain ⟨s1, s2, s3, s4⟩ := sortedL_node.1 hs
  rw [lookup_threeWay x hm]
  have h4 : ys ≠ [] → RL g ((k, v) :: ys) x (comb (M.lookupLabel x) (R.lookupLabel x)) := fun h =>
    RL_comb (xs := [(k, v)]) km (kr h) (by simp) h (by simpa using s4)
  by_cases h1 : L = .empty
  · have h1' := hl.1 h1
    rw [if_pos h1]; subst h1'
    by_cases h2 : R = .empty
    · have h2' := hr.1 h2
      rw [if_pos h2]; subst h2'; exact km
    · rw [if_neg h2]
      exact h4 (fun h => h2 (hr.2 h))
  · rw [if_neg h1]
    have nx : xs ≠ [] := fun h => h1 (hl.2 h)
    rw [kl nx]
    by_cases h2 : R = .empty
    · have h2' := hr.1 h2
      rw [if_pos h2]; subst h2'
      exact RL_combU km ⟨(k, v), by simp, hkx⟩ (s34 hs)
    · rw [if_neg h2]
      exact RL_combU (h4 (fun h => h2 (hr.2 h))) ⟨(k, v), by simp, hkx⟩ (s34 hs)

theorem RL_KKU (hm : M ≠ .empty) (hl : L = .empty ↔ xs = []) (hr : R = .empty ↔ ys = [])
    (hs : SortedL (xs ++ (k, v) :: ys)) (hkx : x ≤ k)
    (kl : xs ≠ [] → RL g xs x (L.lookupLabel x)) (km : RL g [(k, v)] x (M.lookupLabel x)) :
    RL g (xs ++ (k, v) :: ys) x ((threeWayFork L M R).lookupLabel x) := by
  obtain ⟨s1, s2, s3, s4⟩ := sortedL_node.1 hs
  rw [lookup_threeWay x hm]
  have h4 : RL g ((k, v) :: ys) x (comb (M.lookupLabel x) (R.lookupLabel x)) :=
    RL_comb' (xs := [(k, v)]) km ⟨(k, v), by simp, hkx⟩ (by simpa using s4)
  by_cases h1 : L = .empty
  · have h1' := hl.1 h1
    rw [if_pos h1]; subst h1'
    by_cases h2 : R = .empty
    · have h2' := hr.1 h2
      rw [if_pos h2]; subst h2'; exact km
    · rw [if_neg h2]
      exact h4
  · rw [if_neg h1]
    have nx : xs ≠ [] := fun h => h1 (hl.2 h)
    by_cases h2 : R = .empty
    · have h2' := hr.1 h2
      rw [if_pos h2]; subst h2'
      exact RL_comb (kl nx) km nx (by simp) (s34 hs)
    · rw [if_neg h2]
      exact RL_comb (kl nx) h4 nx (by simp) (s34 hs)

theorem RL_UKU (hm : M ≠ .empty) (hl : L = .empty ↔ xs = []) (hr : R = .empty ↔ ys = [])
    (hs : SortedL (xs ++ (k, v) :: ys)) (hkx : x = k)
    (kl : xs ≠ [] → L.lookupLabel x = .unknown) (km : RL g [(k, v)] x (M.lookupLabel x)) :
    RL g (xs ++ (k, v) :: ys) x ((threeWayFork L M R).lookupLabel x) := by
  obtain ⟨s1, s2, s3, s4⟩ := sortedL_node.1 hs
  rw [lookup_threeWay x hm]
  have h4 : RL g ((k, v) :: ys) x (comb (M.lookupLabel x) (R.lookupLabel x)) :=
    RL_comb' (xs := [(k, v)]) km ⟨(k, v), by simp, hkx.le⟩ (by simpa using s4)
  by_cases h1 : L = .empty
  · have h1' := hl.1 h1
    rw [if_pos h1]; subst h1'
    by_cases h2 : R = .empty
    · have h2' := hr.1 h2
      rw [if_pos h2]; subst h2'; exact km
    · rw [if_neg h2]
      exact h4
  · rw [if_neg h1]
    have nx : xs ≠ [] := fun h => h1 (hl.2 h)
    rw [kl nx]
    by_cases h2 : R = .empty
    · have h2' := hr.1 h2
      rw [if_pos h2]; subst h2'
      exact RL_combU km ⟨(k, v), by simp, hkx.ge⟩ (s34 hs)
    · rw [if_neg h2]
      exact RL_combU h4 ⟨(k, v), by simp, hkx.ge⟩ (s34 hs)

theorem RL_UUK (hm : M ≠ .empty) (hl : L = .empty ↔ xs = []) (hr : R = .empty ↔ ys = [])
    (hs : SortedL (xs ++ (k, v) :: ys)) (he : ∃ q ∈ ys, q.1 ≤ x)
    (kl : xs ≠ [] → L.lookupLabel x = .unknown) (km : M.lookupLabel x = .unknown)
    (kr : RL g ys x (R.lookupLabel x)) :
    RL g (xs ++ (k, v) :: ys) x ((threeWayFork L M R).lookupLabel x) := by
  obtain ⟨s1, s2, s3, s4⟩ := sortedL_node.1 hs
  rw [lookup_threeWay x hm]
  have h4 : RL g ((k, v) :: ys) x (comb (M.lookupLabel x) (R.lookupLabel x)) := by
    rw [km]; exact RL_combU (xs := [(k, v)]) kr he (by simpa using s4)
  have h2 : R ≠ .empty := fun h => by
    obtain ⟨q, hq, _⟩ := he; rw [hr.1 h] at hq; simp at hq
  rw [if_neg h2]
  by_cases h1 : L = .empty
  · have h1' := hl.1 h1
    rw [if_pos h1]; subst h1'; exact h4
  · rw [if_neg h1]
    have nx : xs ≠ [] := fun h => h1 (hl.2 h)
    rw [kl nx, if_neg h2]
    obtain ⟨q, hq, hqx⟩ := he
    exact RL_combU h4 ⟨q, by simp [hq], hqx⟩ (s34 hs)

theorem RL_KUU (hm : M ≠ .empty) (hl : L = .empty ↔ xs = [])
    (hs : SortedL (xs ++ (k, v) :: ys)) (he : ∃ q ∈ xs, x ≤ q.1)
    (kl : RL g xs x (L.lookupLabel x)) (hr : R = .empty ↔ ys = []) :
    RL g (xs ++ (k, v) :: ys) x ((threeWayFork L M R).lookupLabel x) := by
  obtain ⟨s1, s2, s3, s4⟩ := sortedL_node.1 hs
  rw [lookup_threeWay x hm]
  have h1 : L ≠ .empty := fun h => by
    obtain ⟨q, hq, _⟩ := he; rw [hl.1 h] at hq; simp at hq
  rw [if_neg h1]
  by_cases h2 : R = .empty
  · have h2' := hr.1 h2
    rw [if_pos h2]; subst h2'
    exact RL_comb' kl he (s34 hs)
  · rw [if_neg h2]
    exact RL_comb' kl he (s34 hs)

end parts

theorem RL_single {k : Bytes} {v : V} {n : HashTree} (h : x = k → n = g v) :
    RL g [(k, v)] x ((HashTree.labeled k n).lookupLabel x) := by
  simp only [lookupLabel]
  cases hc : cmpB x k with
  | lt => simpa [RL] using cmpB_lt.1 hc
  | gt => simpa [RL] using cmpB_gt.1 hc
  | eq => have := cmpB_eq.1 hc; subst this; exact ⟨v, by simp, h rfl⟩

theorem forEach_nil_iff {t : Rb V} : t.forEach = [] ↔ t = .nil := by
  cases t <;> simp [forEach]

theorem child_unknown {t : Rb V} : t.forEach ≠ [] → t.childHashTree.lookupLabel x = .unknown := by
  cases t <;> simp [forEach, childHashTree, lookupLabel]

theorem child_iff {t : Rb V} : t.childHashTree = .empty ↔ t.forEach = [] := by
  rw [childHashTree_empty_iff, forEach_nil_iff]

theorem RL_full {f : Bytes → V → HashTree} (hf : NodeFn f g) {t : Rb V} (hs : t.Sorted) (x : Bytes)
    (hn : t ≠ .nil) : RL g t.forEach x ((t.fullWitnessTree f).lookupLabel x) := by
  induction t with
  | nil => exact absurd rfl hn
  | node c l k v r h ihl ihr =>
    have hs0 : SortedL (l.forEach ++ (k, v) :: r.forEach) := hs
    obtain ⟨s1, s2, s3, s4⟩ := sortedL_node.1 hs0
    simp only [fullWitnessTree, forEach]
    refine RL_KKK (hf.ne_empty k v) ?_ ?_ hs0 ?_ ?_ ?_
    · rw [fullWitness_empty_iff hf.ne_empty, forEach_nil_iff]
    · rw [fullWitness_empty_iff hf.ne_empty, forEach_nil_iff]
    · intro h; exact ihl s1 (fun hh => h (forEach_nil_iff.2 hh))
    · rw [hf]; exact RL_single (fun _ => rfl)
    · intro h; exact ihr s2 (fun hh => h (forEach_nil_iff.2 hh))

/-- the bound is an entry of the subtree or lies entirely below it -/
def LoOK (lo : Bytes) (xs : List (Bytes × V)) : Prop := (∃ v, (lo, v) ∈ xs) ∨ ∀ a ∈ xs, lo < a.1
def HiOK (hi : Bytes) (xs : List (Bytes × V)) : Prop := (∃ v, (hi, v) ∈ xs) ∨ ∀ a ∈ xs, a.1 < hi

theorem LoOK.left {lo : Bytes} {k : Bytes} {v : V} (hs : SortedL (xs ++ (k, v) :: ys))
    (h : LoOK lo (xs ++ (k, v) :: ys)) (hk : lo < k) : LoOK lo xs := by
  obtain ⟨s1, s2, s3, s4⟩ := sortedL_node.1 hs
  rcases h with ⟨w, hw⟩ | h
  · simp at hw
    rcases hw with hw | ⟨rfl, _⟩ | hw
    · exact .inl ⟨w, hw⟩
    · exact absurd hk (lt_irrefl _)
    · exact absurd (lt_trans hk (s4 _ hw)) (lt_irrefl _)
  · exact .inr (fun a ha => h a (by simp [ha]))

theorem LoOK.right_of_lt {lo : Bytes} {k : Bytes} {v : V} (hs : SortedL (xs ++ (k, v) :: ys))
    (h : LoOK lo (xs ++ (k, v) :: ys)) (hk : k < lo) : ∃ w, (lo, w) ∈ ys := by
  obtain ⟨s1, s2, s3, s4⟩ := sortedL_node.1 hs
  rcases h with ⟨w, hw⟩ | h
  · simp at hw
    rcases hw with hw | ⟨rfl, _⟩ | hw
    · exact absurd (lt_trans hk (s3 _ hw)) (lt_irrefl _)
    · exact absurd hk (lt_irrefl _)
    · exact ⟨w, hw⟩
  · exact absurd (lt_trans hk (h (k, v) (by simp))) (lt_irrefl _)

theorem LoOK.right_of_le {lo : Bytes} {k : Bytes} {v : V} (hs : SortedL (xs ++ (k, v) :: ys))
    (hk : lo ≤ k) : LoOK lo ys := by
  obtain ⟨s1, s2, s3, s4⟩ := sortedL_node.1 hs
  exact .inr (fun a ha => lt_of_le_of_lt hk (s4 a ha))

theorem HiOK.right {hi : Bytes} {k : Bytes} {v : V} (hs : SortedL (xs ++ (k, v) :: ys))
    (h : HiOK hi (xs ++ (k, v) :: ys)) (hk : k < hi) : HiOK hi ys := by
  obtain ⟨s1, s2, s3, s4⟩ := sortedL_node.1 hs
  rcases h with ⟨w, hw⟩ | h
  · simp at hw
    rcases hw with hw | ⟨rfl, _⟩ | hw
    · exact absurd (lt_trans hk (s3 _ hw)) (lt_irrefl _)
    · exact absurd hk (lt_irrefl _)
    · exact .inl ⟨w, hw⟩
  · exact .inr (fun a ha => h a (by simp [ha]))

theorem HiOK.left_of_lt {hi : Bytes} {k : Bytes} {v : V} (hs : SortedL (xs ++ (k, v) :: ys))
    (h : HiOK hi (xs ++ (k, v) :: ys)) (hk : hi < k) : ∃ w, (hi, w) ∈ xs := by
  obtain ⟨s1, s2, s3, s4⟩ := sortedL_node.1 hs
  rcases h with ⟨w, hw⟩ | h
  · simp at hw
    rcases hw with hw | ⟨rfl, _⟩ | hw
    · exact ⟨w, hw⟩
    · exact absurd hk (lt_irrefl _)
    · exact absurd (lt_trans hk (s4 _ hw)) (lt_irrefl _)
  · exact absurd (lt_trans hk (h (k, v) (by simp))) (lt_irrefl _)

theorem HiOK.left_of_le {hi : Bytes} {k : Bytes} {v : V} (hs : SortedL (xs ++ (k, v) :: ys))
    (hk : k ≤ hi) : HiOK hi xs := by
  obtain ⟨s1, s2, s3, s4⟩ := sortedL_node.1 hs
  exact .inr (fun a ha => lt_of_lt_of_le (s3 a ha) hk)

/-- `x` is not the key of a bound that is a neighbour -/
def NotNb (b : KeyBound) (x : Bytes) : Prop := ∀ k, b = .neighbor k → x ≠ k

theorem RL_bound {f : Bytes → V → HashTree} (hf : NodeFn f g) {b : KeyBound} {k : Bytes} {v : V}
    (hb : NotNb b x) (hk : k = b.key) : RL g [(k, v)] x ((boundTree f b k v).lookupLabel x) := by
  cases b with
  | exact k' => simp only [boundTree]; rw [hf]; exact RL_single (fun _ => rfl)
  | neighbor k' =>
    simp only [boundTree, witnessTree]
    exact RL_single (fun h => absurd (h.trans hk) (hb k' rfl))

variable {f : Bytes → V → HashTree}

theorem above_iff (hf : NodeFn f g) {t : Rb V} (lo : KeyBound) : t.witnessAbove lo f = .empty ↔ t.forEach = [] := by
  rw [forEach_nil_iff]
  cases t with
  | nil => simp [witnessAbove]
  | node c l k v r h =>
    simp only [witnessAbove, reduceCtorEq, iff_false]
    split
    · exact threeWay_ne_empty (boundTree_ne_empty hf lo k v)
    · exact threeWay_ne_empty (by simp)
    · exact threeWay_ne_empty (hf.ne_empty k v)

theorem below_iff (hf : NodeFn f g) {t : Rb V} (hi : KeyBound) : t.witnessBelow hi f = .empty ↔ t.forEach = [] := by
  rw [forEach_nil_iff]
  cases t with
  | nil => simp [witnessBelow]
  | node c l k v r h =>
    simp only [witnessBelow, reduceCtorEq, iff_false]
    split
    · exact threeWay_ne_empty (boundTree_ne_empty hf hi k v)
    · exact threeWay_ne_empty (by simp)
    · exact threeWay_ne_empty (hf.ne_empty k v)

theorem between_iff (hf : NodeFn f g) {t : Rb V} (lo hi : KeyBound) :
    t.witnessBetween lo hi f = .empty ↔ t.forEach = [] := by
  rw [forEach_nil_iff]
  cases t with
  | nil => simp [witnessBetween]
  | node c l k v r h =>
    simp only [witnessBetween, reduceCtorEq, iff_false]
    split
    · exact threeWay_ne_empty (hf.ne_empty k v)
    · exact threeWay_ne_empty (both_ne_empty hf lo hi)
    · exact threeWay_ne_empty (boundTree_ne_empty hf hi k v)
    · exact threeWay_ne_empty (boundTree_ne_empty hf lo k v)
    · exact threeWay_ne_empty (by simp)
    · exact threeWay_ne_empty (by simp)
    · simp

theorem full_iff (hf : NodeFn f g) {t : Rb V} : t.fullWitnessTree f = .empty ↔ t.forEach = [] := by
  rw [fullWitness_empty_iff hf.ne_empty, forEach_nil_iff]

theorem RL_above (hf : NodeFn f g) {lo : KeyBound} {t : Rb V} (hs : t.Sorted)
    (hlo : LoOK lo.key t.forEach) (hx : lo.key ≤ x) (hnb : NotNb lo x) (hn : t.forEach ≠ []) :
    RL g t.forEach x ((t.witnessAbove lo f).lookupLabel x) := by
  induction t with
  | nil => exact absurd rfl hn
  | node c l k v r h ihl ihr =>
    have hs0 : SortedL (l.forEach ++ (k, v) :: r.forEach) := hs
    obtain ⟨s1, s2, s3, s4⟩ := sortedL_node.1 hs0
    simp only [witnessAbove, forEach] at hlo ⊢
    have fr : r.forEach ≠ [] → RL g r.forEach x ((r.fullWitnessTree f).lookupLabel x) := fun h =>
      RL_full hf s2 x (fun hh => h (forEach_nil_iff.2 hh))
    cases hc : cmpB k lo.key with
    | eq =>
      have hk := cmpB_eq.1 hc
      exact RL_UKK (boundTree_ne_empty hf lo k v) child_iff (full_iff hf) hs0 (hk ▸ hx) child_unknown
        (RL_bound hf hnb hk) fr
    | lt =>
      obtain ⟨w, hw⟩ := hlo.right_of_lt hs0 (cmpB_lt.1 hc)
      refine RL_UUK (by simp) child_iff (above_iff hf lo) hs0 ⟨_, hw, hx⟩ child_unknown rfl
        (ihr s2 (.inl ⟨w, hw⟩) ?_)
      exact List.ne_nil_of_mem hw
    | gt =>
      refine RL_KKK (hf.ne_empty k v) (above_iff hf lo) (full_iff hf) hs0
        (fun h => ihl s1 (hlo.left hs0 (cmpB_gt.1 hc)) h) ?_ fr
      rw [hf]; exact RL_single (fun _ => rfl)

theorem RL_below (hf : NodeFn f g) {hi : KeyBound} {t : Rb V} (hs : t.Sorted)
    (hhi : HiOK hi.key t.forEach) (hx : x ≤ hi.key) (hnb : NotNb hi x) (hn : t.forEach ≠ []) :
    RL g t.forEach x ((t.witnessBelow hi f).lookupLabel x) := by
  induction t with
  | nil => exact absurd rfl hn
  | node c l k v r h ihl ihr =>
    have hs0 : SortedL (l.forEach ++ (k, v) :: r.forEach) := hs
    obtain ⟨s1, s2, s3, s4⟩ := sortedL_node.1 hs0
    simp only [witnessBelow, forEach] at hhi ⊢
    have fl : l.forEach ≠ [] → RL g l.forEach x ((l.fullWitnessTree f).lookupLabel x) := fun h =>
      RL_full hf s1 x (fun hh => h (forEach_nil_iff.2 hh))
    cases hc : cmpB k hi.key with
    | eq =>
      have hk := cmpB_eq.1 hc
      exact RL_KKU (boundTree_ne_empty hf hi k v) (full_iff hf) child_iff hs0 (hk ▸ hx) fl
        (RL_bound hf hnb hk)
    | gt =>
      obtain ⟨w, hw⟩ := hhi.left_of_lt hs0 (cmpB_gt.1 hc)
      refine RL_KUU (by simp) (below_iff hf hi) hs0 ⟨_, hw, hx⟩
        (ihl s1 (.inl ⟨w, hw⟩) ?_) child_iff
      exact List.ne_nil_of_mem hw
    | lt =>
      refine RL_KKK (hf.ne_empty k v) (full_iff hf) (below_iff hf hi) hs0 fl ?_
        (fun h => ihr s2 (hhi.right hs0 (cmpB_lt.1 hc)) h)
      rw [hf]; exact RL_single (fun _ => rfl)

theorem RL_between (hf : NodeFn f g) {lo hi : KeyBound} {t : Rb V} (hs : t.Sorted)
    (hlo : LoOK lo.key t.forEach) (hhi : HiOK hi.key t.forEach) (hx : lo.key ≤ x) (hx' : x ≤ hi.key)
    (hnb : NotNb lo x) (hnb' : NotNb hi x) (hn : t.forEach ≠ []) :
    RL g t.forEach x ((t.witnessBetween lo hi f).lookupLabel x) := by
  induction t with
  | nil => exact absurd rfl hn
  | node c l k v r h ihl ihr =>
    have hs0 : SortedL (l.forEach ++ (k, v) :: r.forEach) := hs
    obtain ⟨s1, s2, s3, s4⟩ := sortedL_node.1 hs0
    simp only [witnessBetween, forEach] at hlo hhi ⊢
    have hlh : lo.key ≤ hi.key := le_trans hx hx'
    cases hc : cmpB lo.key k <;> cases hc' : cmpB k hi.key <;> simp only
    -- lt lt
    · have h1 := cmpB_lt.1 hc
      have h2 := cmpB_lt.1 hc'
      refine RL_KKK (hf.ne_empty k v) (between_iff hf lo hi) (between_iff hf lo hi) hs0
        (fun h => ihl s1 (hlo.left hs0 h1) (HiOK.left_of_le hs0 h2.le) h) ?_
        (fun h => ihr s2 (LoOK.right_of_le hs0 h1.le) (hhi.right hs0 h2) h)
      rw [hf]; exact RL_single (fun _ => rfl)
    -- lt eq
    · have h1 := cmpB_lt.1 hc
      have h2 := cmpB_eq.1 hc'
      exact RL_KKU (boundTree_ne_empty hf hi k v) (between_iff hf lo hi) child_iff hs0 (h2 ▸ hx')
        (fun h => ihl s1 (hlo.left hs0 h1) (HiOK.left_of_le hs0 h2.le) h) (RL_bound hf hnb' h2)
    -- lt gt
    · have h1 := cmpB_lt.1 hc
      have h2 := cmpB_gt.1 hc'
      obtain ⟨w, hw⟩ := hhi.left_of_lt hs0 h2
      exact RL_KUU (by simp) (between_iff hf lo hi) hs0 ⟨_, hw, hx'⟩
        (ihl s1 (hlo.left hs0 h1) (.inl ⟨w, hw⟩) (List.ne_nil_of_mem hw)) child_iff
    -- eq lt
    · have h1 := cmpB_eq.1 hc
      have h2 := cmpB_lt.1 hc'
      exact RL_UKK (boundTree_ne_empty hf lo k v) child_iff (between_iff hf lo hi) hs0 (h1 ▸ hx) child_unknown
        (RL_bound hf hnb h1.symm) (fun h => ihr s2 (LoOK.right_of_le hs0 h1.le) (hhi.right hs0 h2) h)
    -- eq eq
    · have h1 := cmpB_eq.1 hc
      have h2 := cmpB_eq.1 hc'
      have hxk : x = k := le_antisymm (h2 ▸ hx') (h1 ▸ hx)
      refine RL_UKU (both_ne_empty hf lo hi) child_iff child_iff hs0 hxk child_unknown ?_
      have hfk : RL g [(k, v)] x ((f k v).lookupLabel x) := by rw [hf]; exact RL_single (fun _ => rfl)
      cases lo with
      | exact _ => exact hfk
      | neighbor a => exact absurd (hxk.trans h1.symm) (hnb a rfl)
    -- eq gt
    · exact absurd (lt_of_le_of_lt hlh (cmpB_eq.1 hc ▸ cmpB_gt.1 hc')) (lt_irrefl _)
    -- gt lt
    · have h1 := cmpB_gt.1 hc
      have h2 := cmpB_lt.1 hc'
      obtain ⟨w, hw⟩ := hlo.right_of_lt hs0 h1
      exact RL_UUK (by simp) child_iff (between_iff hf lo hi) hs0 ⟨_, hw, hx⟩ child_unknown rfl
        (ihr s2 (.inl ⟨w, hw⟩) (hhi.right hs0 h2) (List.ne_nil_of_mem hw))
    -- gt eq
    · exact absurd (lt_of_lt_of_le (cmpB_gt.1 hc) (hlh.trans (cmpB_eq.1 hc').ge)) (lt_irrefl _)
    -- gt gt
    · exact absurd (lt_trans (lt_of_lt_of_le (cmpB_gt.1 hc) hlh) (cmpB_gt.1 hc')) (lt_irrefl _)

/-- What a pair of bounds must satisfy for the witness to decide `x`. -/
def LoBound (t : Rb V) (x : Bytes) : Option KeyBound → Prop
  | none => True
  | some b => (∃ v, (b.key, v) ∈ t.forEach) ∧ b.key ≤ x ∧ NotNb b x
def HiBound (t : Rb V) (x : Bytes) : Option KeyBound → Prop
  | none => True
  | some b => (∃ v, (b.key, v) ∈ t.forEach) ∧ x ≤ b.key ∧ NotNb b x

theorem RL_range (hf : NodeFn f g) {lo hi : Option KeyBound} {t : Rb V} (hs : t.Sorted)
    (h1 : LoBound t x lo) (h2 : HiBound t x hi) (hn : t.forEach ≠ []) :
    RL g t.forEach x ((t.rangeWitnessRelease lo hi f).lookupLabel x) := by
  cases lo with
  | none =>
    cases hi with
    | none => exact RL_full hf hs x (fun h => hn (forEach_nil_iff.2 h))
    | some hi => exact RL_below hf hs (.inl h2.1) h2.2.1 h2.2.2 hn
  | some lo =>
    cases hi with
    | none => exact RL_above hf hs (.inl h1.1) h1.2.1 h1.2.2 hn
    | some hi => exact RL_between hf hs (.inl h1.1) (.inl h2.1) h1.2.1 h2.2.1 h1.2.2 h2.2.2 hn

/-- reading a decided label lookup -/
theorem RL_subtree {g : V → HashTree} {t : Rb V} (hs : t.Sorted) {w : HashTree} {x : Bytes}
    (h : RL g t.forEach x (w.lookupLabel x)) :
    w.lookupSubtree [x] = match t.get x with
      | some v => .found (g v)
      | none => .absent := by
  rw [get_eq_lookL hs]
  simp only [lookupSubtree]
  cases e : w.lookupLabel x with
  | unknown => rw [e] at h; exact h.elim
  | less =>
    rw [e] at h
    rw [lookL_none.2 (fun a ha => ne_of_gt (h a ha))]
  | greater =>
    rw [e] at h
    rw [lookL_none.2 (fun a ha => ne_of_lt (h a ha))]
  | absent =>
    rw [e] at h
    rw [lookL_none.2 (fun a ha => (h.1 a ha))]
  | found n =>
    rw [e] at h
    obtain ⟨v, hv, rfl⟩ := h
    rw [lookL_of_mem hs hv]

/-! ### Membership witnesses -/

theorem RL_lookupWitness {key : Bytes} {fo : V → Option HashTree} {t : Rb V} (hs : t.Sorted) {w : HashTree}
    (h : t.lookupWitness key fo = some (some w)) :
    RL (fun v => (fo v).getD .empty) t.forEach key (w.lookupLabel key) ∧ (∃ v, (key, v) ∈ t.forEach) := by
  induction t generalizing w with
  | nil => simp [lookupWitness] at h
  | node c l k v r hh ihl ihr =>
    have hs0 : SortedL (l.forEach ++ (k, v) :: r.forEach) := hs
    obtain ⟨s1, s2, s3, s4⟩ := sortedL_node.1 hs0
    simp only [lookupWitness, forEach] at h ⊢
    cases hc : cmpB key k with
    | eq =>
      rw [hc] at h
      have := cmpB_eq.1 hc; subst this
      cases hfv : fo v with
      | none => simp [hfv] at h
      | some w' =>
        simp [hfv] at h
        subst h
        exact ⟨RL_UKU (by simp) child_iff child_iff hs0 rfl child_unknown (RL_single (fun _ => by simp [hfv])),
          v, by simp⟩
    | lt =>
      rw [hc] at h
      cases hl : l.lookupWitness key fo with
      | none => simp [hl] at h
      | some o =>
        cases o with
        | none => simp [hl] at h
        | some s =>
          simp [hl] at h
          subst h
          obtain ⟨p1, v', hv'⟩ := ihl s1 hl
          refine ⟨RL_KUU (by simp) ?_ hs0 ⟨_, hv', le_refl _⟩ p1 child_iff, v', by simp [hv']⟩
          constructor
          · intro he; rw [he] at p1; simp [lookupLabel, RL] at p1
            exact absurd rfl (p1.1 _ _ hv')
          · intro he; rw [he] at hv'; simp at hv'
    | gt =>
      rw [hc] at h
      cases hl : r.lookupWitness key fo with
      | none => simp [hl] at h
      | some o =>
        cases o with
        | none => simp [hl] at h
        | some s =>
          simp [hl] at h
          subst h
          obtain ⟨p1, v', hv'⟩ := ihr s2 hl
          refine ⟨RL_UUK (by simp) child_iff ?_ hs0 ⟨_, hv', le_refl _⟩ child_unknown rfl p1, v', by simp [hv']⟩
          constructor
          · intro he; rw [he] at p1; simp [lookupLabel, RL] at p1
            exact absurd rfl (p1.1 _ _ hv')
          · intro he; rw [he] at hv'; simp at hv'

theorem lookupWitness_none_iff {key : Bytes} {fo : V → Option HashTree} {t : Rb V} (hs : t.Sorted)
    (h : t.lookupWitness key fo = some none) : t.get key = none := by
  induction t with
  | nil => rfl
  | node c l k v r hh ihl ihr =>
    have hs0 : SortedL (l.forEach ++ (k, v) :: r.forEach) := hs
    obtain ⟨s1, s2, s3, s4⟩ := sortedL_node.1 hs0
    simp only [lookupWitness, get] at h ⊢
    cases hc : cmpB key k with
    | eq => rw [hc] at h; cases hfv : fo v <;> simp [hfv] at h
    | lt =>
      rw [hc] at h
      cases hl : l.lookupWitness key fo with
      | none => simp [hl] at h
      | some o =>
        cases o with
        | none => exact ihl s1 hl
        | some s => simp [hl] at h
    | gt =>
      rw [hc] at h
      cases hl : r.lookupWitness key fo with
      | none => simp [hl] at h
      | some o =>
        cases o with
        | none => exact ihr s2 hl
        | some s => simp [hl] at h

theorem loBound_of_lowerBound {t : Rb V} (hs : t.Sorted) {key x : Bytes} (hx : key ≤ x) :
    LoBound t x (t.lowerBound key) := by
  have h := lowerBound_spec hs key
  cases e : t.lowerBound key with
  | none => trivial
  | some b =>
    rw [e] at h
    refine ⟨h.1, le_trans h.2.1 hx, ?_⟩
    intro k hk hxk
    subst hk; subst hxk
    have : x = key := le_antisymm h.2.1 hx
    have := h.2.2.2.1 (by simpa [KeyBound.key] using this)
    simp at this

theorem hiBound_of_upperBound {t : Rb V} (hs : t.Sorted) {key x : Bytes} (hx : x ≤ key) :
    HiBound t x (t.upperBound key) := by
  have h := upperBound_spec hs key
  cases e : t.upperBound key with
  | none => trivial
  | some b =>
    rw [e] at h
    refine ⟨h.1, le_trans hx h.2.1, ?_⟩
    intro k hk hxk
    subst hk; subst hxk
    have : x = key := le_antisymm hx h.2.1
    have := h.2.2.2.1 (by simpa [KeyBound.key] using this)
    simp at this

/-- a range witness decides every key in the range -/
theorem range_decides (hf : NodeFn f g) {t : Rb V} (hs : t.Sorted) {lo hi : Option KeyBound} {x : Bytes}
    (h1 : LoBound t x lo) (h2 : HiBound t x hi) :
    (t.rangeWitnessRelease lo hi f).lookupSubtree [x] = match t.get x with
      | some v => .found (g v)
      | none => .absent := by
  by_cases hn : t.forEach = []
  · have := forEach_nil_iff.1 hn
    subst this
    cases lo <;> cases hi <;>
      simp [rangeWitnessRelease, fullWitnessTree, witnessAbove, witnessBelow, witnessBetween, lookupSubtree,
        lookupLabel, get]
  · exact RL_subtree hs (RL_range hf hs h1 h2 hn)

theorem nestedWitness_decides {key : Bytes} {fo : V → Option HashTree} {t : Rb V} (hs : t.Sorted) {w : HashTree}
    (h : t.nestedWitness key fo = some w) :
    w.lookupSubtree [key] = match t.get key with
      | some v => .found ((fo v).getD .empty)
      | none => .absent := by
  unfold nestedWitness at h
  cases hl : t.lookupWitness key fo with
  | none => simp [hl] at h
  | some o =>
    cases o with
    | some w' =>
      simp [hl] at h
      subst h
      exact RL_subtree hs (RL_lookupWitness hs hl).1
    | none =>
      simp [hl] at h
      have hg := lookupWitness_none_iff hs hl
      have := rangeWitness_release h
      subst this
      have := range_decides (nodeFn_witness (V := V)) hs (loBound_of_lowerBound hs (le_refl key))
        (hiBound_of_upperBound hs (le_refl key))
      rw [this, hg]

/-! ### Prefixes -/

theorem isPrefixOf_iff {p x : Bytes} : isPrefixOf p x = true ↔ p <+: x := by
  unfold isPrefixOf
  split
  · next h => simp; intro hp; exact absurd hp.length_le (by omega)
  · rw [List.prefix_iff_eq_take, beq_iff_eq]; exact eq_comm

/-- a key above the prefix that does not have it is above everything that has it -/
theorem lt_of_not_prefix {p x k : Bytes} (hp : p <+: x) (hk : p < k) (hn : ¬ p <+: k) : x < k := by
  induction p generalizing x k with
  | nil => exact absurd (List.nil_prefix) hn
  | cons a p ih =>
    obtain ⟨s, rfl⟩ := hp
    cases k with
    | nil => exact absurd hk (by simp)
    | cons b k =>
      rcases List.cons_lt_cons_iff.1 hk with h | ⟨rfl, h⟩
      · exact List.cons_lt_cons_iff.2 (.inl h)
      · refine List.cons_lt_cons_iff.2 (.inr ⟨rfl, ?_⟩)
        exact ih (List.prefix_append p s) h (fun hh => hn (List.cons_prefix_cons.2 ⟨rfl, hh⟩))

theorem rightPrefixNeighbor_spec {t : Rb V} (pre : Bytes) :
    match t.rightPrefixNeighbor pre with
    | none => True
    | some b => (∃ v, (b.key, v) ∈ t.forEach) ∧ pre < b.key ∧ ¬ pre <+: b.key ∧ b = .neighbor b.key := by
  induction t with
  | nil => simp [rightPrefixNeighbor]
  | node c l k v r h ihl ihr =>
    simp only [rightPrefixNeighbor]
    have hr : ∀ b, r.rightPrefixNeighbor pre = some b →
        (∃ w, (b.key, w) ∈ (Rb.node c l k v r h).forEach) ∧ pre < b.key ∧ ¬ pre <+: b.key ∧ b = .neighbor b.key := by
      intro b hb
      rw [hb] at ihr
      obtain ⟨⟨w, hw⟩, h2⟩ := ihr
      exact ⟨⟨w, by simp [forEach, hw]⟩, h2⟩
    cases hc : cmpB k pre with
    | lt => cases e : r.rightPrefixNeighbor pre <;> simp only; exact hr _ e
    | eq => cases e : r.rightPrefixNeighbor pre <;> simp only; exact hr _ e
    | gt =>
      by_cases hp : isPrefixOf pre k = true
      · simp only [hp, if_true]
        cases e : r.rightPrefixNeighbor pre <;> simp only; exact hr _ e
      · simp only [hp, if_false, Bool.false_eq_true]
        cases e : l.rightPrefixNeighbor pre with
        | none =>
          simp only [KeyBound.key]
          exact ⟨⟨v, by simp [forEach]⟩, cmpB_gt.1 hc, fun hh => hp (isPrefixOf_iff.2 hh), trivial⟩
        | some b =>
          rw [e] at ihl
          obtain ⟨⟨w, hw⟩, h2⟩ := ihl
          exact ⟨⟨w, by simp [forEach, hw]⟩, h2⟩

theorem hiBound_of_prefix {t : Rb V} {pre x : Bytes} (hx : pre <+: x) :
    HiBound t x (t.rightPrefixNeighbor pre) := by
  have h := rightPrefixNeighbor_spec (t := t) pre
  cases e : t.rightPrefixNeighbor pre with
  | none => trivial
  | some b =>
    rw [e] at h
    have hlt := lt_of_not_prefix hx h.2.1 h.2.2.1
    refine ⟨h.1, hlt.le, ?_⟩
    intro k hk; rw [hk] at hlt; exact ne_of_lt hlt

theorem prefix_le {p x : Bytes} (h : p <+: x) : p ≤ x := by
  obtain ⟨s, rfl⟩ := h
  induction p with
  | nil => exact not_lt.1 (by simp)
  | cons a p ih =>
    refine not_lt.1 (fun h => ?_)
    rcases List.cons_lt_cons_iff.1 h with h | ⟨_, h⟩
    · exact absurd h (lt_irrefl _)
    · exact absurd h (not_lt.2 ih)

theorem prefixWitness_ok {t : Rb V} (hs : t.Sorted) (pre : Bytes) (f : Bytes → V → HashTree) :
    t.rangeWitness (t.lowerBound pre) (t.rightPrefixNeighbor pre) f =
      some (t.rangeWitnessRelease (t.lowerBound pre) (t.rightPrefixNeighbor pre) f) := by
  have a := lowerBound_spec hs pre
  have b := rightPrefixNeighbor_spec (t := t) pre
  cases h1 : t.lowerBound pre <;> cases h2 : t.rightPrefixNeighbor pre <;>
    simp only [rangeWitness, rangeWitnessRelease]
  rw [h1] at a; rw [h2] at b
  rw [if_neg]
  rw [ltB_iff]; exact not_lt.2 (le_trans a.2.1 b.2.1.le)

end Rb
end Verif
