import Verif.Lemmas.RbOps

set_option linter.unusedSimpArgs false
set_option linter.unusedSectionVars false

namespace Verif
namespace Rb
variable {V : Type}

/-- items still to come from the ancestors of a node at address `a` -/
def upItems : List Bool → List (List Bool × Rb V) → List (Bytes × V)
  | _, [] => []
  | a, (pa, .node _ _ k v r _) :: rest =>
    (if a = true :: pa then (k, v) :: r.forEach else []) ++ upItems pa rest
  | _, (pa, .nil) :: rest => upItems pa rest

/-- steps still to be made in the ancestors -/
def upSteps : List Bool → List (List Bool × Rb V) → Nat
  | _, [] => 0
  | a, (pa, p) :: rest => (if a = true :: pa then 2 + 3 * p.right.size else 1) + upSteps pa rest

def remItems (it : Iter V) : List (Bytes × V) :=
  match it.parents with
  | [] => []
  | (a, tip) :: rest => (match it.visit with
    | .pre => tip.forEach
    | .inn => tip.right.forEach
    | .post => []) ++ upItems a rest

def remSteps (it : Iter V) : Nat :=
  match it.parents with
  | [] => 0
  | (a, tip) :: rest => (match it.visit with
    | .pre => 3 * tip.size
    | .inn => 2 + 3 * tip.right.size
    | .post => 1) + upSteps a rest

/-- a stack of nodes each a child of the next -/
def Chain : List (List Bool × Rb V) → Prop
  | [] => True
  | [(_, n)] => n ≠ .nil
  | (a, n) :: (pa, p) :: rest =>
    n ≠ .nil ∧ ((a = true :: pa ∧ p.left = n) ∨ (a = false :: pa ∧ p.right = n)) ∧ Chain ((pa, p) :: rest)

theorem leftAddr_eq {pa a : List Bool} {p n : Rb V} (hn : n ≠ .nil)
    (h : (a = true :: pa ∧ p.left = n) ∨ (a = false :: pa ∧ p.right = n)) :
    leftAddr (pa, p) = some a ↔ a = true :: pa := by
  rcases h with ⟨rfl, hl⟩ | ⟨rfl, hr⟩
  · cases p with
    | nil => exact absurd hl.symm hn
    | node c l k v r h =>
      simp only [left] at hl; subst hl
      cases l with
      | nil => exact absurd rfl hn
      | node => simp [leftAddr]
  · cases p with
    | nil => exact absurd hr.symm hn
    | node c l k v r h => cases l <;> simp [leftAddr]

theorem Chain.tail {x : List Bool × Rb V} {rest : List (List Bool × Rb V)} (h : Chain (x :: rest)) : Chain rest := by
  cases rest with
  | nil => trivial
  | cons y ys => exact h.2.2

theorem Chain.head {a : List Bool} {n : Rb V} {rest : List (List Bool × Rb V)} (h : Chain ((a, n) :: rest)) : n ≠ .nil := by
  cases rest with
  | nil => exact h
  | cons y ys => exact h.1

/-- one step of the iterator -/
theorem step_spec (it : Iter V) (hc : Chain it.parents) (hne : it.parents ≠ []) :
    ∃ it', it.step = (true, it') ∧ Chain it'.parents ∧ remSteps it' + 1 = remSteps it ∧
      (if it'.visit = .inn then ∃ a c l k v r h rest, it'.parents = (a, .node c l k v r h) :: rest ∧
          remItems it = (k, v) :: remItems it'
        else remItems it = remItems it') := by
  obtain ⟨vis, ps⟩ := it
  cases ps with
  | nil => exact absurd rfl hne
  | cons top rest =>
    obtain ⟨a, tip⟩ := top
    have hn := Chain.head hc
    cases tip with
    | nil => exact absurd rfl hn
    | node c l k v r h =>
      cases vis with
      | pre =>
        cases l with
        | nil =>
          refine ⟨⟨.inn, (a, .node c .nil k v r h) :: rest⟩, by simp [Iter.step, left], hc, ?_, ?_⟩
          · simp [remSteps, right, size]; omega
          · simp only [if_true]
            exact ⟨a, c, .nil, k, v, r, h, rest, rfl, by simp [remItems, forEach, right]⟩
        | node lc ll lk lv lr lh =>
          refine ⟨⟨.pre, (true :: a, .node lc ll lk lv lr lh) :: (a, .node c (.node lc ll lk lv lr lh) k v r h) :: rest⟩,
            by simp [Iter.step, left], ⟨by simp, .inl ⟨rfl, rfl⟩, hc⟩, ?_, ?_⟩
          · simp [remSteps, upSteps, right, size]; omega
          · simp [remItems, upItems, forEach]
      | inn =>
        cases r with
        | nil =>
          refine ⟨⟨.post, (a, .node c l k v .nil h) :: rest⟩, by simp [Iter.step, right], hc, ?_, ?_⟩
          · simp [remSteps, right, size]; omega
          · simp [remItems, forEach, right]
        | node lc ll lk lv lr lh =>
          refine ⟨⟨.pre, (false :: a, .node lc ll lk lv lr lh) :: (a, .node c l k v (.node lc ll lk lv lr lh) h) :: rest⟩,
            by simp [Iter.step, right], ⟨by simp, .inr ⟨rfl, rfl⟩, hc⟩, ?_, ?_⟩
          · simp [remSteps, upSteps, right, size]; omega
          · simp [remItems, upItems, forEach, right]
      | post =>
        cases rest with
        | nil =>
          refine ⟨⟨.post, []⟩, by simp [Iter.step], trivial, ?_, ?_⟩
          · simp [remSteps, upSteps]
          · simp [remItems, upItems]
        | cons par rest =>
          obtain ⟨pa, p⟩ := par
          have hl := leftAddr_eq hc.1 hc.2.1
          by_cases hb : leftAddr (pa, p) = some a
          · refine ⟨⟨.inn, (pa, p) :: rest⟩, by simp [Iter.step, hb], hc.tail, ?_, ?_⟩
            · simp [remSteps, upSteps, hl.1 hb]; omega
            · have hp := Chain.head hc.tail
              cases p with
              | nil => exact absurd rfl hp
              | node pc pl pk pv pr ph =>
                simp only [if_true]
                exact ⟨pa, pc, pl, pk, pv, pr, ph, rest, rfl, by simp [remItems, upItems, hl.1 hb, right]⟩
          · refine ⟨⟨.post, (pa, p) :: rest⟩, by simp [Iter.step, hb], hc.tail, ?_, ?_⟩
            · have : ¬ a = true :: pa := fun h => hb (hl.2 h)
              simp [remSteps, upSteps, this]; omega
            · have : ¬ a = true :: pa := fun h => hb (hl.2 h)
              have hp := Chain.head hc.tail
              cases p with
              | nil => exact absurd rfl hp
              | node pc pl pk pv pr ph => simp [remItems, upItems, this]

theorem next_spec (n : Nat) (it : Iter V) (hc : Chain it.parents) (hf : remSteps it < n) :
    match remItems it with
    | [] => ∃ it', it.next n = some (none, it')
    | x :: xs => ∃ it', it.next n = some (some x, it') ∧ Chain it'.parents ∧ remSteps it' ≤ remSteps it ∧
        remItems it' = xs := by
  induction n generalizing it with
  | zero => omega
  | succ n ih =>
    by_cases hne : it.parents = []
    · obtain ⟨vis, ps⟩ := it
      simp only at hne; subst hne
      simp [remItems, Iter.next, Iter.step]
    · obtain ⟨it', hst, hc', hs', hi⟩ := step_spec it hc hne
      simp only [Iter.next, hst]
      by_cases hv : it'.visit = .inn
      · rw [if_pos hv] at hi
        obtain ⟨a, c, l, k, v, r, h, rest, hp, hrem⟩ := hi
        rw [hrem]
        simp only [hv, if_true, hp]
        exact ⟨it', rfl, hc', by omega, rfl⟩
      · rw [if_neg hv] at hi
        rw [if_neg hv, hi]
        have := ih it' hc' (by omega)
        cases e : remItems it' with
        | nil => rw [e] at this; exact this
        | cons x xs =>
          rw [e] at this
          obtain ⟨it'', h1, h2, h3, h4⟩ := this
          exact ⟨it'', h1, h2, by omega, h4⟩

theorem collect_spec (fuel m : Nat) (it : Iter V) (hc : Chain it.parents) (hf : remSteps it < fuel)
    (hm : (remItems it).length < m) : it.collect fuel m = some (remItems it) := by
  induction m generalizing it with
  | zero => omega
  | succ m ih =>
    have := next_spec fuel it hc hf
    simp only [Iter.collect]
    cases e : remItems it with
    | nil => rw [e] at this; obtain ⟨it', h⟩ := this; simp [h]
    | cons x xs =>
      rw [e] at this
      obtain ⟨it', h1, h2, h3, h4⟩ := this
      rw [h1]
      simp only
      rw [ih it' h2 (by omega) (by rw [h4]; rw [e] at hm; simp at hm; omega), h4]
      rfl

theorem iterEq_spec [DecidableEq V] (fuel m : Nat) (a b : Iter V) (ha : Chain a.parents) (hb : Chain b.parents)
    (hfa : remSteps a < fuel) (hfb : remSteps b < fuel) (hm : (remItems a).length < m) :
    Iter.eq fuel m a b = some (decide (remItems a = remItems b)) := by
  induction m generalizing a b with
  | zero => omega
  | succ m ih =>
    have na := next_spec fuel a ha hfa
    have nb := next_spec fuel b hb hfb
    simp only [Iter.eq]
    cases ea : remItems a with
    | nil =>
      rw [ea] at na
      obtain ⟨a', h⟩ := na
      cases eb : remItems b with
      | nil => rw [eb] at nb; obtain ⟨b', h'⟩ := nb; simp [h, h']
      | cons y ys => rw [eb] at nb; obtain ⟨b', h', _⟩ := nb; simp [h, h']
    | cons x xs =>
      rw [ea] at na
      obtain ⟨a', h1, h2, h3, h4⟩ := na
      rw [h1]
      simp only
      cases eb : remItems b with
      | nil => rw [eb] at nb; obtain ⟨b', h'⟩ := nb; simp [h']
      | cons y ys =>
        rw [eb] at nb
        obtain ⟨b', g1, g2, g3, g4⟩ := nb
        rw [g1]
        simp only
        by_cases hxy : x = y
        · rw [if_pos hxy, ih a' b' h2 g2 (by omega) (by omega) (by rw [h4]; rw [ea] at hm; simp at hm; omega), h4, g4]
          simp [hxy]
        · simp [hxy]

theorem iter_ok (t : Rb V) : Chain t.iter.parents ∧ remItems t.iter = t.forEach ∧ remSteps t.iter = 3 * t.size := by
  cases t with
  | nil => simp [iter, Chain, remItems, remSteps, forEach, size]
  | node c l k v r h => simp [iter, Chain, remItems, remSteps, upItems, upSteps]

end Rb
end Verif
