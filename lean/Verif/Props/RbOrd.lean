import Verif.Model.RbOrd
import Verif.Props.RbTree
import Verif.Spec.Toy

set_option linter.unusedSectionVars false

/-! # C68: comparing trees with `cmp` -/

namespace Verif.Props
open Verif Rb
variable {V : Type} [LinearOrder V]

/-- The order of maps that `cmp` is meant to decide, in terms of what `get` answers. At the smallest key `k` where the two
maps differ: either both have a value and the first one's is smaller; or only the first has `k`, and the second still has
a larger key; or only the second has `k`, and the first has no larger key. (This is the lexicographic order on the lists of
entries in key order.) -/
def MapLess (f g : Bytes → Option V) : Prop :=
  ∃ k, (∀ j, j < k → f j = g j) ∧
    ((∃ v w, f k = some v ∧ g k = some w ∧ v < w) ∨
     (∃ v, f k = some v ∧ g k = none ∧ ∃ j w, k < j ∧ g j = some w) ∨
     (∃ w, f k = none ∧ g k = some w ∧ ∀ j, k < j → f j = none))

/-- the lexicographic comparison of two lists of entries -/
def lexCmp : List (Bytes × V) → List (Bytes × V) → Ordering
  | [], [] => .eq
  | [], _ :: _ => .lt
  | _ :: _, [] => .gt
  | x :: xs, y :: ys => match itemCmp x y with | .eq => lexCmp xs ys | o => o

theorem iterCmp_spec (fuel m : Nat) (a b : Iter V) (ha : Chain a.parents) (hb : Chain b.parents)
    (hfa : remSteps a < fuel) (hfb : remSteps b < fuel) (hm : (remItems a).length < m) :
    Iter.cmp fuel m a b = some (lexCmp (remItems a) (remItems b)) := by
  induction m generalizing a b with
  | zero => omega
  | succ m ih =>
    have na := next_spec fuel a ha hfa
    have nb := next_spec fuel b hb hfb
    simp only [Iter.cmp]
    cases ea : remItems a with
    | nil =>
      rw [ea] at na
      obtain ⟨a', h⟩ := na
      cases eb : remItems b with
      | nil => rw [eb] at nb; obtain ⟨b', h'⟩ := nb; simp [h, h', lexCmp]
      | cons y ys => rw [eb] at nb; obtain ⟨b', h', _⟩ := nb; simp [h, h', lexCmp]
    | cons x xs =>
      rw [ea] at na
      obtain ⟨a', h1, h2, h3, h4⟩ := na
      rw [h1]
      simp only
      cases eb : remItems b with
      | nil => rw [eb] at nb; obtain ⟨b', h'⟩ := nb; simp [h', lexCmp]
      | cons y ys =>
        rw [eb] at nb
        obtain ⟨b', g1, g2, g3, g4⟩ := nb
        rw [g1]
        simp only [lexCmp]
        cases e : itemCmp x y with
        | eq =>
          simp only
          rw [ih a' b' h2 g2 (by omega) (by omega) (by rw [h4]; rw [ea] at hm; simp at hm; omega), h4, g4]
        | lt => rfl
        | gt => rfl

theorem iterPartialCmp_spec (fuel m : Nat) (a b : Iter V) :
    Iter.partialCmp (fun v w => some (compare v w)) fuel m a b = (Iter.cmp fuel m a b).map some := by
  induction m generalizing a b with
  | zero => rfl
  | succ m ih =>
    simp only [Iter.partialCmp, Iter.cmp]
    cases a.next fuel with
    | none => rfl
    | some r =>
      obtain ⟨x, a'⟩ := r
      cases x with
      | none => cases b.next fuel <;> rfl
      | some x =>
        cases b.next fuel with
        | none => rfl
        | some s =>
          obtain ⟨y, b'⟩ := s
          cases y with
          | none => rfl
          | some y =>
            simp only [itemPartialCmp, itemCmp]
            cases cmpB x.1 y.1 with
            | lt => rfl
            | gt => rfl
            | eq =>
              simp only
              cases compare x.2 y.2 with
              | lt => rfl
              | gt => rfl
              | eq => exact ih a' b'

theorem itemCmp_lt {x y : Bytes × V} : itemCmp x y = .lt ↔ x.1 < y.1 ∨ (x.1 = y.1 ∧ x.2 < y.2) := by
  unfold itemCmp
  cases e : cmpB x.1 y.1 with
  | lt => simp [cmpB_lt.1 e]
  | gt =>
    have h := cmpB_gt.1 e
    simp [not_lt_of_gt h, ne_of_gt h]
  | eq =>
    have h := cmpB_eq.1 e
    simp [h, compare_lt_iff_lt]

theorem itemCmp_gt {x y : Bytes × V} : itemCmp x y = .gt ↔ y.1 < x.1 ∨ (y.1 = x.1 ∧ y.2 < x.2) := by
  unfold itemCmp
  cases e : cmpB x.1 y.1 with
  | gt => simp [cmpB_gt.1 e]
  | lt =>
    have h := cmpB_lt.1 e
    simp [not_lt_of_gt h, ne_of_gt h]
  | eq =>
    have h := cmpB_eq.1 e
    simp [h, compare_gt_iff_gt]

theorem itemCmp_eq {x y : Bytes × V} : itemCmp x y = .eq ↔ x = y := by
  unfold itemCmp
  obtain ⟨k, v⟩ := x
  obtain ⟨k', v'⟩ := y
  cases e : cmpB k k' with
  | gt => have h := cmpB_gt.1 e; simp [e, ne_of_gt h]
  | lt => have h := cmpB_lt.1 e; simp [e, ne_of_lt h]
  | eq => have h := cmpB_eq.1 e; simp [e, h, compare_eq_iff_eq]

theorem lookL_lt {k j : Bytes} {v : V} {xs : List (Bytes × V)} (h : SortedL ((k, v) :: xs)) (hj : j < k) :
    lookL j ((k, v) :: xs) = none := by
  simp only [SortedL, List.pairwise_cons] at h
  cases e : lookL j ((k, v) :: xs) with
  | none => rfl
  | some w =>
    exfalso
    have hm := lookL_mem e
    simp only [List.mem_cons, Prod.mk.injEq] at hm
    rcases hm with ⟨rfl, -⟩ | hm
    · exact lt_irrefl _ hj
    · exact lt_irrefl _ (lt_trans hj (h.1 _ hm))

theorem MapLess.symm_false {f g : Bytes → Option V} (h : MapLess f g) (h' : MapLess g f) : False := by
  obtain ⟨k, hk, h⟩ := h
  obtain ⟨k', hk', h'⟩ := h'
  have d : f k ≠ g k := by
    rcases h with ⟨v, w, e, e', hl⟩ | ⟨v, e, e', -⟩ | ⟨w, e, e', -⟩
    · rw [e, e']; intro q; cases q; exact lt_irrefl _ hl
    · rw [e, e']; simp
    · rw [e, e']; simp
  have d' : g k' ≠ f k' := by
    rcases h' with ⟨v, w, e, e', hl⟩ | ⟨v, e, e', -⟩ | ⟨w, e, e', -⟩
    · rw [e, e']; intro q; cases q; exact lt_irrefl _ hl
    · rw [e, e']; simp
    · rw [e, e']; simp
  have : k = k' := by
    rcases lt_trichotomy k k' with hl | hl | hl
    · exact absurd (hk' k hl).symm d
    · exact hl
    · exact absurd (hk k' hl).symm d'
  subst this
  rcases h with ⟨v, w, e, e', hl⟩ | ⟨v, e, e', j, w, hj, hw⟩ | ⟨w, e, e', hn⟩ <;>
  rcases h' with ⟨v', w', q, q', hl'⟩ | ⟨v', q, q', j', w', hj', hw'⟩ | ⟨w', q, q', hn'⟩ <;>
  simp_all
  · exact lt_asymm hl hl'

theorem MapLess.ne {f g : Bytes → Option V} (h : MapLess f g) : f ≠ g := by
  rintro rfl
  exact h.symm_false h

theorem MapLess.cons {x : Bytes × V} {xs ys : List (Bytes × V)} (hx : SortedL (x :: xs)) (hy : SortedL (x :: ys))
    (h : MapLess (lookL · xs) (lookL · ys)) : MapLess (lookL · (x :: xs)) (lookL · (x :: ys)) := by
  obtain ⟨k, v⟩ := x
  obtain ⟨j, hj, h⟩ := h
  have low : ∀ {zs : List (Bytes × V)} {q : Bytes} {w : V}, SortedL ((k, v) :: zs) → lookL q zs = some w → k < q := by
    intro zs q w hz e
    simp only [SortedL, List.pairwise_cons] at hz
    exact hz.1 _ (lookL_mem e)
  have hkj : k < j := by
    rcases h with ⟨v', w, e, e', hl⟩ | ⟨v', e, e', -⟩ | ⟨w, e, e', -⟩
    · exact low hx e
    · exact low hx e
    · exact low hy e'
  have above : ∀ (zs : List (Bytes × V)) (q : Bytes), k < q → lookL q ((k, v) :: zs) = lookL q zs := by
    intro zs q hq
    simp [lookL, ne_of_gt hq]
  refine ⟨j, fun q hq => ?_, ?_⟩
  · simp only [lookL]
    by_cases e : q = k
    · simp [e]
    · simp only [e, if_false]; exact hj q hq
  · simp only [above _ _ hkj]
    rcases h with h | ⟨v', e, e', q, w, hq, hw⟩ | ⟨w, e, e', hn⟩
    · exact .inl h
    · exact .inr (.inl ⟨v', e, e', q, w, hq, by rw [above _ _ (lt_trans hkj hq)]; exact hw⟩)
    · exact .inr (.inr ⟨w, e, e', fun q hq => by rw [above _ _ (lt_trans hkj hq)]; exact hn q hq⟩)

theorem mapLess_head {x y : Bytes × V} {xs ys : List (Bytes × V)} (hx : SortedL (x :: xs)) (hy : SortedL (y :: ys))
    (h : x.1 < y.1 ∨ (x.1 = y.1 ∧ x.2 < y.2)) : MapLess (lookL · (x :: xs)) (lookL · (y :: ys)) := by
  obtain ⟨k, v⟩ := x
  obtain ⟨k', v'⟩ := y
  simp only at h
  rcases h with h | ⟨rfl, h⟩
  · refine ⟨k, fun j hj => ?_, .inr (.inl ⟨v, by simp [lookL], lookL_lt hy h, k', v', h, by simp [lookL]⟩)⟩
    simp only [lookL_lt hx hj, lookL_lt hy (lt_trans hj h)]
  · refine ⟨k, fun j hj => ?_, .inl ⟨v, v', by simp [lookL], by simp [lookL], h⟩⟩
    simp only [lookL_lt hx hj, lookL_lt hy hj]

theorem mapLess_nil {y : Bytes × V} {ys : List (Bytes × V)} (hy : SortedL (y :: ys)) :
    MapLess (lookL · []) (lookL · (y :: ys)) := by
  obtain ⟨k', v'⟩ := y
  refine ⟨k', fun j hj => ?_, .inr (.inr ⟨v', by simp [lookL], by simp [lookL], fun _ _ => by simp [lookL]⟩)⟩
  simp only [lookL_lt hy hj]
  rfl

theorem lexCmp_cases {xs ys : List (Bytes × V)} (hx : SortedL xs) (hy : SortedL ys) :
    match lexCmp xs ys with
    | .lt => MapLess (lookL · xs) (lookL · ys)
    | .gt => MapLess (lookL · ys) (lookL · xs)
    | .eq => xs = ys := by
  induction xs generalizing ys with
  | nil =>
    cases ys with
    | nil => simp [lexCmp]
    | cons y ys => simpa only [lexCmp] using mapLess_nil hy
  | cons x xs ih =>
    cases ys with
    | nil => simpa only [lexCmp] using mapLess_nil hx
    | cons y ys =>
      simp only [lexCmp]
      cases e : itemCmp x y with
      | lt => simpa only using mapLess_head hx hy (itemCmp_lt.1 e)
      | gt => simpa only using mapLess_head hy hx (itemCmp_gt.1 e)
      | eq =>
        have := itemCmp_eq.1 e
        subst this
        have hx' : SortedL xs := by simp only [SortedL, List.pairwise_cons] at hx; exact hx.2
        have hy' : SortedL ys := by simp only [SortedL, List.pairwise_cons] at hy; exact hy.2
        have := ih hx' hy'
        simp only
        cases e' : lexCmp xs ys with
        | lt => rw [e'] at this; exact this.cons hx hy
        | gt => rw [e'] at this; exact this.cons hy hx
        | eq => rw [e'] at this; simp only at this; rw [this]

theorem lexCmp_trans {xs ys zs : List (Bytes × V)} (h : lexCmp xs ys = .lt) (h' : lexCmp ys zs = .lt) :
    lexCmp xs zs = .lt := by
  induction xs generalizing ys zs with
  | nil =>
    cases zs with
    | nil => cases ys <;> simp [lexCmp] at h h'
    | cons z zs => rfl
  | cons x xs ih =>
    cases ys with
    | nil => simp [lexCmp] at h
    | cons y ys =>
      cases zs with
      | nil => simp [lexCmp] at h'
      | cons z zs =>
        simp only [lexCmp] at h h' ⊢
        cases e : itemCmp x y with
        | gt => rw [e] at h; simp at h
        | eq =>
          have := itemCmp_eq.1 e
          subst this
          rw [e] at h
          cases e' : itemCmp x z with
          | gt => rw [e'] at h'; simp at h'
          | lt => rfl
          | eq => rw [e'] at h'; exact ih h h'
        | lt =>
          cases e' : itemCmp y z with
          | gt => rw [e'] at h'; simp at h'
          | eq =>
            have := itemCmp_eq.1 e'
            subst this
            rw [e]
          | lt =>
            have : itemCmp x z = .lt := by
              rw [itemCmp_lt] at e e' ⊢
              rcases e with e | ⟨e, l⟩ <;> rcases e' with e' | ⟨e', l'⟩
              · exact .inl (lt_trans e e')
              · exact .inl (e' ▸ e)
              · exact .inl (e ▸ e')
              · exact .inr ⟨e.trans e', lt_trans l l'⟩
            rw [this]

section
variable [SHA] [AsHashTree V]

theorem cmp_lexCmp {ops ops' : List (RbOp V)} {t t' : Rb V}
    (_h : rbRun ops = some t) (_h' : rbRun ops' = some t') (fuel n : Nat)
    (hf : 3 * (t.forEach.length + t'.forEach.length) < fuel) (hn : t.forEach.length < n) :
    Iter.cmp fuel n t.iter t'.iter = some (lexCmp t.forEach t'.forEach) := by
  obtain ⟨h1, h2, h3⟩ := iter_ok t
  obtain ⟨g1, g2, g3⟩ := iter_ok t'
  rw [size_eq_length] at h3 g3
  rw [iterCmp_spec fuel n t.iter t'.iter h1 g1 (by omega) (by omega) (by rw [h2]; exact hn), h2, g2]

/-- **C68.** `cmp` on two trees, whatever histories built them, terminates with an answer that depends only on the
entries: `Less` iff the first map precedes the second one, `Greater` iff the second precedes the first, `Equal` iff
they hold the same entries. -/
theorem C68_cmp {ops ops' : List (RbOp V)} {t t' : Rb V}
    (h : rbRun ops = some t) (h' : rbRun ops' = some t') (fuel n : Nat)
    (hf : 3 * (t.forEach.length + t'.forEach.length) < fuel) (hn : t.forEach.length < n) :
    ∃ o, Iter.cmp fuel n t.iter t'.iter = some o ∧
      (o = .lt ↔ MapLess (fun k => t.get k) (fun k => t'.get k)) ∧
      (o = .gt ↔ MapLess (fun k => t'.get k) (fun k => t.get k)) ∧
      (o = .eq ↔ ∀ k, t.get k = t'.get k) := by
  have hv := rbRun_valid h
  have hv' := rbRun_valid h'
  refine ⟨_, cmp_lexCmp h h' fuel n hf hn, ?_⟩
  have e1 : (fun k => t.get k) = (lookL · t.forEach) := funext fun k => get_eq_lookL hv.sorted k
  have e2 : (fun k => t'.get k) = (lookL · t'.forEach) := funext fun k => get_eq_lookL hv'.sorted k
  have e3 : (∀ k, t.get k = t'.get k) ↔ (lookL · t.forEach) = (lookL · t'.forEach) := by
    rw [← e1, ← e2]; exact funext_iff.symm
  rw [e1, e2, e3]
  have := lexCmp_cases hv.sorted hv'.sorted
  cases e : lexCmp t.forEach t'.forEach with
  | lt =>
    rw [e] at this
    simp only at this
    exact ⟨⟨fun _ => this, fun _ => rfl⟩, ⟨(fun q => nomatch q), fun q => (this.symm_false q).elim⟩,
      ⟨(fun q => nomatch q), fun q => (this.ne q).elim⟩⟩
  | gt =>
    rw [e] at this
    simp only at this
    exact ⟨⟨(fun q => nomatch q), fun q => (this.symm_false q).elim⟩, ⟨fun _ => this, fun _ => rfl⟩,
      ⟨(fun q => nomatch q), fun q => (this.ne q.symm).elim⟩⟩
  | eq =>
    rw [e] at this
    simp only at this
    rw [this]
    exact ⟨⟨(fun q => nomatch q), fun q => (q.ne rfl).elim⟩, ⟨(fun q => nomatch q), fun q => (q.ne rfl).elim⟩,
      ⟨fun _ => rfl, fun _ => rfl⟩⟩

/-- **C68**, the laws of an order: comparing in the other direction reverses the answer, `Less` is transitive, and `Equal`
is what `==` says. -/
theorem C68_order [DecidableEq V] {ops₁ ops₂ ops₃ : List (RbOp V)} {t₁ t₂ t₃ : Rb V}
    (h₁ : rbRun ops₁ = some t₁) (h₂ : rbRun ops₂ = some t₂) (h₃ : rbRun ops₃ = some t₃) (fuel n : Nat)
    (hf : 3 * (t₁.forEach.length + t₂.forEach.length + t₃.forEach.length) < fuel)
    (hn : t₁.forEach.length < n ∧ t₂.forEach.length < n) :
    Iter.cmp fuel n t₂.iter t₁.iter = (Iter.cmp fuel n t₁.iter t₂.iter).map Ordering.swap ∧
    (Iter.cmp fuel n t₁.iter t₂.iter = some .lt → Iter.cmp fuel n t₂.iter t₃.iter = some .lt →
      Iter.cmp fuel n t₁.iter t₃.iter = some .lt) ∧
    (Iter.cmp fuel n t₁.iter t₂.iter = some .eq ↔ Iter.eq fuel n t₁.iter t₂.iter = some true) := by
  refine ⟨?_, ?_, ?_⟩
  · obtain ⟨o, ho, l, g, e⟩ := C68_cmp h₁ h₂ fuel n (by omega) hn.1
    obtain ⟨o', ho', l', g', e'⟩ := C68_cmp h₂ h₁ fuel n (by omega) hn.2
    rw [ho, ho']
    cases o with
    | lt => simp only [Option.map_some, Ordering.swap, Option.some.injEq]; exact g'.2 (l.1 rfl)
    | gt => simp only [Option.map_some, Ordering.swap, Option.some.injEq]; exact l'.2 (g.1 rfl)
    | eq => simp only [Option.map_some, Ordering.swap, Option.some.injEq]; exact e'.2 (fun k => (e.1 rfl k).symm)
  · rw [cmp_lexCmp h₁ h₂ fuel n (by omega) hn.1, cmp_lexCmp h₂ h₃ fuel n (by omega) hn.2,
      cmp_lexCmp h₁ h₃ fuel n (by omega) hn.1]
    simp only [Option.some.injEq]
    exact lexCmp_trans
  · obtain ⟨o, ho, l, g, e⟩ := C68_cmp h₁ h₂ fuel n (by omega) hn.1
    obtain ⟨b, hb, hb'⟩ := C12_eq_iff_same_content h₁ h₂ fuel n (by omega) hn.1
    rw [ho, hb]
    simp only [Option.some.injEq]
    rw [e, hb']

/-- **C68**, `partial_cmp` (and so `<`, `<=`, `>`, `>=`): for values whose `partial_cmp` is their `cmp`, it always has an
answer, that of `cmp`. -/
theorem C68_partial_cmp {ops ops' : List (RbOp V)} {t t' : Rb V}
    (h : rbRun ops = some t) (h' : rbRun ops' = some t') (fuel n : Nat)
    (hf : 3 * (t.forEach.length + t'.forEach.length) < fuel) (hn : t.forEach.length < n) :
    ∃ o, Iter.cmp fuel n t.iter t'.iter = some o ∧
      Iter.partialCmp (fun v w => some (compare v w)) fuel n t.iter t'.iter = some (some o) := by
  obtain ⟨o, ho, -⟩ := C68_cmp h h' fuel n hf hn
  exact ⟨o, ho, by rw [iterPartialCmp_spec, ho]; rfl⟩

end

section examples
attribute [local instance] toySHA

/-- Two histories of different shape: a smaller value under an equal key, a missing key before and at the end. -/
def exCmpOps (v : Bytes) : List (RbOp Bytes) :=
  [.insert (str "d") (str "4"), .insert (str "b") v, .insert (str "a") (str "1"), .delete (str "d")]

def exCmp (a b : List (RbOp Bytes)) : Option Ordering := do
  let t ← rbRun a
  let t' ← rbRun b
  Iter.cmp 100 20 t.iter t'.iter

example : exCmp (exCmpOps (str "2")) (exCmpOps (str "20")) = some .lt := by decide +kernel
example : exCmp (exCmpOps (str "2")) [.insert (str "a") (str "1")] = some .gt := by decide +kernel
example : exCmp (exCmpOps (str "2")) [.insert (str "b") (str "2")] = some .lt := by decide +kernel
example : exCmp (exCmpOps (str "2")) [.insert (str "a") (str "1"), .insert (str "b") (str "2")] = some .eq := by
  decide +kernel

end examples

end Verif.Props
