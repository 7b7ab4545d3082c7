import Verif.Lemmas.HashTree

set_option linter.unusedSimpArgs false
set_option linter.unusedSectionVars false

namespace Verif
namespace HashTree

theorem HasNode.mem_labels {t n : HashTree} {s : Bytes} {p : List Bytes}
    (h : HasNode t (s :: p) n) : s ∈ t.labels := by
  generalize hq : s :: p = q at h
  induction h with
  | here => simp at hq
  | left _ ih => simp [labels, ih hq]
  | right _ ih => simp [labels, ih hq]
  | down _ _ => cases hq; simp [labels]

theorem exists_hasNode_of_mem_labels {t : HashTree} {s : Bytes} (h : s ∈ t.labels) :
    ∃ n, HasNode t [s] n := by
  induction t with
  | empty => simp [labels] at h
  | leaf _ => simp [labels] at h
  | pruned _ => simp [labels] at h
  | labeled lab t _ =>
    simp [labels] at h; subst h; exact ⟨t, .down (.here t)⟩
  | fork l r ihl ihr =>
    simp [labels] at h
    rcases h with h | h
    · obtain ⟨n, hn⟩ := ihl h; exact ⟨n, .left hn⟩
    · obtain ⟨n, hn⟩ := ihr h; exact ⟨n, .right hn⟩

theorem HasNode.wf {t n : HashTree} {p : List Bytes} {b : Bool} (h : HasNode t p n) (ht : WF b t) :
    WF true n := by
  induction h generalizing b with
  | here t => exact ht.weaken
  | left _ ih => exact ih ht.1
  | right _ ih => exact ih ht.2.1
  | down _ ih => exact ih ht

theorem HasNode.unique {t n m : HashTree} {p : List Bytes} {b : Bool} (ht : WF b t)
    (h : HasNode t p n) (h' : HasNode t p m) : n = m := by
  induction h generalizing b with
  | here t => cases h'; rfl
  | @left l r s p n hl ih =>
    cases h' with
    | left h'' => exact ih ht.1 h''
    | right h'' => exact absurd (ht.2.2 _ hl.mem_labels _ h''.mem_labels) (lt_irrefl _)
  | @right l r s p n hr ih =>
    cases h' with
    | left h'' => exact absurd (ht.2.2 _ h''.mem_labels _ hr.mem_labels) (lt_irrefl _)
    | right h'' => exact ih ht.2.1 h''
  | down _ ih => cases h' with | down h'' => exact ih ht h''

theorem HasNode.append {t n m : HashTree} {p q : List Bytes} (h : HasNode t p n)
    (h' : HasNode n q m) : HasNode t (p ++ q) m := by
  induction h with
  | here t => exact h'
  | left _ ih => exact .left (ih h')
  | right _ ih => exact .right (ih h')
  | down _ ih => exact .down (ih h')

theorem HasNode.split {t m : HashTree} {p q : List Bytes} (h : HasNode t (p ++ q) m) :
    ∃ n, HasNode t p n ∧ HasNode n q m := by
  generalize hx : p ++ q = x at h
  induction h generalizing p with
  | here t =>
    simp at hx; obtain ⟨rfl, rfl⟩ := hx; exact ⟨t, .here t, .here t⟩
  | @left l r s x n hl ih =>
    cases p with
    | nil => simp at hx; subst hx; exact ⟨_, .here _, .left hl⟩
    | cons a p =>
      obtain ⟨n', h1, h2⟩ := ih hx
      simp at hx; obtain ⟨rfl, rfl⟩ := hx
      exact ⟨n', .left h1, h2⟩
  | @right l r s x n hl ih =>
    cases p with
    | nil => simp at hx; subst hx; exact ⟨_, .here _, .right hl⟩
    | cons a p =>
      obtain ⟨n', h1, h2⟩ := ih hx
      simp at hx; obtain ⟨rfl, rfl⟩ := hx
      exact ⟨n', .right h1, h2⟩
  | @down lab t x n hd ih =>
    cases p with
    | nil => simp at hx; subst hx; exact ⟨_, .here _, .down hd⟩
    | cons a p =>
      simp at hx; obtain ⟨rfl, hx⟩ := hx
      obtain ⟨n', h1, h2⟩ := ih hx
      exact ⟨n', .down h1, h2⟩

section
variable [SHA]

/-- What each verdict of a one-label lookup on a pruned view says about the full tree. -/
def LabelOK (T : HashTree) (x : Bytes) : LabelResult → Prop
  | .less => ∀ k ∈ T.labels, x < k
  | .greater => ∀ k ∈ T.labels, k < x
  | .absent => x ∉ T.labels ∧ (∃ a ∈ T.labels, a < x) ∧ (∃ b ∈ T.labels, x < b)
  | .found n => ∃ n', HasNode T [x] n' ∧ Prunes n n'
  | .unknown => True

theorem labels_ne_nil {T : HashTree} (hT : WF false T) : ∃ k, k ∈ T.labels := by
  induction T with
  | empty => simp [WF] at hT
  | leaf _ => simp [WF] at hT
  | pruned _ => simp [WF] at hT
  | labeled lab _ _ => exact ⟨lab, by simp [labels]⟩
  | fork l r ihl _ => obtain ⟨k, hk⟩ := ihl hT.1; exact ⟨k, by simp [labels, hk]⟩

theorem lookupLabel_ok {w T : HashTree} (hT : WF false T) (hp : Prunes w T) (x : Bytes) :
    LabelOK T x (w.lookupLabel x) := by
  induction hp with
  | prune t => simp [lookupLabel, LabelOK]
  | empty => simp [WF] at hT
  | leaf _ => simp [WF] at hT
  | @labeled lab w t hp _ =>
    simp only [lookupLabel]
    cases hc : cmpB x lab with
    | lt => simpa [LabelOK, labels] using cmpB_lt.1 hc
    | gt => simpa [LabelOK, labels] using cmpB_gt.1 hc
    | eq =>
      have := cmpB_eq.1 hc; subst this
      exact ⟨t, .down (.here t), hp⟩
  | @fork w₁ w₂ t₁ t₂ h₁ h₂ ih₁ ih₂ =>
    obtain ⟨hT1, hT2, hs⟩ := hT
    have i1 := ih₁ hT1
    have i2 := ih₂ hT2
    obtain ⟨k1, hk1⟩ := labels_ne_nil hT1
    obtain ⟨k2, hk2⟩ := labels_ne_nil hT2
    simp only [lookupLabel]
    cases e1 : w₁.lookupLabel x with
    | less =>
      rw [e1] at i1
      intro k hk
      simp [labels] at hk
      rcases hk with hk | hk
      · exact i1 k hk
      · exact lt_trans (i1 k1 hk1) (hs _ hk1 _ hk)
    | absent =>
      rw [e1] at i1
      obtain ⟨ha, ⟨a, ha1, ha2⟩, b, hb1, hb2⟩ := i1
      refine ⟨?_, ⟨a, by simp [labels, ha1], ha2⟩, b, by simp [labels, hb1], hb2⟩
      simp only [labels, List.mem_append, not_or]
      refine ⟨ha, fun h => ?_⟩
      exact absurd (hs _ hb1 _ h) (not_lt_of_gt hb2)
    | found n =>
      rw [e1] at i1
      obtain ⟨n', h1, h2⟩ := i1
      exact ⟨n', .left h1, h2⟩
    | greater =>
      rw [e1] at i1
      cases e2 : w₂.lookupLabel x with
      | less =>
        rw [e2] at i2
        refine ⟨?_, ⟨k1, by simp [labels, hk1], i1 _ hk1⟩, k2, by simp [labels, hk2], i2 _ hk2⟩
        simp only [labels, List.mem_append, not_or]
        exact ⟨fun h => lt_irrefl _ (i1 _ h), fun h => lt_irrefl _ (i2 _ h)⟩
      | absent =>
        rw [e2] at i2
        obtain ⟨ha, ⟨a, ha1, ha2⟩, b, hb1, hb2⟩ := i2
        refine ⟨?_, ⟨a, by simp [labels, ha1], ha2⟩, b, by simp [labels, hb1], hb2⟩
        simp only [labels, List.mem_append, not_or]
        exact ⟨fun h => lt_irrefl _ (i1 _ h), ha⟩
      | found n =>
        rw [e2] at i2
        obtain ⟨n', h1, h2⟩ := i2
        exact ⟨n', .right h1, h2⟩
      | greater =>
        rw [e2] at i2
        intro k hk
        simp [labels] at hk
        rcases hk with hk | hk
        · exact i1 k hk
        · exact i2 k hk
      | unknown => trivial
    | unknown =>
      cases e2 : w₂.lookupLabel x with
      | less => trivial
      | absent =>
        rw [e2] at i2
        obtain ⟨ha, ⟨a, ha1, ha2⟩, b, hb1, hb2⟩ := i2
        refine ⟨?_, ⟨a, by simp [labels, ha1], ha2⟩, b, by simp [labels, hb1], hb2⟩
        simp only [labels, List.mem_append, not_or]
        exact ⟨fun h => absurd (hs _ h _ ha1) (not_lt_of_gt ha2), ha⟩
      | found n =>
        rw [e2] at i2
        obtain ⟨n', h1, h2⟩ := i2
        exact ⟨n', .right h1, h2⟩
      | greater =>
        rw [e2] at i2
        intro k hk
        simp [labels] at hk
        rcases hk with hk | hk
        · exact lt_trans (hs _ hk _ hk2) (i2 _ hk2)
        · exact i2 k hk
      | unknown => trivial

/-- Every definite verdict on a view is kept by a less pruned view. -/
def LabelLe : LabelResult → LabelResult → Prop
  | .unknown, _ => True
  | .found n, .found n' => Prunes n n'
  | .less, .less => True
  | .greater, .greater => True
  | .absent, .absent => True
  | _, _ => False

theorem lookupLabel_mono {w w' T : HashTree} (hT : WF false T) (hp : Prunes w w')
    (hp' : Prunes w' T) (x : Bytes) : LabelLe (w.lookupLabel x) (w'.lookupLabel x) := by
  induction hp generalizing T with
  | prune t => simp [lookupLabel, LabelLe]
  | empty => cases hp'; simp [WF] at hT
  | leaf _ => cases hp'; simp [WF] at hT
  | @labeled lab w t hp _ =>
    simp only [lookupLabel]
    cases hc : cmpB x lab <;> simp [LabelLe, hp]
  | @fork w₁ w₂ v₁ v₂ h₁ h₂ ih₁ ih₂ =>
    cases hp' with
    | @fork _ _ t₁ t₂ q₁ q₂ =>
      obtain ⟨hT1, hT2, hs⟩ := hT
      have i1 := ih₁ hT1 q₁
      have i2 := ih₂ hT2 q₂
      have o1 := lookupLabel_ok hT1 q₁ x
      have o2 := lookupLabel_ok hT2 (h₂.trans q₂) x
      obtain ⟨k1, hk1⟩ := labels_ne_nil hT1
      obtain ⟨k2, hk2⟩ := labels_ne_nil hT2
      simp only [lookupLabel]
      generalize w₁.lookupLabel x = a1 at *
      generalize w₂.lookupLabel x = a2 at *
      generalize v₁.lookupLabel x = b1 at *
      generalize v₂.lookupLabel x = b2 at *
      -- when the left view is unknown but the right one is definite, the left full tree is below `x`
      have key : a1 = .unknown → (∀ k ∈ t₁.labels, k < x) → b1 = .unknown ∨ b1 = .greater := by
        intro _ hlt
        cases b1 with
        | unknown => exact .inl rfl
        | greater => exact .inr rfl
        | less => exact absurd (o1 k1 hk1) (not_lt_of_gt (hlt _ hk1))
        | absent => obtain ⟨_, _, b, hb, hb'⟩ := o1; exact absurd hb' (not_lt_of_gt (hlt _ hb))
        | found n =>
          obtain ⟨n', hn, _⟩ := o1
          exact absurd (hlt _ hn.mem_labels) (lt_irrefl _)
      have below : (a2 = .absent ∨ a2 = .greater ∨ ∃ n, a2 = .found n) → ∀ k ∈ t₁.labels, k < x := by
        rintro (rfl | rfl | ⟨n, rfl⟩) k hk
        · obtain ⟨_, ⟨a, ha, ha'⟩, _⟩ := o2
          exact lt_trans (hs _ hk _ ha) ha'
        · exact lt_trans (hs _ hk _ hk2) (o2 _ hk2)
        · obtain ⟨n', hn, _⟩ := o2
          exact hs _ hk _ hn.mem_labels
      cases a1 with
      | unknown =>
        cases a2 with
        | unknown => trivial
        | less => trivial
        | absent =>
          rcases key rfl (below (.inl rfl)) with rfl | rfl <;> cases b2 <;> simp_all [LabelLe]
        | greater =>
          rcases key rfl (below (.inr (.inl rfl))) with rfl | rfl <;> cases b2 <;> simp_all [LabelLe]
        | found n =>
          rcases key rfl (below (.inr (.inr ⟨n, rfl⟩))) with rfl | rfl <;> cases b2 <;> simp_all [LabelLe]
      | less => cases b1 <;> simp_all [LabelLe]
      | absent => cases b1 <;> simp_all [LabelLe]
      | found n => cases b1 <;> simp_all [LabelLe]
      | greater => cases b1 <;> cases a2 <;> cases b2 <;> simp_all [LabelLe]

theorem lookupLabel_full {T : HashTree} (hT : T.Full) (x : Bytes) : T.lookupLabel x ≠ .unknown := by
  induction T with
  | empty => simp [lookupLabel]
  | leaf _ => simp [lookupLabel]
  | pruned _ => exact hT.elim
  | labeled lab _ _ => simp only [lookupLabel]; cases cmpB x lab <;> simp
  | fork l r ihl ihr =>
    have h1 := ihl hT.1
    have h2 := ihr hT.2
    simp only [lookupLabel]
    generalize l.lookupLabel x = a at *
    generalize r.lookupLabel x = b at *
    cases a <;> cases b <;> simp_all

/-- Verdicts of a subtree lookup on a pruned view, read on the full tree. -/
theorem lookupSubtree_ok {w T : HashTree} (hT : WF true T) (hp : Prunes w T) (p : List Bytes) :
    match w.lookupSubtree p with
    | .found n => ∃ n', HasNode T p n' ∧ Prunes n n'
    | .absent => ¬ ∃ n', HasNode T p n'
    | .unknown => True := by
  induction p generalizing w T with
  | nil => exact ⟨T, .here T, hp⟩
  | cons x p ih =>
    simp only [lookupSubtree]
    by_cases hl : WF false T
    · have ok := lookupLabel_ok hl hp x
      cases e : w.lookupLabel x with
      | found n =>
        rw [e] at ok
        obtain ⟨n', hn, hpn⟩ := ok
        have := ih (hn.wf hT) hpn
        simp only
        cases e2 : n.lookupSubtree p with
        | found m =>
          rw [e2] at this
          obtain ⟨m', hm, hpm⟩ := this
          exact ⟨m', hn.append hm, hpm⟩
        | absent =>
          rw [e2] at this
          rintro ⟨m', hm⟩
          obtain ⟨k, hk1, hk2⟩ := HasNode.split (p := [x]) (q := p) hm
          rw [HasNode.unique hT hk1 hn] at hk2
          exact this ⟨m', hk2⟩
        | unknown => trivial
      | unknown => trivial
      | absent =>
        rw [e] at ok
        rintro ⟨m', hm⟩
        exact ok.1 hm.mem_labels
      | less =>
        rw [e] at ok
        rintro ⟨m', hm⟩
        exact lt_irrefl _ (ok _ hm.mem_labels)
      | greater =>
        rw [e] at ok
        rintro ⟨m', hm⟩
        exact lt_irrefl _ (ok _ hm.mem_labels)
    · cases T with
      | empty =>
        cases hp <;> simp [lookupLabel]
        rintro n hn; cases hn
      | leaf b =>
        cases hp <;> simp [lookupLabel]
        rintro n hn; cases hn
      | pruned _ => exact hT.elim
      | labeled _ _ => exact absurd hT hl
      | fork _ _ => exact absurd hT hl

theorem lookupSubtree_mono {w w' T : HashTree} (hT : WF true T) (hp : Prunes w w')
    (hp' : Prunes w' T) (p : List Bytes) :
    match w.lookupSubtree p with
    | .found n => ∃ n', w'.lookupSubtree p = .found n' ∧ Prunes n n'
    | .absent => w'.lookupSubtree p = .absent
    | .unknown => True := by
  induction p generalizing w w' T with
  | nil => exact ⟨w', rfl, hp⟩
  | cons x p ih =>
    simp only [lookupSubtree]
    by_cases hl : WF false T
    · have le := lookupLabel_mono hl hp hp' x
      have ok := lookupLabel_ok hl hp' x
      cases e : w.lookupLabel x with
      | unknown => trivial
      | found n =>
        rw [e] at le
        cases e' : w'.lookupLabel x with
        | found n' =>
          rw [e'] at le ok
          obtain ⟨m, hm, hpm⟩ := ok
          exact ih (hm.wf hT) le hpm
        | _ => rw [e'] at le; simp [LabelLe] at le
      | _ =>
        rw [e] at le
        cases e' : w'.lookupLabel x <;> simp_all [LabelLe]
    · cases T with
      | empty => cases hp' <;> cases hp <;> simp [lookupLabel]
      | leaf b => cases hp' <;> cases hp <;> simp [lookupLabel]
      | pruned _ => exact hT.elim
      | labeled _ _ => exact absurd hT hl
      | fork _ _ => exact absurd hT hl

theorem lookupSubtree_full_ne_unknown {T : HashTree} (hT : WF true T) (p : List Bytes) :
    T.lookupSubtree p ≠ .unknown := by
  induction p generalizing T with
  | nil => simp [lookupSubtree]
  | cons x p ih =>
    simp only [lookupSubtree]
    have h1 := lookupLabel_full hT.full x
    cases e : T.lookupLabel x with
    | unknown => exact absurd e h1
    | found n =>
      simp only
      by_cases hl : WF false T
      · have ok := lookupLabel_ok hl (Prunes.refl T) x
        rw [e] at ok
        obtain ⟨m, hm, hpm⟩ := ok
        have hf := (hm.wf hT)
        have : n = m := by
          -- `n` is a subtree of the full tree `T`, hence not pruned
          have aux : ∀ {T n : HashTree}, T.lookupLabel x = .found n → HasNode T [x] n := by
            intro T
            induction T with
            | empty => simp [lookupLabel]
            | leaf _ => simp [lookupLabel]
            | pruned _ => simp [lookupLabel]
            | labeled lab t _ =>
              intro n h
              simp only [lookupLabel] at h
              cases hc : cmpB x lab <;> rw [hc] at h <;> simp at h
              subst h
              have := cmpB_eq.1 hc; subst this
              exact .down (.here _)
            | fork l r ihl ihr =>
              intro n h
              simp only [lookupLabel] at h
              cases h1 : l.lookupLabel x with
              | found m => rw [h1] at h; simp at h; subst h; exact .left (ihl h1)
              | less => rw [h1] at h; simp at h
              | absent => rw [h1] at h; simp at h
              | greater =>
                rw [h1] at h
                cases h2 : r.lookupLabel x <;> rw [h2] at h <;> simp at h
                subst h; exact .right (ihr h2)
              | unknown =>
                rw [h1] at h
                cases h2 : r.lookupLabel x <;> rw [h2] at h <;> simp at h
                subst h; exact .right (ihr h2)
          exact HasNode.unique hT (aux e) hm
        subst this
        exact ih hf
      · cases T with
        | empty => simp [lookupLabel] at e
        | leaf b => simp [lookupLabel] at e
        | pruned _ => exact hT.elim
        | labeled _ _ => exact absurd hT hl
        | fork _ _ => exact absurd hT hl
    | _ => simp

/-- On *any* tree a found node is really there. -/
theorem lookupLabel_found {T n : HashTree} {x : Bytes} (h : T.lookupLabel x = .found n) :
    HasNode T [x] n := by
  induction T with
  | empty => simp [lookupLabel] at h
  | leaf _ => simp [lookupLabel] at h
  | pruned _ => simp [lookupLabel] at h
  | labeled lab t _ =>
    simp only [lookupLabel] at h
    cases hc : cmpB x lab <;> rw [hc] at h <;> simp at h
    subst h
    have := cmpB_eq.1 hc; subst this
    exact .down (.here _)
  | fork l r ihl ihr =>
    simp only [lookupLabel] at h
    cases h1 : l.lookupLabel x with
    | found m => rw [h1] at h; simp at h; subst h; exact .left (ihl h1)
    | less => rw [h1] at h; simp at h
    | absent => rw [h1] at h; simp at h
    | greater =>
      rw [h1] at h
      cases h2 : r.lookupLabel x <;> rw [h2] at h <;> simp at h
      subst h; exact .right (ihr h2)
    | unknown =>
      rw [h1] at h
      cases h2 : r.lookupLabel x <;> rw [h2] at h <;> simp at h
      subst h; exact .right (ihr h2)

theorem lookupSubtree_found {T n : HashTree} {p : List Bytes} (h : T.lookupSubtree p = .found n) :
    HasNode T p n := by
  induction p generalizing T with
  | nil => simp [lookupSubtree] at h; subst h; exact .here _
  | cons x p ih =>
    simp only [lookupSubtree] at h
    cases e : T.lookupLabel x with
    | found m =>
      rw [e] at h
      exact HasNode.append (p := [x]) (lookupLabel_found e) (ih h)
    | _ => rw [e] at h; simp at h

theorem lookupSubtree_eq_found_iff {T n : HashTree} (hT : WF true T) {p : List Bytes} :
    T.lookupSubtree p = .found n ↔ HasNode T p n := by
  refine ⟨lookupSubtree_found, fun h => ?_⟩
  have ok := lookupSubtree_ok hT (Prunes.refl T) p
  have hu := lookupSubtree_full_ne_unknown hT p
  cases e : T.lookupSubtree p with
  | unknown => exact absurd e hu
  | absent => rw [e] at ok; exact absurd ⟨n, h⟩ ok
  | found m => rw [HasNode.unique hT (lookupSubtree_found e) h]

theorem lookupSubtree_eq_absent_iff {T : HashTree} (hT : WF true T) {p : List Bytes} :
    T.lookupSubtree p = .absent ↔ ¬ ∃ n, HasNode T p n := by
  have ok := lookupSubtree_ok hT (Prunes.refl T) p
  have hu := lookupSubtree_full_ne_unknown hT p
  cases e : T.lookupSubtree p with
  | unknown => exact absurd e hu
  | absent => rw [e] at ok; simpa using ok
  | found m => simpa using ⟨m, lookupSubtree_found e⟩

/-- `lookup_path` is `lookup_subtree` followed by a look at the kind of the node found. -/
theorem lookupPath_eq (p : List Bytes) (t : HashTree) :
    t.lookupPath p = match t.lookupSubtree p with
      | .absent => .absent
      | .unknown => .unknown
      | .found (.leaf v) => .found v
      | .found .empty => .absent
      | .found (.pruned _) => .unknown
      | .found (.labeled _ _) => .error
      | .found (.fork _ _) => .error := by
  induction p generalizing t with
  | nil => cases t <;> rfl
  | cons x p ih =>
    simp only [lookupPath, lookupSubtree]
    cases t.lookupLabel x with
    | found n => exact ih n
    | _ => rfl

end
end HashTree
end Verif
