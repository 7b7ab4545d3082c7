import Verif.Lemmas.RbDelete

set_option linter.unusedSimpArgs false
set_option linter.unusedSectionVars false

namespace Verif
namespace Rb
variable {V : Type} [SHA] [AsHashTree V]

/-- The representation invariant of a tree reachable through the public operations. -/
structure Valid (t : Rb V) : Prop where
  bh : ∃ n, BH t n
  ll : LL t
  hash : HashOK t
  sorted : t.Sorted
  black : t.isRed = false

theorem valid_nil : Valid (.nil : Rb V) :=
  ⟨⟨0, rfl⟩, trivial, trivial, by simp [Sorted, SortedL, forEach], rfl⟩

theorem BH_setColor_black {t : Rb V} {n : Nat} (h : BH t n) : ∃ m, BH (t.setColor .black) m := by
  cases t with
  | nil => exact ⟨n, h⟩
  | node c l k v r hh =>
    obtain ⟨m, _, h1, h2⟩ := BH_node.1 h
    exact ⟨m + 1, m, rfl, h1, h2⟩

theorem insert_spec {t : Rb V} (ht : Valid t) (key : Bytes) (val : V) :
    ∃ t', t.insert key val = some t' ∧ Valid t' ∧ t'.forEach = insL key val t.forEach := by
  obtain ⟨⟨n, hb⟩, hl, hh, hs, hbk⟩ := ht
  obtain ⟨t', e, f1, f2, f3, f4, f5, f6, f7, f8, f9⟩ := insertGo_spec key val hb hl hh hs
  refine ⟨t'.setColor .black, by simp [insert, e], ⟨BH_setColor_black f2, ?_, by simpa using f3, ?_, ?_⟩, by simpa using f1⟩
  · cases t' with
    | nil => trivial
    | node c l k v r hh => exact ⟨f5, by simp [setColor], f6, f7⟩
  · simp only [Sorted, forEach_setColor, f1]; exact sortedL_insL hs
  · cases t' <;> rfl

theorem delete_spec {t : Rb V} (ht : Valid t) (key : Bytes) :
    ∃ t', t.delete key = some t' ∧ Valid t' ∧ t'.forEach = delL key t.forEach := by
  obtain ⟨⟨n, hb⟩, hl, hh, hs, hbk⟩ := ht
  unfold delete
  have hg := get_eq_lookL hs key
  cases hget : t.get key with
  | none =>
    refine ⟨t, rfl, ⟨⟨n, hb⟩, hl, hh, hs, hbk⟩, ?_⟩
    rw [hget] at hg
    rw [delL_eq_self (lookL_none.1 hg.symm)]
  | some v =>
    rw [hget] at hg
    have hmem := lookL_mem hg.symm
    have hne : t ≠ .nil := by rintro rfl; simp [forEach] at hmem
    simp only
    set t1 := (if (!t.left.isRed && !t.right.isRed) = true then t.setColor .red else t) with ht1
    have h1 : t1.forEach = t.forEach ∧ HashOK t1 ∧ t1 ≠ .nil ∧ t1.size = t.size ∧ (∃ m, BH t1 m) ∧
        LL t1 ∧ (t1.isRed = true ∨ t1.left.isRed = true) := by
      cases t with
      | nil => exact absurd rfl hne
      | node c l k v r h =>
        simp only [left_node, right_node, hl.1] at ht1
        obtain ⟨m, hm, b1, b2⟩ := BH_node.1 hb
        cases hlr : l.isRed with
        | true =>
          simp [hlr] at ht1
          rw [ht1]
          exact ⟨rfl, hh, by simp, rfl, ⟨n, hb⟩, hl, .inr (by simpa using hlr)⟩
        | false =>
          simp [hlr] at ht1
          rw [ht1]
          exact ⟨rfl, hh, by simp [setColor], rfl, ⟨m, b1, b2⟩, ⟨hl.1, fun _ => hlr, hl.2.2⟩, .inl rfl⟩
    obtain ⟨a1, a2, a3, a4, ⟨m, a5⟩, a6, a7⟩ := h1
    obtain ⟨t', e, g1, g2, g3, g4, g5⟩ := deleteGo_spec key t.size (t := t1) (by omega) a3 a5 a2
      (by simpa [Sorted, a1] using hs) ⟨v, by rw [a1]; exact hmem⟩ (.inl ⟨a6, a7⟩)
    rw [a1] at g1
    have hs' : (t'.setColor .black).Sorted := by
      simp only [Sorted, forEach_setColor, g1]; exact sortedL_delL hs
    have hgone : (t'.setColor .black).get key = none := by
      rw [get_eq_lookL hs', forEach_setColor, g1, lookL_delL, if_pos rfl]
    refine ⟨t'.setColor .black, ?_, ⟨BH_setColor_black g2, ?_, by simpa using g4, hs', ?_⟩, by simpa using g1⟩
    · rw [e]; simp [hgone]
    · cases t' with
      | nil => trivial
      | node c l k v r hh => exact ⟨g3.1, by simp [setColor], g3.2.2⟩
    · cases t' <;> rfl

/-- list-level `modify` -/
def modL (key : Bytes) (f : V → V) (xs : List (Bytes × V)) : List (Bytes × V) :=
  xs.map (fun p => if p.1 = key then (p.1, f p.2) else p)

theorem modL_map_fst (key : Bytes) (f : V → V) (xs : List (Bytes × V)) :
    (modL key f xs).map Prod.fst = xs.map Prod.fst := by
  simp only [modL, List.map_map]
  apply List.map_congr_left
  intro p _
  simp only [Function.comp]
  split <;> rfl

theorem sortedL_iff_keys {xs : List (Bytes × V)} :
    SortedL xs ↔ (xs.map Prod.fst).Pairwise (· < ·) := by
  simp [SortedL, List.pairwise_map]

theorem lookL_modL {xs : List (Bytes × V)} {key k : Bytes} {f : V → V} :
    lookL k (modL key f xs) = if k = key then (lookL k xs).map f else lookL k xs := by
  induction xs with
  | nil => simp [modL, lookL]
  | cons x xs ih =>
    obtain ⟨k', v'⟩ := x
    simp only [modL, List.map_cons] at ih ⊢
    by_cases h1 : k' = key
    · subst h1
      simp only [if_true, lookL]
      by_cases h2 : k = k'
      · simp [h2]
      · simp [h2, ih]
    · simp only [if_neg h1, lookL]
      by_cases h2 : k = k'
      · subst h2; simp [h1]
      · simp [h2, ih]

theorem modL_eq_self {xs : List (Bytes × V)} {key : Bytes} {f : V → V} (h : ∀ a ∈ xs, a.1 ≠ key) :
    modL key f xs = xs := by
  unfold modL
  conv_rhs => rw [← List.map_id xs]
  apply List.map_congr_left
  intro a ha; simp [h a ha]

theorem modL_append {xs ys : List (Bytes × V)} {key : Bytes} {f : V → V} :
    modL key f (xs ++ ys) = modL key f xs ++ modL key f ys := by simp [modL]

/-- same colours, same shape -/
def SameShape : Rb V → Rb V → Prop
  | .nil, .nil => True
  | .node c l _ _ r _, .node c' l' _ _ r' _ => c = c' ∧ SameShape l l' ∧ SameShape r r'
  | _, _ => False

theorem SameShape.refl (t : Rb V) : SameShape t t := by
  induction t with
  | nil => trivial
  | node c l k v r h ihl ihr => exact ⟨rfl, ihl, ihr⟩

theorem SameShape.isRed {t t' : Rb V} (h : SameShape t t') : t'.isRed = t.isRed := by
  cases t <;> cases t' <;> simp_all [SameShape]

theorem SameShape.bh {t t' : Rb V} (h : SameShape t t') {n : Nat} (hb : BH t n) : BH t' n := by
  induction t generalizing t' n with
  | nil => cases t' <;> simp_all [SameShape]
  | node c l k v r hh ihl ihr =>
    cases t' with
    | nil => exact h.elim
    | node c' l' k' v' r' hh' =>
      obtain ⟨rfl, h1, h2⟩ := h
      obtain ⟨m, hm, b1, b2⟩ := BH_node.1 hb
      exact BH_node.2 ⟨m, hm, ihl h1 b1, ihr h2 b2⟩

theorem SameShape.ll {t t' : Rb V} (h : SameShape t t') (hb : LL t) : LL t' := by
  induction t generalizing t' with
  | nil => cases t' <;> simp_all [SameShape]
  | node c l k v r hh ihl ihr =>
    cases t' with
    | nil => exact h.elim
    | node c' l' k' v' r' hh' =>
      obtain ⟨rfl, h1, h2⟩ := h
      exact ⟨by rw [h2.isRed]; exact hb.1, fun hc => by rw [h1.isRed]; exact hb.2.1 hc,
        ihl h1 hb.2.2.1, ihr h2 hb.2.2.2⟩

/-- `modify` succeeds when the closure does on the stored value, and changes only that value. -/
theorem modify_go {t : Rb V} (hs : t.Sorted) (hh : HashOK t) (key : Bytes) (f : V → Option V) (g : V → V)
    (hf : ∀ v, (key, v) ∈ t.forEach → f v = some (g v)) :
    ∃ t', t.modify key f = some t' ∧ t'.forEach = modL key g t.forEach ∧ HashOK t' ∧ SameShape t t' := by
  induction t with
  | nil => exact ⟨.nil, rfl, rfl, trivial, trivial⟩
  | node c l k v r h ihl ihr =>
    have hs0 : SortedL (l.forEach ++ (k, v) :: r.forEach) := hs
    obtain ⟨s1, s2, s3, s4⟩ := sortedL_node.1 hs0
    simp only [modify, forEach]
    cases hc : cmpB key k with
    | eq =>
      have := cmpB_eq.1 hc; subst this
      have hv := hf v (by simp [forEach])
      refine ⟨mk c l key (g v) r, by simp [hv], ?_, ?_, ⟨rfl, .refl _, .refl _⟩⟩
      · rw [modL_append, modL_eq_self (fun a ha => ne_of_lt (s3 a ha))]
        simp only [modL, List.map_cons, if_true, forEach_mk]
        have := modL_eq_self (f := g) (key := key) (xs := r.forEach) (fun a ha => ne_of_gt (s4 a ha))
        unfold modL at this
        rw [this]
      · simp [hh.2.1, hh.2.2]
    | lt =>
      have hk := cmpB_lt.1 hc
      obtain ⟨l', e, f1, f2, f3⟩ := ihl s1 hh.2.1 (fun v' hv' => hf v' (by simp [forEach, hv']))
      refine ⟨mk c l' k v r, by simp [e], ?_, by simp [f2, hh.2.2], ⟨rfl, f3, .refl _⟩⟩
      rw [modL_append]
      have : modL key g ((k, v) :: r.forEach) = (k, v) :: r.forEach := by
        apply modL_eq_self
        intro a ha
        simp at ha
        rcases ha with rfl | ha
        · exact ne_of_gt hk
        · exact ne_of_gt (lt_trans hk (s4 a ha))
      rw [this]; simp [f1]
    | gt =>
      have hk := cmpB_gt.1 hc
      obtain ⟨r', e, f1, f2, f3⟩ := ihr s2 hh.2.2 (fun v' hv' => hf v' (by simp [forEach, hv']))
      refine ⟨mk c l k v r', by simp [e], ?_, by simp [f2, hh.2.1], ⟨rfl, .refl _, f3⟩⟩
      rw [modL_append, modL_eq_self (fun a ha => ne_of_lt (lt_trans (s3 a ha) hk))]
      simp only [forEach_mk, f1]
      simp [modL, ne_of_lt hk]

theorem modify_spec {t : Rb V} (ht : Valid t) (key : Bytes) (f : V → Option V) (g : V → V)
    (hf : ∀ v, (key, v) ∈ t.forEach → f v = some (g v)) :
    ∃ t', t.modify key f = some t' ∧ Valid t' ∧ t'.forEach = modL key g t.forEach := by
  obtain ⟨⟨n, hb⟩, hl, hh, hs, hbk⟩ := ht
  obtain ⟨t', e, f1, f2, f3⟩ := modify_go hs hh key f g hf
  refine ⟨t', e, ⟨⟨n, f3.bh hb⟩, f3.ll hl, f2, ?_, by rw [f3.isRed]; exact hbk⟩, f1⟩
  simp only [Sorted] at hs ⊢
  rw [sortedL_iff_keys] at hs ⊢
  rw [f1, modL_map_fst]; exact hs

/-! ### Height -/

/-- number of nodes on the longest path -/
def height : Rb V → Nat
  | .nil => 0
  | .node _ l _ _ r _ => max l.height r.height + 1

theorem height_le {t : Rb V} {n : Nat} (hb : BH t n) (hl : LL t) :
    t.height ≤ 2 * n + (if t.isRed then 1 else 0) := by
  induction t generalizing n with
  | nil => simp [height]
  | node c l k v r h ihl ihr =>
    obtain ⟨m, hm, b1, b2⟩ := BH_node.1 hb
    obtain ⟨h1, h2, h3, h4⟩ := hl
    have i1 := ihl b1 h3
    have i2 := ihr b2 h4
    simp only [height, isRed_node]
    rw [h1] at i2
    simp at i2
    cases c with
    | red =>
      rw [h2 rfl] at i1
      simp at i1 hm ⊢
      omega
    | black =>
      simp at hm ⊢
      split at i1 <;> omega

theorem size_ge {t : Rb V} {n : Nat} (hb : BH t n) : 2 ^ n ≤ t.size + 1 := by
  induction t generalizing n with
  | nil => simp [BH] at hb; subst hb; simp [size]
  | node c l k v r h ihl ihr =>
    obtain ⟨m, hm, b1, b2⟩ := BH_node.1 hb
    have i1 := ihl b1
    have i2 := ihr b2
    simp only [size]
    cases c with
    | red => simp at hm; subst hm; omega
    | black => simp at hm; subst hm; rw [pow_succ]; omega

theorem size_eq_length (t : Rb V) : t.size = t.forEach.length := by
  induction t with
  | nil => rfl
  | node c l k v r h ihl ihr => simp [size, forEach, ihl, ihr]; omega

end Rb
end Verif
