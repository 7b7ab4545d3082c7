import Verif.Model.RbTree

set_option linter.unusedSimpArgs false
set_option linter.unusedSectionVars false

namespace Verif
namespace Rb
variable {V : Type}

/-! ### List-level finite maps -/

/-- insertion in a key-sorted association list -/
def insL (k : Bytes) (v : V) : List (Bytes × V) → List (Bytes × V)
  | [] => [(k, v)]
  | (k', v') :: xs =>
    match cmpB k k' with
    | .lt => (k, v) :: (k', v') :: xs
    | .eq => (k, v) :: xs
    | .gt => (k', v') :: insL k v xs

/-- removal of a key -/
def delL (k : Bytes) (xs : List (Bytes × V)) : List (Bytes × V) := xs.filter (fun p => p.1 ≠ k)

/-- lookup -/
def lookL (k : Bytes) : List (Bytes × V) → Option V
  | [] => none
  | (k', v') :: xs => if k = k' then some v' else lookL k xs

/-- strictly increasing keys -/
def SortedL (xs : List (Bytes × V)) : Prop := xs.Pairwise (fun a b => a.1 < b.1)

theorem sortedL_append {xs ys : List (Bytes × V)} :
    SortedL (xs ++ ys) ↔ SortedL xs ∧ SortedL ys ∧ ∀ a ∈ xs, ∀ b ∈ ys, a.1 < b.1 := by
  simp [SortedL, List.pairwise_append]

theorem sortedL_cons {x : Bytes × V} {ys : List (Bytes × V)} :
    SortedL (x :: ys) ↔ (∀ b ∈ ys, x.1 < b.1) ∧ SortedL ys := by
  simp [SortedL, List.pairwise_cons]

theorem sortedL_node {xs ys : List (Bytes × V)} {k : Bytes} {v : V} :
    SortedL (xs ++ (k, v) :: ys) ↔
      SortedL xs ∧ SortedL ys ∧ (∀ a ∈ xs, a.1 < k) ∧ (∀ b ∈ ys, k < b.1) := by
  rw [sortedL_append, sortedL_cons]
  constructor
  · rintro ⟨h1, ⟨h2, h3⟩, h4⟩
    exact ⟨h1, h3, fun a ha => h4 a ha (k, v) (by simp), h2⟩
  · rintro ⟨h1, h2, h3, h4⟩
    refine ⟨h1, ⟨h4, h2⟩, fun a ha b hb => ?_⟩
    simp at hb
    rcases hb with rfl | hb
    · exact h3 a ha
    · exact lt_trans (h3 a ha) (h4 b hb)

theorem lookL_append {xs ys : List (Bytes × V)} {k : Bytes} :
    lookL k (xs ++ ys) = match lookL k xs with | some v => some v | none => lookL k ys := by
  induction xs with
  | nil => simp [lookL]
  | cons x xs ih => obtain ⟨k', v'⟩ := x; simp only [List.cons_append, lookL]; split <;> simp [ih]

theorem lookL_none {xs : List (Bytes × V)} {k : Bytes} :
    lookL k xs = none ↔ ∀ a ∈ xs, a.1 ≠ k := by
  induction xs with
  | nil => simp [lookL]
  | cons x xs ih =>
    obtain ⟨k', v'⟩ := x
    simp only [lookL]
    split
    · next h => subst h; simp
    · next h => simp only [ih, List.mem_cons, forall_eq_or_imp]; simp [Ne.symm h]

theorem lookL_mem {xs : List (Bytes × V)} {k : Bytes} {v : V} (h : lookL k xs = some v) :
    (k, v) ∈ xs := by
  induction xs with
  | nil => simp [lookL] at h
  | cons x xs ih =>
    obtain ⟨k', v'⟩ := x
    simp only [lookL] at h
    split at h
    · next e => subst e; simp at h; subst h; simp
    · simp [ih h]

theorem lookL_of_mem {xs : List (Bytes × V)} (hs : SortedL xs) {k : Bytes} {v : V}
    (h : (k, v) ∈ xs) : lookL k xs = some v := by
  induction xs with
  | nil => simp at h
  | cons x xs ih =>
    obtain ⟨k', v'⟩ := x
    rw [sortedL_cons] at hs
    simp only [lookL]
    simp at h
    rcases h with ⟨rfl, rfl⟩ | h
    · simp
    · have := hs.1 _ h
      rw [if_neg (ne_of_gt this)]
      exact ih hs.2 h

theorem insL_append_lt {xs ys : List (Bytes × V)} {k key : Bytes} {v val : V}
    (h : key < k) : insL key val (xs ++ (k, v) :: ys) = insL key val xs ++ (k, v) :: ys := by
  induction xs with
  | nil => simp [insL, cmpB_lt.2 h]
  | cons x xs ih =>
    obtain ⟨k', v'⟩ := x
    simp only [List.cons_append, insL]
    cases cmpB key k' <;> simp [ih]

theorem insL_append_eq {xs ys : List (Bytes × V)} {k : Bytes} {v val : V}
    (hx : ∀ a ∈ xs, a.1 < k) : insL k val (xs ++ (k, v) :: ys) = xs ++ (k, val) :: ys := by
  induction xs with
  | nil => simp [insL, cmpB_eq.2 rfl]
  | cons x xs ih =>
    obtain ⟨k', v'⟩ := x
    simp only [List.cons_append, insL]
    rw [cmpB_gt.2 (hx (k', v') (by simp))]
    simp [ih (fun a ha => hx a (by simp [ha]))]

theorem insL_append_gt {xs ys : List (Bytes × V)} {k key : Bytes} {v val : V}
    (hx : ∀ a ∈ xs, a.1 < k) (h : k < key) :
    insL key val (xs ++ (k, v) :: ys) = xs ++ (k, v) :: insL key val ys := by
  induction xs with
  | nil => simp [insL, cmpB_gt.2 h]
  | cons x xs ih =>
    obtain ⟨k', v'⟩ := x
    simp only [List.cons_append, insL]
    rw [cmpB_gt.2 (lt_trans (hx (k', v') (by simp)) h)]
    simp [ih (fun a ha => hx a (by simp [ha]))]

theorem mem_insL {xs : List (Bytes × V)} {key : Bytes} {val : V} {a : Bytes × V}
    (h : a ∈ insL key val xs) : a = (key, val) ∨ a ∈ xs := by
  induction xs with
  | nil => simpa [insL] using h
  | cons x xs ih =>
    obtain ⟨k', v'⟩ := x
    simp only [insL] at h
    cases hc : cmpB key k' <;> rw [hc] at h <;> simp at h ⊢
    · tauto
    · tauto
    · rcases h with h | h
      · tauto
      · rcases ih h with h | h <;> tauto

theorem sortedL_insL {xs : List (Bytes × V)} {key : Bytes} {val : V} (h : SortedL xs) :
    SortedL (insL key val xs) := by
  induction xs with
  | nil => simp [insL, SortedL]
  | cons x xs ih =>
    obtain ⟨k', v'⟩ := x
    rw [sortedL_cons] at h
    simp only [insL]
    cases hc : cmpB key k' with
    | lt =>
      have := cmpB_lt.1 hc
      simp only
      rw [sortedL_cons, sortedL_cons]
      refine ⟨fun b hb => ?_, h⟩
      simp at hb
      rcases hb with rfl | hb
      · exact this
      · exact lt_trans this (h.1 b hb)
    | eq =>
      have := cmpB_eq.1 hc; subst this
      simp only
      rw [sortedL_cons]; exact ⟨fun b hb => h.1 b hb, h.2⟩
    | gt =>
      have := cmpB_gt.1 hc
      simp only
      rw [sortedL_cons]
      refine ⟨fun b hb => ?_, ih h.2⟩
      rcases mem_insL hb with rfl | hb
      · exact this
      · exact h.1 b hb

theorem lookL_insL {xs : List (Bytes × V)} {key k : Bytes} {val : V} :
    lookL k (insL key val xs) = if k = key then some val else lookL k xs := by
  induction xs with
  | nil => simp only [insL, lookL]
  | cons x xs ih =>
    obtain ⟨k', v'⟩ := x
    simp only [insL]
    cases hc : cmpB key k' with
    | lt => simp only [lookL]
    | eq =>
      have := cmpB_eq.1 hc; subst this
      simp only [lookL]
      split <;> simp_all
    | gt =>
      have := cmpB_gt.1 hc
      simp only [lookL, ih]
      by_cases h1 : k = k'
      · subst h1; simp [ne_of_lt this]
      · simp [h1]

theorem sortedL_delL {xs : List (Bytes × V)} {key : Bytes} (h : SortedL xs) :
    SortedL (delL key xs) := h.filter _

theorem lookL_delL {xs : List (Bytes × V)} {key k : Bytes} :
    lookL k (delL key xs) = if k = key then none else lookL k xs := by
  induction xs with
  | nil => simp [delL, lookL]
  | cons x xs ih =>
    obtain ⟨k', v'⟩ := x
    unfold delL at ih ⊢
    simp only [List.filter_cons]
    by_cases h : k' = key
    · subst h
      simp only [ne_eq, not_true_eq_false, decide_false, Bool.false_eq_true, if_false, ih, lookL]
      split <;> simp_all
    · simp only [ne_eq, h, not_false_eq_true, decide_true, if_true, lookL, ih]
      by_cases h2 : k = k'
      · subst h2; simp [h]
      · simp [h2]

theorem delL_eq_self {xs : List (Bytes × V)} {key : Bytes} (h : ∀ a ∈ xs, a.1 ≠ key) :
    delL key xs = xs := by
  simp only [delL, List.filter_eq_self]; intro a ha; simpa using h a ha

theorem delL_append {xs ys : List (Bytes × V)} {key : Bytes} :
    delL key (xs ++ ys) = delL key xs ++ delL key ys := by simp [delL]

theorem delL_cons_ne {x : Bytes × V} {ys : List (Bytes × V)} {key : Bytes} (h : x.1 ≠ key) :
    delL key (x :: ys) = x :: delL key ys := by simp [delL, h]

theorem delL_cons_eq {x : Bytes × V} {ys : List (Bytes × V)} {key : Bytes} (h : x.1 = key) :
    delL key (x :: ys) = delL key ys := by simp [delL, h]

/-! ### Invariants -/

/-- equal number `n` of black nodes on every path to a leaf -/
def BH : Rb V → Nat → Prop
  | .nil, n => n = 0
  | .node .red l _ _ r _, n => BH l n ∧ BH r n
  | .node .black l _ _ r _, n => ∃ m, n = m + 1 ∧ BH l m ∧ BH r m

/-- left-leaning 2-3 red-black: no red right child, no red child of a red node -/
def LL : Rb V → Prop
  | .nil => True
  | .node c l _ _ r _ => r.isRed = false ∧ (c = .red → l.isRed = false) ∧ LL l ∧ LL r

/-- entries in key order, each key once -/
def Sorted (t : Rb V) : Prop := SortedL t.forEach

theorem get_eq_lookL {t : Rb V} (hs : t.Sorted) (key : Bytes) [SHA] [AsHashTree V] :
    t.get key = lookL key t.forEach := by
  induction t with
  | nil => rfl
  | node c l k v r h ihl ihr =>
    simp only [Sorted, forEach] at hs
    rw [sortedL_node] at hs
    obtain ⟨h1, h2, h3, h4⟩ := hs
    simp only [get, forEach, lookL_append, lookL]
    cases hc : cmpB key k with
    | lt =>
      have := cmpB_lt.1 hc
      simp only [ihl h1]
      have hr : lookL key r.forEach = none :=
        lookL_none.2 fun a ha => ne_of_gt (lt_trans this (h4 a ha))
      cases lookL key l.forEach <;> simp [hr, ne_of_lt this]
    | eq =>
      have := cmpB_eq.1 hc; subst this
      have hl : lookL key l.forEach = none := lookL_none.2 fun a ha => ne_of_lt (h3 a ha)
      simp [hl]
    | gt =>
      have := cmpB_gt.1 hc
      have hl : lookL key l.forEach = none :=
        lookL_none.2 fun a ha => ne_of_lt (lt_trans (h3 a ha) this)
      simp [hl, ihr h2, ne_of_gt this]

section
variable [SHA] [AsHashTree V]

/-- every stored hash is the recomputed one -/
def HashOK : Rb V → Prop
  | .nil => True
  | .node _ l k v r h => h = computeHash l k v r ∧ HashOK l ∧ HashOK r

/-- like `HashOK` but the hashes on the left spine may be stale -/
def HashOff : Rb V → Prop
  | .nil => True
  | .node _ l _ _ r _ => HashOff l ∧ HashOK r

theorem HashOK.off {t : Rb V} (h : HashOK t) : HashOff t := by
  induction t with
  | nil => trivial
  | node c l k v r hh ihl _ => exact ⟨ihl h.2.1, h.2.2⟩

@[simp] theorem isRed_nil : (Rb.nil : Rb V).isRed = false := rfl
@[simp] theorem isRed_node (c : Color) (l : Rb V) (k : Bytes) (v : V) (r : Rb V) (h : Hash) :
    (Rb.node c l k v r h).isRed = (c == .red) := rfl
@[simp] theorem left_node (c : Color) (l : Rb V) (k : Bytes) (v : V) (r : Rb V) (h : Hash) :
    (Rb.node c l k v r h).left = l := rfl
@[simp] theorem right_node (c : Color) (l : Rb V) (k : Bytes) (v : V) (r : Rb V) (h : Hash) :
    (Rb.node c l k v r h).right = r := rfl
@[simp] theorem forEach_flipColor (t : Rb V) : t.flipColor.forEach = t.forEach := by
  cases t <;> rfl
@[simp] theorem forEach_setColor (c : Color) (t : Rb V) : (t.setColor c).forEach = t.forEach := by
  cases t <;> rfl
@[simp] theorem size_flipColor (t : Rb V) : t.flipColor.size = t.size := by cases t <;> rfl
@[simp] theorem size_setColor (c : Color) (t : Rb V) : (t.setColor c).size = t.size := by
  cases t <;> rfl
@[simp] theorem computeHash_flip_left (l : Rb V) (k : Bytes) (v : V) (r : Rb V) :
    computeHash l.flipColor k v r = computeHash l k v r := by cases l <;> cases r <;> rfl
@[simp] theorem computeHash_flip_right (l : Rb V) (k : Bytes) (v : V) (r : Rb V) :
    computeHash l k v r.flipColor = computeHash l k v r := by cases l <;> cases r <;> rfl
@[simp] theorem hashOK_flipColor (t : Rb V) : HashOK t.flipColor ↔ HashOK t := by cases t <;> rfl
@[simp] theorem hashOff_flipColor (t : Rb V) : HashOff t.flipColor ↔ HashOff t := by cases t <;> rfl
@[simp] theorem hashOK_setColor (c : Color) (t : Rb V) : HashOK (t.setColor c) ↔ HashOK t := by
  cases t <;> rfl
@[simp] theorem forEach_mk (c : Color) (l : Rb V) (k : Bytes) (v : V) (r : Rb V) :
    (mk c l k v r).forEach = l.forEach ++ (k, v) :: r.forEach := rfl
@[simp] theorem hashOK_mk (c : Color) (l : Rb V) (k : Bytes) (v : V) (r : Rb V) :
    HashOK (mk c l k v r) ↔ HashOK l ∧ HashOK r := by simp [mk, HashOK]
@[simp] theorem isRed_mk (c : Color) (l : Rb V) (k : Bytes) (v : V) (r : Rb V) :
    (mk c l k v r).isRed = (c == .red) := rfl
@[simp] theorem left_mk (c : Color) (l : Rb V) (k : Bytes) (v : V) (r : Rb V) :
    (mk c l k v r).left = l := rfl
@[simp] theorem right_mk (c : Color) (l : Rb V) (k : Bytes) (v : V) (r : Rb V) :
    (mk c l k v r).right = r := rfl
@[simp] theorem size_mk (c : Color) (l : Rb V) (k : Bytes) (v : V) (r : Rb V) :
    (mk c l k v r).size = l.size + r.size + 1 := rfl
@[simp] theorem LL_mk (c : Color) (l : Rb V) (k : Bytes) (v : V) (r : Rb V) :
    LL (mk c l k v r) ↔ r.isRed = false ∧ (c = .red → l.isRed = false) ∧ LL l ∧ LL r := Iff.rfl
@[simp] theorem BH_mk_red (l : Rb V) (k : Bytes) (v : V) (r : Rb V) (n : Nat) :
    BH (mk .red l k v r) n ↔ BH l n ∧ BH r n := Iff.rfl
@[simp] theorem BH_mk_black (l : Rb V) (k : Bytes) (v : V) (r : Rb V) (n : Nat) :
    BH (mk .black l k v r) n ↔ ∃ m, n = m + 1 ∧ BH l m ∧ BH r m := Iff.rfl

/-- a node of any colour in terms of its children -/
theorem BH_node {c : Color} {l r : Rb V} {k : Bytes} {v : V} {h : Hash} {n : Nat} :
    BH (.node c l k v r h) n ↔ ∃ m, n = m + (if c = .black then 1 else 0) ∧ BH l m ∧ BH r m := by
  cases c <;> simp [BH]

theorem BH_mk {c : Color} {l r : Rb V} {k : Bytes} {v : V} {n : Nat} :
    BH (mk c l k v r) n ↔ ∃ m, n = m + (if c = .black then 1 else 0) ∧ BH l m ∧ BH r m := BH_node

theorem BH_flip_red {t : Rb V} (hr : t.isRed = true) {n : Nat} (h : BH t n) :
    BH t.flipColor (n + 1) := by
  cases t with
  | nil => simp [isRed] at hr
  | node c l k v r h' =>
    simp [isRed] at hr; subst hr
    exact ⟨n, rfl, h⟩

theorem BH_flip_black {t : Rb V} (hr : t.isRed = false) {n : Nat} (h : BH t (n + 1)) :
    BH t.flipColor n := by
  cases t with
  | nil => simp [BH] at h
  | node c l k v r h' =>
    cases c with
    | red => simp [isRed] at hr
    | black =>
      obtain ⟨m, e, h⟩ := h
      have : n = m := by omega
      subst this; exact h

theorem LL_flip_red {t : Rb V} (hr : t.isRed = true) (h : LL t) : LL t.flipColor := by
  cases t with
  | nil => trivial
  | node c l k v r h' =>
    simp [isRed] at hr; subst hr
    exact ⟨h.1, by simp [Color.flip], h.2.2⟩

theorem LL_flip_black {t : Rb V} (hl : t.left.isRed = false) (h : LL t) :
    LL t.flipColor := by
  cases t with
  | nil => trivial
  | node c l k v r h' =>
    exact ⟨h.1, fun _ => hl, h.2.2⟩

@[simp] theorem isRed_flipColor_of_red {t : Rb V} (h : t.isRed = true) : t.flipColor.isRed = false := by
  cases t with
  | nil => rfl
  | node c l k v r _ => simp [isRed] at h; subst h; rfl

theorem isRed_flipColor_of_black {t : Rb V} (h : t.isRed = false) (hn : t ≠ .nil) :
    t.flipColor.isRed = true := by
  cases t with
  | nil => exact absurd rfl hn
  | node c l k v r _ => cases c <;> simp [isRed] at h ⊢; rfl

@[simp] theorem left_flipColor (t : Rb V) : t.flipColor.left = t.left := by cases t <;> rfl
@[simp] theorem right_flipColor (t : Rb V) : t.flipColor.right = t.right := by cases t <;> rfl

theorem nil_of_BH0 {t : Rb V} (hb : t.isRed = false) (h : BH t 0) : t = .nil := by
  cases t with
  | nil => rfl
  | node c l k v r _ =>
    cases c with
    | red => simp [isRed] at hb
    | black => obtain ⟨m, e, _⟩ := h; omega

theorem ne_nil_of_BH_succ {t : Rb V} {n : Nat} (h : BH t (n + 1)) : t ≠ .nil := by
  rintro rfl; simp [BH] at h

theorem ne_nil_of_red {t : Rb V} (h : t.isRed = true) : t ≠ .nil := by
  rintro rfl; simp [isRed] at h

theorem LL_left {t : Rb V} (h : LL t) (hr : t.isRed = true) : t.left.isRed = false := by
  cases t with
  | nil => rfl
  | node c l k v r _ => simp [isRed] at hr; exact h.2.1 hr

theorem LL.right_black {t : Rb V} (h : LL t) : t.right.isRed = false := by
  cases t with
  | nil => rfl
  | node c l k v r _ => exact h.1

/-! ### The four outcomes of `balance` -/

theorem balance_id {c : Color} {l r : Rb V} {k : Bytes} {v : V} (hr : r.isRed = false)
    (hl : l.isRed = true → l.left.isRed = false) :
    balance (mk c l k v r) = some (mk c l k v r) := by
  unfold balance
  simp only [right_mk, hr, left_mk, Bool.false_and, Bool.false_eq_true, if_false, Option.bind_eq_bind,
    Option.bind_some, Bool.and_false]
  cases h : l.isRed with
  | false => simp [hr, h]
  | true => simp [hl h, hr]

theorem balance_rotl {c : Color} {l rl rr : Rb V} {k rk : Bytes} {v rv : V} {rh : Hash}
    (hl : l.isRed = false) (hrr : rr.isRed = false) :
    balance (mk c l k v (.node .red rl rk rv rr rh)) = some (mk c (mk .red l k v rl) rk rv rr) := by
  unfold balance
  simp [hl, hrr, rotateLeft, mk]

theorem balance_flip {c : Color} {l r : Rb V} {k : Bytes} {v : V} (hl : l.isRed = true)
    (hll : l.left.isRed = false) (hr : r.isRed = true) :
    balance (mk c l k v r) = some (mk c.flip l.flipColor k v r.flipColor) := by
  unfold balance
  cases l with
  | nil => simp [isRed] at hl
  | node lc ll lk lv lr lh =>
    cases r with
    | nil => simp [isRed] at hr
    | node rc rl rk rv rr rh =>
      simp [isRed] at hl hr
      subst hl; subst hr
      simp only [left] at hll
      simp [mk, hll, flipColors, flipColor, Color.flip, computeHash]

theorem balance_rotr {c : Color} {ll lr r : Rb V} {k lk : Bytes} {v lv : V} {lh : Hash}
    (hll : ll.isRed = true) (hr : r.isRed = false) :
    balance (mk c (.node .red ll lk lv lr lh) k v r) =
      some (mk c.flip ll.flipColor lk lv (mk .black lr k v r)) := by
  unfold balance
  cases ll with
  | nil => simp [isRed] at hll
  | node c' a ak av b ah =>
    simp [isRed] at hll; subst hll
    simp [hr, rotateRight, mk, flipColors, flipColor, Color.flip, computeHash]

/-! ### insert -/

theorem insertGo_spec (key : Bytes) (val : V) {t : Rb V} {n : Nat} (hb : BH t n) (hl : LL t)
    (hh : HashOK t) (hs : t.Sorted) :
    ∃ t', t.insertGo key val = some t' ∧ t'.forEach = insL key val t.forEach ∧ BH t' n ∧
      HashOK t' ∧ t' ≠ .nil ∧ t'.right.isRed = false ∧ LL t'.left ∧ LL t'.right ∧
      (t'.isRed = true → t'.left.isRed = true → t.isRed = true) ∧
      (t.isRed = true → t'.isRed = true) := by
  induction t generalizing n with
  | nil =>
    refine ⟨newNode key val, rfl, rfl, ?_, ?_, ?_, rfl, trivial, trivial, ?_, ?_⟩
    · simp [BH] at hb; subst hb; exact ⟨rfl, rfl⟩
    · simp [newNode, HashOK, computeHash, dataHash]
    · simp [newNode]
    · simp [newNode, left, isRed]
    · simp
  | node c l k v r h ihl ihr =>
    obtain ⟨hrb, hlb, hLl, hLr⟩ := hl
    obtain ⟨hhh, hhl, hhr⟩ := hh
    obtain ⟨m, hm, hbl, hbr⟩ := BH_node.1 hb
    have hs' := hs
    simp only [Sorted, forEach] at hs
    rw [sortedL_node] at hs
    obtain ⟨s1, s2, s3, s4⟩ := hs
    simp only [insertGo, forEach]
    cases hc : cmpB key k with
    | eq =>
      have := cmpB_eq.1 hc; subst this
      refine ⟨mk c l key val r, ?_, ?_, ?_, ?_, ?_, ?_, ?_, ?_, ?_, ?_⟩
      · exact balance_id hrb (fun h => LL_left hLl h)
      · simp [insL_append_eq s3]
      · exact BH_mk.2 ⟨m, hm, hbl, hbr⟩
      · simp [hhl, hhr]
      · simp [mk]
      · simpa using hrb
      · simpa using hLl
      · simpa using hLr
      · simp only [isRed_mk, left_mk]
        intro h1 h2
        simp at h1
        simp [hlb h1] at h2
      · simp
    | lt =>
      obtain ⟨l', e, f1, f2, f3, f4, f5, f6, f7, f8, f9⟩ := ihl hbl hLl hhl s1
      simp only [e, Option.bind_eq_bind, Option.bind_some]
      have hk := cmpB_lt.1 hc
      by_cases hlr : l'.isRed = true ∧ l'.left.isRed = true
      · -- double red on the left: rotate right and flip
        obtain ⟨h1, h2⟩ := hlr
        have hlred := f8 h1 h2
        have hcb : c = .black := by
          cases c with
          | red => simp [hlb rfl] at hlred
          | black => rfl
        subst hcb
        cases l' with
        | nil => exact absurd rfl f4
        | node lc ll lk lv lr lh =>
          simp [isRed] at h1; subst h1
          simp only [left, right] at h2 f5 f6 f7
          refine ⟨_, balance_rotr h2 hrb, ?_, ?_, ?_, ?_, ?_, ?_, ?_, ?_, ?_⟩
          · simp only [forEach] at f1
            rw [insL_append_lt hk, ← f1]
            simp
          · obtain ⟨g1, g2⟩ := f2
            subst hm
            simp only [Color.flip, BH_mk_red, BH_mk_black]
            exact ⟨BH_flip_red h2 g1, m, rfl, g2, hbr⟩
          · obtain ⟨_, g1, g2⟩ := f3
            simp [g1, g2, hhr]
          · simp [mk]
          · simp
          · simp only [left_mk]; exact LL_flip_red h2 f6
          · simp [f5, hLr, f7, hrb]
          · simp only [left_mk, isRed_flipColor_of_red h2]; simp
          · simp
      · have hll : l'.isRed = true → l'.left.isRed = false := by
          intro h1; by_contra h2; exact hlr ⟨h1, by simpa using h2⟩
        refine ⟨_, balance_id hrb hll, ?_, ?_, ?_, ?_, ?_, ?_, ?_, ?_, ?_⟩
        · simp [f1, insL_append_lt hk]
        · exact BH_mk.2 ⟨m, hm, f2, hbr⟩
        · simp [f3, hhr]
        · simp [mk]
        · simpa using hrb
        · simp only [left_mk]
          cases l' with
          | nil => trivial
          | node lc ll lk lv lr lh =>
            exact ⟨f5, fun h => hll (by simp [isRed, h]), f6, f7⟩
        · simpa using hLr
        · simp; tauto
        · simp
    | gt =>
      obtain ⟨r', e, f1, f2, f3, f4, f5, f6, f7, f8, f9⟩ := ihr hbr hLr hhr s2
      simp only [e, Option.bind_eq_bind, Option.bind_some]
      have hk := cmpB_gt.1 hc
      cases hr' : r'.isRed with
      | false =>
        refine ⟨_, balance_id hr' (fun h => LL_left hLl h), ?_, ?_, ?_, ?_, ?_, ?_, ?_, ?_, ?_⟩
        · simp [f1, insL_append_gt s3 hk]
        · exact BH_mk.2 ⟨m, hm, hbl, f2⟩
        · simp [f3, hhl]
        · simp [mk]
        · simpa using hr'
        · simpa using hLl
        · simp only [right_mk]
          cases r' with
          | nil => trivial
          | node rc rl rk rv rr rh =>
            refine ⟨f5, fun h => ?_, f6, f7⟩
            subst h; simp [isRed] at hr'
        · simp; tauto
        · simp
      | true =>
        have hrl : r'.left.isRed = false := by
          by_contra h
          have := f8 hr' (by simpa using h)
          rw [hrb] at this; exact absurd this (by simp)
        cases hlred : l.isRed with
        | false =>
          cases r' with
          | nil => exact absurd rfl f4
          | node rc rl rk rv rr rh =>
            simp [isRed] at hr'; subst hr'
            simp only [left, right] at hrl f5 f6 f7
            refine ⟨_, balance_rotl hlred f5, ?_, ?_, ?_, ?_, ?_, ?_, ?_, ?_, ?_⟩
            · simp only [forEach] at f1
              rw [insL_append_gt s3 hk, ← f1]; simp
            · obtain ⟨g1, g2⟩ := f2
              exact BH_mk.2 ⟨m, hm, ⟨hbl, g1⟩, g2⟩
            · obtain ⟨_, g1, g2⟩ := f3
              simp [g1, g2, hhl]
            · simp [mk]
            · simpa using f5
            · simp [hrl, hlred, hLl, f6]
            · simpa using f7
            · simp
            · simp
        | true =>
          have hcb : c = .black := by
            cases c with
            | red => simp [hlb rfl] at hlred
            | black => rfl
          subst hcb
          refine ⟨_, balance_flip hlred (LL_left hLl hlred) hr', ?_, ?_, ?_, ?_, ?_, ?_, ?_, ?_, ?_⟩
          · simp [f1, insL_append_gt s3 hk]
          · subst hm
            exact ⟨BH_flip_red hlred hbl, BH_flip_red hr' f2⟩
          · simp [f3, hhl]
          · simp [mk]
          · simp [isRed_flipColor_of_red hr']
          · simp only [left_mk]; exact LL_flip_red hlred hLl
          · simp only [right_mk]
            cases r' with
            | nil => trivial
            | node rc rl rk rv rr rh =>
              simp [isRed] at hr'; subst hr'
              exact ⟨f5, by simp [Color.flip], f6, f7⟩
          · simp only [left_mk, isRed_flipColor_of_red hlred]; simp
          · simp

end
end Rb
end Verif
