import Verif.Lemmas.RbInv

set_option linter.unusedSimpArgs false
set_option linter.unusedSectionVars false

namespace Verif
namespace Rb
variable {V : Type} [SHA] [AsHashTree V]

/-- outcome of `move_red_left` when the right child has no red left child -/
theorem moveRedLeft_simple {c : Color} {l r : Rb V} {k : Bytes} {v : V} {h : Hash}
    (hl : l ≠ .nil) (hr : r ≠ .nil) (hrl : r.left.isRed = false) :
    moveRedLeft (.node c l k v r h) = some (.node c.flip l.flipColor k v r.flipColor h) := by
  cases l with
  | nil => exact absurd rfl hl
  | node lc ll lk lv lr lh =>
    cases r with
    | nil => exact absurd rfl hr
    | node rc rl rk rv rr rh =>
      simp only [left_node] at hrl
      simp [moveRedLeft, flipColors, flipColor, hrl]

/-- outcome of `move_red_left` when the right child has a red left child -/
theorem moveRedLeft_rot {c : Color} {l a b rr : Rb V} {k rk yk : Bytes} {v rv yv : V} {h rh yh : Hash}
    (hl : l ≠ .nil) :
    moveRedLeft (.node c l k v (.node .black (.node .red a yk yv b yh) rk rv rr rh) h) =
      some (mk c (mk .black l.flipColor k v a) yk yv (mk .black b rk rv rr)) := by
  cases l with
  | nil => exact absurd rfl hl
  | node lc ll lk lv lr lh =>
    cases c <;>
    simp [moveRedLeft, flipColors, flipColor, Color.flip, rotateRight, rotateLeft, mk, computeHash]

theorem moveRedRight_simple {c : Color} {l r : Rb V} {k : Bytes} {v : V} {h : Hash}
    (hl : l ≠ .nil) (hr : r ≠ .nil) (hll : l.left.isRed = false) :
    moveRedRight (.node c l k v r h) = some (.node c.flip l.flipColor k v r.flipColor h) := by
  cases l with
  | nil => exact absurd rfl hl
  | node lc ll lk lv lr lh =>
    cases r with
    | nil => exact absurd rfl hr
    | node rc rl rk rv rr rh =>
      simp only [left_node] at hll
      simp [moveRedRight, flipColors, flipColor, hll]

theorem moveRedRight_rot {c : Color} {a b r : Rb V} {k lk : Bytes} {v lv : V} {h lh : Hash}
    (hr : r ≠ .nil) (ha : a.isRed = true) :
    moveRedRight (.node c (.node .black a lk lv b lh) k v r h) =
      some (mk c a.flipColor lk lv (mk .black b k v r.flipColor)) := by
  cases r with
  | nil => exact absurd rfl hr
  | node rc rl rk rv rr rh =>
    cases a with
    | nil => simp at ha
    | node ac al ak av ar ah =>
      simp at ha; subst ha
      cases c <;>
      simp [moveRedRight, flipColors, flipColor, Color.flip, rotateRight, rotateLeft, mk, computeHash]

/-- `balance` of a black node whose left subtree may have become black while the right one is red -/
theorem balance_after_left {l r : Rb V} {k : Bytes} {v : V} {n : Nat}
    (hbl : BH l n) (hLl : LL l) (hhl : HashOK l) (hr : r.isRed = true) (hbr : BH r n) (hLr : LL r)
    (hhr : HashOK r) :
    ∃ t', balance (mk .black l k v r) = some t' ∧ t'.forEach = l.forEach ++ (k, v) :: r.forEach ∧
      BH t' (n + 1) ∧ LL t' ∧ HashOK t' := by
  cases hl : l.isRed with
  | true =>
    refine ⟨_, balance_flip hl (LL_left hLl hl) hr, ?_, ?_, ?_, ?_⟩
    · simp
    · simp only [Color.flip, BH_mk_red]; exact ⟨BH_flip_red hl hbl, BH_flip_red hr hbr⟩
    · simp [isRed_flipColor_of_red hl, isRed_flipColor_of_red hr, LL_flip_red hl hLl, LL_flip_red hr hLr]
    · simp [hhl, hhr]
  | false =>
    cases r with
    | nil => simp at hr
    | node rc rl rk rv rr rh =>
      simp at hr; subst hr
      obtain ⟨h1, h2, h3, h4⟩ := hLr
      refine ⟨_, balance_rotl hl h1, ?_, ?_, ?_, ?_⟩
      · simp [forEach]
      · obtain ⟨g1, g2⟩ := hbr
        exact ⟨n, rfl, ⟨hbl, g1⟩, g2⟩
      · simp [h1, h2 rfl, hl, hLl, h3, h4]
      · obtain ⟨_, g1, g2⟩ := hhr
        simp [hhl, g1, g2]

/-- `balance` of a black node with a red (2-node) left child whose right subtree changed -/
theorem balance_after_right {l r : Rb V} {k : Bytes} {v : V} {n : Nat}
    (hbl : BH l n) (hLl : LL l) (hhl : HashOK l) (hl : l.isRed = true) (hbr : BH r n) (hLr : LL r)
    (hhr : HashOK r) :
    ∃ t', balance (mk .black l k v r) = some t' ∧ t'.forEach = l.forEach ++ (k, v) :: r.forEach ∧
      BH t' (n + 1) ∧ LL t' ∧ HashOK t' := by
  cases hr : r.isRed with
  | true =>
    refine ⟨_, balance_flip hl (LL_left hLl hl) hr, ?_, ?_, ?_, ?_⟩
    · simp
    · simp only [Color.flip, BH_mk_red]; exact ⟨BH_flip_red hl hbl, BH_flip_red hr hbr⟩
    · simp [isRed_flipColor_of_red hl, isRed_flipColor_of_red hr, LL_flip_red hl hLl, LL_flip_red hr hLr]
    · simp [hhl, hhr]
  | false =>
    refine ⟨_, balance_id hr (fun h => LL_left hLl h), ?_, ?_, ?_, ?_⟩
    · simp
    · exact ⟨n, rfl, hbl, hbr⟩
    · simp [hr, hLl, hLr]
    · simp [hhl, hhr]

/-- `balance` of a black node with a black left child whose right subtree may be red -/
theorem balance_lean {l r : Rb V} {k : Bytes} {v : V} {n : Nat}
    (hbl : BH l n) (hLl : LL l) (hhl : HashOK l) (hl : l.isRed = false) (hbr : BH r n) (hLr : LL r)
    (hhr : HashOK r) :
    ∃ t', balance (mk .black l k v r) = some t' ∧ t'.forEach = l.forEach ++ (k, v) :: r.forEach ∧
      BH t' (n + 1) ∧ LL t' ∧ HashOK t' ∧ t'.isRed = false := by
  cases hr : r.isRed with
  | true =>
    cases r with
    | nil => simp at hr
    | node rc rl rk rv rr rh =>
      simp at hr; subst hr
      obtain ⟨h1, h2, h3, h4⟩ := hLr
      refine ⟨_, balance_rotl hl h1, ?_, ?_, ?_, ?_, ?_⟩
      · simp [forEach]
      · obtain ⟨g1, g2⟩ := hbr
        exact ⟨n, rfl, ⟨hbl, g1⟩, g2⟩
      · simp [h1, h2 rfl, hl, hLl, h3, h4]
      · obtain ⟨_, g1, g2⟩ := hhr
        simp [hhl, g1, g2]
      · simp
  | false =>
    refine ⟨_, balance_id hr (fun h => LL_left hLl h), ?_, ?_, ?_, ?_, ?_⟩
    · simp
    · exact ⟨n, rfl, hbl, hbr⟩
    · simp [hr, hLl, hLr]
    · simp [hhl, hhr]
    · simp

theorem forEach_ne_nil {t : Rb V} (h : t ≠ .nil) : t.forEach ≠ [] := by
  cases t with
  | nil => exact absurd rfl h
  | node => simp [forEach]

theorem size_pos {t : Rb V} (h : t ≠ .nil) : 0 < t.size := by
  cases t with
  | nil => exact absurd rfl h
  | node => simp [size]

theorem deleteMin_spec (fuel : Nat) {t : Rb V} {n : Nat} (hf : t.size ≤ fuel) (hne : t ≠ .nil)
    (hb : BH t n) (hL : LL t) (hred : t.isRed = true ∨ t.left.isRed = true) (hh : HashOff t) :
    ∃ t', deleteMin fuel t = some t' ∧ t'.forEach = t.forEach.tail ∧ BH t' n ∧ LL t' ∧ HashOK t' ∧
      (t.isRed = false → t'.isRed = false) := by
  induction fuel generalizing t n with
  | zero => have := size_pos hne; omega
  | succ fuel ih =>
    cases t with
    | nil => exact absurd rfl hne
    | node c l k v r h =>
      obtain ⟨hrb, hlb, hLl, hLr⟩ := hL
      obtain ⟨hhl, hhr⟩ := hh
      obtain ⟨m, hm, hbl, hbr⟩ := BH_node.1 hb
      simp only [isRed_node, left_node] at hred
      by_cases hln : l = .nil
      · subst hln
        have hm0 : m = 0 := hbl
        subst hm0
        have hrn := nil_of_BH0 hrb hbr
        subst hrn
        have hc : c = .red := by simpa using hred
        subst hc
        refine ⟨.nil, ?_, ?_, ?_, trivial, trivial, fun _ => rfl⟩
        · simp [deleteMin]
        · simp [forEach]
        · simp at hm; subst hm; rfl
      · have hlen := forEach_ne_nil hln
        have hunf : deleteMin (fuel + 1) (.node c l k v r h) = (do
            let h' ← if !l.isRed && !l.left.isRed then moveRedLeft (.node c l k v r h)
              else some (.node c l k v r h)
            match h' with
            | .nil => none
            | .node c l k v r _ => do
              let l' ← deleteMin fuel l
              balance (mk c l' k v r)) := by
          cases l with
          | nil => exact absurd rfl hln
          | node => rfl
        have hsz : l.size + r.size ≤ fuel := by simp [size] at hf; omega
        rw [hunf]
        by_cases hmv : l.isRed = false ∧ l.left.isRed = false
        · obtain ⟨m1, m2⟩ := hmv
          have hc : c = .red := by simpa [m1] using hred
          subst hc
          simp at hm; subst hm
          -- both children are black and non-nil
          cases n with
          | zero => exact absurd (nil_of_BH0 m1 hbl) hln
          | succ n =>
            have hrn := ne_nil_of_BH_succ hbr
            simp only [m1, m2, Bool.not_false, Bool.and_self, if_true]
            cases hrl : r.left.isRed with
            | false =>
              rw [moveRedLeft_simple hln hrn hrl]
              simp only [Option.bind_eq_bind, Option.bind_some]
              have hflred := isRed_flipColor_of_black m1 hln
              obtain ⟨l', e, f1, f2, f3, f4, f5⟩ := ih (t := l.flipColor) (n := n)
                (by simp; omega) (by cases l <;> simp_all [flipColor]) (BH_flip_black m1 hbl)
                (LL_flip_black m2 hLl) (.inl hflred) (by simpa using hhl)
              rw [e]
              simp only [Option.bind_some]
              obtain ⟨t', e', g1, g2, g3, g4⟩ := balance_after_left (k := k) (v := v) f2 f3 f4
                (isRed_flipColor_of_black hrb hrn) (BH_flip_black hrb hbr) (LL_flip_black hrl hLr)
                (by simpa using hhr)
              refine ⟨t', e', ?_, g2, g3, g4, by simp⟩
              rw [g1, f1]
              simp [forEach, List.tail_append_of_ne_nil hlen]
            | true =>
              cases r with
              | nil => exact absurd rfl hrn
              | node rc rl rk rv rr rh =>
                have hrc : rc = .black := by cases rc <;> simp_all
                subst hrc
                cases rl with
                | nil => simp at hrl
                | node yc a yk yv b yh =>
                  simp at hrl; subst hrl
                  rw [moveRedLeft_rot hln]
                  simp only [Option.bind_eq_bind, Option.bind_some, mk]
                  obtain ⟨q1, q2, q3, q4⟩ := hLr
                  obtain ⟨p1, p2, p3, p4⟩ := q3
                  obtain ⟨n', en, ⟨b1, b2⟩, b3⟩ := hbr
                  obtain ⟨x1, ⟨x2, x3, x4⟩, x5⟩ := hhr
                  have : n' = n := by omega
                  subst this
                  obtain ⟨l', e, f1, f2, f3, f4, f5⟩ := ih (t := mk .black l.flipColor k v a) (n := n' + 1)
                    (by simp [size] at hsz ⊢; omega) (by simp [mk])
                    ⟨n', rfl, BH_flip_black m1 hbl, b1⟩
                    (by simp [p2 rfl, p3, LL_flip_black m2 hLl])
                    (.inr (by simpa using isRed_flipColor_of_black m1 hln))
                    ⟨by simpa using hhl, x3⟩
                  simp only [mk] at e
                  rw [e]
                  simp only [Option.bind_some]
                  have f5' := f5 (by simp)
                  have hbal := balance_id (c := .red) (l := l') (k := yk) (v := yv)
                    (r := mk .black b rk rv rr) (by simp) (by simp [f5'])
                  simp only [mk] at hbal ⊢
                  refine ⟨_, hbal, ?_, ?_, ?_, ?_, by simp⟩
                  · simp only [forEach, f1]
                    simp [forEach, mk, List.tail_append_of_ne_nil hlen]
                  · exact ⟨f2, n', rfl, b2, b3⟩
                  · exact ⟨by simp, fun _ => f5', f3, ⟨q1, by simp, p4, q4⟩⟩
                  · exact ⟨rfl, f4, rfl, x4, x5⟩
        · have hpre : l.isRed = true ∨ l.left.isRed = true := by
            cases h1 : l.isRed <;> cases h2 : l.left.isRed <;> simp_all
          have hif : (!l.isRed && !l.left.isRed) = false := by
            cases h1 : l.isRed <;> cases h2 : l.left.isRed <;> simp_all
          simp only [hif, Bool.false_eq_true, if_false, Option.bind_eq_bind, Option.bind_some]
          obtain ⟨l', e, f1, f2, f3, f4, f5⟩ := ih (t := l) (by omega) hln hbl hLl hpre hhl
          rw [e]
          simp only [Option.bind_some]
          refine ⟨_, balance_id hrb (fun h => LL_left f3 h), ?_, ?_, ?_, ?_, ?_⟩
          · simp [forEach, f1, List.tail_append_of_ne_nil hlen]
          · exact BH_mk.2 ⟨m, hm, f2, hbr⟩
          · simp only [LL_mk]
            exact ⟨hrb, fun hc => f5 (hlb hc), f3, hLr⟩
          · simp [f4, hhr]
          · simp

theorem swapMin_spec (key : Bytes) (val : V) {t : Rb V} (hne : t ≠ .nil) (hh : HashOK t) :
    ∃ k' v' t' rest, swapMin key val t = some (k', v', t') ∧ t.forEach = (k', v') :: rest ∧
      t'.forEach = (key, val) :: rest ∧ (∀ n, BH t n → BH t' n) ∧ (LL t → LL t') ∧
      t'.isRed = t.isRed ∧ t'.left.isRed = t.left.isRed ∧ t'.size = t.size ∧ HashOff t' ∧ t' ≠ .nil := by
  induction t with
  | nil => exact absurd rfl hne
  | node c l k v r h ihl _ =>
    cases l with
    | nil =>
      refine ⟨k, v, _, r.forEach, rfl, rfl, rfl, ?_, ?_, rfl, rfl, rfl, ?_, by simp⟩
      · intro n hb; cases c <;> exact hb
      · intro hL; exact hL
      · exact ⟨trivial, hh.2.2⟩
    | node lc ll lk lv lr lh =>
      obtain ⟨k', v', l', rest, e, f1, f2, f3, f4, f5, f6, f7, f8, f9⟩ := ihl (by simp) hh.2.1
      refine ⟨k', v', .node c l' k v r h, rest ++ (k, v) :: r.forEach, ?_, ?_, ?_, ?_, ?_, rfl, f5, ?_, ?_, by simp⟩
      · simp [swapMin, e]
      · simp only [forEach] at f1 ⊢; rw [f1]; simp
      · simp only [forEach]; rw [f2]; simp
      · intro n hb
        obtain ⟨m, hm, b1, b2⟩ := BH_node.1 hb
        exact BH_node.2 ⟨m, hm, f3 m b1, b2⟩
      · rintro ⟨h1, h2, h3, h4⟩
        exact ⟨h1, fun hc => by rw [f5]; exact h2 hc, f4 h3, h4⟩
      · simp only [size] at f7 ⊢; omega
      · exact ⟨f8, hh.2.2⟩

/-- removing a key smaller than the pivot of a sorted list -/
theorem delL_left {xs ys : List (Bytes × V)} {k key : Bytes} {v : V}
    (hs : SortedL (xs ++ (k, v) :: ys)) (h : key < k) :
    delL key (xs ++ (k, v) :: ys) = delL key xs ++ (k, v) :: ys := by
  rw [sortedL_node] at hs
  rw [delL_append, delL_cons_ne (ne_of_gt h), delL_eq_self (xs := ys)]
  intro a ha; exact ne_of_gt (lt_trans h (hs.2.2.2 a ha))

theorem delL_right {xs ys : List (Bytes × V)} {k key : Bytes} {v : V}
    (hs : SortedL (xs ++ (k, v) :: ys)) (h : k < key) :
    delL key (xs ++ (k, v) :: ys) = xs ++ (k, v) :: delL key ys := by
  rw [sortedL_node] at hs
  rw [delL_append, delL_cons_ne (ne_of_lt h), delL_eq_self (xs := xs)]
  intro a ha; exact ne_of_lt (lt_trans (hs.2.2.1 a ha) h)

theorem delL_mid {xs ys : List (Bytes × V)} {k : Bytes} {v : V}
    (hs : SortedL (xs ++ (k, v) :: ys)) :
    delL k (xs ++ (k, v) :: ys) = xs ++ ys := by
  rw [sortedL_node] at hs
  rw [delL_append, delL_cons_eq (x := (k, v)) (key := k) rfl, delL_eq_self (xs := xs), delL_eq_self (xs := ys)]
  · intro a ha; exact ne_of_gt (hs.2.2.2 a ha)
  · intro a ha; exact ne_of_lt (hs.2.2.1 a ha)

/-- the key occurs in the tree -/
def HasKey (t : Rb V) (key : Bytes) : Prop := ∃ v, (key, v) ∈ t.forEach

/-- what `deleteGo` needs: a regular tree with a red node available at the top, or the shape left behind
by `move_red_right` -/
def DelPre (t : Rb V) (key : Bytes) : Prop :=
  (LL t ∧ (t.isRed = true ∨ t.left.isRed = true)) ∨
  (∃ l k v r h, t = .node .black l k v r h ∧ l.isRed = false ∧ r.isRed = true ∧ LL l ∧ LL r ∧ k ≤ key)

/-- the common tail of `deleteGo`: continue in the right subtree (which offers a red node), either at the
minimum after swapping or further down -/
theorem deleteRight_spec (key : Bytes) (fuel : Nat)
    (ih : ∀ {t : Rb V} {n : Nat}, t.size ≤ fuel → t ≠ .nil → BH t n → HashOK t → t.Sorted →
      HasKey t key → DelPre t key →
      ∃ t', deleteGo key fuel t = some t' ∧ t'.forEach = delL key t.forEach ∧ BH t' n ∧ LL t' ∧
        HashOK t' ∧ (t.isRed = false → t'.isRed = false))
    {l r : Rb V} {k : Bytes} {v : V} {n : Nat} (hf : r.size ≤ fuel) (hrn : r ≠ .nil) (hb : BH r n)
    (hL : LL r ∧ (r.isRed = true ∨ r.left.isRed = true) ∨ (k < key ∧ DelPre r key)) (hh : HashOK r)
    (hs : SortedL (l.forEach ++ (k, v) :: r.forEach)) (hk : ∃ v', (key, v') ∈ l.forEach ++ (k, v) :: r.forEach)
    (hle : k ≤ key) (c : Color) :
    ∃ k' v' r', BH r' n ∧ LL r' ∧ HashOK r' ∧ (r.isRed = false → r'.isRed = false) ∧
      (if key == k then do
          let (k3, v3, r3) ← swapMin k v r
          let r4 ← deleteMin fuel r3
          balance (mk c l k3 v3 r4)
        else do
          let r3 ← deleteGo key fuel r
          balance (mk c l k v r3)) = balance (mk c l k' v' r') ∧
      l.forEach ++ (k', v') :: r'.forEach = delL key (l.forEach ++ (k, v) :: r.forEach) := by
  have hs0 := hs
  rw [sortedL_node] at hs
  obtain ⟨s1, s2, s3, s4⟩ := hs
  by_cases hkey : key = k
  · subst hkey
    have hL' : LL r ∧ (r.isRed = true ∨ r.left.isRed = true) := by
      rcases hL with h | h
      · exact h
      · exact absurd h.1 (lt_irrefl _)
    obtain ⟨k', v', r1, rest, e, f1, f2, f3, f4, f5, f6, f7, f8, f9⟩ := swapMin_spec key v hrn hh
    obtain ⟨r2, e2, g1, g2, g3, g4, g5⟩ := deleteMin_spec fuel (by omega) f9 (f3 n hb) (f4 hL'.1)
      (by rw [f5, f6]; exact hL'.2) f8
    refine ⟨k', v', r2, g2, g3, g4, fun h => g5 (by rw [f5]; exact h), ?_, ?_⟩
    · simp [e, e2]
    · rw [delL_mid hs0, g1, f2, f1]; simp
  · have hlt : k < key := lt_of_le_of_ne hle (Ne.symm hkey)
    have hk' : HasKey r key := by
      obtain ⟨v', hv'⟩ := hk
      simp at hv'
      rcases hv' with h | ⟨h, _⟩ | h
      · exact absurd (s3 _ h) (not_lt_of_gt hlt)
      · exact absurd h hkey
      · exact ⟨v', h⟩
    have hpre : DelPre r key := by
      rcases hL with h | h
      · exact .inl h
      · exact h.2
    obtain ⟨r2, e2, g1, g2, g3, g4, g5⟩ := ih hf hrn hb hh s2 hk' hpre
    refine ⟨k, v, r2, g2, g3, g4, g5, ?_, ?_⟩
    · simp [hkey, e2]
    · rw [delL_right hs0 hlt, g1]

theorem deleteGo_spec (key : Bytes) (fuel : Nat) {t : Rb V} {n : Nat} (hf : t.size ≤ fuel)
    (hne : t ≠ .nil) (hb : BH t n) (hh : HashOK t) (hs : t.Sorted) (hk : HasKey t key)
    (hp : DelPre t key) :
    ∃ t', deleteGo key fuel t = some t' ∧ t'.forEach = delL key t.forEach ∧ BH t' n ∧ LL t' ∧
      HashOK t' ∧ (t.isRed = false → t'.isRed = false) := by
  induction fuel generalizing t n with
  | zero => have := size_pos hne; omega
  | succ fuel ih =>
    rcases hp with ⟨hL, hred⟩ | ⟨l, k, v, r, h, rfl, hlb, hrr, hLl, hLr, hle⟩
    · cases t with
      | nil => exact absurd rfl hne
      | node c l k v r h =>
        obtain ⟨hrb, hlb, hLl, hLr⟩ := hL
        obtain ⟨hhh, hhl, hhr⟩ := hh
        obtain ⟨m, hm, hbl, hbr⟩ := BH_node.1 hb
        simp only [isRed_node, left_node] at hred
        have hs0 : SortedL (l.forEach ++ (k, v) :: r.forEach) := hs
        have hs1 := sortedL_node.1 hs0
        obtain ⟨s1, s2, s3, s4⟩ := hs1
        have hsz : l.size + r.size ≤ fuel := by simp [size] at hf; omega
        have hk0 : ∃ v', (key, v') ∈ l.forEach ++ (k, v) :: r.forEach := hk
        by_cases hlt : key < k
        · -- go left
          have hkl : HasKey l key := by
            obtain ⟨v', hv'⟩ := hk0
            simp at hv'
            rcases hv' with h | ⟨h, _⟩ | h
            · exact ⟨v', h⟩
            · exact absurd hlt (by rw [h]; exact lt_irrefl _)
            · exact absurd (s4 _ h) (not_lt_of_gt hlt)
          have hln : l ≠ .nil := by rintro rfl; obtain ⟨_, h⟩ := hkl; simp [forEach] at h
          have hunf : deleteGo key (fuel + 1) (.node c l k v r h) = (do
              let h' ← if !l.isRed && !l.left.isRed then moveRedLeft (.node c l k v r h)
                else some (.node c l k v r h)
              match h' with
              | .nil => none
              | .node c l k v r _ => do
                let l' ← deleteGo key fuel l
                balance (mk c l' k v r)) := by
            simp only [deleteGo]
            rw [if_pos (ltB_iff.2 hlt)]
            cases l with
            | nil => exact absurd rfl hln
            | node => rfl
          rw [hunf]
          by_cases hmv : l.isRed = false ∧ l.left.isRed = false
          · obtain ⟨m1, m2⟩ := hmv
            have hc : c = .red := by simpa [m1] using hred
            subst hc
            simp at hm; subst hm
            cases n with
            | zero => exact absurd (nil_of_BH0 m1 hbl) hln
            | succ n =>
              have hrn := ne_nil_of_BH_succ hbr
              simp only [m1, m2, Bool.not_false, Bool.and_self, if_true]
              cases hrl : r.left.isRed with
              | false =>
                rw [moveRedLeft_simple hln hrn hrl]
                simp only [Option.bind_eq_bind, Option.bind_some]
                have hflred := isRed_flipColor_of_black m1 hln
                obtain ⟨l', e, f1, f2, f3, f4, f5⟩ := ih (t := l.flipColor) (n := n)
                  (by simp; omega) (by cases l <;> simp_all [flipColor]) (BH_flip_black m1 hbl)
                  (by simpa using hhl) (by simpa [Sorted] using s1) (by simpa [HasKey] using hkl)
                  (.inl ⟨LL_flip_black m2 hLl, .inl hflred⟩)
                rw [e]
                simp only [Option.bind_some]
                obtain ⟨t', e', g1, g2, g3, g4⟩ := balance_after_left (k := k) (v := v) f2 f3 f4
                  (isRed_flipColor_of_black hrb hrn) (BH_flip_black hrb hbr) (LL_flip_black hrl hLr)
                  (by simpa using hhr)
                refine ⟨t', e', ?_, g2, g3, g4, by simp⟩
                rw [g1, f1]
                simp [forEach, delL_left hs0 hlt]
              | true =>
                cases r with
                | nil => exact absurd rfl hrn
                | node rc rl rk rv rr rh =>
                  have hrc : rc = .black := by cases rc <;> simp_all
                  subst hrc
                  cases rl with
                  | nil => simp at hrl
                  | node yc a yk yv b yh =>
                    simp at hrl; subst hrl
                    rw [moveRedLeft_rot hln]
                    simp only [Option.bind_eq_bind, Option.bind_some, mk]
                    obtain ⟨q1, q2, q3, q4⟩ := hLr
                    obtain ⟨p1, p2, p3, p4⟩ := q3
                    obtain ⟨n', en, ⟨b1, b2⟩, b3⟩ := hbr
                    obtain ⟨x1, ⟨x2, x3, x4⟩, x5⟩ := hhr
                    have : n' = n := by omega
                    subst this
                    -- the list, regrouped around the new pivot
                    have hreg : l.forEach ++ (k, v) :: (Rb.node .black (.node .red a yk yv b yh) rk rv rr rh).forEach
                        = (l.forEach ++ (k, v) :: a.forEach) ++ (yk, yv) :: (b.forEach ++ (rk, rv) :: rr.forEach) := by
                      simp [forEach]
                    have hs2 := hs0
                    rw [hreg] at hs2
                    have hs3 := sortedL_node.1 hs2
                    have hky : key < yk := lt_trans hlt (hs3.2.2.1 (k, v) (by simp))
                    obtain ⟨l', e, f1, f2, f3, f4, f5⟩ := ih (t := mk .black l.flipColor k v a) (n := n' + 1)
                      (by simp [size] at hsz ⊢; omega) (by simp [mk])
                      ⟨n', rfl, BH_flip_black m1 hbl, b1⟩
                      (by simp [hhl, x3]) (by simpa [Sorted] using hs3.1)
                      (by obtain ⟨v', hv'⟩ := hkl; exact ⟨v', by simp [hv']⟩)
                      (.inl ⟨by simp [p2 rfl, p3, LL_flip_black m2 hLl],
                        .inr (by simpa using isRed_flipColor_of_black m1 hln)⟩)
                    simp only [mk] at e
                    rw [e]
                    simp only [Option.bind_some]
                    have f5' := f5 (by simp)
                    have hbal := balance_id (c := .red) (l := l') (k := yk) (v := yv)
                      (r := mk .black b rk rv rr) (by simp) (by simp [f5'])
                    simp only [mk] at hbal ⊢
                    refine ⟨_, hbal, ?_, ?_, ?_, ?_, by simp⟩
                    · have := delL_left hs2 hky
                      simp only [forEach] at hreg ⊢
                      rw [hreg, this, f1]
                      simp [forEach, mk]
                    · exact ⟨f2, n', rfl, b2, b3⟩
                    · exact ⟨by simp, fun _ => f5', f3, ⟨q1, by simp, p4, q4⟩⟩
                    · exact ⟨rfl, f4, rfl, x4, x5⟩
          · have hpre : l.isRed = true ∨ l.left.isRed = true := by
              cases h1 : l.isRed <;> cases h2 : l.left.isRed <;> simp_all
            have hif : (!l.isRed && !l.left.isRed) = false := by
              cases h1 : l.isRed <;> cases h2 : l.left.isRed <;> simp_all
            simp only [hif, Bool.false_eq_true, if_false, Option.bind_eq_bind, Option.bind_some]
            obtain ⟨l', e, f1, f2, f3, f4, f5⟩ := ih (t := l) (by omega) hln hbl hhl s1 hkl (.inl ⟨hLl, hpre⟩)
            rw [e]
            simp only [Option.bind_some]
            refine ⟨_, balance_id hrb (fun h => LL_left f3 h), ?_, ?_, ?_, ?_, ?_⟩
            · simp [forEach, f1, delL_left hs0 hlt]
            · exact BH_mk.2 ⟨m, hm, f2, hbr⟩
            · simp only [LL_mk]
              exact ⟨hrb, fun hc => f5 (hlb hc), f3, hLr⟩
            · simp [f4, hhr]
            · simp
        · -- go right (or here)
          have hle : k ≤ key := not_lt.1 hlt
          have hnlt : ltB key k = false := by
            cases hx : ltB key k with
            | false => rfl
            | true => exact absurd (ltB_iff.1 hx) hlt
          cases hlred : l.isRed with
          | true =>
            -- rotate right first; the key is not at the new top
            have hcb : c = .black := by
              cases c with
              | red => simp [hlb rfl] at hlred
              | black => rfl
            subst hcb
            cases l with
            | nil => simp at hlred
            | node lc a lk lv b lh =>
              simp at hlred; subst hlred
              obtain ⟨p1, p2, p3, p4⟩ := hLl
              obtain ⟨b1, b2⟩ := hbl
              obtain ⟨x1, x2, x3⟩ := hhl
              simp at hm
              have hreg : (Rb.node .red a lk lv b lh).forEach ++ (k, v) :: r.forEach
                  = a.forEach ++ (lk, lv) :: (b.forEach ++ (k, v) :: r.forEach) := by simp [forEach]
              have hs2 := hs0
              rw [hreg] at hs2
              have hs3 := sortedL_node.1 hs2
              have hlk : lk < key := lt_of_lt_of_le (hs3.2.2.2 (k, v) (by simp)) hle
              obtain ⟨k', v', r', g1, g2, g3, g4, g5, g6⟩ := deleteRight_spec key fuel
                (fun h1 h2 h3 h4 h5 h6 h7 => ih h1 h2 h3 h4 h5 h6 h7) (l := a) (k := lk) (v := lv)
                (r := mk .red b k v r) (n := m)
                (by simp [size] at hsz ⊢; omega) (by simp [mk]) ⟨b2, hbr⟩
                (.inl ⟨by simp [hrb, p1, p4, hLr], .inl (by simp)⟩) (by simp [x3, hhr])
                (by simpa using hs2) (by rw [hreg] at hk0; simpa using hk0) (le_of_lt hlk) .black
              obtain ⟨t', e', q1, q2, q3, q4, q5⟩ := balance_lean (k := k') (v := v') b1 p3 x2 (p2 rfl) g1 g2 g3
              refine ⟨t', ?_, ?_, ?_, q3, q4, fun _ => q5⟩
              · simp only [deleteGo, hnlt, Bool.false_eq_true, if_false, isRed_node, beq_self_eq_true, if_true,
                  rotateRight, Option.bind_eq_bind, Option.bind_some]
                simp only [mk] at g5 ⊢
                simp only [isRed_node, beq_self_eq_true, Bool.not_true, Bool.false_and, Bool.false_eq_true,
                  if_false, Option.bind_some]
                exact g5.trans e'
              · rw [q1, g6, forEach_mk, ← hreg]; rfl
              · subst hm; exact q2
          | false =>
            have hc : c = .red := by simpa [hlred] using hred
            subst hc
            simp at hm; subst hm
            by_cases hrn : r = .nil
            · subst hrn
              have hn0 : n = 0 := hbr
              subst hn0
              have hln := nil_of_BH0 hlred hbl
              subst hln
              have hkk : key = k := by
                obtain ⟨v', hv'⟩ := hk0
                simp [forEach] at hv'
                exact hv'.1
              subst hkk
              refine ⟨.nil, ?_, ?_, rfl, trivial, trivial, fun _ => rfl⟩
              · simp [deleteGo, hnlt]
              · simp [forEach, delL]
            · have hunf : deleteGo key (fuel + 1) (.node .red l k v r h) = (do
                  let h2 ← if !r.isRed && !r.left.isRed then moveRedRight (.node .red l k v r h)
                    else some (.node .red l k v r h)
                  match h2 with
                  | .nil => none
                  | .node c2 l2 k2 v2 r2 _ =>
                    if key == k2 then do
                      let (k3, v3, r3) ← swapMin k2 v2 r2
                      let r4 ← deleteMin fuel r3
                      balance (mk c2 l2 k3 v3 r4)
                    else do
                      let r3 ← deleteGo key fuel r2
                      balance (mk c2 l2 k2 v2 r3)) := by
                simp only [deleteGo, hnlt, hlred, Bool.false_eq_true, if_false, Option.bind_eq_bind, Option.bind_some]
                cases r with
                | nil => exact absurd rfl hrn
                | node => rfl
              rw [hunf]
              cases hrl : r.left.isRed with
              | true =>
                simp only [hrb, Bool.not_true, Bool.and_false, Bool.false_eq_true, if_false,
                  Option.bind_eq_bind, Option.bind_some]
                obtain ⟨k', v', r', g1, g2, g3, g4, g5, g6⟩ := deleteRight_spec key fuel
                  (fun h1 h2 h3 h4 h5 h6 h7 => ih h1 h2 h3 h4 h5 h6 h7) (l := l) (k := k) (v := v)
                  (r := r) (by omega) hrn hbr (.inl ⟨hLr, .inr hrl⟩) hhr hs0 hk0 hle .red
                refine ⟨_, g5.trans (balance_id (g4 hrb) (fun h => LL_left hLl h)), ?_, ?_, ?_, ?_, by simp⟩
                · rw [forEach_mk, g6]; rfl
                · exact ⟨hbl, g1⟩
                · simp [g4 hrb, hlred, hLl, g2]
                · simp [hhl, g3]
              | false =>
                simp only [hrb, Bool.not_false, Bool.and_self, if_true]
                cases n with
                | zero => exact absurd (nil_of_BH0 hrb hbr) hrn
                | succ n =>
                  have hln := ne_nil_of_BH_succ hbl
                  have hfr := isRed_flipColor_of_black hrb hrn
                  have hfrn : r.flipColor ≠ .nil := ne_nil_of_red hfr
                  cases hll : l.left.isRed with
                  | false =>
                    rw [moveRedRight_simple hln hrn hll]
                    simp only [Option.bind_eq_bind, Option.bind_some, Color.flip]
                    obtain ⟨k', v', r', g1, g2, g3, g4, g5, g6⟩ := deleteRight_spec key fuel
                      (fun h1 h2 h3 h4 h5 h6 h7 => ih h1 h2 h3 h4 h5 h6 h7) (l := l.flipColor) (k := k) (v := v)
                      (r := r.flipColor) (n := n) (by simp; omega) hfrn (BH_flip_black hrb hbr)
                      (.inl ⟨LL_flip_black hrl hLr, .inl hfr⟩) (by simpa using hhr)
                      (by simpa using hs0) (by simpa using hk0) hle .black
                    obtain ⟨t', e', q1, q2, q3, q4⟩ := balance_after_right (k := k') (v := v')
                      (BH_flip_black hlred hbl) (LL_flip_black hll hLl) (by simpa using hhl)
                      (isRed_flipColor_of_black hlred hln) g1 g2 g3
                    refine ⟨t', g5.trans e', ?_, q2, q3, q4, by simp⟩
                    rw [q1, g6]; simp [forEach]
                  | true =>
                    cases l with
                    | nil => exact absurd rfl hln
                    | node lc a lk lv b lh =>
                      have hlc : lc = .black := by cases lc <;> simp_all
                      subst hlc
                      simp only [left_node] at hll
                      rw [moveRedRight_rot hrn hll]
                      simp only [Option.bind_eq_bind, Option.bind_some]
                      obtain ⟨p1, p2, p3, p4⟩ := hLl
                      obtain ⟨n', en, b1, b2⟩ := hbl
                      obtain ⟨x1, x2, x3⟩ := hhl
                      have : n' = n := by omega
                      subst this
                      have hreg : (Rb.node .black a lk lv b lh).forEach ++ (k, v) :: r.forEach
                          = a.forEach ++ (lk, lv) :: (b.forEach ++ (k, v) :: r.forEach) := by simp [forEach]
                      have hs2 := hs0
                      rw [hreg] at hs2
                      have hs3 := sortedL_node.1 hs2
                      have hlk : lk < key := lt_of_lt_of_le (hs3.2.2.2 (k, v) (by simp)) hle
                      obtain ⟨k', v', r', g1, g2, g3, g4, g5, g6⟩ := deleteRight_spec key fuel
                        (fun h1 h2 h3 h4 h5 h6 h7 => ih h1 h2 h3 h4 h5 h6 h7) (l := a.flipColor) (k := lk) (v := lv)
                        (r := mk .black b k v r.flipColor) (n := n' + 1)
                        (by simp [size] at hsz ⊢; omega) (by simp [mk])
                        ⟨n', rfl, b2, BH_flip_black hrb hbr⟩
                        (.inr ⟨hlk, .inr ⟨b, k, v, r.flipColor, _, rfl, p1, hfr, p4, LL_flip_black hrl hLr, hle⟩⟩)
                        (by simp [x3, hhr]) (by simpa using hs2) (by rw [hreg] at hk0; simpa using hk0)
                        (le_of_lt hlk) .red
                      have g4' := g4 (by simp)
                      simp only [mk] at g5 ⊢
                      refine ⟨_, g5.trans (balance_id g4' (by simp [isRed_flipColor_of_red hll])), ?_, ?_, ?_, ?_, by simp⟩
                      · rw [forEach_mk, g6]; simp [forEach, mk]
                      · exact ⟨BH_flip_red hll b1, g1⟩
                      · simp [g4', isRed_flipColor_of_red hll, LL_flip_red hll p3, g2]
                      · simp [x2, g3]
    · -- the shape left by `move_red_right`
      obtain ⟨hhh, hhl, hhr⟩ := hh
      obtain ⟨m, hm, hbl, hbr⟩ := hb
      have hs0 : SortedL (l.forEach ++ (k, v) :: r.forEach) := hs
      have hsz : l.size + r.size ≤ fuel := by simp [size] at hf; omega
      have hnlt : ltB key k = false := by
        cases hx : ltB key k with
        | false => rfl
        | true => exact absurd (ltB_iff.1 hx) (not_lt.2 hle)
      have hrn := ne_nil_of_red hrr
      obtain ⟨k', v', r', g1, g2, g3, g4, g5, g6⟩ := deleteRight_spec key fuel
        (fun h1 h2 h3 h4 h5 h6 h7 => ih h1 h2 h3 h4 h5 h6 h7) (l := l) (k := k) (v := v)
        (r := r) (by omega) hrn hbr (.inl ⟨hLr, .inl hrr⟩) hhr hs0 hk hle .black
      obtain ⟨t', e', q1, q2, q3, q4, q5⟩ := balance_lean (k := k') (v := v') hbl hLl hhl hlb g1 g2 g3
      refine ⟨t', ?_, ?_, ?_, q3, q4, fun _ => q5⟩
      · refine Eq.trans ?_ (g5.trans e')
        simp only [deleteGo, hnlt, hlb, Bool.false_eq_true, if_false, Option.bind_eq_bind, Option.bind_some]
        cases r with
        | nil => exact absurd rfl hrn
        | node rc rl rk rv rr rh =>
          simp at hrr; subst hrr
          rfl
      · rw [q1, g6]; rfl
      · subst hm; exact q2

end Rb
end Verif
