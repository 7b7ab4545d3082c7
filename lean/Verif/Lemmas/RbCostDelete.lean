import Verif.Lemmas.RbCost

/-!
# Counting hashes: deletion
-/

set_option linter.unusedSimpArgs false
set_option linter.unusedSectionVars false

namespace Verif
namespace Rb
open Counted
variable {V : Type} [SHA] [AsHashTree V]

/-- one for a red node -/
def redness (t : Rb V) : Nat := if t.isRed then 1 else 0

theorem redness_le (t : Rb V) : t.redness ≤ 1 := by unfold redness; split <;> omega

theorem redness_black {t : Rb V} (h : t.isRed = false) : t.redness = 0 := by simp [redness, h]
theorem redness_red {t : Rb V} (h : t.isRed = true) : t.redness = 1 := by simp [redness, h]

theorem deleteMinC_within (fuel : Nat) {t : Rb V} {n : Nat} (hb : BH t n) (hL : LL t)
    (hred : t.isRed = true ∨ t.left.isRed = true) : (deleteMinC fuel t).Within (9 * (2 * n + t.redness)) := by
  induction fuel generalizing t n with
  | zero => exact within_panic _
  | succ fuel ih =>
    cases t with
    | nil => exact within_panic _
    | node c l k v r h =>
      obtain ⟨hrb, hlb, hLl, hLr⟩ := hL
      obtain ⟨m, hm, hbl, hbr⟩ := BH_node.1 hb
      simp only [isRed_node, left_node] at hred
      by_cases hln : l = .nil
      · subst hln
        cases r with
        | nil => exact (within_pure _).mono (by omega)
        | node => exact within_panic _
      · let K : Rb V → Counted (Rb V) := fun h' => match h' with
          | .nil => Counted.panic
          | .node c l k v r _ => do
            let l' ← deleteMinC fuel l
            let h ← mkC c l' k v r
            balanceC h
        have rest : ∀ {c l k v r hh b}, (deleteMinC fuel l).Within b → (K (.node c l k v r hh)).Within (b + 5) := by
          intro c l k v r hh b hl
          exact within_bind hl (fun _ _ => rebuilt_within _ _ _ _ _)
        have hunf : deleteMinC (fuel + 1) (.node c l k v r h) =
            if !l.isRed && !l.left.isRed then moveRedLeftC (.node c l k v r h) >>= K else pure (.node c l k v r h) >>= K := by
          cases l with
          | nil => exact absurd rfl hln
          | node => rfl
        rw [hunf]
        by_cases hmv : l.isRed = false ∧ l.left.isRed = false
        · obtain ⟨m1, m2⟩ := hmv
          have hc : c = .red := by simpa [m1] using hred
          subst hc
          simp at hm; subst hm
          cases n with
          | zero => exact absurd (nil_of_BH0 m1 hbl) hln
          | succ n =>
            have hrn := ne_nil_of_BH_succ hbr
            have hD : (Rb.node .red l k v r h).redness = 1 := rfl
            simp only [m1, m2, Bool.not_false, Bool.and_self, if_true]
            refine (within_bind (n := 4) (m := 9 * (2 * (n + 1)) + 5) (moveRedLeftC_within _) ?_).mono (by rw [hD]; omega)
            intro a ha
            rw [moveRedLeftC_result] at ha
            cases hrl : r.left.isRed with
            | false =>
              rw [moveRedLeft_simple hln hrn hrl] at ha
              cases ha
              refine (rest (hh := h) (ih (t := l.flipColor) (n := n) (BH_flip_black m1 hbl) (LL_flip_black m2 hLl)
                (.inl (isRed_flipColor_of_black m1 hln)))).mono ?_
              have := redness_le l.flipColor
              omega
            | true =>
              cases r with
              | nil => exact absurd rfl hrn
              | node rc rl rk rv rr rh =>
                have hrc : rc = .black := by cases rc <;> simp_all
                subst hrc
                cases rl with
                | nil => simp at hrl
                | node yc a yk yv b yh =>
                  simp at hrl; subst hrl
                  rw [moveRedLeft_rot hln] at ha
                  obtain ⟨q1, q2, q3, q4⟩ := hLr
                  obtain ⟨p1, p2, p3, p4⟩ := q3
                  obtain ⟨n', en, ⟨b1, b2⟩, b3⟩ := hbr
                  have : n' = n := by omega
                  subst this
                  have := ih (t := mk .black l.flipColor k v a) (n := n' + 1)
                    ⟨n', rfl, BH_flip_black m1 hbl, b1⟩
                    (by simp [p2 rfl, p3, LL_flip_black m2 hLl])
                    (.inr (by simpa using isRed_flipColor_of_black m1 hln))
                  cases ha
                  exact (rest (hh := h) this).mono (by rw [redness_black (by simp)]; omega)
        · have hpre : l.isRed = true ∨ l.left.isRed = true := by
            cases h1 : l.isRed <;> cases h2 : l.left.isRed <;> simp_all
          have hif : (!l.isRed && !l.left.isRed) = false := by
            cases h1 : l.isRed <;> cases h2 : l.left.isRed <;> simp_all
          simp only [hif, Bool.false_eq_true, if_false]
          have hD : 2 * m + l.redness + 1 ≤ 2 * n + (Rb.node c l k v r h).redness := by
            cases c with
            | red =>
              rw [redness_black (hlb rfl)]
              simp at hm; subst hm
              have : (Rb.node .red l k v r h).redness = 1 := rfl
              omega
            | black =>
              have := redness_le l
              simp at hm
              omega
          refine (within_bind (n := 0) (m := 9 * (2 * m + l.redness) + 5) (within_pure _) ?_).mono (by omega)
          intro a ha
          simp at ha
          subst ha
          exact rest (hh := h) (ih hbl hLl hpre)

theorem swapMin_shape (key : Bytes) (val : V) {t t' : Rb V} {k' : Bytes} {v' : V} (h : swapMin key val t = some (k', v', t')) :
    (∀ n, BH t n → BH t' n) ∧ (LL t → LL t') ∧ t'.isRed = t.isRed ∧ t'.left.isRed = t.left.isRed := by
  induction t generalizing t' k' v' with
  | nil => cases h
  | node c l k v r hh ihl _ =>
    cases l with
    | nil =>
      simp [swapMin] at h
      obtain ⟨-, -, rfl⟩ := h
      exact ⟨fun n hb => by cases c <;> exact hb, fun hL => hL, rfl, rfl⟩
    | node lc ll lk lv lr lh =>
      simp only [swapMin, Option.bind_eq_bind, Option.bind_eq_some_iff] at h
      obtain ⟨⟨k1, v1, l1⟩, e, h⟩ := h
      simp at h
      obtain ⟨-, -, rfl⟩ := h
      obtain ⟨f3, f4, f5, f6⟩ := ihl e
      refine ⟨?_, ?_, rfl, f5⟩
      · intro n hb
        obtain ⟨m, hm, b1, b2⟩ := BH_node.1 hb
        exact BH_node.2 ⟨m, hm, f3 m b1, b2⟩
      · rintro ⟨h1, h2, h3, h4⟩
        exact ⟨h1, fun hc => by rw [f5]; exact h2 hc, f4 h3, h4⟩

/-- the common tail of `deleteGoC` -/
theorem deleteRightC_within (key : Bytes) (fuel : Nat)
    (ih : ∀ {t : Rb V} {n : Nat}, BH t n → t.Sorted → DelPre t key → (deleteGoC key fuel t).Within (9 * (2 * n + t.redness)))
    (l : Rb V) {r : Rb V} {k : Bytes} (v : V) {n : Nat} (hb : BH r n)
    (hL : LL r ∧ (r.isRed = true ∨ r.left.isRed = true) ∨ (k < key ∧ DelPre r key)) (hs : r.Sorted) (c : Color) :
    (if key == k then do
        let (k3, v3, r3) ← Counted.free (swapMin k v r)
        let r4 ← deleteMinC fuel r3
        let h ← mkC c l k3 v3 r4
        balanceC h
      else do
        let r3 ← deleteGoC key fuel r
        let h ← mkC c l k v r3
        balanceC h).Within (9 * (2 * n + r.redness) + 5) := by
  by_cases hkey : key = k
  · subst hkey
    have hL' : LL r ∧ (r.isRed = true ∨ r.left.isRed = true) := by
      rcases hL with h | h
      · exact h
      · exact absurd h.1 (lt_irrefl _)
    simp only [beq_self_eq_true, if_true]
    refine (within_bind (n := 0) (m := 9 * (2 * n + r.redness) + 5) (within_free _) ?_).mono (by omega)
    rintro ⟨k3, v3, r3⟩ he
    rw [result_free] at he
    obtain ⟨f3, f4, f5, f6⟩ := swapMin_shape key v he
    have := deleteMinC_within fuel (f3 n hb) (f4 hL'.1) (by rw [f5, f6]; exact hL'.2)
    have hr : r3.redness = r.redness := by simp [redness, f5]
    rw [hr] at this
    exact within_bind this (fun _ _ => rebuilt_within _ _ _ _ _)
  · have hpre : DelPre r key := by
      rcases hL with h | h
      · exact .inl h
      · exact h.2
    simp only [beq_iff_eq, hkey, if_false]
    exact within_bind (ih hb hs hpre) (fun _ _ => rebuilt_within _ _ _ _ _)

theorem deleteGoC_within (key : Bytes) (fuel : Nat) {t : Rb V} {n : Nat} (hb : BH t n) (hs : t.Sorted) (hp : DelPre t key) :
    (deleteGoC key fuel t).Within (9 * (2 * n + t.redness)) := by
  induction fuel generalizing t n with
  | zero => exact within_panic _
  | succ fuel ih =>
    cases t with
    | nil => exact within_panic _
    | node c l k v r h =>
      obtain ⟨m, hm, hbl, hbr⟩ := BH_node.1 hb
      have hs0 : SortedL (l.forEach ++ (k, v) :: r.forEach) := hs
      obtain ⟨s1, s2, s3, s4⟩ := sortedL_node.1 hs0
      -- the two halves of the function
      let K : Rb V → Counted (Rb V) := fun h' => match h' with
        | .nil => Counted.panic
        | .node c l k v r _ => do
          let l' ← deleteGoC key fuel l
          let h ← mkC c l' k v r
          balanceC h
      have rest : ∀ {c l k v r hh b}, (deleteGoC key fuel l).Within b → (K (.node c l k v r hh)).Within (b + 5) := by
        intro c l k v r hh b hl
        exact within_bind hl (fun _ _ => rebuilt_within _ _ _ _ _)
      let L : Rb V → Counted (Rb V) := fun h2 => match h2 with
        | .nil => Counted.panic
        | .node c2 l2 k2 v2 r2 _ =>
          if key == k2 then do
            let (k3, v3, r3) ← Counted.free (swapMin k2 v2 r2)
            let r4 ← deleteMinC fuel r3
            let h ← mkC c2 l2 k3 v3 r4
            balanceC h
          else do
            let r3 ← deleteGoC key fuel r2
            let h ← mkC c2 l2 k2 v2 r3
            balanceC h
      let M : Rb V → Counted (Rb V) := fun h1 => match h1 with
        | .nil => Counted.panic
        | .node c1 l1 k1 v1 r1 hh1 =>
          match r1 with
          | .nil => if key == k1 then (match l1 with | .nil => pure .nil | _ => Counted.panic) else Counted.panic
          | _ => if !r1.isRed && !r1.left.isRed then moveRedRightC (.node c1 l1 k1 v1 r1 hh1) >>= L
            else pure (.node c1 l1 k1 v1 r1 hh1) >>= L
      have hright : ltB key k = false → deleteGoC key (fuel + 1) (.node c l k v r h) =
          if l.isRed then rotateRightC (.node c l k v r h) >>= M else pure (.node c l k v r h) >>= M := by
        intro hn
        simp only [deleteGoC]
        rw [hn]
        rfl
      have tail := fun (l : Rb V) {r : Rb V} {k : Bytes} (v : V) {n : Nat} (hb : BH r n) hL hs c =>
        deleteRightC_within key fuel (fun h1 h2 h3 => ih h1 h2 h3) l (k := k) v hb hL hs c
      rcases hp with ⟨hL, hred⟩ | ⟨l', k', v', r', h', e, hlb, hrr, hLl, hLr, hle⟩
      · obtain ⟨hrb, hlb, hLl, hLr⟩ := hL
        simp only [isRed_node, left_node] at hred
        by_cases hlt : key < k
        · by_cases hln : l = .nil
          · subst hln
            simp only [deleteGoC, ltB_iff.2 hlt, if_true]
            exact within_panic _
          have hunf : deleteGoC key (fuel + 1) (.node c l k v r h) =
              if !l.isRed && !l.left.isRed then moveRedLeftC (.node c l k v r h) >>= K else pure (.node c l k v r h) >>= K := by
            simp only [deleteGoC]
            rw [if_pos (ltB_iff.2 hlt)]
            cases l with
            | nil => exact absurd rfl hln
            | node => rfl
          rw [hunf]
          by_cases hmv : l.isRed = false ∧ l.left.isRed = false
          · obtain ⟨m1, m2⟩ := hmv
            have hc : c = .red := by simpa [m1] using hred
            subst hc
            simp at hm; subst hm
            cases n with
            | zero => exact absurd (nil_of_BH0 m1 hbl) hln
            | succ n =>
              have hrn := ne_nil_of_BH_succ hbr
              have hD : (Rb.node .red l k v r h).redness = 1 := rfl
              simp only [m1, m2, Bool.not_false, Bool.and_self, if_true]
              refine (within_bind (n := 4) (m := 9 * (2 * (n + 1)) + 5) (moveRedLeftC_within _) ?_).mono (by rw [hD]; omega)
              intro a ha
              rw [moveRedLeftC_result] at ha
              cases hrl : r.left.isRed with
              | false =>
                rw [moveRedLeft_simple hln hrn hrl] at ha
                cases ha
                refine (rest (hh := h) (ih (t := l.flipColor) (n := n) (BH_flip_black m1 hbl) (by simpa [Sorted] using s1)
                  (.inl ⟨LL_flip_black m2 hLl, .inl (isRed_flipColor_of_black m1 hln)⟩))).mono ?_
                have := redness_le l.flipColor
                omega
              | true =>
                cases r with
                | nil => exact absurd rfl hrn
                | node rc rl rk rv rr rh =>
                  have hrc : rc = .black := by cases rc <;> simp_all
                  subst hrc
                  cases rl with
                  | nil => simp at hrl
                  | node yc a yk yv b yh =>
                    simp at hrl; subst hrl
                    rw [moveRedLeft_rot hln] at ha
                    obtain ⟨q1, q2, q3, q4⟩ := hLr
                    obtain ⟨p1, p2, p3, p4⟩ := q3
                    obtain ⟨n', en, ⟨b1, b2⟩, b3⟩ := hbr
                    have : n' = n := by omega
                    subst this
                    have hreg : l.forEach ++ (k, v) :: (Rb.node .black (.node .red a yk yv b yh) rk rv rr rh).forEach
                        = (l.forEach ++ (k, v) :: a.forEach) ++ (yk, yv) :: (b.forEach ++ (rk, rv) :: rr.forEach) := by
                      simp [forEach]
                    have hs2 := hs0
                    rw [hreg] at hs2
                    have hs3 := sortedL_node.1 hs2
                    have := ih (t := mk .black l.flipColor k v a) (n := n' + 1)
                      ⟨n', rfl, BH_flip_black m1 hbl, b1⟩ (by simpa [Sorted] using hs3.1)
                      (.inl ⟨by simp [p2 rfl, p3, LL_flip_black m2 hLl],
                        .inr (by simpa using isRed_flipColor_of_black m1 hln)⟩)
                    cases ha
                    exact (rest (hh := h) this).mono (by rw [redness_black (by simp)]; omega)
          · have hpre : l.isRed = true ∨ l.left.isRed = true := by
              cases h1 : l.isRed <;> cases h2 : l.left.isRed <;> simp_all
            have hif : (!l.isRed && !l.left.isRed) = false := by
              cases h1 : l.isRed <;> cases h2 : l.left.isRed <;> simp_all
            simp only [hif, Bool.false_eq_true, if_false]
            have hD : 2 * m + l.redness + 1 ≤ 2 * n + (Rb.node c l k v r h).redness := by
              cases c with
              | red =>
                rw [redness_black (hlb rfl)]
                simp at hm; subst hm
                have : (Rb.node .red l k v r h).redness = 1 := rfl
                omega
              | black =>
                have := redness_le l
                simp at hm
                omega
            refine (within_bind (n := 0) (m := 9 * (2 * m + l.redness) + 5) (within_pure _) ?_).mono (by omega)
            intro a ha
            simp at ha
            subst ha
            exact rest (hh := h) (ih hbl s1 (.inl ⟨hLl, hpre⟩))
        · have hle : k ≤ key := not_lt.1 hlt
          have hnlt : ltB key k = false := by
            cases hx : ltB key k with
            | false => rfl
            | true => exact absurd (ltB_iff.1 hx) hlt
          rw [hright hnlt]
          cases hlred : l.isRed with
          | true =>
            have hcb : c = .black := by
              cases c with
              | red => simp [hlb rfl] at hlred
              | black => rfl
            subst hcb
            cases l with
            | nil => simp at hlred
            | node lc a lk lv b lh =>
              simp at hlred; subst hlred
              obtain ⟨p1, p2, p3, p4⟩ := hLl
              obtain ⟨b1, b2⟩ := hbl
              simp at hm
              have hreg : (Rb.node .red a lk lv b lh).forEach ++ (k, v) :: r.forEach
                  = a.forEach ++ (lk, lv) :: (b.forEach ++ (k, v) :: r.forEach) := by simp [forEach]
              have hs2 := hs0
              rw [hreg] at hs2
              have hs3 := sortedL_node.1 hs2
              have hD : (Rb.node .black (.node .red a lk lv b lh) k v r h).redness = 0 := rfl
              simp only [if_true]
              refine (within_bind (n := 2) (m := 9 * (2 * m + 1) + 5) (rotateRightC_within _) ?_).mono (by rw [hD]; omega)
              intro x hx
              rw [rotateRightC_result] at hx
              simp only [rotateRight] at hx
              cases hx
              have := tail a (k := lk) lv (r := mk .red b k v r) (n := m) ⟨b2, hbr⟩
                (.inl ⟨by simp [hrb, p1, p4, hLr], .inl (by simp)⟩) (by simpa [Sorted] using hs3.2.1) .black
              rw [redness_red (by simp)] at this
              exact (within_bind (n := 0) (within_pure _) (fun y hy => by simp at hy; subst hy; exact this)).mono (by omega)
          | false =>
            have hc : c = .red := by simpa [hlred] using hred
            subst hc
            simp at hm; subst hm
            have hD : (Rb.node .red l k v r h).redness = 1 := rfl
            simp only [Bool.false_eq_true, if_false]
            rw [hD]
            refine (within_bind (n := 0) (m := 9 * (2 * n + 1)) (within_pure _) ?_).mono (by omega)
            intro x hx
            simp at hx
            subst hx
            by_cases hrn : r = .nil
            · subst hrn
              cases l with
              | nil =>
                show (if key == k then pure .nil else Counted.panic : Counted (Rb V)).Within _
                exact ite_within ((within_pure _).mono (by omega)) (within_panic _)
              | node =>
                show (if key == k then Counted.panic else Counted.panic : Counted (Rb V)).Within _
                exact ite_within (within_panic _) (within_panic _)
            · have hM : M (.node .red l k v r h) = if !r.isRed && !r.left.isRed then moveRedRightC (.node .red l k v r h) >>= L
                  else pure (.node .red l k v r h) >>= L := by
                cases r with
                | nil => exact absurd rfl hrn
                | node => rfl
              rw [hM]
              cases hrl : r.left.isRed with
              | true =>
                simp only [hrb, Bool.not_true, Bool.and_false, Bool.false_eq_true, if_false]
                have := tail l (k := k) v hbr (.inl ⟨hLr, .inr hrl⟩) s2 .red
                rw [redness_black hrb] at this
                exact (within_bind (n := 0) (within_pure _) (fun y hy => by simp at hy; subst hy; exact this)).mono (by omega)
              | false =>
                simp only [hrb, Bool.not_false, Bool.and_self, if_true]
                cases n with
                | zero => exact absurd (nil_of_BH0 hrb hbr) hrn
                | succ n =>
                  have hln := ne_nil_of_BH_succ hbl
                  have hfr := isRed_flipColor_of_black hrb hrn
                  refine (within_bind (n := 2) (m := 9 * (2 * (n + 1)) + 5) (moveRedRightC_within _) ?_).mono (by omega)
                  intro x hx
                  rw [moveRedRightC_result] at hx
                  cases hll : l.left.isRed with
                  | false =>
                    rw [moveRedRight_simple hln hrn hll] at hx
                    cases hx
                    have := tail l.flipColor (k := k) v (r := r.flipColor) (n := n) (BH_flip_black hrb hbr)
                      (.inl ⟨LL_flip_black hrl hLr, .inl hfr⟩) (by simpa [Sorted] using s2) .black
                    have hr := redness_le r.flipColor
                    exact this.mono (by omega)
                  | true =>
                    cases l with
                    | nil => exact absurd rfl hln
                    | node lc a lk lv b lh =>
                      have hlc : lc = .black := by cases lc <;> simp_all
                      subst hlc
                      simp only [left_node] at hll
                      rw [moveRedRight_rot hrn hll] at hx
                      obtain ⟨p1, p2, p3, p4⟩ := hLl
                      obtain ⟨n', en, b1, b2⟩ := hbl
                      have : n' = n := by omega
                      subst this
                      have hreg : (Rb.node .black a lk lv b lh).forEach ++ (k, v) :: r.forEach
                          = a.forEach ++ (lk, lv) :: (b.forEach ++ (k, v) :: r.forEach) := by simp [forEach]
                      have hs2 := hs0
                      rw [hreg] at hs2
                      have hs3 := sortedL_node.1 hs2
                      have hlk : lk < key := lt_of_lt_of_le (hs3.2.2.2 (k, v) (by simp)) hle
                      cases hx
                      have := tail a.flipColor (k := lk) lv (r := mk .black b k v r.flipColor) (n := n' + 1)
                        ⟨n', rfl, b2, BH_flip_black hrb hbr⟩
                        (.inr ⟨hlk, .inr ⟨b, k, v, r.flipColor, _, rfl, p1, hfr, p4, LL_flip_black hrl hLr, hle⟩⟩)
                        (by simpa [Sorted] using hs3.2.1) .red
                      rw [redness_black (by simp)] at this
                      exact this.mono (by omega)
      · cases e
        simp at hm
        have hnlt : ltB key k = false := by
          cases hx : ltB key k with
          | false => rfl
          | true => exact absurd (ltB_iff.1 hx) (not_lt.2 hle)
        have hrn := ne_nil_of_red hrr
        rw [hright hnlt]
        simp only [hlb, Bool.false_eq_true, if_false]
        have hD : (Rb.node .black l k v r h).redness = 0 := rfl
        rw [hD]
        have := tail l (k := k) v hbr (.inl ⟨hLr, .inl hrr⟩) s2 .black
        rw [redness_red hrr] at this
        refine (within_bind (n := 0) (m := 9 * (2 * m + 1) + 5) (within_pure _) ?_).mono (by omega)
        intro x hx
        simp at hx
        subst hx
        have hM : M (.node .black l k v r h) = pure (.node .black l k v r h) >>= L := by
          cases r with
          | nil => exact absurd rfl hrn
          | node rc rl rk rv rr rh =>
            simp at hrr; subst hrr
            rfl
        rw [hM]
        exact (within_bind (n := 0) (within_pure _) (fun y hy => by simp at hy; subst hy; exact this)).mono (by omega)

end Rb
end Verif
