import Verif.Model.RbCost
import Verif.Lemmas.RbDelete
import Verif.Lemmas.RbOps

/-!
# Counting hashes: the counting functions agree with the model, and how far the count goes
-/

set_option linter.unusedSimpArgs false
set_option linter.unusedSectionVars false

namespace Verif

namespace Counted
variable {α β : Type}

/-- the computation without its count -/
def result (x : Counted α) : Option α := Option.map Prod.fst x

/-- if it returns, at most `n` nodes were hashed -/
def Within (x : Counted α) (n : Nat) : Prop := ∀ a k, x = some (a, k) → k ≤ n

@[simp] theorem result_pure (a : α) : (pure a : Counted α).result = some a := rfl
@[simp] theorem result_hashed (a : α) : (hashed a : Counted α).result = some a := rfl
@[simp] theorem result_panic : (panic : Counted α).result = none := rfl
@[simp] theorem result_free (x : Option α) : (free x).result = x := by cases x <;> rfl
@[simp] theorem result_bind (x : Counted α) (f : α → Counted β) : (x >>= f).result = x.result.bind (fun a => (f a).result) := by
  cases x with
  | none => rfl
  | some p =>
    obtain ⟨a, n⟩ := p
    show Option.map Prod.fst (match f a with | none => none | some (b, m) => some (b, n + m)) = (f a).result
    unfold result
    cases f a with
    | none => rfl
    | some q => rfl

theorem Within.mono {x : Counted α} {n m : Nat} (h : x.Within n) (hnm : n ≤ m) : x.Within m :=
  fun a k e => Nat.le_trans (h a k e) hnm

theorem within_pure (a : α) : (pure a : Counted α).Within 0 := by
  intro b k e
  have : (some (a, 0) : Option (α × Nat)) = some (b, k) := e
  simp at this
  omega

theorem within_hashed (a : α) : (hashed a : Counted α).Within 1 := by
  intro b k e
  have : (some (a, 1) : Option (α × Nat)) = some (b, k) := e
  simp at this
  omega

theorem within_panic (n : Nat) : (panic : Counted α).Within n := by
  intro b k e
  exact absurd e (by simp [panic])

theorem within_free (x : Option α) : (free x).Within 0 := by
  cases x with
  | none => exact within_panic 0
  | some a => exact within_pure a

theorem within_bind {x : Counted α} {f : α → Counted β} {n m : Nat} (hx : x.Within n)
    (hf : ∀ a, x.result = some a → (f a).Within m) : (x >>= f).Within (n + m) := by
  intro b k e
  cases x with
  | none => exact absurd e (by intro e; cases e)
  | some p =>
    obtain ⟨a, j⟩ := p
    have h1 := hx a j rfl
    have h2 := hf a rfl
    have e' : (match f a with | none => none | some (b, m) => some (b, j + m) : Option (β × Nat)) = some (b, k) := e
    cases hfa : f a with
    | none => rw [hfa] at e'; cases e'
    | some q =>
      rw [hfa] at e' h2
      simp at e'
      have := h2 q.1 q.2 rfl
      omega

end Counted

namespace Rb
open Counted
variable {V : Type} [SHA] [AsHashTree V]

@[simp] theorem mkC_result (c : Color) (l : Rb V) (k : Bytes) (v : V) (r : Rb V) : (mkC c l k v r).result = some (mk c l k v r) := rfl

theorem rotateRightC_result (t : Rb V) : (rotateRightC t).result = rotateRight t := by
  unfold rotateRightC rotateRight
  split <;> simp [mkC]

theorem rotateLeftC_result (t : Rb V) : (rotateLeftC t).result = rotateLeft t := by
  unfold rotateLeftC rotateLeft
  split <;> simp [mkC]

theorem ite_result {α : Type} (b : Bool) (x y : Counted α) : (if b then x else y).result = if b then x.result else y.result := by
  cases b <;> rfl

theorem balanceC_result (t : Rb V) : (balanceC t).result = balance t := by
  unfold balanceC balance
  simp only [result_bind, ite_result, rotateRightC_result, rotateLeftC_result, result_free, result_pure]
  rfl

theorem insertGoC_result (key : Bytes) (val : V) (t : Rb V) : (t.insertGoC key val).result = t.insertGo key val := by
  induction t with
  | nil => rfl
  | node c l k v r h ihl ihr =>
    simp only [insertGoC, insertGo]
    split <;> next e => simp [e, ihl, ihr, balanceC_result]

theorem insertC_result (t : Rb V) (key : Bytes) (val : V) : (t.insertC key val).result = t.insert key val := by
  simp only [insertC, insert, result_bind, insertGoC_result, result_pure]
  rfl

theorem modifyC_result (key : Bytes) (f : V → Counted V) (t : Rb V) :
    (t.modifyC key f).result = t.modify key (fun v => (f v).result) := by
  induction t with
  | nil => rfl
  | node c l k v r h ihl ihr =>
    simp only [modifyC, modify]
    split <;> next e => simp [e, ihl, ihr, mkC]

theorem moveRedLeftC_result (t : Rb V) : (moveRedLeftC t).result = moveRedLeft t := by
  unfold moveRedLeftC moveRedLeft
  simp only [result_bind, result_free, Option.bind_eq_bind]
  congr 1
  funext h
  cases h with
  | nil => rfl
  | node c l k v r hh => simp only [ite_result, result_bind, rotateRightC_result, rotateLeftC_result, result_free, result_pure]

theorem moveRedRightC_result (t : Rb V) : (moveRedRightC t).result = moveRedRight t := by
  unfold moveRedRightC moveRedRight
  simp only [result_bind, result_free, Option.bind_eq_bind]
  congr 1
  funext h
  simp only [ite_result, result_bind, rotateRightC_result, rotateLeftC_result, result_free, result_pure]

theorem deleteMinC_result (n : Nat) (t : Rb V) : (deleteMinC n t).result = deleteMin n t := by
  induction n generalizing t with
  | zero => rfl
  | succ n ih =>
    cases t with
    | nil => rfl
    | node c l k v r h =>
      cases l with
      | nil => cases r <;> rfl
      | node lc ll lk lv lr lh =>
        simp only [deleteMinC, deleteMin, result_bind, ite_result, moveRedLeftC_result, result_pure, Option.bind_eq_bind]
        split
        · congr 1
          funext h'
          cases h' with
          | nil => rfl
          | node => simp [ih, balanceC_result]
        · simp [ih, balanceC_result]

theorem deleteGoC_result (key : Bytes) (n : Nat) (t : Rb V) : (deleteGoC key n t).result = deleteGo key n t := by
  induction n generalizing t with
  | zero => rfl
  | succ n ih =>
    cases t with
    | nil => rfl
    | node c l k v r h =>
      simp only [deleteGoC, deleteGo]
      split
      · cases l with
        | nil => rfl
        | node lc ll lk lv lr lh =>
          simp only [result_bind, ite_result, moveRedLeftC_result, result_pure, Option.bind_eq_bind]
          split
          · congr 1
            funext h'
            cases h' with
            | nil => rfl
            | node => simp [ih, balanceC_result]
          · simp [ih, balanceC_result]
      · simp only [result_bind, ite_result, rotateRightC_result, result_pure, Option.bind_eq_bind]
        split
        · congr 1
          funext h1
          cases h1 with
          | nil => rfl
          | node c1 l1 k1 v1 r1 hh1 =>
            cases r1 with
            | nil =>
              simp only [ite_result]
              split
              · cases l1 <;> rfl
              · rfl
            | node =>
              simp only [result_bind, ite_result, moveRedRightC_result, result_pure, Option.bind_eq_bind]
              split
              · congr 1
                funext h2
                cases h2 with
                | nil => rfl
                | node c2 l2 k2 v2 r2 _ =>
                  simp only [ite_result, result_bind, result_free, deleteMinC_result, mkC_result, balanceC_result, ih, Option.bind_some]
              · simp only [ite_result, result_bind, result_free, deleteMinC_result, mkC_result, balanceC_result, ih, Option.bind_some]
        · cases r with
          | nil =>
            simp only [Option.bind_some, ite_result]
            split
            · cases l <;> rfl
            · rfl
          | node =>
            simp only [Option.bind_some, result_bind, ite_result, moveRedRightC_result, result_pure, Option.bind_eq_bind]
            split
            · congr 1
              funext h2
              cases h2 with
              | nil => rfl
              | node c2 l2 k2 v2 r2 _ =>
                simp only [ite_result, result_bind, result_free, deleteMinC_result, mkC_result, balanceC_result, ih, Option.bind_some]
            · simp only [ite_result, result_bind, result_free, deleteMinC_result, mkC_result, balanceC_result, ih, Option.bind_some]

theorem deleteC_result (t : Rb V) (key : Bytes) : (t.deleteC key).result = t.delete key := by
  unfold deleteC delete
  cases t.get key with
  | none => rfl
  | some x =>
    simp only [result_bind, deleteGoC_result, Option.bind_eq_bind]
    congr 1
    funext t2
    cases (t2.setColor .black).get key <;> rfl

/-! ### Bounds -/

theorem rotateRightC_within (t : Rb V) : (rotateRightC t).Within 2 := by
  unfold rotateRightC
  split
  · exact within_bind (n := 1) (m := 1) (within_hashed _) (fun _ _ => within_hashed _)
  · exact within_panic _

theorem rotateLeftC_within (t : Rb V) : (rotateLeftC t).Within 2 := by
  unfold rotateLeftC
  split
  · exact within_bind (n := 1) (m := 1) (within_hashed _) (fun _ _ => within_hashed _)
  · exact within_panic _

theorem ite_within {α : Type} {b : Bool} {x y : Counted α} {n : Nat} (hx : x.Within n) (hy : y.Within n) :
    (if b then x else y).Within n := by cases b <;> assumption

theorem balanceC_within (t : Rb V) : (balanceC t).Within 4 := by
  have last : ∀ h : Rb V, (if h.left.isRed && h.right.isRed then Counted.free (flipColors h) else pure h).Within 0 :=
    fun h => ite_within (within_free _) (within_pure _)
  have mid : ∀ h : Rb V, (do
      let h ← if h.left.isRed && h.left.left.isRed then rotateRightC h else pure h
      if h.left.isRed && h.right.isRed then Counted.free (flipColors h) else pure h).Within 2 := by
    intro h
    exact ite_within (within_bind (n := 2) (m := 0) (rotateRightC_within _) (fun h _ => last h))
      ((within_bind (n := 0) (m := 0) (within_pure _) (fun h _ => last h)).mono (by omega))
  unfold balanceC
  exact ite_within (within_bind (n := 2) (m := 2) (rotateLeftC_within _) (fun h _ => mid h))
    ((within_bind (n := 0) (m := 2) (within_pure _) (fun h _ => mid h)).mono (by omega))

theorem rebuilt_within (c : Color) (l : Rb V) (k : Bytes) (v : V) (r : Rb V) : (mkC c l k v r >>= fun h => balanceC h).Within 5 :=
  within_bind (n := 1) (m := 4) (within_hashed _) (fun _ _ => balanceC_within _)

theorem insertGoC_within (key : Bytes) (val : V) (t : Rb V) : (t.insertGoC key val).Within (5 * t.height + 1) := by
  induction t with
  | nil => exact within_hashed _
  | node c l k v r h ihl ihr =>
    simp only [insertGoC, height]
    split
    · exact (rebuilt_within _ _ _ _ _).mono (by omega)
    · exact (within_bind ihl (fun _ _ => rebuilt_within _ _ _ _ _)).mono (by omega)
    · exact (within_bind ihr (fun _ _ => rebuilt_within _ _ _ _ _)).mono (by omega)

theorem insertC_within (t : Rb V) (key : Bytes) (val : V) : (t.insertC key val).Within (5 * t.height + 1) :=
  within_bind (m := 0) (insertGoC_within key val t) (fun _ _ => within_pure _)

theorem modifyC_within (key : Bytes) (f : V → Counted V) (t : Rb V) {b : Nat}
    (hf : ∀ v, t.get key = some v → (f v).Within b) : (t.modifyC key f).Within (t.height + b) := by
  induction t with
  | nil => exact (within_pure _).mono (by omega)
  | node c l k v r h ihl ihr =>
    simp only [modifyC, height]
    simp only [Rb.get] at hf
    split
    · next e =>
      simp only [e] at hf
      exact (within_bind (m := 1) (hf v rfl) (fun _ _ => within_hashed _)).mono (by omega)
    · next e =>
      simp only [e] at hf
      exact (within_bind (ihl hf) (fun _ _ => within_hashed _)).mono (by omega)
    · next e =>
      simp only [e] at hf
      exact (within_bind (ihr hf) (fun _ _ => within_hashed _)).mono (by omega)

theorem moveRedLeftC_within (t : Rb V) : (moveRedLeftC t).Within 4 := by
  unfold moveRedLeftC
  refine within_bind (n := 0) (m := 4) (within_free _) (fun h _ => ?_)
  cases h with
  | nil => exact within_panic _
  | node c l k v r hh =>
    refine ite_within ?_ ((within_pure _).mono (by omega))
    exact within_bind (n := 2) (m := 2) (rotateRightC_within _)
      (fun _ _ => within_bind (n := 2) (m := 0) (rotateLeftC_within _) (fun _ _ => within_free _))

theorem moveRedRightC_within (t : Rb V) : (moveRedRightC t).Within 2 := by
  unfold moveRedRightC
  refine within_bind (n := 0) (m := 2) (within_free _) (fun h _ => ?_)
  refine ite_within ?_ ((within_pure _).mono (by omega))
  exact within_bind (n := 2) (m := 0) (rotateRightC_within _) (fun _ _ => within_free _)

end Rb
end Verif
