import Verif.Lemmas.RbCostDelete
import Verif.Props.RbTree

set_option linter.unusedSimpArgs false
set_option linter.unusedSectionVars false

/-!
# Property C82: an update hashes only logarithmically many nodes

`insertC`, `deleteC` and `modifyC` (`Model/RbCost.lean`) are the operations of the tree returning, with their
result, how many times they computed the hash of a node (`update_subtree_hash` and `Node::new`). The theorems
say that the result is that of the operation itself, and bound the number.
-/

namespace Verif
namespace Rb
open Counted
variable {V : Type} [SHA] [AsHashTree V]

theorem counted_of_result {α : Type} {x : Counted α} {a : α} {n : Nat} (h : x.result = some a) (hw : x.Within n) :
    ∃ k, x = some (a, k) ∧ k ≤ n := by
  match x, h, hw with
  | some (b, k), h, hw =>
    simp [Counted.result] at h
    subst h
    exact ⟨k, rfl, hw _ _ rfl⟩
  | none, h, _ => simp [Counted.result] at h

theorem height_log {t : Rb V} (ht : Valid t) : t.height ≤ 2 * Nat.log2 (t.forEach.length + 1) := by
  obtain ⟨n, hb⟩ := ht.bh
  have a := height_le hb ht.ll
  have b := size_ge hb
  rw [ht.black] at a
  rw [← size_eq_length]
  have c : n ≤ Nat.log2 (t.size + 1) := (Nat.le_log2 (by omega)).2 b
  simp at a
  omega

theorem deleteC_within {t : Rb V} (ht : Valid t) (key : Bytes) :
    (t.deleteC key).Within (18 * Nat.log2 (t.forEach.length + 1)) := by
  obtain ⟨⟨n, hb⟩, hl, hh, hs, hbk⟩ := ht
  have b := size_ge hb
  have hlog : n ≤ Nat.log2 (t.forEach.length + 1) := by
    rw [← size_eq_length]; exact (Nat.le_log2 (by omega)).2 b
  unfold deleteC
  cases hget : t.get key with
  | none => exact (within_pure _).mono (by omega)
  | some v =>
    have hne : t ≠ .nil := by rintro rfl; simp [Rb.get] at hget
    simp only
    set t1 := (if (!t.left.isRed && !t.right.isRed) = true then t.setColor .red else t) with ht1
    have h1 : t1.Sorted ∧ (∃ m, BH t1 m ∧ 2 * m + t1.redness ≤ 2 * n) ∧
        LL t1 ∧ (t1.isRed = true ∨ t1.left.isRed = true) := by
      cases t with
      | nil => exact absurd rfl hne
      | node c l k v r h =>
        simp only [left_node, right_node, hl.1] at ht1
        obtain ⟨m, hm, b1, b2⟩ := BH_node.1 hb
        have hc : c = .black := by cases c <;> simp_all [isRed]
        subst hc
        cases hlr : l.isRed with
        | true =>
          simp [hlr] at ht1
          rw [ht1]
          exact ⟨hs, ⟨n, hb, by simp [redness, isRed]⟩, hl, .inr (by simpa using hlr)⟩
        | false =>
          simp [hlr] at ht1
          rw [ht1]
          refine ⟨hs, ⟨m, ⟨b1, b2⟩, ?_⟩, ⟨hl.1, fun _ => hlr, hl.2.2⟩, .inl rfl⟩
          simp at hm
          simp [redness, setColor, isRed]
          omega
    obtain ⟨a1, ⟨m, a2, a3⟩, a4, a5⟩ := h1
    have hd := deleteGoC_within key t.size a2 a1 (.inl ⟨a4, a5⟩)
    have := within_bind (m := 0) (f := fun t2 : Rb V => match (t2.setColor .black).get key with
      | none => pure (t2.setColor .black)
      | some _ => Counted.panic) hd (fun a _ => by
        cases (a.setColor .black).get key
        · exact within_pure _
        · exact within_panic _)
    exact this.mono (by omega)

/-- one operation, counting the hashed nodes -/
def opC : RbOp V → Rb V → Counted (Rb V)
  | .insert k v, t => t.insertC k v
  | .delete k, t => t.deleteC k
  | .modify k f, t => t.modifyC k (fun v => pure (f v))

/-- a history of operations on an empty tree, counting the hashed nodes -/
def rbRunC (ops : List (RbOp V)) : Counted (Rb V) := ops.foldlM (fun t o => opC o t) .nil

theorem insL_length_le (k : Bytes) (v : V) (xs : List (Bytes × V)) : (insL k v xs).length ≤ xs.length + 1 := by
  induction xs with
  | nil => simp [insL]
  | cons p xs ih =>
    obtain ⟨k', v'⟩ := p
    simp only [insL]
    split <;> simp_all

theorem delL_length_le (k : Bytes) (xs : List (Bytes × V)) : (delL k xs).length ≤ xs.length :=
  List.length_filter_le _ _

theorem modL_length_le (k : Bytes) (f : V → V) (xs : List (Bytes × V)) : (modL k f xs).length ≤ xs.length := by
  simp [modL]

theorem counted_bind {α β : Type} {x : Counted α} {f : α → Counted β} {a : α} {b : β} {k m : Nat}
    (hx : x = some (a, k)) (hf : f a = some (b, m)) : x >>= f = some (b, k + m) := by
  subst hx
  change (match f a with
    | none => none
    | some (b, m) => some (b, k + m)) = _
  rw [hf]

theorem opC_spec {t : Rb V} (ht : Valid t) (o : RbOp V) :
    ∃ t' k, opC o t = some (t', k) ∧ o.run t = some t' ∧ Valid t' ∧ t'.forEach.length ≤ t.forEach.length + 1 ∧
      k ≤ 18 * Nat.log2 (t.forEach.length + 1) + 1 := by
  have hh := height_log ht
  cases o with
  | insert key val =>
    obtain ⟨t', e, hv, hl⟩ := insert_spec ht key val
    obtain ⟨k, e1, e2⟩ := counted_of_result ((insertC_result t key val).trans e) (insertC_within t key val)
    refine ⟨t', k, e1, e, hv, ?_, by omega⟩
    rw [hl]; exact insL_length_le _ _ _
  | delete key =>
    obtain ⟨t', e, hv, hl⟩ := delete_spec ht key
    obtain ⟨k, e1, e2⟩ := counted_of_result ((deleteC_result t key).trans e) (deleteC_within ht key)
    refine ⟨t', k, e1, e, hv, ?_, by omega⟩
    rw [hl]; exact (delL_length_le _ _).trans (by omega)
  | modify key f =>
    obtain ⟨t', e, hv, hl⟩ := modify_spec ht key (fun v => some (f v)) f (fun _ _ => rfl)
    obtain ⟨k, e1, e2⟩ := counted_of_result ((modifyC_result key (fun v => pure (f v)) t).trans e) (modifyC_within (b := 0) key _ t (fun v _ => Counted.within_pure _))
    refine ⟨t', k, e1, e, hv, ?_, by omega⟩
    rw [hl]; exact (modL_length_le _ _ _).trans (by omega)

theorem runC_from {t : Rb V} (ht : Valid t) (ops : List (RbOp V)) {b : Nat} (hb : t.forEach.length + ops.length ≤ b) :
    ∃ t' k, ops.foldlM (fun t o => opC o t) t = (some (t', k) : Counted (Rb V)) ∧
      ops.foldlM (fun t o => o.run t) t = some t' ∧ k ≤ ops.length * (18 * Nat.log2 (b + 1) + 1) := by
  induction ops generalizing t with
  | nil => exact ⟨t, 0, rfl, rfl, by omega⟩
  | cons o ops ih =>
    obtain ⟨t1, k1, e1, r1, v1, l1, b1⟩ := opC_spec ht o
    simp only [List.length_cons] at hb
    obtain ⟨t2, k2, e2, r2, b2⟩ := ih v1 (by omega)
    refine ⟨t2, k1 + k2, ?_, ?_, ?_⟩
    · rw [List.foldlM_cons]; exact counted_bind e1 e2
    · rw [List.foldlM_cons, r1]; exact r2
    · have : Nat.log2 (t.forEach.length + 1) ≤ Nat.log2 (b + 1) := by
        refine (Nat.le_log2 (by omega)).2 ((Nat.log2_self_le (by omega)).trans (by omega))
      rw [List.length_cons, Nat.succ_mul]
      omega

end Rb

namespace Props
open Rb
variable {V : Type} [SHA] [AsHashTree V]

/-- **C82.** Whatever the history of the tree, inserting hashes at most `10·log₂(n+1) + 1` nodes, where `n`
is the number of entries: the nodes on one path, and at each of them at most four for rotations. -/
theorem C82_insert {ops : List (RbOp V)} {t : Rb V} (h : rbRun ops = some t) (key : Bytes) (val : V) :
    ∃ t' hashes, t.insertC key val = some (t', hashes) ∧ t.insert key val = some t' ∧
      hashes ≤ 10 * Nat.log2 (t.forEach.length + 1) + 1 := by
  have hv := rbRun_valid h
  obtain ⟨t', e, _⟩ := insert_spec hv key val
  obtain ⟨k, e1, e2⟩ := counted_of_result ((insertC_result t key val).trans e) (insertC_within t key val)
  have := height_log hv
  exact ⟨t', k, e1, e, by omega⟩

/-- **C82**, `delete`: at most `18·log₂(n+1)` nodes; no node at all if the key is absent. -/
theorem C82_delete {ops : List (RbOp V)} {t : Rb V} (h : rbRun ops = some t) (key : Bytes) :
    ∃ t' hashes, t.deleteC key = some (t', hashes) ∧ t.delete key = some t' ∧
      hashes ≤ 18 * Nat.log2 (t.forEach.length + 1) ∧ (t.get key = none → hashes = 0) := by
  have hv := rbRun_valid h
  obtain ⟨t', e, _⟩ := delete_spec hv key
  obtain ⟨k, e1, e2⟩ := counted_of_result ((deleteC_result t key).trans e) (deleteC_within hv key)
  refine ⟨t', k, e1, e, e2, fun hn => ?_⟩
  simp only [deleteC, hn] at e1
  change some (t, 0) = some (t', k) at e1
  simp at e1
  exact e1.2.symm

/-- **C82**, `modify`: one node for each on the path to the key, at most `2·log₂(n+1)`, besides what the
closure does with the value. -/
theorem C82_modify {ops : List (RbOp V)} {t : Rb V} (h : rbRun ops = some t) (key : Bytes) (f : V → V) :
    ∃ t' hashes, t.modifyC key (fun v => pure (f v)) = some (t', hashes) ∧
      t.modify key (fun v => some (f v)) = some t' ∧
      hashes ≤ 2 * Nat.log2 (t.forEach.length + 1) := by
  have hv := rbRun_valid h
  obtain ⟨t', e, _⟩ := modify_spec hv key (fun v => some (f v)) f (fun _ _ => rfl)
  obtain ⟨k, e1, e2⟩ := counted_of_result ((modifyC_result key (fun v => pure (f v)) t).trans e) (modifyC_within (b := 0) key _ t (fun v _ => Counted.within_pure _))
  have := height_log hv
  exact ⟨t', k, e1, e, by omega⟩

/-- **C82**, a whole history: `m` operations from an empty tree never panic and hash together at most
`m·(18·log₂(m+1) + 1)` nodes. -/
theorem C82_history (ops : List (RbOp V)) :
    ∃ t hashes, rbRunC ops = some (t, hashes) ∧ rbRun ops = some t ∧
      hashes ≤ ops.length * (18 * Nat.log2 (ops.length + 1) + 1) := by
  obtain ⟨t, k, e1, e2, e3⟩ := runC_from (valid_nil (V := V)) ops (b := ops.length) (by simp [forEach])
  exact ⟨t, k, e1, e2, e3⟩

end Props

namespace Props
section Examples
open Rb
attribute [local instance] toySHA

/-- twelve insertions in increasing order -/
def exCostOps : List (RbOp Bytes) := (List.range 12).map fun i => .insert [i.toUInt8] [1]

/-- How many nodes twelve insertions hash, how many deleting the sixth key then hashes, deleting an absent key,
and modifying. -/
example : ((rbRunC exCostOps : Option _).map (·.2), (rbRunC (exCostOps ++ [.delete [5]]) : Option _).map (·.2),
    (rbRunC (exCostOps ++ [.delete [77]]) : Option _).map (·.2),
    (rbRunC (exCostOps ++ [.modify [5] fun v => v]) : Option _).map (·.2)) = (some 55, some 58, some 55, some 58) := by
  decide +kernel

end Examples
end Props
end Verif
