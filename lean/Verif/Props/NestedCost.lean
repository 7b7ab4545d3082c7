import Verif.Props.RbCost
import Verif.Props.Nested
import Verif.Lemmas.NestedSize
import Verif.Lemmas.CertTree

set_option linter.unusedSimpArgs false
set_option linter.unusedSectionVars false

/-!
# Property C82, nested trees
-/

namespace Verif
namespace NTree
open Counted Rb
variable {V : Type} [SHA] [AsHashTree V]

theorem insertC_result (p : List Bytes) (v : V) (t : NTree V) : (t.insertC p v).result = t.insert p v := by
  induction p generalizing t with
  | nil => rfl
  | cons key rest ih =>
    have hm : ∀ tree : Rb (NTree V), (tree.modifyC key (fun child => insertC rest v child)).result =
        tree.modify key (fun child => insert rest v child) := by
      intro tree; rw [modifyC_result]; simp only [ih]
    have main : ∀ tree : Rb (NTree V), (insertC (key :: rest) v (.nested tree)).result =
        insert (key :: rest) v (.nested tree) := by
      intro tree
      simp only [insertC, insert]
      cases tree.get key with
      | some c =>
        simp only [result_bind, hm, result_pure]
        cases tree.modify key (fun child => insert rest v child) <;> rfl
      | none =>
        simp only [result_bind, Rb.insertC_result]
        cases tree.insert key default with
        | none => rfl
        | some tree' =>
          simp only [Option.bind_some]
          cases tree'.get key with
          | none => rfl
          | some c =>
            simp only [result_bind, hm, result_pure]
            cases tree'.modify key (fun child => insert rest v child) <;> rfl
    cases t with
    | nested tree => exact main tree
    | leaf w => exact main .nil

theorem deleteC_result (p : List Bytes) (t : NTree V) : (t.deleteC p).result = t.delete p := by
  induction p generalizing t with
  | nil => rfl
  | cons key rest ih =>
    cases t with
    | leaf v => rfl
    | nested tree =>
      simp only [deleteC, delete, result_bind]
      rw [modifyC_result]; simp only [ih]
      cases tree.modify key (fun child => delete rest child) with
      | none => rfl
      | some tree' =>
        simp only [Option.bind_some]
        cases tree'.get key with
        | none => rfl
        | some c =>
          cases c with
          | leaf v => rfl
          | nested s =>
            cases s with
            | nil =>
              simp only [result_bind, Rb.deleteC_result, result_pure]
              cases tree'.delete key <;> rfl
            | node => rfl

/-- every level has at most `k` entries -/
def Narrow (k : Nat) (t : NTree V) : Prop := ∀ q s, sub q t = some (.nested s) → s.forEach.length ≤ k

theorem Narrow.child {k : Nat} {t : Rb (NTree V)} (hv : Valid t) (h : Narrow k (.nested t)) {key : Bytes} {c : NTree V}
    (hc : t.get key = some c) : Narrow k c := by
  intro q s hs
  refine h (key :: q) s ?_
  rw [sub_cons hv, hc]; exact hs

theorem narrow_default (k : Nat) : Narrow k (default : NTree V) := by
  intro q s hs
  cases q with
  | nil => simp [sub, default] at hs; subst hs; simp [forEach]
  | cons a q => simp [sub, default, forEach] at hs

theorem insertC_within {k : Nat} (p : List Bytes) (v : V) {t : NTree V} (h : NValid t) (hk : Narrow k t) :
    (t.insertC p v).Within (p.length * (12 * Nat.log2 (k + 2) + 1)) := by
  induction p generalizing t with
  | nil => exact (within_pure _).mono (by omega)
  | cons key rest ih =>
    have main : ∀ tree : Rb (NTree V), NValid (.nested tree) → Narrow k (.nested tree) →
        (insertC (key :: rest) v (.nested tree)).Within ((key :: rest).length * (12 * Nat.log2 (k + 2) + 1)) := by
      intro tree hn hk
      have hw : tree.forEach.length ≤ k := hk [] tree rfl
      have hlog := height_log hn.valid
      have hm : Nat.log2 (tree.forEach.length + 1) ≤ Nat.log2 (k + 2) := log2_mono (show tree.forEach.length ≤ k + 1 by omega)
      rw [List.length_cons, Nat.succ_mul]
      simp only [insertC]
      cases hg : tree.get key with
      | some c =>
        have := within_bind (m := 0) (f := fun t => pure (NTree.nested t))
          (modifyC_within key (fun child => insertC rest v child) tree
            (fun c hc => ih (hn.child ((get_mem hn.valid).1 hc)).1 (hk.child hn.valid hc))) (fun _ _ => within_pure _)
        exact this.mono (by omega)
      | none =>
        have hi := Rb.insertC_within tree key (default : NTree V)
        obtain ⟨tree', e1, e2, e3⟩ := insert_spec hn.valid key (default : NTree V)
        refine (within_bind (m := rest.length * (12 * Nat.log2 (k + 2) + 1) + 2 * Nat.log2 (k + 2)) hi (fun a ha => ?_)).mono (by omega)
        rw [Rb.insertC_result, e1] at ha
        simp at ha; subst ha
        have hget : tree'.get key = some default := by
          rw [get_eq_lookL e2.sorted, e3, lookL_insL]; simp
        simp only [hget]
        have hl : tree'.forEach.length ≤ k + 1 := by
          rw [e3]; exact (insL_length_le _ _ _).trans (by omega)
        have hlog' := height_log e2
        have hm' : Nat.log2 (tree'.forEach.length + 1) ≤ Nat.log2 (k + 2) := log2_mono hl
        have := within_bind (m := 0) (f := fun t => pure (NTree.nested t))
          (modifyC_within key (fun child => insertC rest v child) tree'
            (fun c hc => by
              rw [hget] at hc; simp at hc; subst hc
              exact ih nvalid_default (narrow_default k))) (fun _ _ => within_pure _)
        exact this.mono (by omega)
    cases t with
    | nested tree => exact main tree h hk
    | leaf w => exact main .nil nvalid_default (narrow_default k)

theorem deleteC_within {k : Nat} (p : List Bytes) {t : NTree V} (h : NValid t) (hk : Narrow k t) :
    (t.deleteC p).Within (p.length * (20 * Nat.log2 (k + 1))) := by
  induction p generalizing t with
  | nil => exact (within_pure _).mono (by omega)
  | cons key rest ih =>
    cases t with
    | leaf v => exact (within_pure _).mono (by omega)
    | nested tree =>
      have hw : tree.forEach.length ≤ k := hk [] tree rfl
      have hlog := height_log h.valid
      have hm := log2_mono hw
      rw [List.length_cons, Nat.succ_mul]
      simp only [deleteC]
      refine (within_bind (m := 18 * Nat.log2 (k + 1))
        (modifyC_within key (fun child => deleteC rest child) tree
          (fun c hc => ih (h.child ((get_mem h.valid).1 hc)).1 (hk.child h.valid hc))) (fun a ha => ?_)).mono (by omega)
      rw [modifyC_result] at ha
      simp only [deleteC_result] at ha
      obtain ⟨t', h1, h2, h3⟩ := modify_spec h.valid key (fun child => delete rest child)
        (fun c => (delete rest c).getD c) (by
          intro c hc
          obtain ⟨c', e, _⟩ := delete_ok rest (h.child hc).1
          simp [e])
      rw [h1] at ha
      simp at ha; subst ha
      have hl : t'.forEach.length ≤ k := by
        rw [h3]; exact (modL_length_le _ _ _).trans hw
      have hm' := log2_mono hl
      have hd : (t'.deleteC key >>= fun t => pure (NTree.nested t)).Within (18 * Nat.log2 (k + 1)) := by
        refine (within_bind (m := 0) (Rb.deleteC_within h2 key) (fun _ _ => within_pure _)).mono ?_
        omega
      have hp : (pure (NTree.nested t') : Counted (NTree V)).Within (18 * Nat.log2 (k + 1)) := (within_pure _).mono (by omega)
      cases t'.get key with
      | none => exact hp
      | some c =>
        cases c with
        | leaf v => exact hp
        | nested s =>
          cases s with
          | nil => exact hd
          | node => exact hp

end NTree

namespace Props
open NTree
variable {V : Type} [SHA] [AsHashTree V]

/-- **C82**, nested trees: whatever the history, if there are at most `L.length` leaves, `insert` hashes at most
`12·log₂(L.length + 2) + 1` nodes for each segment of the path. -/
theorem C82_nested_insert {ops : List (NOp V)} {t : NTree V} (h : nRun ops = some t) {L : List (List Bytes)}
    (hL : ∀ p v, nSpec ops p = some v → p ∈ L) (p : List Bytes) (v : V) :
    ∃ t' hashes, t.insertC p v = some (t', hashes) ∧ t.insert p v = some t' ∧
      hashes ≤ p.length * (12 * Nat.log2 (L.length + 2) + 1) := by
  obtain ⟨t', h1, hv, hg⟩ := nRun_ok ops
  rw [h] at h1; simp at h1; subst h1
  obtain ⟨t', e, _⟩ := insert_ok p v hv
  obtain ⟨k, e1, e2⟩ := Rb.counted_of_result ((NTree.insertC_result p v t).trans e)
    (NTree.insertC_within (k := L.length) p v hv (width_le hv (fun q w hq => hL q w (by rw [← hg]; exact hq))))
  exact ⟨t', k, e1, e, e2⟩

/-- **C82**, nested trees, `delete`: at most `20·log₂(L.length + 1)` nodes for each segment of the path. -/
theorem C82_nested_delete {ops : List (NOp V)} {t : NTree V} (h : nRun ops = some t) {L : List (List Bytes)}
    (hL : ∀ p v, nSpec ops p = some v → p ∈ L) (p : List Bytes) :
    ∃ t' hashes, t.deleteC p = some (t', hashes) ∧ t.delete p = some t' ∧
      hashes ≤ p.length * (20 * Nat.log2 (L.length + 1)) := by
  obtain ⟨t', h1, hv, hg⟩ := nRun_ok ops
  rw [h] at h1; simp at h1; subst h1
  obtain ⟨t', e, _⟩ := delete_ok p hv
  obtain ⟨k, e1, e2⟩ := Rb.counted_of_result ((NTree.deleteC_result p t).trans e)
    (NTree.deleteC_within (k := L.length) p hv (width_le hv (fun q w hq => hL q w (by rw [← hg]; exact hq))))
  exact ⟨t', k, e1, e, e2⟩

theorem nSpec_ctSpec (ops : List CtOp) {p : List Bytes} {v : Bytes} (h : nSpec (ops.map CtOp.toNOp) p = some v) : ctSpec ops p := by
  have key : ∀ (ops : List CtOp) (m : List Bytes → Option Bytes) (s : List Bytes → Prop),
      (∀ q w, m q = some w → s q) → ∀ q w, (ops.map CtOp.toNOp).foldl NOp.spec m q = some w → ops.foldl CtOp.spec s q := by
    intro ops
    induction ops with
    | nil => intro m s hs q w h; exact hs q w h
    | cons o ops ih =>
      intro m s hs q w h
      refine ih (NOp.spec m o.toNOp) (CtOp.spec s o) (fun q w h => ?_) q w h
      cases o with
      | insert e =>
        simp only [CtOp.toNOp, NOp.spec] at h
        simp only [CtOp.spec]
        by_cases hq : q = e.toTreePath
        · exact .inl hq
        · rw [if_neg hq] at h
          split at h
          · cases h
          · exact .inr (hs q w h)
      | delete e =>
        simp only [CtOp.toNOp, NOp.spec] at h
        split at h
        · cases h
        · next hp => exact ⟨fun hq => hp (hq ▸ List.prefix_refl _), hs q w h⟩
      | clear => simp [CtOp.toNOp, NOp.spec] at h
  exact key ops _ _ (fun q w h => by cases h) p v h

/-- **C82**, the HTTP certification tree: whatever the history, with at most `L.length` entries certified, inserting
an entry hashes at most `12·log₂(L.length + 2) + 1` nodes for each segment of its path in the tree, and deleting one at most
`20·log₂(L.length + 1)`. -/
theorem C82_http {ops : List CtOp} {t : CertTree} (h : ctRun ops = some t) {L : List (List Bytes)}
    (hL : ∀ q, ctSpec ops q → q ∈ L) (e : CertEntry) :
    (∃ t' hashes, t.insertC e = some (t', hashes) ∧ t.insert e = some t' ∧
      hashes ≤ e.toTreePath.length * (12 * Nat.log2 (L.length + 2) + 1)) ∧
    (∃ t' hashes, t.deleteC e = some (t', hashes) ∧ t.delete e = some t' ∧
      hashes ≤ e.toTreePath.length * (20 * Nat.log2 (L.length + 1))) := by
  rw [ctRun_eq, Option.map_eq_some_iff] at h
  obtain ⟨n, hn, rfl⟩ := h
  have hL' : ∀ p v, nSpec (ops.map CtOp.toNOp) p = some v → p ∈ L := fun p v hp => hL p (nSpec_ctSpec ops hp)
  obtain ⟨t1, k1, a1, a2, a3⟩ := C82_nested_insert hn hL' e.toTreePath []
  obtain ⟨t2, k2, b1, b2, b3⟩ := C82_nested_delete hn hL' e.toTreePath
  refine ⟨⟨⟨t1⟩, k1, ?_, ?_, a3⟩, ⟨⟨t2⟩, k2, ?_, ?_, b3⟩⟩
  · exact Rb.counted_bind (m := 0) a1 rfl
  · simp [CertTree.insert, a2]
  · exact Rb.counted_bind (m := 0) b1 rfl
  · simp [CertTree.delete, b2]

end Props

namespace Props
section Examples
open NTree
attribute [local instance] toySHA

/-- In the tree of `exNOps` (nested-tree example), a further leaf below a new segment, and the deletion of one. -/
example : ((nRun exNOps).bind fun t => (t.insertC [str "a", str "z"] (str "9") : Option _).map (·.2)) = some 7 ∧
    ((nRun exNOps).bind fun t => (t.deleteC [str "a", str "b"] : Option _).map (·.2)) = some 4 := by
  decide +kernel

end Examples
end Props
end Verif
