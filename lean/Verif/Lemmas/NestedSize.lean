import Verif.Spec.Size
import Verif.Lemmas.RbSize
import Verif.Lemmas.CertTree
import Verif.Model.Cbor
import Verif.Model.Header

set_option linter.unusedSimpArgs false
set_option linter.unusedSectionVars false
set_option linter.unusedTactic false

namespace Verif
open HashTree Rb NTree

section
variable {V : Type} [SHA] [AsHashTree V]

theorem Rb.depth_height (t : Rb V) : t.depth = t.height := by
  induction t with
  | nil => rfl
  | node _ l _ _ r _ ihl ihr => simp only [depth, height, ihl, ihr]

theorem Rb.Valid.depth_le {t : Rb V} (h : Valid t) : t.depth ≤ 2 * Nat.log2 (t.forEach.length + 1) := by
  obtain ⟨n, hb⟩ := h.bh
  have a := height_le hb h.ll
  have b := size_ge hb
  rw [h.black] at a
  rw [depth_height, ← size_eq_length]
  have c : n ≤ Nat.log2 (t.size + 1) := (Nat.le_log2 (by omega)).2 b
  simp at a
  omega

theorem log2_mono {a b : Nat} (h : a ≤ b) : Nat.log2 (a + 1) ≤ Nat.log2 (b + 1) := by
  rw [Nat.le_log2 (by omega)]
  exact Nat.le_trans (Nat.log2_self_le (by omega)) (by omega)

theorem nodes_pos (t : HashTree) : 1 ≤ t.nodes := by cases t <;> simp [HashTree.nodes]

theorem nodes_nestedWitness {t : Rb V} (hv : Valid t) {key : Bytes} {fo : V → Option HashTree} {w : HashTree}
    (h : t.nestedWitness key fo = some w) :
    (∃ v m, t.get key = some v ∧ fo v = some m ∧ w.nodes ≤ perLevel t.forEach.length + m.nodes) ∨
    (t.get key = none ∧ w.nodes ≤ perLevel t.forEach.length) := by
  have hd := hv.depth_le
  unfold Rb.nestedWitness at h
  cases e : t.lookupWitness key fo with
  | none => simp [e] at h
  | some o =>
    cases o with
    | none =>
      right
      simp only [e, Option.bind_eq_bind, Option.bind_some] at h
      rw [rangeWitness_ok hv.sorted (le_refl key)] at h
      obtain rfl := Option.some.inj h
      have hg := lookupWitness_none_iff hv.sorted e
      have := nodes_absent hv.sorted hg
      refine ⟨hg, ?_⟩
      unfold perLevel
      omega
    | some w' =>
      left
      simp only [e, Option.bind_eq_bind, Option.bind_some, Option.some.injEq] at h
      subst h
      obtain ⟨v, m, h1, h2, h3⟩ := nodes_lookup e
      refine ⟨v, m, (get_mem hv).2 h1, h2, ?_⟩
      unfold perLevel
      omega

theorem nodes_nwitness [LeafValue V] {k : Nat} (p : List Bytes) {t : NTree V} (h : NValid t)
    (hk : ∀ q s, sub q t = some (.nested s) → s.forEach.length ≤ k) {w : HashTree} (hw : NTree.witness p t = some w) :
    (∃ s, sub p t = some s ∧ w.nodes ≤ p.length * perLevel k + (asHashTree s).nodes) ∨
    (sub p t = none ∧ w.nodes ≤ p.length * perLevel k) := by
  induction p generalizing t w with
  | nil =>
    simp only [NTree.witness, Option.some.injEq] at hw
    subst hw
    exact .inl ⟨t, rfl, by simp; exact le_refl _⟩
  | cons key rest ih =>
    have e : (key :: rest).length * perLevel k = rest.length * perLevel k + perLevel k := by
      rw [List.length_cons, Nat.add_mul, Nat.one_mul]
    rw [e]
    cases t with
    | leaf v =>
      right
      simp only [NTree.witness, Option.some.injEq] at hw
      obtain ⟨b, hb⟩ := LeafValue.isLeaf v
      rw [hb] at hw
      subst hw
      refine ⟨rfl, ?_⟩
      simp only [HashTree.nodes]
      unfold perLevel
      omega
    | nested s =>
      have hv := h.valid
      have hs : perLevel s.forEach.length ≤ perLevel k := by
        have := log2_mono (hk [] s rfl)
        unfold perLevel
        omega
      simp only [NTree.witness] at hw
      rw [sub_cons hv]
      rcases nodes_nestedWitness hv hw with ⟨c, m, h1, h2, h3⟩ | ⟨h1, h2⟩
      · rw [h1]
        have hc := (h.child ((get_mem hv).1 h1)).1
        have hk' : ∀ q s', sub q c = some (.nested s') → s'.forEach.length ≤ k := by
          intro q s' hq
          apply hk (key :: q) s'
          rw [sub_cons hv, h1]
          exact hq
        rcases ih hc hk' h2 with ⟨s', g1, g2⟩ | ⟨g1, g2⟩
        · exact .inl ⟨s', g1, by omega⟩
        · exact .inr ⟨g1, by omega⟩
      · rw [h1]
        exact .inr ⟨rfl, by omega⟩

/-- a level has no more children than there are stored paths -/
theorem width_le {t : NTree V} (h : NValid t) {L : List (List Bytes)} (hL : ∀ p v, get p t = some v → p ∈ L)
    (q : List Bytes) (s : Rb (NTree V)) (hs : sub q t = some (.nested s)) : s.forEach.length ≤ L.length := by
  have hv := (sub_get (q := []) h hs).2.1
  have hsub : s.forEach.map Prod.fst ⊆ L.filterMap (fun p => p[q.length]?) := by
    intro x hx
    obtain ⟨⟨x', c⟩, hm, rfl⟩ := List.mem_map.1 hx
    obtain ⟨hc, hne⟩ := hv.child hm
    obtain ⟨r, v, hr⟩ := exists_leaf hc hne
    have hg : get (q ++ x' :: r) t = some v := by
      rw [(sub_get h hs).1]
      simp only [NTree.get]
      rw [(get_mem hv.valid).2 hm]
      exact hr
    rw [List.mem_filterMap]
    exact ⟨_, hL _ _ hg, by simp⟩
  have hnd : (s.forEach.map Prod.fst).Nodup := by
    have := hv.valid.sorted
    unfold Rb.Sorted SortedL at this
    exact (List.pairwise_map.2 (this.imp (fun h => h))).imp (fun h => ne_of_lt h)
  have := (List.subperm_of_subset hnd hsub).length_le
  rw [List.length_map] at this
  exact this.trans (List.length_filterMap_le _ _)

end

theorem nodes_merge : ∀ {a b m : HashTree}, mergeHashTrees a b = some m → m.nodes ≤ a.nodes + b.nodes := by
  intro a
  induction a with
  | empty =>
    intro b m h
    cases b <;> simp only [mergeHashTrees, Option.some.injEq] at h <;> subst h <;> simp [HashTree.nodes]
  | leaf x =>
    intro b m h
    cases b <;> simp only [mergeHashTrees] at h
    all_goals first
      | (simp at h; done)
      | (simp only [Option.some.injEq] at h; subst h; simp [HashTree.nodes]; done)
      | (split at h <;> simp at h; subst h; simp [HashTree.nodes]; done)
  | pruned x =>
    intro b m h
    cases b <;> simp only [mergeHashTrees] at h
    all_goals first
      | (simp only [Option.some.injEq] at h; subst h; simp [HashTree.nodes]; done)
      | (split at h <;> simp at h; subst h; simp [HashTree.nodes]; done)
  | labeled l t ih =>
    intro b m h
    cases b <;> simp only [mergeHashTrees] at h
    all_goals first
      | (simp at h; done)
      | (simp only [Option.some.injEq] at h; subst h; simp [HashTree.nodes]; done)
      | skip
    split at h
    · cases e : mergeHashTrees t _ with
      | none => rw [e] at h; simp at h
      | some x =>
        rw [e] at h
        simp at h
        subst h
        have := ih e
        simp only [HashTree.nodes]
        omega
    · simp at h
  | fork l r ihl ihr =>
    intro b m h
    cases b <;> simp only [mergeHashTrees] at h
    all_goals first
      | (simp at h; done)
      | (simp only [Option.some.injEq] at h; subst h; simp [HashTree.nodes]; done)
      | skip
    rename_i l' r'
    cases e1 : mergeHashTrees l l' with
    | none => rw [e1] at h; simp at h
    | some x =>
      cases e2 : mergeHashTrees r r' with
      | none => rw [e1, e2] at h; simp at h
      | some y =>
        rw [e1, e2] at h
        simp at h
        subst h
        have a := ihl e1
        have b := ihr e2
        simp only [HashTree.nodes]
        omega

/-! ### bytes -/

theorem encHead_len (major n : Nat) : (encHead major n).length ≤ 9 := by
  unfold encHead
  split
  · simp
  split
  · simp [beBytes]
  split
  · simp [beBytes]
  split
  · simp [beBytes]
  · simp [beBytes]

theorem encHead_small {major n : Nat} (h : n ≤ 23) : (encHead major n).length = 1 := by
  unfold encHead; rw [if_pos h]; rfl

theorem encBytes_len (b : Bytes) : (encBytes b).length ≤ 9 + b.length := by
  have := encHead_len 2 b.length
  unfold encBytes
  rw [List.length_append]; omega

theorem encTree_len {m : Nat} (hm : 32 ≤ m) : ∀ {t : HashTree}, t.Within m → (encTree t).length ≤ t.nodes * (m + 11) := by
  intro t
  induction t with
  | empty => intro _; simp only [encTree, HashTree.nodes, List.length_append, encHead_small (by decide : 1 ≤ 23), encHead_small (by decide : 0 ≤ 23)]; omega
  | leaf b =>
    intro h
    have := encBytes_len b
    simp only [HashTree.Within] at h
    simp only [encTree, HashTree.nodes, List.length_append, encHead_small (by decide : 2 ≤ 23), encHead_small (by decide : 3 ≤ 23)]
    omega
  | pruned x =>
    intro _
    have := encBytes_len x.1
    have hx : x.1.length = 32 := x.2
    simp only [encTree, HashTree.nodes, List.length_append, encHead_small (by decide : 2 ≤ 23), encHead_small (by decide : 4 ≤ 23)]
    omega
  | labeled l t ih =>
    rintro ⟨h1, h2⟩
    have a := encBytes_len l
    have b := ih h2
    simp only [encTree, HashTree.nodes, List.length_append, encHead_small (by decide : 2 ≤ 23), encHead_small (by decide : 3 ≤ 23), Nat.add_mul, Nat.one_mul]
    omega
  | fork l r ihl ihr =>
    rintro ⟨h1, h2⟩
    have a := ihl h1
    have b := ihr h2
    simp only [encTree, HashTree.nodes, List.length_append, encHead_small (by decide : 1 ≤ 23), encHead_small (by decide : 3 ≤ 23), Nat.add_mul, Nat.one_mul]
    omega

theorem prunes_within [SHA] {m : Nat} {w t : HashTree} (h : Prunes w t) : t.Within m → w.Within m := by
  induction h with
  | prune t => intro _; trivial
  | empty => exact id
  | leaf b => exact id
  | labeled _ ih => rintro ⟨a, b⟩; exact ⟨a, ih b⟩
  | fork _ _ ih1 ih2 => rintro ⟨a, b⟩; exact ⟨ih1 a, ih2 b⟩

theorem b64_len : ∀ b : Bytes, (b64Encode true b).length = 4 * ((b.length + 2) / 3)
  | [] => rfl
  | [_] => by simp [b64Encode]
  | [_, _] => by simp [b64Encode]
  | a :: b :: c :: rest => by
    rw [b64Encode]
    simp only [List.length_cons, b64_len rest]
    omega

end Verif
