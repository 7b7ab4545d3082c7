import Verif.Lemmas.NestedSize
import Verif.Lemmas.RangeSize

set_option linter.unusedSimpArgs false
set_option linter.unusedSectionVars false

/-! # The size of a whole nested tree -/

namespace Verif
open Rb NTree

/-- the paths of the list that begin with a label, without it -/
def afterKey (k : Bytes) (L : List (List Bytes)) : List (List Bytes) :=
  L.filterMap (fun q => match q with
    | [] => none
    | x :: r => if x = k then some r else none)

theorem mem_afterKey {k : Bytes} {L : List (List Bytes)} {r : List Bytes} : r ∈ afterKey k L ↔ k :: r ∈ L := by
  unfold afterKey
  rw [List.mem_filterMap]
  constructor
  · rintro ⟨q, hq, h⟩
    cases q with
    | nil => simp at h
    | cons x y =>
      simp only at h
      split at h
      · rename_i hx; simp at h; subst hx h; exact hq
      · simp at h
  · intro h
    exact ⟨_, h, by simp⟩

/-- the total length of the paths of the list that begin with a label -/
def keyed (k : Bytes) (L : List (List Bytes)) : Nat :=
  (L.map (fun q => if q.head? = some k then q.length else 0)).sum

theorem keyed_afterKey (k : Bytes) (L : List (List Bytes)) :
    keyed k L = ((afterKey k L).map List.length).sum + (afterKey k L).length := by
  induction L with
  | nil => rfl
  | cons q L ih =>
    unfold keyed afterKey at *
    cases q with
    | nil => simpa using ih
    | cons x r =>
      by_cases h : x = k
      · subst h
        simp at ih ⊢
        omega
      · simpa [h] using ih

theorem keyed_sum {ks : List Bytes} (hn : ks.Nodup) (L : List (List Bytes)) :
    (ks.map (fun k => keyed k L)).sum ≤ (L.map List.length).sum := by
  induction L with
  | nil => simp [keyed]
  | cons q L ih =>
    have one : ∀ {ks : List Bytes}, ks.Nodup → (ks.map (fun k => if q.head? = some k then q.length else 0)).sum ≤ q.length := by
      intro ks
      induction ks with
      | nil => simp
      | cons k ks ih =>
        intro hn
        rw [List.nodup_cons] at hn
        simp only [List.map_cons, List.sum_cons]
        by_cases h : q.head? = some k
        · have : (ks.map (fun k => if q.head? = some k then q.length else 0)).sum = 0 := by
            have : ks.map (fun k => if q.head? = some k then q.length else 0) = ks.map (fun _ => 0) := by
              apply List.map_congr_left
              intro k' hk'
              rw [if_neg]
              intro h'
              rw [h] at h'
              simp only [Option.some.injEq] at h'
              exact hn.1 (h' ▸ hk')
            rw [this]; simp
          rw [if_pos h, this]; omega
        · rw [if_neg h]
          have := ih hn.2
          omega
    have e : (ks.map (fun k => keyed k (q :: L))).sum =
        (ks.map (fun k => if q.head? = some k then q.length else 0)).sum + (ks.map (fun k => keyed k L)).sum := by
      clear ih one hn
      induction ks with
      | nil => simp
      | cons k ks ih =>
        simp only [List.map_cons, List.sum_cons, ih]
        have : keyed k (q :: L) = (if q.head? = some k then q.length else 0) + keyed k L := by simp [keyed]
        omega
    have := one hn
    simp only [List.map_cons, List.sum_cons]
    omega

theorem nodes_full {V : Type} [SHA] [AsHashTree V] [LeafValue V] {s : NTree V} (h : NValid s) {L : List (List Bytes)}
    (hL : ∀ q v, NTree.get q s = some v → q ∈ L) : (asHashTree s).nodes ≤ 1 + 5 * (L.map List.length).sum := by
  induction h generalizing L with
  | leaf v =>
    obtain ⟨b, hb⟩ := LeafValue.isLeaf v
    rw [asHashTree_leaf, hb]
    simp [HashTree.nodes]
  | nested t hv h1 h2 ih =>
    rw [asHashTree_nested]
    have hnd : (t.forEach.map Prod.fst).Nodup := by
      have := hv.sorted
      unfold Rb.Sorted SortedL at this
      exact (List.pairwise_map.2 (this.imp (fun h => h))).imp (fun h => ne_of_lt h)
    have key : (Rb.asHashTreeRb t).nodes ≤ _ := Rb.size_full (f := dataTree) (wt := fun k _ => 5 * keyed k L) (t := t) ?_
    · have e : weight (fun k (_ : NTree V) => 5 * keyed k L) t = 5 * ((t.forEach.map Prod.fst).map (fun k => keyed k L)).sum := by
        unfold weight
        rw [List.map_map]
        clear key ih h1 h2 hv hnd hL
        induction t.forEach with
        | nil => rfl
        | cons e es ih => simp only [List.map_cons, List.sum_cons, Nat.mul_add, ih, Function.comp]
      rw [e] at key
      have := keyed_sum hnd L
      omega
    · rintro ⟨k, c⟩ hm
      have hsub : ∀ q v, NTree.get q c = some v → q ∈ afterKey k L := by
        intro q v hq
        rw [mem_afterKey]
        apply hL _ v
        simp only [NTree.get]
        rw [(get_mem hv).2 hm]
        exact hq
      have g := ih k c hm hsub
      obtain ⟨q, v, hq⟩ := exists_leaf (h1 k c hm) (h2 k c hm)
      have hpos : 1 ≤ (afterKey k L).length := List.length_pos_of_mem (hsub q v hq)
      have := keyed_afterKey k L
      simp only [dataTree, HashTree.nodes]
      omega

/-- a witness for a path: a level per label, and the tree below the path -/
theorem nodes_path {V : Type} [SHA] [AsHashTree V] [LeafValue V] {t : NTree V} (h : NValid t) {L B : List (List Bytes)}
    (hL : ∀ q v, NTree.get q t = some v → q ∈ L) {p : List Bytes} (hB : ∀ q v, NTree.get (p ++ q) t = some v → q ∈ B)
    {w : HashTree} (hw : NTree.witness p t = some w) :
    w.nodes ≤ p.length * perLevel L.length + 1 + 5 * (B.map List.length).sum := by
  rcases nodes_nwitness p h (width_le h hL) hw with ⟨s, hs, hle⟩ | ⟨-, hle⟩
  · have := nodes_full (sub_get (q := []) h hs).2.1 (L := B) (fun q v hq => hB q v (by rw [(sub_get (q := q) h hs).1, hq]))
    omega
  · omega

end Verif
