import Verif.Spec.Nested
import Verif.Lemmas.RbComplete

set_option linter.unusedSimpArgs false
set_option linter.unusedSectionVars false

namespace Verif
namespace NTree
open HashTree Rb
variable {V : Type} [SHA] [AsHashTree V]

theorem rbHashTree_eq (t : Rb (NTree V)) : rbHashTree t = t.asHashTreeRb := by
  induction t with
  | nil => simp [rbHashTree, asHashTreeRb, fullWitnessTree]
  | node c l k v r h ihl ihr =>
    rw [rbHashTree, asHashTree_node, ihl, ihr]; rfl

theorem asHashTree_nested (t : Rb (NTree V)) : asHashTree (NTree.nested t) = t.asHashTreeRb := by
  show nHashTree (.nested t) = _
  rw [nHashTree, rbHashTree_eq]

theorem asHashTree_leaf (v : V) : asHashTree (NTree.leaf v) = asHashTree v := by
  show nHashTree (.leaf v) = _
  rw [nHashTree]

theorem rootHash_nested (t : Rb (NTree V)) : rootHash (NTree.nested t) = t.rootHashRb := by
  cases t <;> rfl

/-- reachable nested trees -/
inductive NValid : NTree V → Prop
  | leaf (v : V) : NValid (.leaf v)
  | nested (t : Rb (NTree V)) : Valid t → (∀ k c, (k, c) ∈ t.forEach → NValid c) →
      (∀ k c, (k, c) ∈ t.forEach → c ≠ .nested .nil) → NValid (.nested t)

theorem nvalid_default : NValid (default : NTree V) :=
  .nested _ valid_nil (by simp [forEach]) (by simp [forEach])

theorem NValid.valid {t : Rb (NTree V)} (h : NValid (.nested t)) : Valid t := by cases h; assumption
theorem NValid.child {t : Rb (NTree V)} (h : NValid (.nested t)) {k : Bytes} {c : NTree V}
    (hm : (k, c) ∈ t.forEach) : NValid c ∧ c ≠ .nested .nil := by
  cases h with
  | nested _ _ h1 h2 => exact ⟨h1 k c hm, h2 k c hm⟩

theorem get_mem {W : Type} [AsHashTree W] {t : Rb W} (hv : Valid t) {k : Bytes} {c : W} :
    t.get k = some c ↔ (k, c) ∈ t.forEach := by
  rw [get_eq_lookL hv.sorted]
  exact ⟨lookL_mem, lookL_of_mem hv.sorted⟩

/-! ### hashes -/

theorem root_eq_digest [LawfulAsHashTree V] {t : NTree V} (h : NValid t) :
    rootHash t = (asHashTree t).digest := by
  induction h with
  | leaf v => rw [asHashTree_leaf]; exact LawfulAsHashTree.root v
  | nested t hv _ _ ih =>
    rw [asHashTree_nested, rootHash_nested]
    exact (digest_asHashTree hv.hash (fun k v hm => ih k v hm)).symm

theorem wf_tree [LawfulAsHashTree V] {t : NTree V} (h : NValid t) : WF true (asHashTree t) := by
  induction h with
  | leaf v => rw [asHashTree_leaf]; exact LawfulAsHashTree.wf v
  | nested t hv _ _ ih =>
    rw [asHashTree_nested]
    exact (wf_asHashTree hv.sorted (fun k v hm => ih k v hm)).1

theorem vok [LawfulAsHashTree V] {t : Rb (NTree V)} (h : NValid (.nested t)) : VOK t :=
  fun _ _ hm => root_eq_digest (h.child hm).1

theorem witness_prunes [LawfulAsHashTree V] (p : List Bytes) {t : NTree V} (h : NValid t) :
    ∃ w, witness p t = some w ∧ Prunes w (asHashTree t) := by
  induction p generalizing t with
  | nil => exact ⟨_, rfl, Prunes.refl _⟩
  | cons key rest ih =>
    cases t with
    | leaf v => exact ⟨_, rfl, by rw [asHashTree_leaf]; exact Prunes.refl _⟩
    | nested t =>
      rw [asHashTree_nested]
      refine nestedWitness_prunes h.valid.hash (vok h) h.valid.sorted ?_ ?_
      · intro c hc
        obtain ⟨w, hw, _⟩ := ih (h.child hc).1
        simp [hw]
      · intro c w hc hw
        obtain ⟨w', hw', hp⟩ := ih (h.child hc).1
        rw [hw'] at hw; simp at hw; subst hw; exact hp

theorem lookupSubtree_cons (k : Bytes) (p : List Bytes) (t : HashTree) :
    t.lookupSubtree (k :: p) = match t.lookupSubtree [k] with
      | .found n => n.lookupSubtree p
      | .absent => .absent
      | .unknown => .unknown := by
  simp only [lookupSubtree]
  cases t.lookupLabel k <;> rfl

/-- `sub` in terms of `get` -/
theorem sub_cons {t : Rb (NTree V)} (hv : Valid t) (key : Bytes) (rest : List Bytes) :
    sub (key :: rest) (.nested t) = match t.get key with
      | none => none
      | some c => sub rest c := by
  simp only [sub]
  cases hf : t.forEach.find? (fun e => e.1 = key) with
  | none =>
    have : t.get key = none := by
      rw [get_eq_lookL hv.sorted, lookL_none]
      intro a ha he
      have := List.find?_eq_none.1 hf a ha
      simp [he] at this
    rw [this]
  | some e =>
    obtain ⟨k, c⟩ := e
    have h1 := List.mem_of_find?_eq_some hf
    have h2 := List.find?_some hf
    simp at h2; subst h2
    rw [(get_mem hv).2 h1]

theorem witness_decides [LeafValue V] (p : List Bytes) {t : NTree V} (h : NValid t) {w : HashTree}
    (hw : witness p t = some w) :
    w.lookupSubtree p = match sub p t with
      | some s => .found (asHashTree s)
      | none => .absent := by
  induction p generalizing t w with
  | nil => simp [witness] at hw; subst hw; rfl
  | cons key rest ih =>
    cases t with
    | leaf v =>
      simp [witness] at hw; subst hw
      obtain ⟨b, hb⟩ := LeafValue.isLeaf v
      rw [hb]; rfl
    | nested t =>
      simp only [witness] at hw
      have hd := nestedWitness_decides h.valid.sorted hw
      rw [lookupSubtree_cons, hd, sub_cons h.valid]
      cases hg : t.get key with
      | none => rfl
      | some c =>
        have hc := (h.child ((get_mem h.valid).1 hg)).1
        obtain ⟨w', hw', _⟩ := witness_prunes rest hc
        simp only
        rw [hw']
        exact ih hc hw'

/-! ### operations -/

theorem lookL_map_mod {W : Type} [AsHashTree W] {xs : List (Bytes × W)} {key : Bytes} {g : W → W} (k : Bytes) :
    lookL k (modL key g xs) = if k = key then (lookL k xs).map g else lookL k xs := lookL_modL

theorem mem_modL {W : Type} {xs : List (Bytes × W)} {key k : Bytes} {g : W → W} {c : W} (h : (k, c) ∈ modL key g xs) :
    (k = key ∧ ∃ c0, (k, c0) ∈ xs ∧ c = g c0) ∨ (k ≠ key ∧ (k, c) ∈ xs) := by
  simp only [modL, List.mem_map] at h
  obtain ⟨⟨k0, c0⟩, hm, he⟩ := h
  by_cases hk : k0 = key
  · simp [hk] at he; obtain ⟨rfl, rfl⟩ := he; subst hk
    exact .inl ⟨rfl, c0, hm, rfl⟩
  · simp [hk] at he; obtain ⟨rfl, rfl⟩ := he
    exact .inr ⟨hk, hm⟩

/-- what one call leaves behind at `q` -/
def insSpec (p : List Bytes) (v : V) (m : List Bytes → Option V) (q : List Bytes) : Option V :=
  if q = p then some v else if q <+: p ∨ p <+: q then none else m q

theorem get_nested (k : Bytes) (q : List Bytes) (t : Rb (NTree V)) :
    get (k :: q) (.nested t) = (t.get k).bind (get q) := by
  simp only [get]; cases t.get k <;> rfl

/-- the common tail of `insert`: modify an existing child -/
theorem insert_modify {tree : Rb (NTree V)} (hval : Valid tree) (key : Bytes) (rest : List Bytes) (v : V)
    (hch : ∀ k c, (k, c) ∈ tree.forEach → NValid c)
    (hne : ∀ k c, (k, c) ∈ tree.forEach → k ≠ key → c ≠ .nested .nil)
    (hk : ∃ c, tree.get key = some c)
    (ih : ∀ c : NTree V, NValid c → ∃ c', insert rest v c = some c' ∧ NValid c' ∧ c' ≠ .nested .nil ∧
      ∀ q, get q c' = insSpec rest v (fun q => get q c) q) :
    ∃ t', (tree.modify key (fun child => insert rest v child)) = some t' ∧ NValid (.nested t') ∧ t' ≠ .nil ∧
      ∀ q, get q (.nested t') = insSpec (key :: rest) v (fun q => get q (.nested tree)) q := by
  obtain ⟨t', h1, h2, h3⟩ := modify_spec hval key (fun child => insert rest v child)
    (fun c => (insert rest v c).getD c) (by
      intro c hc
      obtain ⟨c', e, _⟩ := ih c (hch _ _ hc)
      simp [e])
  have hget : ∀ k, t'.get k = if k = key then (tree.get k).map (fun c => (insert rest v c).getD c) else tree.get k := by
    intro k
    rw [get_eq_lookL h2.sorted, h3, lookL_map_mod, get_eq_lookL hval.sorted]
  obtain ⟨c, hc⟩ := hk
  obtain ⟨c', e, n1, n2, n3⟩ := ih c (hch _ _ ((get_mem hval).1 hc))
  have hgk : t'.get key = some c' := by rw [hget]; simp [hc, e]
  refine ⟨t', h1, .nested t' h2 ?_ ?_, ?_, ?_⟩
  · intro k d hd
    rw [h3] at hd
    rcases mem_modL hd with ⟨rfl, c0, hc0, rfl⟩ | ⟨hk, hm⟩
    · obtain ⟨c'', e'', m1, _⟩ := ih c0 (hch _ _ hc0)
      simp [e'', m1]
    · exact hch k d hm
  · intro k d hd
    rw [h3] at hd
    rcases mem_modL hd with ⟨rfl, c0, hc0, rfl⟩ | ⟨hk, hm⟩
    · obtain ⟨c'', e'', _, m2, _⟩ := ih c0 (hch _ _ hc0)
      simp [e'', m2]
    · exact hne k d hm hk
  · rintro rfl; simp [Rb.get] at hgk
  · intro q
    cases q with
    | nil => simp [get, insSpec]
    | cons k q =>
      rw [get_nested, hget]
      by_cases hk : k = key
      · subst hk
        simp only [if_true, hc, Option.map_some, e, Option.getD_some, Option.bind_some, n3]
        simp only [insSpec, List.cons.injEq, true_and, List.cons_prefix_cons, get_nested, hc, Option.bind_some]
      · simp only [hk, if_false, insSpec, List.cons.injEq, false_and, List.cons_prefix_cons, get_nested, or_false]
        simp [Ne.symm (Ne.intro hk), hk, eq_comm]

theorem insert_ok (p : List Bytes) (v : V) {t : NTree V} (h : NValid t) :
    ∃ t', insert p v t = some t' ∧ NValid t' ∧ t' ≠ .nested .nil ∧
      ∀ q, get q t' = insSpec p v (fun q => get q t) q := by
  induction p generalizing t with
  | nil =>
    refine ⟨.leaf v, rfl, .leaf v, by simp, fun q => ?_⟩
    cases q <;> simp [get, insSpec]
  | cons key rest ih =>
    -- reduce a leaf to the empty nested tree
    have main : ∀ tree : Rb (NTree V), NValid (.nested tree) →
        ∃ t', insert (key :: rest) v (.nested tree) = some t' ∧ NValid t' ∧ t' ≠ .nested .nil ∧
          ∀ q, get q t' = insSpec (key :: rest) v (fun q => get q (.nested tree)) q := by
      intro tree hn
      simp only [insert]
      cases hg : tree.get key with
      | some c =>
        obtain ⟨t', h1, h2, h3, h4⟩ := insert_modify hn.valid key rest v (fun k c hm => (hn.child hm).1)
          (fun k c hm _ => (hn.child hm).2) ⟨c, hg⟩ (fun c hc => ih hc)
        exact ⟨.nested t', by simp [h1], h2, by simp [h3], h4⟩
      | none =>
        obtain ⟨tree', e1, e2, e3⟩ := insert_spec hn.valid key (default : NTree V)
        have hget : ∀ k, tree'.get k = if k = key then some default else tree.get k := by
          intro k
          rw [get_eq_lookL e2.sorted, e3, lookL_insL, get_eq_lookL hn.valid.sorted]
        have hk : tree'.get key = some default := by rw [hget]; simp
        have hmem : ∀ k c, (k, c) ∈ tree'.forEach → (k = key ∧ c = default) ∨ (k, c) ∈ tree.forEach := by
          intro k c hm
          rw [← get_mem e2, hget] at hm
          by_cases hkk : k = key
          · simp [hkk] at hm; exact .inl ⟨hkk, hm.symm⟩
          · simp [hkk] at hm; exact .inr ((get_mem hn.valid).1 hm)
        obtain ⟨t', h1, h2, h3, h4⟩ := insert_modify e2 key rest v
          (fun k c hm => by
            rcases hmem k c hm with ⟨_, rfl⟩ | hm
            · exact nvalid_default
            · exact (hn.child hm).1)
          (fun k c hm hkk => by
            rcases hmem k c hm with ⟨rfl, _⟩ | hm
            · exact absurd rfl hkk
            · exact (hn.child hm).2) ⟨default, hk⟩ (fun c hc => ih hc)
        refine ⟨.nested t', by simp [e1, hk, h1], h2, by simp [h3], fun q => ?_⟩
        rw [h4]
        simp only [insSpec]
        split
        · rfl
        · split
          · rfl
          · next hq1 hq2 =>
            cases q with
            | nil => simp at hq2
            | cons k q =>
              rw [get_nested, get_nested, hget]
              by_cases hkk : k = key
              · subst hkk
                simp only [if_true, hg, Option.bind_some, Option.bind_none]
                cases q <;> simp [get, default, Rb.get]
              · simp [hkk]
    cases t with
    | nested tree => exact main tree h
    | leaf w =>
      obtain ⟨t', h1, h2, h3, h4⟩ := main .nil nvalid_default
      refine ⟨t', h1, h2, h3, fun q => ?_⟩
      rw [h4]
      simp only [insSpec]
      split
      · rfl
      · split
        · rfl
        · next hq1 hq2 =>
          cases q with
          | nil => simp at hq2
          | cons k q => simp [get, Rb.get]

theorem delete_ok (p : List Bytes) {t : NTree V} (h : NValid t) :
    ∃ t', delete p t = some t' ∧ NValid t' ∧
      ∀ q, get q t' = if p <+: q then none else get q t := by
  induction p generalizing t with
  | nil =>
    refine ⟨_, rfl, nvalid_default, fun q => ?_⟩
    cases q <;> simp [get, clear, default, Rb.get]
  | cons key rest ih =>
    cases t with
    | leaf v =>
      refine ⟨_, rfl, h, fun q => ?_⟩
      cases q <;> simp [get]
    | nested tree =>
      have hval := h.valid
      obtain ⟨t', h1, h2, h3⟩ := modify_spec hval key (fun child => delete rest child)
        (fun c => (delete rest c).getD c) (by
          intro c hc
          obtain ⟨c', e, _⟩ := ih (h.child hc).1
          simp [e])
      have hget : ∀ k, t'.get k = if k = key then (tree.get k).map (fun c => (delete rest c).getD c) else tree.get k := by
        intro k
        rw [get_eq_lookL h2.sorted, h3, lookL_map_mod, get_eq_lookL hval.sorted]
      have hch : ∀ k d, (k, d) ∈ t'.forEach → NValid d := by
        intro k d hd
        rw [h3] at hd
        rcases mem_modL hd with ⟨rfl, c0, hc0, rfl⟩ | ⟨hk, hm⟩
        · obtain ⟨c'', e'', m1, _⟩ := ih (h.child hc0).1
          simp [e'', m1]
        · exact (h.child hm).1
      have hne : ∀ k d, (k, d) ∈ t'.forEach → k ≠ key → d ≠ .nested .nil := by
        intro k d hd hk
        rw [h3] at hd
        rcases mem_modL hd with ⟨rfl, c0, hc0, rfl⟩ | ⟨_, hm⟩
        · exact absurd rfl hk
        · exact (h.child hm).2
      have hspec : ∀ k q, (t'.get k).bind (get q) = if key = k ∧ rest <+: q then none else (tree.get k).bind (get q) := by
        intro k q
        rw [hget]
        by_cases hk : k = key
        · subst hk
          simp only [if_true, true_and]
          cases hg : tree.get k with
          | none => simp
          | some c =>
            obtain ⟨c', e, _, n3⟩ := ih (h.child ((get_mem hval).1 hg)).1
            simp [e, n3]
        · simp [hk, Ne.symm (Ne.intro hk), eq_comm]
      simp only [delete, h1]
      by_cases hnil : t'.get key = some (.nested .nil)
      · obtain ⟨t2, d1, d2, d3⟩ := delete_spec h2 key
        have hget2 : ∀ k, t2.get k = if k = key then none else t'.get k := by
          intro k
          rw [get_eq_lookL d2.sorted, d3, lookL_delL, get_eq_lookL h2.sorted]
        refine ⟨.nested t2, by simp [hnil, d1], .nested t2 d2 ?_ ?_, fun q => ?_⟩
        · intro k d hd
          rw [← get_mem d2, hget2] at hd
          by_cases hk : k = key
          · simp [hk] at hd
          · simp [hk] at hd; exact hch k d ((get_mem h2).1 hd)
        · intro k d hd
          rw [← get_mem d2, hget2] at hd
          by_cases hk : k = key
          · simp [hk] at hd
          · simp [hk] at hd; exact hne k d ((get_mem h2).1 hd) hk
        · cases q with
          | nil => simp [get]
          | cons k q =>
            rw [get_nested, get_nested, hget2]
            have := hspec k q
            simp only [List.cons_prefix_cons]
            rw [← this]
            by_cases hk : k = key
            · subst hk
              rw [hnil]
              cases q <;> simp [get, Rb.get]
            · simp [hk]
      · have e : (match t'.get key with
          | some (.nested .nil) => (t'.delete key).map NTree.nested
          | _ => some (.nested t')) = some (.nested t') := by
          split
          · next hx => exact absurd hx hnil
          · rfl
        refine ⟨.nested t', e, .nested t' h2 hch ?_, fun q => ?_⟩
        · intro k d hd
          by_cases hk : k = key
          · subst hk
            intro hd'; subst hd'
            exact hnil ((get_mem h2).2 hd)
          · exact hne k d hd hk
        · cases q with
          | nil => simp [get]
          | cons k q =>
            rw [get_nested, get_nested, hspec k q]
            simp only [List.cons_prefix_cons]

theorem op_ok {t : NTree V} (h : NValid t) (o : NOp V) :
    ∃ t', o.run t = some t' ∧ NValid t' ∧ ∀ q, get q t' = o.spec (fun q => get q t) q := by
  cases o with
  | insert p v =>
    obtain ⟨t', h1, h2, _, h3⟩ := insert_ok p v h
    exact ⟨t', h1, h2, h3⟩
  | delete p => exact delete_ok p h
  | clear =>
    refine ⟨_, rfl, nvalid_default, fun q => ?_⟩
    cases q <;> simp [get, clear, default, Rb.get, NOp.spec]

theorem run_ok {t : NTree V} (h : NValid t) (ops : List (NOp V)) :
    ∃ t', ops.foldlM (fun t o => o.run t) t = some t' ∧ NValid t' ∧
      ∀ q, get q t' = ops.foldl NOp.spec (fun q => get q t) q := by
  induction ops generalizing t with
  | nil => exact ⟨t, rfl, h, fun _ => rfl⟩
  | cons o ops ih =>
    obtain ⟨t1, h1, h2, h3⟩ := op_ok h o
    obtain ⟨t2, g1, g2, g3⟩ := ih h2
    refine ⟨t2, by simp [List.foldlM, h1, g1], g2, fun k => ?_⟩
    rw [g3, List.foldl_cons]
    have e : (fun q => get q t1) = NOp.spec (fun q => get q t) o := funext h3
    rw [e]

theorem nRun_ok (ops : List (NOp V)) : ∃ t : NTree V, nRun ops = some t ∧ NValid t ∧ ∀ q, get q t = nSpec ops q := by
  obtain ⟨t, h1, h2, h3⟩ := run_ok (nvalid_default (V := V)) ops
  refine ⟨t, h1, h2, fun q => ?_⟩
  rw [h3]
  have : (fun q => get q (default : NTree V)) = fun _ => none := by
    funext q; cases q <;> simp [get, default, Rb.get]
  rw [this]; rfl

theorem nRun_valid {ops : List (NOp V)} {t : NTree V} (h : nRun ops = some t) : NValid t := by
  obtain ⟨t', h1, h2, _⟩ := nRun_ok ops
  rw [h1] at h; simp at h; subst h; exact h2

/-- a valid tree that is not the empty nested tree has a leaf somewhere -/
theorem exists_leaf {t : NTree V} (h : NValid t) (hne : t ≠ .nested .nil) : ∃ q v, get q t = some v := by
  induction h with
  | leaf v => exact ⟨[], v, rfl⟩
  | nested t hv h1 h2 ih =>
    cases t with
    | nil => exact absurd rfl hne
    | node c l k x r hh =>
      have hm : (k, x) ∈ (Rb.node c l k x r hh).forEach := by simp [forEach]
      obtain ⟨q, v, hq⟩ := ih k x hm (h2 k x hm)
      exact ⟨k :: q, v, by rw [get_nested, (get_mem hv).2 hm]; exact hq⟩

theorem sub_get {p q : List Bytes} {t s : NTree V} (h : NValid t) (hs : sub p t = some s) :
    get (p ++ q) t = get q s ∧ NValid s ∧ (p ≠ [] → s ≠ .nested .nil) := by
  induction p generalizing t with
  | nil => simp [sub] at hs; subst hs; exact ⟨rfl, h, fun h => absurd rfl h⟩
  | cons key rest ih =>
    cases t with
    | leaf v => simp [sub] at hs
    | nested t =>
      rw [sub_cons h.valid] at hs
      cases hg : t.get key with
      | none => rw [hg] at hs; simp at hs
      | some c =>
        rw [hg] at hs
        have hc := h.child ((get_mem h.valid).1 hg)
        obtain ⟨i1, i2, i3⟩ := ih hc.1 hs
        refine ⟨by rw [List.cons_append, get_nested, hg]; exact i1, i2, fun _ => ?_⟩
        cases rest with
        | nil => simp [sub] at hs; subst hs; exact hc.2
        | cons a b => exact i3 (by simp)

theorem containsPath_iff (p : List Bytes) {t : NTree V} (h : NValid t) :
    containsPath p t = (sub p t).isSome := by
  induction p generalizing t with
  | nil => rfl
  | cons key rest ih =>
    cases t with
    | leaf v => rfl
    | nested t =>
      rw [sub_cons h.valid]
      simp only [containsPath]
      cases hg : t.get key with
      | none => rfl
      | some c => exact ih (h.child ((get_mem h.valid).1 hg)).1

theorem containsLeaf_iff (p : List Bytes) (t : NTree V) : containsLeaf p t = (get p t).isSome := by
  induction p generalizing t with
  | nil => cases t <;> rfl
  | cons key rest ih =>
    cases t with
    | leaf v => rfl
    | nested t =>
      rw [get_nested]
      simp only [containsLeaf]
      cases hg : t.get key with
      | none => rfl
      | some c => exact ih c

theorem get_sub {p : List Bytes} {t : NTree V} (h : NValid t) {v : V} (hg : get p t = some v) :
    sub p t = some (.leaf v) := by
  induction p generalizing t with
  | nil => cases t <;> simp [get] at hg; subst hg; rfl
  | cons key rest ih =>
    cases t with
    | leaf v => simp [get] at hg
    | nested t =>
      rw [get_nested] at hg
      rw [sub_cons h.valid]
      cases hk : t.get key with
      | none => simp [hk] at hg
      | some c =>
        simp [hk] at hg
        exact ih (h.child ((get_mem h.valid).1 hk)).1 hg

theorem sub_append_some {p q : List Bytes} {t s : NTree V} (h : NValid t) (hs : sub (p ++ q) t = some s) :
    ∃ s', sub p t = some s' := by
  induction p generalizing t with
  | nil => exact ⟨t, rfl⟩
  | cons key rest ih =>
    cases t with
    | leaf v => simp [sub] at hs
    | nested t =>
      rw [List.cons_append, sub_cons h.valid] at hs
      rw [sub_cons h.valid]
      cases hk : t.get key with
      | none => simp [hk] at hs
      | some c =>
        rw [hk] at hs
        exact ih (h.child ((get_mem h.valid).1 hk)).1 hs

/-- a path is present iff a leaf lies at or below it -/
theorem containsPath_iff_leaf (p : List Bytes) {t : NTree V} (h : NValid t) :
    containsPath p t = true ↔ p = [] ∨ ∃ q, p <+: q ∧ (get q t).isSome := by
  rw [containsPath_iff p h]
  constructor
  · intro hs
    by_cases hp : p = []
    · exact .inl hp
    · right
      obtain ⟨s, hs⟩ := Option.isSome_iff_exists.1 hs
      obtain ⟨_, h2, h3⟩ := sub_get (q := []) h hs
      obtain ⟨q, v, hq⟩ := exists_leaf h2 (h3 hp)
      refine ⟨p ++ q, List.prefix_append p q, ?_⟩
      rw [(sub_get (q := q) h hs).1, hq]; rfl
  · rintro (rfl | ⟨q, ⟨r, rfl⟩, hq⟩)
    · rfl
    · obtain ⟨v, hv⟩ := Option.isSome_iff_exists.1 hq
      obtain ⟨s', hs'⟩ := sub_append_some h (get_sub h hv)
      rw [hs']; rfl

/-! ### what the full hash tree holds -/

theorem prunes_full_eq {w t : HashTree} (hw : w.Full) (h : Prunes w t) : w = t := by
  induction h with
  | prune => exact hw.elim
  | empty => rfl
  | leaf => rfl
  | labeled _ ih => rw [ih hw]
  | fork _ _ ih1 ih2 => rw [ih1 hw.1, ih2 hw.2]

theorem hasNode_iff_sub [LeafValue V] (p : List Bytes) {t : NTree V} (h : NValid t) (n : HashTree) :
    HasNode (asHashTree t) p n ↔ ∃ s, sub p t = some s ∧ n = asHashTree s := by
  obtain ⟨w, hw, hp⟩ := witness_prunes p h
  have hd := witness_decides p h hw
  have hok := lookupSubtree_ok (wf_tree h) hp p
  cases hs : sub p t with
  | none =>
    rw [hs] at hd
    simp only at hd
    rw [hd] at hok
    simp only [reduceCtorEq, false_and, exists_false, iff_false]
    exact fun hn => hok ⟨n, hn⟩
  | some s =>
    rw [hs] at hd
    simp only at hd
    rw [hd] at hok
    obtain ⟨n', h1, h2⟩ := hok
    -- the full tree also has it: Prunes between full trees is equality
    have hn' : n' = asHashTree s := by
      have hs' := (sub_get (q := []) h hs).2.1
      have hfull := (wf_tree hs')
      clear hd
      exact (prunes_full_eq hfull.full h2).symm
    subst hn'
    constructor
    · intro hn
      exact ⟨s, rfl, HasNode.unique (wf_tree h) hn h1⟩
    · rintro ⟨s', hs', rfl⟩
      simp at hs'; subst hs'; exact h1

end NTree

/-! ### merging -/

section merge
open HashTree
variable [SHA]

theorem merge_spec {a b T : HashTree} (ha : Prunes a T) (hb : Prunes b T) :
    ∃ m, mergeHashTrees a b = some m ∧ Prunes m T ∧ Prunes a m ∧ Prunes b m := by
  induction ha generalizing b with
  | prune t =>
    have : Prunes (.pruned t.digest) b := by rw [← hb.digest_eq]; exact .prune b
    cases hb with
    | prune => exact ⟨.pruned t.digest, by simp [mergeHashTrees], .prune t, Prunes.refl _, Prunes.refl _⟩
    | empty => exact ⟨_, by simp [mergeHashTrees], .empty, this, Prunes.refl _⟩
    | leaf b => exact ⟨_, by simp [mergeHashTrees], .leaf b, this, Prunes.refl _⟩
    | labeled h => exact ⟨_, by simp [mergeHashTrees], .labeled h, this, Prunes.refl _⟩
    | fork h1 h2 => exact ⟨_, by simp [mergeHashTrees], .fork h1 h2, this, Prunes.refl _⟩
  | empty =>
    cases hb with
    | prune => exact ⟨.empty, by simp [mergeHashTrees], .empty, Prunes.refl _, .prune _⟩
    | empty => exact ⟨.empty, by simp [mergeHashTrees], .empty, Prunes.refl _, Prunes.refl _⟩
  | leaf x =>
    cases hb with
    | prune => exact ⟨.leaf x, by simp [mergeHashTrees], .leaf x, Prunes.refl _, .prune _⟩
    | leaf => exact ⟨.leaf x, by simp [mergeHashTrees], .leaf x, Prunes.refl _, Prunes.refl _⟩
  | @labeled lab w t hw ih =>
    cases hb with
    | prune =>
      refine ⟨.labeled lab w, by simp [mergeHashTrees], .labeled hw, Prunes.refl _, ?_⟩
      rw [← (Prunes.labeled hw).digest_eq]; exact .prune _
    | labeled hb =>
      obtain ⟨m, h1, h2, h3, h4⟩ := ih hb
      exact ⟨.labeled lab m, by simp [mergeHashTrees, h1], .labeled h2, .labeled h3, .labeled h4⟩
  | @fork w1 w2 t1 t2 hw1 hw2 ih1 ih2 =>
    cases hb with
    | prune =>
      refine ⟨.fork w1 w2, by simp [mergeHashTrees], .fork hw1 hw2, Prunes.refl _, ?_⟩
      rw [← (Prunes.fork hw1 hw2).digest_eq]; exact .prune _
    | fork hb1 hb2 =>
      obtain ⟨m, h1, h2, h3, h4⟩ := ih1 hb1
      obtain ⟨n, g1, g2, g3, g4⟩ := ih2 hb2
      exact ⟨.fork m n, by simp [mergeHashTrees, h1, g1], .fork h2 g2, .fork h3 g3, .fork h4 g4⟩

end merge
end Verif
