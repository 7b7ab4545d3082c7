import Verif.Lemmas.Stable
import Verif.Props.Nested
import Verif.Props.RbTree
import Verif.Props.HashTree
import Verif.Props.AssetStale

set_option linter.unusedSimpArgs false
set_option linter.unusedSectionVars false

/-!
# Property C53: the root hash identifies the content, and changes only with it
-/

namespace Verif.Props
open Verif HashTree NTree
variable [SHA]

/-! ## Equal root hashes -/

section
variable {V : Type} [AsHashTree V]

/-- **C53**, `RbTree`: two histories whose trees have the same root hash hold the same entries, unless the hashed
strings exhibit a SHA-256 collision. -/
theorem C53_root_binds [LawfulAsHashTree V] {ops ops' : List (RbOp V)} {t t' : Rb V} (h : rbRun ops = some t)
    (h' : rbRun ops' = some t') (e : t.rootHashRb = t'.rootHashRb) :
    (∀ k, (rbSpec ops k).map asHashTree = (rbSpec ops' k).map asHashTree) ∨
      CollisionIn t.asHashTreeRb.hashed t'.asHashTreeRb.hashed := by
  obtain ⟨w, c⟩ := C08_full_tree_content h
  obtain ⟨w', c'⟩ := C08_full_tree_content h'
  rw [C08_root_hash h, C08_root_hash h'] at e
  rcases C03_digest_injective w.full w'.full e with e | e
  · left
    intro k
    obtain ⟨_, h1, h2⟩ := C06_map ops
    obtain ⟨_, h1', h2'⟩ := C06_map ops'
    rw [h] at h1; rw [h'] at h1'
    cases h1; cases h1'
    rw [← h2, ← h2']
    refine Option.ext (fun n => ?_)
    have a := c k n
    have b := c' k n
    rw [← e] at b
    simp only [Option.map_eq_some_iff]
    constructor
    · rintro ⟨v, hv, rfl⟩
      obtain ⟨u, h1, h2⟩ := b.1 (a.2 ⟨v, hv, rfl⟩)
      exact ⟨u, h1, h2.symm⟩
    · rintro ⟨v, hv, rfl⟩
      obtain ⟨u, h1, h2⟩ := a.1 (b.2 ⟨v, hv, rfl⟩)
      exact ⟨u, h1, h2.symm⟩
  · exact .inr e

/-- **C53**, `NestedTree`: two histories whose trees have the same root hash hold the same leaves, unless the hashed
strings exhibit a SHA-256 collision. -/
theorem C53_nested_root_binds [LeafValue V] {ops ops' : List (NOp V)} {t t' : NTree V} (h : nRun ops = some t)
    (h' : nRun ops' = some t') (e : rootHash t = rootHash t') :
    (∀ p, (nSpec ops p).map asHashTree = (nSpec ops' p).map asHashTree) ∨
      CollisionIn (asHashTree t).hashed (asHashTree t').hashed := by
  obtain ⟨d, w, -⟩ := C15_hashes h
  obtain ⟨d', w', -⟩ := C15_hashes h'
  rw [d, d'] at e
  rcases C03_digest_injective w.full w'.full e with e | e
  · left
    intro p
    obtain ⟨_, h1, -, h2⟩ := nRun_ok ops
    obtain ⟨_, h1', -, h2'⟩ := nRun_ok ops'
    rw [h] at h1; rw [h'] at h1'
    cases h1; cases h1'
    rw [← h2, ← h2']
    refine Option.ext (fun n => ?_)
    simp only [Option.map_eq_some_iff]
    constructor
    · rintro ⟨v, hv, rfl⟩
      obtain ⟨b, hb⟩ := LeafValue.isLeaf v
      have := (C15_full_tree_content h p b).2 ⟨v, hv, hb⟩
      rw [e] at this
      obtain ⟨u, h1, h2⟩ := (C15_full_tree_content h' p b).1 this
      exact ⟨u, h1, by rw [h2, hb]⟩
    · rintro ⟨v, hv, rfl⟩
      obtain ⟨b, hb⟩ := LeafValue.isLeaf v
      have := (C15_full_tree_content h' p b).2 ⟨v, hv, hb⟩
      rw [← e] at this
      obtain ⟨u, h1, h2⟩ := (C15_full_tree_content h p b).1 this
      exact ⟨u, h1, by rw [h2, hb]⟩
  · exact .inr e

/-! ## Calls that change nothing -/

/-- **C53**, `RbTree`: inserting the value a key already has, deleting an absent key, and modifying an absent key or with
a closure that returns the value, leave the tree, and so root hash and witnesses, as they are. -/
theorem C53_unchanged {ops : List (RbOp V)} {t : Rb V} (h : rbRun ops = some t) (k : Bytes) :
    (∀ v, rbSpec ops k = some v → rbRun (ops ++ [.insert k v]) = some t) ∧
    (rbSpec ops k = none → rbRun (ops ++ [.delete k]) = some t) ∧
    (∀ f : V → V, (∀ v, rbSpec ops k = some v → f v = v) → rbRun (ops ++ [.modify k f]) = some t) := by
  obtain ⟨t', h1, h2⟩ := C06_map ops
  rw [h] at h1
  cases h1
  have hv := Rb.rbRun_valid h
  have step : ∀ o : RbOp V, o.run t = some t → rbRun (ops ++ [o]) = some t := by
    intro o ho
    unfold rbRun at h ⊢
    rw [List.foldlM_append, h]
    simp [ho]
  refine ⟨fun v e => step _ ?_, fun e => step _ ?_, fun f e => step _ ?_⟩
  · exact Rb.insert_same hv (by rw [h2]; exact e)
  · exact Rb.delete_absent (by rw [h2]; exact e)
  · exact Rb.modify_same hv.hash (fun v e' => by rw [h2] at e'; rw [e v e'])

/-- **C53**, `NestedTree`: inserting the value a path already has, and deleting a path with no leaf at or below it, leave
the tree as it is. -/
theorem C53_nested_unchanged {ops : List (NOp V)} {t : NTree V} (h : nRun ops = some t) (p : List Bytes) :
    (∀ v, nSpec ops p = some v → nRun (ops ++ [.insert p v]) = some t) ∧
    ((∀ q, p <+: q → nSpec ops q = none) → nRun (ops ++ [.delete p]) = some t) := by
  obtain ⟨t', h1, hv, h2⟩ := nRun_ok ops
  rw [h] at h1
  cases h1
  have step : ∀ o : NOp V, o.run t = some t → nRun (ops ++ [o]) = some t := by
    intro o ho
    unfold nRun at h ⊢
    rw [List.foldlM_append, h]
    simp [ho]
  refine ⟨fun v e => step _ ?_, fun e => step _ ?_⟩
  · exact NTree.insert_same p hv (by rw [h2]; exact e)
  · by_cases e0 : p = []
    · subst e0
      by_cases he : t = .nested .nil
      · subst he; rfl
      · obtain ⟨q, v, hq⟩ := exists_leaf hv he
        rw [h2, e q List.nil_prefix] at hq
        cases hq
    refine NTree.delete_absent p hv ?_
    cases hc : containsPath p t with
    | false => rfl
    | true =>
      exfalso
      obtain ⟨q, v, e1, e2⟩ := C14_no_husk h e0 hc
      rw [h2, e q e1] at e2
      cases e2

end

/-! ## The certification tree -/

/-- **C53**, `HttpCertificationTree`: two histories with the same root hash certify the same tree, unless the hashed
strings exhibit a SHA-256 collision; so they certify the same entries (under the provisos of C20). -/
theorem C53_http_root_binds {ops ops' : List CtOp} {t t' : CertTree} (h : ctRun ops = some t) (h' : ctRun ops' = some t')
    (e : t.rootHash = t'.rootHash) :
    (t.full = t'.full ∧ ∀ f : CertEntry,
      (∀ o ∈ ops ++ ops', ∀ g, o.entry? = some g → (¬ g.Imitates f ∧ ¬ f.Imitates g) ∧
        (g.cert.celHash = f.cert.celHash → g.cert.isSkip = f.cert.isSkip)) →
      (ctSpec ops f.toTreePath ↔ ctSpec ops' f.toTreePath)) ∨
    CollisionIn t.full.hashed t'.full.hashed := by
  have d : ∀ {ops : List CtOp} {t : CertTree}, ctRun ops = some t → t.rootHash = t.full.digest ∧ t.full.WellFormed := by
    intro ops t h
    have hv := (ctRun_valid h).2
    exact ⟨by show labeledHash pathPrefix (AsHashTree.rootHash t.tree) = _; rw [root_eq_digest hv]; rfl, wf_tree hv⟩
  rw [(d h).1, (d h').1] at e
  rcases C03_digest_injective (d h).2.full (d h').2.full e with e | e
  · refine .inl ⟨e, fun f hc => ?_⟩
    obtain ⟨_, h1, -, -, h2, -⟩ := C20_entries ops f (fun o ho g hg => (hc o (by simp [ho]) g hg).1)
      (fun o ho g hg => (hc o (by simp [ho]) g hg).2)
    obtain ⟨_, h1', -, -, h2', -⟩ := C20_entries ops' f (fun o ho g hg => (hc o (by simp [ho]) g hg).1)
      (fun o ho g hg => (hc o (by simp [ho]) g hg).2)
    rw [h] at h1; rw [h'] at h1'
    cases h1; cases h1'
    rw [← h2, ← h2', e]
  · exact .inr e

theorem ct_leaf {t : CertTree} (hv : NValid t.tree) (p : List Bytes) :
    HasLeaf t.full (str "http_expr" :: p) [] ↔ get p t.tree = some [] := by
  unfold HasLeaf CertTree.full
  rw [hasNode_labeled, hasNode_iff_sub _ hv]
  constructor
  · rintro ⟨s, hs, heq⟩
    cases s with
    | leaf v =>
      have := (sub_get (q := []) hv hs).1
      rw [List.append_nil] at this
      rw [this]
      rw [asHashTree_leaf] at heq
      change HashTree.leaf [] = .leaf v at heq
      simp at heq
      subst heq; rfl
    | nested s =>
      rw [asHashTree_nested] at heq
      cases s with
      | nil => simp [Rb.asHashTreeRb, Rb.fullWitnessTree] at heq
      | node c l k x r hh =>
        rw [Rb.asHashTree_node, Rb.dataTree, Rb.threeWay_labeled] at heq
        split at heq <;> split at heq <;> simp at heq
  · intro hget
    exact ⟨.leaf [], get_sub hv hget, by rw [asHashTree_leaf]; rfl⟩

/-- **C53**, `HttpCertificationTree`: inserting an entry that is in the certified tree, and deleting one whose path is
not in it, leave the tree, and so the root hash and all witnesses, as they are. -/
theorem C53_http_unchanged {ops : List CtOp} {t : CertTree} (h : ctRun ops = some t) (e : CertEntry) :
    (HasLeaf t.full (str "http_expr" :: e.toTreePath) [] → ctRun (ops ++ [.insert e]) = some t) ∧
    ((¬ ∃ n, HasNode t.full (str "http_expr" :: e.toTreePath) n) → ctRun (ops ++ [.delete e]) = some t) := by
  have hv := (ctRun_valid h).2
  have step : ∀ o : CtOp, o.run t = some t → ctRun (ops ++ [o]) = some t := by
    intro o ho
    unfold ctRun at h ⊢
    rw [List.foldlM_append, h]
    simp [ho]
  constructor
  · intro hl
    refine step _ ?_
    rw [ctop_run]
    show (NTree.insert e.toTreePath [] t.tree).map _ = _
    rw [NTree.insert_same _ hv ((ct_leaf hv _).1 hl)]
    rfl
  · intro hl
    refine step _ ?_
    rw [ctop_run]
    show (NTree.delete e.toTreePath t.tree).map _ = _
    rw [NTree.delete_absent _ hv]
    · rfl
    · cases hc : containsPath e.toTreePath t.tree with
      | false => rfl
      | true =>
        exfalso
        rw [containsPath_iff _ hv] at hc
        obtain ⟨s, hs⟩ := Option.isSome_iff_exists.1 hc
        refine hl ⟨asHashTree s, ?_⟩
        unfold CertTree.full
        rw [hasNode_labeled, hasNode_iff_sub _ hv]
        exact ⟨s, hs, rfl⟩

theorem ct_noop {ops later : List CtOp} {t : CertTree} (h : ctRun ops = some t)
    (hl : ∀ o ∈ later, ∃ e, o = .insert e ∧ HasLeaf t.full (str "http_expr" :: e.toTreePath) []) :
    ctRun (ops ++ later) = some t := by
  induction later using List.reverseRecOn with
  | nil => simpa using h
  | append_singleton later o ih =>
    obtain ⟨e, rfl, he⟩ := hl o (by simp)
    rw [← List.append_assoc]
    exact (C53_http_unchanged (ih (fun o ho => hl o (by simp [ho]))) e).1 he

/-! ## The asset router -/

section
variable [UriLib] [GlobLib]

theorem item_not_skip {i : Item} {x : CertifiedResponse} (h : i.Answer x) : x.entry.cert.isSkip = false := by
  have := (madeOf_madeFor h.made).isSkip
  cases hs : x.entry.cert.isSkip with
  | false => rfl
  | true => exact absurd (this.1 hs) (item_cel_ne i)

/-- **C53**, `AssetRouter`: certifying the same assets with the same configurations again, immediately or after other
calls of `certify_assets`, leaves the certified tree and the root hash as they are, in whatever order the router's
maps are walked. -/
theorem C53_certify_again {before later : List RouterCall} {assets values values' : List Asset}
    {configs : List AssetConfig} {r r' : Router}
    (hv : IsValues assets values) (hv' : IsValues assets values')
    (hok : (RouterCall.certify assets values configs).Succeeds)
    (hlater : ∀ c ∈ later, ∃ a v cs, c = .certify a v cs)
    (hcalls : ∀ c ∈ before ++ later, c.Faithful ∧ ∀ o, c ≠ .shared o)
    (hitems : ∀ c ∈ before ++ .certify assets values configs :: later, ∀ i, c.About i → i.certPath.Clean)
    (hr : routerRun (before ++ .certify assets values configs :: later) = some r)
    (hr' : routerRun (before ++ .certify assets values configs :: later ++ [.certify assets values' configs]) = some r') :
    r'.tree = r.tree ∧ r'.rootHash = r.rootHash := by
  suffices h : r'.tree = r.tree by exact ⟨h, by unfold Router.rootHash; rw [h]⟩
  obtain ⟨h1, -, -⟩ := routerRun_iff.1 hr
  obtain ⟨h1', -, -⟩ := routerRun_iff.1 hr'
  rw [treeLog_append] at h1'
  have hc : ∀ c ∈ before ++ .certify assets values configs :: later, c.Faithful ∧ ∀ o, c ≠ .shared o := by
    intro c hc
    simp only [List.mem_append, List.mem_cons] at hc
    rcases hc with hc | rfl | hc
    · exact hcalls c (by simp [hc])
    · exact ⟨hv, by simp⟩
    · exact hcalls c (by simp [hc])
  have hkind : ∀ o ∈ treeLog (before ++ .certify assets values configs :: later), ∀ g, o.entry? = some g →
      g.path.Clean ∧ g.cert.isSkip = false := by
    intro o ho g hg
    obtain ⟨c, c1, j, y, c2, c3, rfl⟩ := entry_about hc ho hg
    refine ⟨by rw [c3.path]; exact hitems c c1 j c2, ?_⟩
    exact item_not_skip c3
  have hnoop := ct_noop h1 (later := treeLog [.certify assets values' configs]) ?_
  · rw [hnoop] at h1'
    exact (Option.some.inj h1').symm
  intro o ho
  obtain ⟨e, rfl⟩ := certify_inserts ho
  refine ⟨e, rfl, ?_⟩
  obtain ⟨c, c1, j, y, c2, c3, rfl⟩ := entry_about (calls := [.certify assets values' configs])
    (by intro c hc; rw [List.mem_singleton] at hc; subst hc; exact ⟨hv', by simp⟩) ho (g := e) rfl
  rw [List.mem_singleton] at c1
  subst c1
  have c2 : Announces assets configs j := c2
  obtain ⟨x, hx, hs⟩ := C52_persists (before := before) hv hok hlater c2
  have exy : x = y := by
    have := Item.prepare_ok.2 hx
    rw [Item.prepare_ok.2 c3] at this
    cases this
    rfl
  subst exy
  have hcl : x.entry.path.Clean := by
    rw [hx.path]
    exact hitems (.certify assets values configs) (by simp) j c2
  have hsk : x.entry.cert.isSkip = false := item_not_skip hx
  obtain ⟨_, g1, -, -, g2, -⟩ := entries_clean _ x.entry hcl (fun o ho g hg => (hkind o ho g hg).1)
    (fun o ho g hg _ => by rw [(hkind o ho g hg).2, hsk])
  rw [h1] at g1
  cases g1
  exact g2.2 hs

end

/-! ## The converse fails: the same content can have different root hashes -/

def exAbcd : List (RbOp Bytes) := [.insert [1] [], .insert [2] [], .insert [3] [], .insert [4] []]
def exDcba : List (RbOp Bytes) := [.insert [4] [], .insert [3] [], .insert [2] [], .insert [1] []]

theorem ne_root {ops ops' : List (RbOp Bytes)} {t t' : Rb Bytes} (h : rbRun ops = some t) (h' : rbRun ops' = some t')
    (hne : t.asHashTreeRb ≠ t'.asHashTreeRb) :
    t.rootHashRb ≠ t'.rootHashRb ∨ CollisionIn t.asHashTreeRb.hashed t'.asHashTreeRb.hashed := by
  by_cases e : t.rootHashRb = t'.rootHashRb
  · right
    rw [C08_root_hash h, C08_root_hash h'] at e
    exact (C03_digest_injective (C08_full_tree_content h).1.full (C08_full_tree_content h').1.full e).resolve_left hne
  · exact .inl e

/-- Deleting an entry and inserting it again. -/
def exAgain : List (RbOp Bytes) := exAbcd ++ [.delete [1], .insert [1] []]

/-- **C53.** The root hash depends on more than the content: the same four entries inserted in the opposite order give
another root hash (with every hash function that has no collision on the strings hashed here), and so does deleting an
entry and inserting it again. -/
theorem C53_counterexample_order :
    ((∀ k, rbSpec exAbcd k = rbSpec exDcba k) ∧
      ∃ t t' : Rb Bytes, rbRun exAbcd = some t ∧ rbRun exDcba = some t' ∧
        (t.rootHashRb ≠ t'.rootHashRb ∨ CollisionIn t.asHashTreeRb.hashed t'.asHashTreeRb.hashed)) ∧
    ((∀ k, rbSpec exAbcd k = rbSpec exAgain k) ∧
      ∃ t t' : Rb Bytes, rbRun exAbcd = some t ∧ rbRun exAgain = some t' ∧
        (t.rootHashRb ≠ t'.rootHashRb ∨ CollisionIn t.asHashTreeRb.hashed t'.asHashTreeRb.hashed)) := by
  refine ⟨⟨fun k => ?_, ?_⟩, ⟨fun k => ?_, ?_⟩⟩
  · unfold rbSpec exAbcd exDcba
    simp only [List.foldl_cons, List.foldl_nil, RbOp.spec]
    split_ifs <;> simp_all
  · refine ⟨_, _, rfl, rfl, ?_⟩
    refine ne_root (ops := exAbcd) (ops' := exDcba) rfl rfl ?_
    intro h
    cases h
  · unfold rbSpec exAgain exAbcd
    simp only [List.foldl_append, List.foldl_cons, List.foldl_nil, RbOp.spec]
    split_ifs <;> simp_all
  · refine ⟨_, _, rfl, rfl, ?_⟩
    refine ne_root (ops := exAbcd) (ops' := exAgain) rfl rfl ?_
    intro h
    cases h

/-! ## Concrete cases -/

example : rbSpec exAbcd [2] = some [] ∧ rbSpec exAbcd [9] = none := ⟨rfl, rfl⟩

example : nSpec exNOps [str "a", str "b"] = some (str "2") ∧ ∀ q, [str "a", str "c"] <+: q → nSpec exNOps q = none := by
  refine ⟨by decide, fun q hq => ?_⟩
  obtain ⟨q, rfl⟩ := hq
  simp only [nSpec, exNOps, List.foldl_cons, List.foldl_nil, NOp.spec]
  cases q with
  | nil => decide
  | cons x q => cases q <;> first | (simp [str]; done) | (simp [str]; grind)

/-- An entry in the tree, and one not in it. -/
example : letI := toySHA; (do
    let t ← ctRun exCtOps
    let t1 ← ctRun (exCtOps ++ [.insert ⟨.exact (str "/a/b"), .full h1 h0 h1⟩])
    let t2 ← ctRun (exCtOps ++ [.delete ⟨.exact (str "/nowhere"), .responseOnly h0 h1⟩])
    some (decide (t1.rootHash = t.rootHash), decide (t2.rootHash = t.rootHash))) = some (true, true) := by
  let _ := toySHA; decide +kernel

section
attribute [local instance] toySHA toyUri toyGlob mergeSorting

/-- The hypotheses of `C53_certify_again` are met by certifying the example assets, then other content, then the example
assets again with the map walked in the other order. -/
example {r r' : Router}
    (hr : routerRun ([] ++ .certify (exAssets (str "old")) (exAssets (str "old")).reverse exConfigs ::
      [.certify (exAssets (str "new")) (exAssets (str "new")).reverse exConfigs]) = some r)
    (hr' : routerRun ([] ++ .certify (exAssets (str "old")) (exAssets (str "old")).reverse exConfigs ::
      [.certify (exAssets (str "new")) (exAssets (str "new")).reverse exConfigs] ++
      [.certify (exAssets (str "old")) (exAssets (str "old")) exConfigs]) = some r') : r'.rootHash = r.rootHash := by
  refine (C53_certify_again (exValues (str "old")) (fun a => ?_) (exCertifies (str "old")) (by simp) ?_ ?_ hr hr').2
  · rw [← exValues (str "old") a]; simp
  · intro c hc
    simp only [List.nil_append, List.mem_singleton] at hc
    subst hc
    exact ⟨exValues (str "new"), by simp⟩
  · intro c hc i hi
    simp only [List.nil_append, List.mem_cons, List.not_mem_nil, or_false] at hc
    have hp : ∀ {u : Bytes} {p : Page}, i ∈ pageItems u p → i.certPath = .exact u := by
      intro u p h
      rcases mem_pageItems.1 h with rfl | ⟨-, n, rfl, -⟩ <;> rfl
    have hmem : i.certPath ∈ exPaths := by
      rcases hc with rfl | rfl <;>
      rcases (exAnnounced _ i).1 hi with h | h | rfl | h | h | rfl | h | rfl <;>
      first
      | (rw [hp h]; decide)
      | simp [Item.certPath, exPaths]
    exact (exPaths_ok _ hmem).2.1
end

end Verif.Props
