import Verif.Lemmas.CertTree
import Verif.Props.HttpPath
import Verif.Spec.Toy

set_option linter.unusedSimpArgs false
set_option linter.unusedSectionVars false

/-!
# Properties C20, C21: the HTTP certification tree
-/

namespace Verif.Props
open Verif HashTree NTree PathShape
variable [SHA]

/-- **C20.** Every history of insert / delete / clear runs without panic, and afterwards the certified tree
holds (as an empty leaf under `http_expr` and the entry's path) exactly the entries that were inserted and not
removed since.

Proviso: no URL imitates the tree path of another entry (a segment `<$>` or `<*>` followed by the 32 bytes of an
expression hash), and no skip certification shares its expression hash with a different certification (two
different CEL strings would have to collide: see `C20_api_no_clash`). -/
theorem C20_entries (ops : List CtOp) (e : CertEntry)
    (hapart : ∀ o ∈ ops, ∀ f, o.entry? = some f → ¬ f.Imitates e ∧ ¬ e.Imitates f)
    (hskip : ∀ o ∈ ops, ∀ f, o.entry? = some f → f.cert.celHash = e.cert.celHash → f.cert.isSkip = e.cert.isSkip) :
    ∃ t, ctRun ops = some t ∧ t.rootHash = t.full.digest ∧ t.full.WellFormed ∧
      (HasLeaf t.full (str "http_expr" :: e.toTreePath) [] ↔ ctSpec ops e.toTreePath) ∧
      (ctSpec ops e.toTreePath ∨ ¬ ∃ n, HasNode t.full (str "http_expr" :: e.toTreePath) n) := by
  obtain ⟨nt, h1, h2, h3⟩ := nRun_ok (ops.map CtOp.toNOp)
  refine ⟨⟨nt⟩, by rw [ctRun_eq, h1]; rfl, ?_, wf_tree h2, ?_⟩
  · show labeledHash pathPrefix (AsHashTree.rootHash nt) = _
    rw [root_eq_digest h2]; rfl
  have hcmp : ∀ o ∈ ops, ∀ f, o.entry? = some f →
      (f.toTreePath <+: e.toTreePath ∨ e.toTreePath <+: f.toTreePath) → f.toTreePath = e.toTreePath := by
    intro o ho f hf hp
    have hs := hskip o ho f hf
    rcases hp with hp | hp
    · rcases entry_comparable (hapart o ho f hf).2 hp with h | ⟨a, b, c⟩
      · exact h
      · rw [hs c, b] at a; simp at a
    · rcases entry_comparable (hapart o ho f hf).1 hp with h | ⟨a, b, c⟩
      · exact h.symm
      · rw [hs c.symm, a] at b; simp at b
  have key := ct_spec_aux ops hcmp (fun _ => none) (fun _ => False) (by simp) (.inl rfl)
  have hg : get e.toTreePath nt = nSpec (ops.map CtOp.toNOp) e.toTreePath := h3 _
  have hspec : ctSpec ops e.toTreePath ↔ get e.toTreePath nt = some [] := by rw [hg]; exact key.1
  have hleaf : HasLeaf (CertTree.mk nt).full (str "http_expr" :: e.toTreePath) [] ↔ get e.toTreePath nt = some [] := by
    unfold HasLeaf CertTree.full
    rw [hasNode_labeled, hasNode_iff_sub _ h2]
    constructor
    · rintro ⟨s, hs, heq⟩
      cases s with
      | leaf v =>
        have := (sub_get (q := []) h2 hs).1
        rw [List.append_nil] at this
        rw [this]
        rw [asHashTree_leaf] at heq
        change HashTree.leaf [] = .leaf v at heq
        simp at heq
        subst heq; rfl
      | nested s =>
        rw [asHashTree_nested] at heq
        cases s with
        | nil => simp [Rb.asHashTreeRb, Rb.fullWitnessTree] at heq
        | node c l k x r hh =>
          rw [Rb.asHashTree_node, Rb.dataTree, Rb.threeWay_labeled] at heq
          split at heq <;> split at heq <;> simp at heq
    · intro hget
      exact ⟨.leaf [], get_sub h2 hget, by rw [asHashTree_leaf]; rfl⟩
  refine ⟨hleaf.trans hspec.symm, ?_⟩
  by_cases hs : ctSpec ops e.toTreePath
  · exact .inl hs
  · right
    rintro ⟨n, hn⟩
    unfold CertTree.full at hn
    rw [hasNode_labeled, hasNode_iff_sub _ h2] at hn
    obtain ⟨s, hs', -⟩ := hn
    have hne : e.toTreePath ≠ [] := by
      obtain ⟨t, _, _, ht⟩ := entryPath_eq e
      rw [ht]; simp
    have hv := sub_get (q := []) h2 hs'
    obtain ⟨q, v, hq⟩ := exists_leaf hv.2.1 (hv.2.2 hne)
    have hq' : get (e.toTreePath ++ q) nt = some v := by rw [(sub_get (q := q) h2 hs').1, hq]
    rw [h3] at hq'
    -- some inserted entry lies at or below
    have hex : ∀ (ops : List (NOp Bytes)) (m : List Bytes → Option Bytes) (p : List Bytes) (v : Bytes),
        ops.foldl NOp.spec m p = some v → m p = some v ∨ ∃ v, NOp.insert p v ∈ ops := by
      intro ops
      induction ops with
      | nil => intro m p v h; exact .inl h
      | cons o ops ih =>
        intro m p v h
        rcases ih _ _ _ h with h | ⟨v', h⟩
        · cases o with
          | insert p' v' =>
            simp only [NOp.spec] at h
            split at h
            · rename_i hp; subst hp; exact .inr ⟨v', by simp⟩
            · split at h
              · simp at h
              · exact .inl h
          | delete p' =>
            simp only [NOp.spec] at h
            split at h
            · simp at h
            · exact .inl h
          | clear => simp [NOp.spec] at h
        · exact .inr ⟨v', by simp [h]⟩
    rcases hex _ _ _ _ hq' with h | ⟨v', h⟩
    · simp at h
    · simp at h
      obtain ⟨o, ho, he'⟩ := h
      cases o with
      | insert f =>
        simp [CtOp.toNOp] at he'
        have := hcmp _ ho f rfl (.inr ⟨q, he'.1.symm⟩)
        rw [this] at he'
        have hqn : q = [] := by simpa using he'.1
        subst hqn
        rw [List.append_nil, ← h3] at hq'
        rcases key.2 with k | k
        · rw [hg] at hq'
          unfold nSpec at hq'
          rw [k] at hq'; simp at hq'
        · exact hs (key.1.2 k)
      | delete f => simp [CtOp.toNOp] at he'
      | clear => simp [CtOp.toNOp] at he'

/-- C20 for URLs without a segment `<$>` or `<*>`. -/
theorem entries_clean (ops : List CtOp) (e : CertEntry) (he : e.path.Clean)
    (hclean : ∀ o ∈ ops, ∀ f, o.entry? = some f → f.path.Clean)
    (hskip : ∀ o ∈ ops, ∀ f, o.entry? = some f → f.cert.celHash = e.cert.celHash → f.cert.isSkip = e.cert.isSkip) :
    ∃ t, ctRun ops = some t ∧ t.rootHash = t.full.digest ∧ t.full.WellFormed ∧
      (HasLeaf t.full (str "http_expr" :: e.toTreePath) [] ↔ ctSpec ops e.toTreePath) ∧
      (ctSpec ops e.toTreePath ∨ ¬ ∃ n, HasNode t.full (str "http_expr" :: e.toTreePath) n) :=
  C20_entries ops e (fun o ho f hf => ⟨CertEntry.not_imitates (hclean o ho f hf) e, CertEntry.not_imitates he f⟩) hskip

/-- **C21**, exact entries: after any history `witness(entry, url)` succeeds, has the tree's root hash as
digest, and settles the entry's path: it is found with the certified value, or shown absent. -/
theorem C21_exact_witness {ops : List CtOp} {t : CertTree} (h : ctRun ops = some t) (p : Bytes) (c : HttpCert)
    (url : Bytes) :
    ∃ w, t.witness ⟨.exact p, c⟩ url = some (.ok w) ∧ w.digest = t.rootHash ∧ Prunes w t.full ∧
      Reveals w t.full (str "http_expr" :: (CertEntry.mk (.exact p) c).toTreePath) := by
  obtain ⟨-, hv⟩ := ctRun_valid h
  obtain ⟨w, h1, h2, h3⟩ := witness_reveals (CertEntry.mk (.exact p) c).toTreePath hv
  refine ⟨.labeled pathPrefix w, by simp [CertTree.witness, h1], ?_, .labeled h2, h3.labeled _⟩
  show labeledHash pathPrefix w.digest = labeledHash pathPrefix (AsHashTree.rootHash t.tree)
  rw [root_eq_digest hv, h2.digest_eq]

/-- **C21**, wildcard entries: `witness(entry, url)` fails exactly when the wildcard path has more components
than the request path. -/
theorem C21_wildcard_error {ops : List CtOp} {t : CertTree} (h : ctRun ops = some t) (p : Bytes) (c : HttpCert)
    (url : Bytes) :
    (∃ err, t.witness ⟨.wildcard p, c⟩ url = some (.error err)) ↔ (pathParts url).length < (pathParts p).length := by
  obtain ⟨-, hv⟩ := ctRun_valid h
  unfold CertTree.witness
  simp only [HttpPath.toTreePath, pathToSegments, List.length_append, List.length_singleton]
  constructor
  · rintro ⟨err, he⟩
    split at he
    · rename_i hlt; omega
    · simp [Option.bind_eq_some_iff] at he
  · intro hlt
    exact ⟨_, by rw [if_pos (by omega)]⟩

/-- **C21**, wildcard entries: otherwise it succeeds (no merge panics), has the root hash as digest, and settles
the exact path of the URL, the responding wildcard path with everything below it, and every path in the
enumeration of more specific wildcards (by C19: every wildcard matching the URL more specifically). -/
theorem C21_wildcard_witness {ops : List CtOp} {t : CertTree} (h : ctRun ops = some t) (p : Bytes) (c : HttpCert)
    (url : Bytes) (hlen : (pathParts p).length ≤ (pathParts url).length) :
    ∃ w ws, t.witness ⟨.wildcard p, c⟩ url = some (.ok w) ∧ w.digest = t.rootHash ∧ Prunes w t.full ∧
      Reveals w t.full (str "http_expr" :: (HttpPath.exact url).toTreePath) ∧
      (∀ q, Reveals w t.full (str "http_expr" :: (HttpPath.wildcard p).toTreePath ++ q)) ∧
      moreSpecificWildcards (HttpPath.exact url).toTreePath (HttpPath.wildcard p).toTreePath = some ws ∧
      ∀ q ∈ ws, Reveals w t.full (str "http_expr" :: q) := by
  obtain ⟨-, hv⟩ := ctRun_valid h
  have hT := wf_tree hv
  obtain ⟨w0, a1, a2, a3⟩ := witness_reveals (HttpPath.exact url).toTreePath hv
  obtain ⟨w1, b1, b2, b3⟩ := witness_reveals (HttpPath.wildcard p).toTreePath hv
  obtain ⟨m, c1, c2, c3, c4⟩ := merge_spec a2 b2
  obtain ⟨ws, d1⟩ := moreSpecific_total (HttpPath.exact url).toTreePath (HttpPath.wildcard p).toTreePath
  obtain ⟨m', e1, e2, e3, e4⟩ := fold_witness hv ws c2
  refine ⟨.labeled pathPrefix m', ws, ?_, ?_, .labeled e2, ?_, ?_, d1, fun q hq => (e4 q hq).labeled _⟩
  · unfold CertTree.witness
    simp only
    rw [if_neg]
    · rw [a1, b1, d1]
      simp only [Option.bind_eq_bind, Option.bind_some, c1]
      simp only [Option.bind_eq_bind] at e1
      rw [e1]; rfl
    · simp only [HttpPath.toTreePath, pathToSegments, List.length_append, List.length_singleton]
      omega
  · show labeledHash pathPrefix m'.digest = labeledHash pathPrefix (AsHashTree.rootHash t.tree)
    rw [root_eq_digest hv, e2.digest_eq]
  · exact (a3.mono hT (c3.trans e3) e2).labeled _
  · intro q
    exact ((b3.mono hT (c4.trans e3) e2).below hT q).labeled _

/-- **C21**, what holds for all URLs and wildcards without exception: unless the wildcard is longer than the URL, the witness
exists, has the root hash, and settles the exact path of the URL, the entry, and every wildcard that is listed, by the specification
of the enumeration (C19), for the URL and the wildcard after a first segment `http_expr` has been taken off each. -/
theorem C21_all_inputs {ops : List CtOp} {t : CertTree} (h : ctRun ops = some t) (p : Bytes) (c : HttpCert) (url : Bytes)
    (hlen : (pathParts p).length ≤ (pathParts url).length) :
    ∃ w, t.witness ⟨.wildcard p, c⟩ url = some (.ok w) ∧ w.digest = t.rootHash ∧
      Reveals w t.full (str "http_expr" :: (ofPath url).labels ++ [str "<$>"]) ∧
      Reveals w t.full (str "http_expr" :: (CertEntry.mk (.wildcard p) c).toTreePath) ∧
      ∀ v, Listed v (ofPath url).withoutPrefix (ofPath p).withoutPrefix →
        Reveals w t.full (str "http_expr" :: v.labels ++ [str "<*>"]) := by
  obtain ⟨w, ws, h1, h2, _, h3, h4, h5, h6⟩ := C21_wildcard_witness h p c url hlen
  obtain ⟨ws', x1, x2⟩ := (C19_all_inputs url p).1
  rw [x1] at h5
  simp only [Option.some.injEq] at h5
  subst h5
  refine ⟨w, h1, h2, h3, ?_, fun v hv => ?_⟩
  · have := h4 c.toTreePath
    simpa [CertEntry.toTreePath] using this
  · have := h6 _ ((x2 _).2 ⟨v, hv, rfl⟩)
    simpa using this

/-- **C21**, in terms of URLs: for a URL matched by the wildcard (first segment not `http_expr`, see C19), the
witness exists and shows, for the exact path and for every more specific wildcard `v` that matches the URL, whether
the certified tree has it. -/
theorem C21_wildcard_settles_url_partial {ops : List CtOp} {t : CertTree} (h : ctRun ops = some t) (p : Bytes)
    (c : HttpCert) (url : Bytes) (hm : Matches (ofPath p) (ofPath url))
    (hstart : (pathSegments url).head? ≠ some (str "http_expr")) :
    ∃ w, t.witness ⟨.wildcard p, c⟩ url = some (.ok w) ∧ w.digest = t.rootHash ∧
      Reveals w t.full (str "http_expr" :: (ofPath url).labels ++ [str "<$>"]) ∧
      Reveals w t.full (str "http_expr" :: (CertEntry.mk (.wildcard p) c).toTreePath) ∧
      ∀ v, Matches v (ofPath url) → MoreSpecific v (ofPath p) →
        Reveals w t.full (str "http_expr" :: v.labels ++ [str "<*>"]) := by
  have hlen : (pathParts p).length ≤ (pathParts url).length := by
    rw [pathParts_eq, pathParts_eq, labels_length, labels_length]
    obtain ⟨j, hj, he⟩ := matches_iff.1 hm
    rw [he, ord_at hj]; omega
  obtain ⟨w, ws, h1, h2, _, h3, h4, h5, h6⟩ := C21_wildcard_witness h p c url hlen
  have hw : (ofPath p).PlainStart := by
    intro h'
    apply hstart
    obtain ⟨t, ht⟩ := hm.1
    have e : pathSegments url = (ofPath p).segs ++ t := ht.symm
    rw [e]
    cases hs : (ofPath p).segs with
    | nil => rw [hs] at h'; simp at h'
    | cons a b => rw [hs] at h'; exact h'
  have hen := enum_eq (ofPath_proper url) (ofPath_proper p) (strip_exact (ofPath_proper url) hstart)
    (strip_wild (ofPath_proper p) hw)
  refine ⟨w, h1, h2, h3, ?_, fun v hv hs => ?_⟩
  · have := h4 c.toTreePath
    simpa [CertEntry.toTreePath] using this
  · have : v.wildLabels ∈ ws := by
      rw [toTreePath_exact, toTreePath_wild, hen] at h5
      simp only [Option.some.injEq] at h5
      rw [← h5, if_pos hm.1, if_neg]
      · exact (mem_enum hm).2 ⟨v, hv, hs, rfl⟩
      · rintro ⟨x1, x2, x3⟩
        have := hm.2 x1 x2
        rw [x3] at this; simp at this
    exact h6 _ this

/-! ### Concrete instances -/

section examples

def h0 : Hash := ⟨List.replicate 32 0, by simp⟩
def h1 : Hash := ⟨List.replicate 32 1, by simp⟩

def exCtOps : List CtOp :=
  [.insert ⟨.wildcard (str "/a"), .responseOnly h1 h0⟩, .insert ⟨.exact (str "/a/b"), .full h1 h0 h1⟩,
   .insert ⟨.exact (str "/c"), .responseOnly h1 h1⟩, .delete ⟨.exact (str "/c"), .responseOnly h1 h1⟩]

example : ctSpec exCtOps (CertEntry.mk (.exact (str "/a/b")) (.full h1 h0 h1)).toTreePath := by
  simp [ctSpec, exCtOps, CtOp.spec]
  decide
example : ¬ ctSpec exCtOps (CertEntry.mk (.exact (str "/c")) (.responseOnly h1 h1)).toTreePath := by
  simp [ctSpec, exCtOps, CtOp.spec]
example : ∀ o ∈ exCtOps, ∀ f, o.entry? = some f → f.path.Clean := by
  simp [exCtOps, CtOp.entry?, HttpPath.Clean, HttpPath.url]; decide
example : ∀ o ∈ exCtOps, ∀ f, o.entry? = some f → f.cert.celHash = h1 → f.cert.isSkip = false := by
  simp [exCtOps, CtOp.entry?, HttpCert.isSkip]
/-- the wildcard witness for `/a/x`: the entry is found, the exact path and the more specific wildcards absent -/
example : letI := toySHA; (do
    let t ← ctRun exCtOps
    match ← t.witness ⟨.wildcard (str "/a"), .responseOnly h1 h0⟩ (str "/a/x") with
    | .error _ => none
    | .ok w => some (w.lookupSubtree [str "http_expr", str "a", str "<*>", h1.1, [], h0.1],
        w.lookupSubtree [str "http_expr", str "a", str "x", str "<$>"],
        w.lookupSubtree [str "http_expr", str "a", str "x", str "<*>"],
        w.lookupSubtree [str "http_expr", str "a", [], str "<*>"])) =
    some (.found (.leaf []), .absent, .absent, .absent) := by
  let _ := toySHA; rfl

/-- The proviso of C20 is needed: a skip entry and another entry at the same path with one expression hash
overwrite each other. -/
theorem C20_clash : letI := toySHA; (do
    let t ← ctRun [.insert ⟨.exact (str "/a"), .responseOnly h1 h0⟩, .insert ⟨.exact (str "/a"), .skip h1⟩]
    some (t.full.lookupSubtree [str "http_expr", str "a", str "<$>", h1.1, [], h0.1])) = some .absent := by
  let _ := toySHA; rfl

/-- The proviso about imitating URLs is needed: the URL `/a/<$>/(expression hash)` replaces the skip certification
of `/a`. -/
theorem C20_imitation : letI := toySHA; (do
    let t ← ctRun [.insert ⟨.exact (str "/a"), .skip h1⟩, .insert ⟨.exact (str "/a/<$>/" ++ h1.1), .skip h1⟩]
    match t.full.lookupSubtree [str "http_expr", str "a", str "<$>", h1.1] with
    | .found (.leaf _) => some true
    | _ => some false) = some false := by
  let _ := toySHA; rfl

end examples
end Verif.Props
