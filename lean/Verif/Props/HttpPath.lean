import Verif.Lemmas.HttpPath

set_option linter.unusedSimpArgs false

/-!
# Properties C18, C19: HTTP paths and the enumeration of more specific wildcards
-/

namespace Verif.Props
open Verif PathShape

/-- **C18.** An exact path and a wildcard path never have the same tree path.
-/
theorem C18_exact_ne_wildcard (p q : Bytes) :
    (HttpPath.exact p).toTreePath ≠ (HttpPath.wildcard q).toTreePath := by
  rw [toTreePath_exact, toTreePath_wild]
  intro h
  have := congrArg List.getLast? h
  simp [exactLabels, wildLabels] at this
  exact exactTerm_ne this

/-- **C18.** Two exact paths share a tree path iff they have the same non-empty segments and agree on the
trailing slash. -/
theorem C18_exact_inj (p q : Bytes) : (HttpPath.exact p).toTreePath = (HttpPath.exact q).toTreePath ↔
    (pathSegments p = pathSegments q ∧ endsWithSlash p = endsWithSlash q) := by
  rw [toTreePath_exact, toTreePath_exact]
  simp only [exactLabels, List.append_cancel_right_eq]
  constructor
  · intro h
    have := labels_inj (ofPath_proper p) (ofPath_proper q) h
    simpa [ofPath] using this
  · rintro ⟨h1, h2⟩
    simp [ofPath, h1, h2]

/-- **C18.** The same for wildcard paths. -/
theorem C18_wildcard_inj (p q : Bytes) : (HttpPath.wildcard p).toTreePath = (HttpPath.wildcard q).toTreePath ↔
    (pathSegments p = pathSegments q ∧ endsWithSlash p = endsWithSlash q) := by
  rw [toTreePath_wild, toTreePath_wild]
  simp only [wildLabels, List.append_cancel_right_eq]
  constructor
  · intro h
    have := labels_inj (ofPath_proper p) (ofPath_proper q) h
    simpa [ofPath] using this
  · rintro ⟨h1, h2⟩
    simp [ofPath, h1, h2]

/-- **C18.** The expression path is the tree path under the `http_expr` label. -/
theorem C18_expr_path (p : HttpPath) : p.toExprPath = str "http_expr" :: p.toTreePath := toExprPath_eq p

/-- **C18.** What the segments of a path are: the maximal runs between slashes, without the empty ones. Joining
the split parts by slashes gives the path back and no part contains a slash. -/
theorem C18_segments (p : Bytes) :
    [slashByte].intercalate (p.splitOn slashByte) = p ∧
    (∀ s ∈ pathSegments p, s ≠ [] ∧ slashByte ∉ s) ∧
    pathSegments p = (p.splitOn slashByte).filter (· ≠ []) := by
  refine ⟨List.intercalate_splitOn slashByte, fun s hs => ⟨fun h => pathSegments_ne_nil p (h ▸ hs), ?_⟩, ?_⟩
  · have hs' : s ∈ p.splitOn slashByte := List.mem_of_mem_filter hs
    intro h
    exact not_mem_of_mem_splitOn hs' h
  · unfold pathSegments
    congr 1
    funext e
    cases e <;> simp

/-- **C19**, termination: the enumeration finishes on every pair of paths. -/
theorem C19_terminates (requested responding : List Bytes) :
    ∃ ws, moreSpecificWildcards requested responding = some ws :=
  moreSpecific_total requested responding

/-- **C19** at the tree (the call in `HttpCertificationTree::witness`): for a URL `url` matched by the
wildcard path `w`, the enumeration yields exactly the tree paths of the wildcards that match `url` and are
strictly more specific than `w`.

Missing from the full statement: URLs whose first segment is `http_expr` (`C19_counterexample_prefix` shows that
the claim is false for them). -/
theorem C19_exact_tree_partial {url w : Bytes} (hm : Matches (ofPath w) (ofPath url))
    (h : (pathSegments url).head? ≠ some (str "http_expr")) :
    ∃ ws, moreSpecificWildcards (HttpPath.exact url).toTreePath (HttpPath.wildcard w).toTreePath = some ws ∧
      ∀ p, p ∈ ws ↔ ∃ v, Matches v (ofPath url) ∧ MoreSpecific v (ofPath w) ∧ p = v.labels ++ [str "<*>"] := by
  have hw : (ofPath w).PlainStart := by
    intro h'
    apply h
    obtain ⟨t, ht⟩ := hm.1
    have e : pathSegments url = (ofPath w).segs ++ t := ht.symm
    rw [e]
    cases hs : (ofPath w).segs with
    | nil => rw [hs] at h'; simp at h'
    | cons a b => rw [hs] at h'; exact h'
  have := enum_eq (ofPath_proper url) (ofPath_proper w) (strip_exact (ofPath_proper url) h)
    (strip_wild (ofPath_proper w) hw)
  refine ⟨_, this, fun p => ?_⟩
  rw [if_pos hm.1, if_neg]
  · exact mem_enum hm
  · rintro ⟨h1, h2, h3⟩
    have := hm.2 h1 h2
    rw [h3] at this; simp at this

/-- **C19** at the verifier (the call in `validate_expr_path`): the same, with `http_expr` prepended to both.

Missing from the full statement: URLs whose last segment is literally `<$>` or `<*>` (after percent decoding);
`C19_counterexample_suffix` shows that the claim is false for them. -/
theorem C19_exact_verifier_partial {url w : Bytes} (hm : Matches (ofPath w) (ofPath url))
    (h : endsWithSlash url = true ∨
      (pathSegments url).getLast? ≠ some (str "<$>") ∧ (pathSegments url).getLast? ≠ some (str "<*>")) :
    ∃ ws, moreSpecificWildcards (str "http_expr" :: pathParts url) (HttpPath.wildcard w).toExprPath = some ws ∧
      ∀ p, p ∈ ws ↔ ∃ v, Matches v (ofPath url) ∧ MoreSpecific v (ofPath w) ∧ p = v.labels ++ [str "<*>"] := by
  rw [toExprPath_eq, toTreePath_wild]
  have := enum_eq (ofPath_proper url) (ofPath_proper w) (strip_prefixed (ofPath_proper url) h)
    (strip_prefixed_wild (ofPath_proper w))
  refine ⟨_, this, fun p => ?_⟩
  rw [if_pos hm.1, if_neg]
  · exact mem_enum hm
  · rintro ⟨h1, h2, h3⟩
    have := hm.2 h1 h2
    rw [h3] at this; simp at this

/-- **C19**: if the wildcard does not match at all, every wildcard matching the URL is listed (except the
root wildcard without slash), as the doc comment says. -/
theorem C19_no_match_lists_all {url w : Bytes} (hm : ¬ pathSegments w <+: pathSegments url)
    (h1 : (pathSegments url).head? ≠ some (str "http_expr"))
    (h2 : (pathSegments w).head? ≠ some (str "http_expr")) :
    ∃ ws, moreSpecificWildcards (HttpPath.exact url).toTreePath (HttpPath.wildcard w).toTreePath = some ws ∧
      ∀ p, p ∈ ws ↔ ∃ v, Matches v (ofPath url) ∧ v ≠ ⟨[], false⟩ ∧ p = v.labels ++ [str "<*>"] := by
  have := enum_eq (ofPath_proper url) (ofPath_proper w) (strip_exact (ofPath_proper url) h1)
    (strip_wild (ofPath_proper w) h2)
  refine ⟨_, this, fun p => ?_⟩
  rw [if_neg (show ¬ (ofPath w).segs <+: (ofPath url).segs from hm), mem_enum_all]
  have key : ∀ v : PathShape, MoreSpecific v ⟨[], false⟩ ↔ v ≠ ⟨[], false⟩ := by
    rintro ⟨a, x⟩
    cases a <;> cases x <;> simp [MoreSpecific]
  simp only [key]
  rfl

theorem withoutPrefix_proper {q : PathShape} (h : q.Proper) : q.withoutPrefix.Proper := by
  unfold withoutPrefix
  split
  · exact fun hm => h (List.mem_of_mem_tail hm)
  · exact h

theorem withoutMark_proper {q : PathShape} (h : q.Proper) : q.withoutMark.Proper := by
  unfold withoutMark
  split
  · exact fun hm => h (List.mem_of_mem_dropLast hm)
  · exact h

theorem withoutPrefix_cons {q : PathShape} (h : q.segs.head? = some (str "http_expr")) (t : List Bytes) :
    q.labels ++ t = pathPrefix :: (q.withoutPrefix.labels ++ t) := by
  obtain ⟨a, x⟩ := q
  cases a with
  | nil => simp at h
  | cons s a =>
    simp only [List.head?_cons, Option.some.injEq] at h
    subst h
    simp [withoutPrefix, labels, pathPrefix]

theorem strip_exact_all {q : PathShape} (hq : q.Proper) : stripAffixes q.exactLabels = q.withoutPrefix.labels := by
  by_cases h : q.segs.head? = some (str "http_expr")
  · have hp := withoutPrefix_proper hq
    rw [exactLabels, withoutPrefix_cons h]
    unfold stripAffixes
    simp only [List.head?_cons, if_true, List.tail_cons, List.getLast?_concat, true_or, List.dropLast_concat]
    exact strip_tail hp
  · rw [strip_exact hq h, withoutPrefix, if_neg h]

theorem strip_wild_all {q : PathShape} (hq : q.Proper) : stripAffixes q.wildLabels = q.withoutPrefix.labels := by
  by_cases h : q.segs.head? = some (str "http_expr")
  · have hp := withoutPrefix_proper hq
    rw [wildLabels, withoutPrefix_cons h]
    unfold stripAffixes
    simp only [List.head?_cons, if_true, List.tail_cons, List.getLast?_concat, or_true, List.dropLast_concat]
    exact strip_tail hp
  · rw [strip_wild hq h, withoutPrefix, if_neg h]

theorem strip_prefixed_all {q : PathShape} (hq : q.Proper) : stripAffixes (pathPrefix :: q.labels) = q.withoutMark.labels := by
  by_cases h : q.slash = false ∧ (q.segs.getLast? = some (str "<$>") ∨ q.segs.getLast? = some (str "<*>"))
  · have hp := withoutMark_proper hq
    have e : q.labels = q.segs := by simp [labels, h.1]
    have e' : q.withoutMark.labels = q.segs.dropLast := by simp [withoutMark, if_pos h, labels]
    have ht := strip_tail hp
    rw [e'] at ht ⊢
    unfold stripAffixes
    simp only [List.head?_cons, if_true, List.tail_cons, e]
    rw [if_pos (show q.segs.getLast? = some exactTerm ∨ q.segs.getLast? = some wildTerm from h.2)]
    exact ht
  · rw [withoutMark, if_neg h]
    refine strip_prefixed hq ?_
    by_cases hs : q.slash = true
    · exact .inl hs
    · right
      have hs' : q.slash = false := by simpa using hs
      exact ⟨fun h' => h ⟨hs', .inl h'⟩, fun h' => h ⟨hs', .inr h'⟩⟩

theorem listed_iff {q r : PathShape} (hq : q.Proper) (hr : r.Proper) {Q R : List Bytes} (hQ : stripAffixes Q = q.labels)
    (hR : stripAffixes R = r.labels) :
    ∃ ws, moreSpecificWildcards Q R = some ws ∧ ∀ p, p ∈ ws ↔ ∃ v, Listed v q r ∧ p = v.labels ++ [str "<*>"] := by
  refine ⟨_, enum_eq hq hr hQ hR, fun p => ?_⟩
  by_cases h1 : r.segs <+: q.segs
  · rw [if_pos h1]
    by_cases h2 : r.slash = true ∧ r.segs = q.segs ∧ q.slash = false
    · rw [if_pos h2]
      have hm : ¬ Matches r q := by
        rintro ⟨_, h3⟩
        have := h3 h2.1 h2.2.1
        rw [h2.2.2] at this
        cases this
      have hself : Matches q q := ⟨List.prefix_rfl, fun h _ => h⟩
      simp only [Listed, if_neg hm, if_pos h2.2.1, List.mem_singleton]
      constructor
      · rintro rfl; exact ⟨q, ⟨hself, rfl⟩, rfl⟩
      · rintro ⟨v, ⟨-, rfl⟩, rfl⟩; rfl
    · rw [if_neg h2]
      have hm : Matches r q := by
        refine ⟨h1, fun h3 h4 => ?_⟩
        by_contra h5
        exact h2 ⟨h3, h4, by simpa using h5⟩
      simp only [Listed, if_pos hm, and_assoc]
      exact mem_enum hm
  · rw [if_neg h1, mem_enum_all]
    have hm : ¬ Matches r q := fun h => h1 h.1
    have he : r.segs ≠ q.segs := fun h => h1 (h ▸ List.prefix_rfl)
    have key : ∀ v : PathShape, MoreSpecific v ⟨[], false⟩ ↔ v ≠ ⟨[], false⟩ := by
      rintro ⟨a, x⟩
      cases a <;> cases x <;> simp [MoreSpecific]
    simp only [Listed, if_neg hm, if_neg he, and_assoc, key]
    rfl

/-- **C19**, what the code does for all URLs and wildcards without exception: the enumeration of the certification tree is the one of
the property for the URL and the wildcard after a first segment `http_expr` has been taken off each, and the enumeration of the
verifier is the one of the property for the URL after a last segment `<$>` or `<*>` has been taken off. -/
theorem C19_all_inputs (url w : Bytes) :
    (∃ ws, moreSpecificWildcards (HttpPath.exact url).toTreePath (HttpPath.wildcard w).toTreePath = some ws ∧
      ∀ p, p ∈ ws ↔ ∃ v, Listed v (ofPath url).withoutPrefix (ofPath w).withoutPrefix ∧ p = v.labels ++ [str "<*>"]) ∧
    (∃ ws, moreSpecificWildcards (str "http_expr" :: pathParts url) (HttpPath.wildcard w).toExprPath = some ws ∧
      ∀ p, p ∈ ws ↔ ∃ v, Listed v (ofPath url).withoutMark (ofPath w) ∧ p = v.labels ++ [str "<*>"]) := by
  constructor
  · exact listed_iff (withoutPrefix_proper (ofPath_proper url)) (withoutPrefix_proper (ofPath_proper w))
      (strip_exact_all (ofPath_proper url)) (strip_wild_all (ofPath_proper w))
  · rw [toExprPath_eq, toTreePath_wild]
    exact listed_iff (withoutMark_proper (ofPath_proper url)) (ofPath_proper w) (strip_prefixed_all (ofPath_proper url))
      (strip_prefixed_wild (ofPath_proper w))

/-! ### Concrete instances and counterexamples -/

/-- `C19_all_inputs` on the URL of `C19_counterexample_prefix`: what is listed is `/a` and `/`'s, not `/http_expr/a`. -/
example : (ofPath (str "/http_expr/a")).withoutPrefix = ⟨[str "a"], false⟩ ∧
    (ofPath (str "/a/<*>")).withoutMark = ⟨[str "a"], false⟩ ∧ (ofPath (str "/a/<*>/")).withoutMark = ⟨[str "a", str "<*>"], true⟩ := by
  refine ⟨by decide, by decide, by decide⟩

example : Matches (ofPath (str "/a")) (ofPath (str "/a//b/c")) := by
  constructor <;> decide
example : moreSpecificWildcards (HttpPath.exact (str "/a//b/c")).toTreePath (HttpPath.wildcard (str "/a")).toTreePath
    = some [[str "a", str "b", str "c", str "<*>"], [str "a", str "b", [], str "<*>"], [str "a", str "b", str "<*>"],
      [str "a", [], str "<*>"]] := by rfl

/-- the lenient case: the wildcard `/a/b/` is also tried for the URL `/a/b`, which it does not match -/
example : moreSpecificWildcards (HttpPath.exact (str "/a/b")).toTreePath (HttpPath.wildcard (str "/a/b/")).toTreePath
    = some [[str "a", str "b", str "<*>"]] ∧ ¬ Matches (ofPath (str "/a/b/")) (ofPath (str "/a/b")) := by
  refine ⟨rfl, ?_⟩
  rintro ⟨_, h⟩
  have := h (by rfl) (by rfl)
  revert this; decide

/-- The claim of C19 is false at the tree for URLs starting with `/http_expr`: the segment is mistaken for the
prefix label, so the more specific wildcard `/http_expr/a` is missing from the enumeration for the root wildcard
(and a path that does not match the URL is listed instead). -/
theorem C19_counterexample_prefix :
    ∃ url w : Bytes, Matches (ofPath w) (ofPath url) ∧
      ∃ ws, moreSpecificWildcards (HttpPath.exact url).toTreePath (HttpPath.wildcard w).toTreePath = some ws ∧
        ∃ v, Matches v (ofPath url) ∧ MoreSpecific v (ofPath w) ∧ v.labels ++ [str "<*>"] ∉ ws := by
  refine ⟨str "/http_expr/a", str "/", ⟨by decide, by decide⟩, _, rfl, ⟨[str "http_expr", str "a"], false⟩, ⟨by decide, by decide⟩, ?_, ?_⟩
  · left; decide
  · decide

/-- The claim of C19 is false at the verifier for URLs whose last segment is `<*>`: the segment is mistaken
for the terminator, so the more specific wildcard `/a/` is not looked for. -/
theorem C19_counterexample_suffix :
    ∃ url w : Bytes, Matches (ofPath w) (ofPath url) ∧
      ∃ ws, moreSpecificWildcards (str "http_expr" :: pathParts url) (HttpPath.wildcard w).toExprPath = some ws ∧
        ∃ v, Matches v (ofPath url) ∧ MoreSpecific v (ofPath w) ∧ v.labels ++ [str "<*>"] ∉ ws := by
  refine ⟨str "/a/<*>", str "/a", ⟨by decide, by decide⟩, _, rfl, ⟨[str "a"], true⟩, ⟨by decide, by decide⟩, ?_, ?_⟩
  · right; decide
  · decide

end Verif.Props
