import Verif.Spec.HttpPath

set_option linter.unusedSimpArgs false

namespace Verif
open PathShape

theorem not_mem_of_mem_splitOn {α : Type} [DecidableEq α] {a : α} {p s : List α} (h : s ∈ p.splitOn a) : a ∉ s := by
  induction p generalizing s with
  | nil => simp at h; subst h; simp
  | cons x xs ih =>
    rw [List.splitOn_cons_eq_if_modifyHead] at h
    split at h
    · simp at h
      rcases h with rfl | h
      · simp
      · exact ih h
    · rename_i hx
      cases hs : xs.splitOn a with
      | nil => rw [hs] at h; simp at h
      | cons y ys =>
        rw [hs] at h ih
        simp at h
        rcases h with rfl | h
        · have := ih (s := y) (by simp)
          simp only [List.mem_cons, not_or]
          refine ⟨?_, this⟩
          rintro rfl; simp at hx
        · exact ih (by simp [h])

theorem pathSegments_ne_nil (p : Bytes) : [] ∉ pathSegments p := by
  simp [pathSegments]

theorem ofPath_proper (p : Bytes) : (ofPath p).Proper := pathSegments_ne_nil p

theorem pathParts_eq (p : Bytes) : pathParts p = (ofPath p).labels := rfl

theorem toTreePath_exact (p : Bytes) : (HttpPath.exact p).toTreePath = (ofPath p).exactLabels := rfl
theorem toTreePath_wild (p : Bytes) : (HttpPath.wildcard p).toTreePath = (ofPath p).wildLabels := rfl

theorem toExprPath_eq (p : HttpPath) : p.toExprPath = pathPrefix :: p.toTreePath := by
  cases p <;> rfl

namespace PathShape

theorem labels_inj {s t : PathShape} (hs : s.Proper) (ht : t.Proper) (h : s.labels = t.labels) : s = t := by
  obtain ⟨a, x⟩ := s
  obtain ⟨b, y⟩ := t
  simp only [labels, Proper] at *
  cases x <;> cases y <;> simp at h ⊢
  · exact h
  · subst h; simp at hs
  · subst h; simp at ht
  · exact h

theorem exactTerm_ne : exactTerm ≠ wildTerm := by decide

/-- ordinal of a shape -/
def ord (s : PathShape) : Nat := 2 * s.segs.length + (if s.slash then 1 else 0)

/-- the `i`-th prefix of a path -/
def at_ (q : PathShape) (i : Nat) : PathShape := ⟨q.segs.take (i / 2), i % 2 == 1⟩

theorem at_ord (q : PathShape) : q.at_ q.ord = q := by
  obtain ⟨a, x⟩ := q
  cases x
  · simp [at_, ord]
  · simp only [at_, ord, if_true]
    have h1 : (2 * a.length + 1) / 2 = a.length := by omega
    have h2 : (2 * a.length + 1) % 2 = 1 := by omega
    simp [h1, h2]

theorem ord_at {q : PathShape} {i : Nat} (h : i ≤ q.ord) : (q.at_ i).ord = i := by
  obtain ⟨a, x⟩ := q
  have : i / 2 ≤ a.length := by
    simp only [ord] at h
    split at h <;> omega
  rcases Nat.mod_two_eq_zero_or_one i with e | e
  · simp [at_, ord, e]; omega
  · simp [at_, ord, e]; omega

theorem at_proper {q : PathShape} (hq : q.Proper) (i : Nat) : (q.at_ i).Proper := by
  intro h
  exact hq (List.mem_of_mem_take h)

theorem matches_iff {w q : PathShape} : Matches w q ↔ ∃ i, i ≤ q.ord ∧ w = q.at_ i := by
  obtain ⟨a, x⟩ := w
  obtain ⟨b, y⟩ := q
  constructor
  · rintro ⟨h1, h2⟩
    simp only at h1 h2
    have hl := h1.length_le
    refine ⟨ord ⟨a, x⟩, ?_, ?_⟩
    · simp only [ord]
      by_cases e : a = b
      · subst e
        cases x <;> cases y <;> simp at h2 ⊢
      · have : a.length ≠ b.length := fun e' => e (h1.eq_of_length e')
        cases x <;> cases y <;> simp <;> omega
    · have := List.prefix_iff_eq_take.1 h1
      cases x
      · simp [at_, ord]; exact this
      · simp only [at_, ord, if_true]
        have h1 : (2 * a.length + 1) / 2 = a.length := by omega
        have h2 : (2 * a.length + 1) % 2 = 1 := by omega
        simp [h1, h2]; exact this
  · rintro ⟨i, hi, he⟩
    simp only [at_, PathShape.mk.injEq] at he
    obtain ⟨rfl, rfl⟩ := he
    refine ⟨List.take_prefix _ _, ?_⟩
    simp only
    intro hodd heq
    have hodd' : i % 2 = 1 := by simpa using hodd
    simp only [ord] at hi
    have hl := congrArg List.length heq
    simp at hl
    cases y
    · simp at hi; omega
    · rfl

theorem moreSpecific_iff {w r : PathShape} : MoreSpecific w r ↔ r.ord < w.ord := by
  obtain ⟨a, x⟩ := w
  obtain ⟨b, y⟩ := r
  simp only [MoreSpecific, ord]
  cases x <;> cases y <;> simp <;> omega

theorem labels_length (s : PathShape) : s.labels.length = (s.ord + 1) / 2 := by
  obtain ⟨a, x⟩ := s
  cases x <;> simp [labels, ord] <;> omega

theorem labels_getLast?_slash {s : PathShape} (h : s.slash = true) : s.labels.getLast? = some [] := by
  simp [labels, h]

theorem labels_getLast?_noslash {s : PathShape} (hp : s.Proper) (h : s.slash = false) :
    s.labels.getLast? ≠ some [] := by
  simp only [labels, h]
  intro e
  simp at e
  exact hp (List.mem_of_getLast? e)

theorem step_at {q : PathShape} (hq : q.Proper) {i : Nat} (h : i + 1 ≤ q.ord) :
    wildcardStep (q.at_ (i + 1)).labels = (q.at_ i).labels := by
  rcases Nat.mod_two_eq_zero_or_one i with e | e
  · -- i even, i+1 odd: ends with slash
    have hs : (q.at_ (i + 1)).slash = true := by simp [at_]; omega
    have hs' : (q.at_ i).slash = false := by simp [at_, e]
    rw [wildcardStep, if_pos (labels_getLast?_slash hs)]
    have : (i + 1) / 2 = i / 2 := by omega
    simp only [labels, hs, hs', if_true, List.dropLast_concat]
    simp [at_, this]
  · have hs : (q.at_ (i + 1)).slash = false := by simp [at_]; omega
    have hs' : (q.at_ i).slash = true := by simp [at_, e]
    rw [wildcardStep, if_neg (labels_getLast?_noslash (at_proper hq _) hs)]
    simp only [labels, hs, hs', if_true]
    have e1 : (i + 1) / 2 = i / 2 + 1 := by omega
    have hl : i / 2 < q.segs.length := by
      simp only [ord] at h
      split at h <;> omega
    simp only [at_, e1, if_false, Bool.false_eq_true, List.append_nil]
    rw [← List.take_concat_get' _ _ hl, List.dropLast_concat]

/-- the loop condition along the prefixes of one path -/
theorem cond_at {q : PathShape} (hq : q.Proper) {i j : Nat} (hi : i ≤ q.ord) (hj : j ≤ i) :
    ((q.at_ i).labels.length > (q.at_ j).labels.length ∨ (q.at_ i).labels.getLast? ≠ (q.at_ j).labels.getLast?) ↔ j < i := by
  rw [labels_length, labels_length, ord_at hi, ord_at (le_trans hj hi)]
  constructor
  · rintro (h | h)
    · omega
    · rcases Nat.lt_or_eq_of_le hj with h' | rfl
      · exact h'
      · exact absurd rfl h
  · intro h
    by_cases hlt : (j + 1) / 2 < (i + 1) / 2
    · exact .inl hlt
    · right
      have hs : (q.at_ i).slash = false := by simp [at_]; omega
      have hs' : (q.at_ j).slash = true := by simp [at_]; omega
      rw [labels_getLast?_slash hs']
      exact labels_getLast?_noslash (at_proper hq _) hs

/-- wildcards emitted from prefix `i` down to (excluding) prefix `j` -/
def emit (q : PathShape) (j : Nat) : Nat → List (List Bytes)
  | 0 => []
  | n + 1 => (q.at_ (j + n + 1)).wildLabels :: emit q j n

theorem loop_at {q : PathShape} (hq : q.Proper) (j n : Nat) (h : j + n ≤ q.ord) (fuel : Nat) (hf : n < fuel) :
    moreSpecificLoop fuel (q.at_ (j + n)).labels (q.at_ j).labels = some (emit q j n) := by
  induction n generalizing fuel with
  | zero =>
    cases fuel with
    | zero => omega
    | succ f =>
      rw [moreSpecificLoop, if_neg]
      · rfl
      · rw [cond_at hq (by omega) (by omega)]; omega
  | succ n ih =>
    cases fuel with
    | zero => omega
    | succ f =>
      rw [moreSpecificLoop, if_pos ((cond_at hq (by omega) (by omega)).2 (by omega))]
      rw [← Nat.add_assoc, step_at hq (by omega), ih (by omega) f (by omega)]
      rfl

theorem mem_emit {q : PathShape} {j n : Nat} {p : List Bytes} :
    p ∈ emit q j n ↔ ∃ i, j < i ∧ i ≤ j + n ∧ p = (q.at_ i).wildLabels := by
  induction n with
  | zero => simp [emit]; intro x h1 h2; omega
  | succ n ih =>
    simp only [emit, List.mem_cons, ih]
    constructor
    · rintro (rfl | ⟨i, h1, h2, rfl⟩)
      · exact ⟨_, by omega, by omega, rfl⟩
      · exact ⟨i, h1, by omega, rfl⟩
    · rintro ⟨i, h1, h2, rfl⟩
      by_cases e : i = j + n + 1
      · subst e; exact .inl rfl
      · exact .inr ⟨i, h1, by omega, rfl⟩

end PathShape

/-! ### termination on arbitrary inputs -/

/-- measure of the loop -/
def loopM (pp : List Bytes) : Nat := 2 * pp.length - (if pp.getLast? = some [] then 1 else 0)

theorem loopM_step {pp : List Bytes} (h : pp ≠ []) : loopM (wildcardStep pp) < loopM pp := by
  have hl : 0 < pp.length := List.length_pos_of_ne_nil h
  unfold wildcardStep loopM
  by_cases e : pp.getLast? = some []
  · simp only [e, if_true]
    simp only [List.length_dropLast]
    split <;> omega
  · simp only [e, if_false]
    simp
    omega

theorem loop_some_mono {fuel pp r ws} (h : moreSpecificLoop fuel pp r = some ws) {fuel'} (hf : fuel ≤ fuel') :
    moreSpecificLoop fuel' pp r = some ws := by
  induction fuel generalizing fuel' pp ws with
  | zero => simp [moreSpecificLoop] at h
  | succ f ih =>
    cases fuel' with
    | zero => omega
    | succ f' =>
      simp only [moreSpecificLoop] at h ⊢
      split
      · rename_i hc
        rw [if_pos hc] at h
        cases e : moreSpecificLoop f (wildcardStep pp) r with
        | none => rw [e] at h; simp at h
        | some w =>
          rw [e] at h
          rw [ih e (by omega)]; exact h
      · rename_i hc
        rw [if_neg hc] at h; exact h

/-- shape of a responding path the loop is entered with -/
def LoopOK (pp r : List Bytes) : Prop :=
  r <+: pp ∨ (∃ rp, r = rp ++ [[]] ∧ rp <+: pp) 

theorem loopOK_of_valid {pp r : List Bytes} (h : isWildcardValid r pp = true) : LoopOK pp r := by
  unfold isWildcardValid at h
  split at h
  · rename_i h1; exact .inl (List.isPrefixOf_iff_prefix.1 h1)
  · split at h
    · rename_i h2
      right
      refine ⟨r.dropLast, ?_, List.isPrefixOf_iff_prefix.1 h⟩
      exact (List.dropLast_append_getLast? _ h2).symm
    · simp at h

theorem loop_prefix {pp r : List Bytes} (h : r <+: pp) (fuel : Nat) (hf : loopM pp < fuel) :
    ∃ ws, moreSpecificLoop fuel pp r = some ws := by
  induction fuel generalizing pp with
  | zero => omega
  | succ f ih =>
    rw [moreSpecificLoop]
    split
    · rename_i hc
      obtain ⟨s, rfl⟩ := h
      have hs : s ≠ [] := by
        rintro rfl; simp at hc
      have hne : r ++ s ≠ [] := by simp [hs]
      have hstep := loopM_step hne
      obtain ⟨s', x, rfl⟩ := List.eq_nil_or_concat s |>.resolve_left hs
      have hpre : r <+: wildcardStep (r ++ (s' ++ [x])) := by
        unfold wildcardStep
        rw [← List.append_assoc, List.dropLast_concat]
        split
        · exact ⟨s', rfl⟩
        · exact ⟨s' ++ [[]], by simp⟩
      simp only [List.concat_eq_append] at *
      obtain ⟨ws, hw⟩ := ih hpre (by omega)
      exact ⟨_, by rw [hw]; rfl⟩
    · exact ⟨_, rfl⟩

theorem loop_lenient {pp rp : List Bytes} (h : rp <+: pp) (hn : ¬ rp ++ [[]] <+: pp) (fuel : Nat)
    (hf : loopM pp + 1 < fuel) : ∃ ws, moreSpecificLoop fuel pp (rp ++ [[]]) = some ws := by
  induction fuel generalizing pp with
  | zero => omega
  | succ f ih =>
    rw [moreSpecificLoop]
    split
    · rename_i hc
      obtain ⟨s, rfl⟩ := h
      rcases List.eq_nil_or_concat s with rfl | ⟨s', x, rfl⟩
      · -- pp = rp
        simp only [List.append_nil] at *
        cases f with
        | zero => omega
        | succ f' =>
          have hlast : rp.getLast? ≠ some [] := by
            rcases hc with hc | hc
            · simp at hc; omega
            · simpa using hc
          refine ⟨_, by
            rw [wildcardStep, if_neg hlast, moreSpecificLoop, if_neg]
            · rfl
            · simp⟩
      · simp only [List.concat_eq_append] at *
        have hstep : wildcardStep (rp ++ (s' ++ [x])) = rp ++ (if x = [] then s' else s' ++ [[]]) := by
          unfold wildcardStep
          rw [← List.append_assoc, List.dropLast_concat]
          simp only [List.getLast?_append, List.getLast?_singleton, Option.some_or, Option.some.injEq]
          split <;> simp
        have hm := loopM_step (pp := rp ++ (s' ++ [x])) (by simp)
        by_cases hp : rp ++ [[]] <+: wildcardStep (rp ++ (s' ++ [x]))
        · obtain ⟨ws, hw⟩ := loop_prefix hp f (by omega)
          exact ⟨_, by rw [hw]; rfl⟩
        · obtain ⟨ws, hw⟩ := ih (pp := wildcardStep (rp ++ (s' ++ [x]))) (by rw [hstep]; simp) hp (by omega)
          exact ⟨_, by rw [hw]; rfl⟩
    · exact ⟨_, rfl⟩

theorem moreSpecific_total (req resp : List Bytes) : ∃ ws, moreSpecificWildcards req resp = some ws := by
  unfold moreSpecificWildcards
  simp only
  have hM : loopM (stripAffixes req) ≤ 2 * (stripAffixes req).length := by unfold loopM; omega
  split
  · rename_i hv
    by_cases hp : stripAffixes resp <+: stripAffixes req
    · exact loop_prefix hp _ (by omega)
    · rcases loopOK_of_valid hv with h | ⟨rp, he, h⟩
      · exact absurd h hp
      · rw [he] at hp ⊢
        exact loop_lenient h hp _ (by omega)
  · exact loop_prefix (List.nil_prefix) _ (by omega)


/-! ### the two call sites -/

namespace PathShape

theorem labels_head?_nil {q : PathShape} (hq : q.Proper) (h : q.labels.length > 1) : q.labels.head? ≠ some [] := by
  obtain ⟨a, x⟩ := q
  cases a with
  | nil => cases x <;> simp [labels] at h
  | cons s a =>
    simp only [labels, List.cons_append, List.head?_cons, Option.some.injEq, ne_eq]
    rintro rfl
    simp [Proper] at hq

theorem strip_tail {q : PathShape} (hq : q.Proper) :
    (if q.labels.length > 1 ∧ q.labels.head? = some [] then q.labels.tail else q.labels) = q.labels := by
  rw [if_neg]
  rintro ⟨h1, h2⟩
  exact labels_head?_nil hq h1 h2

/-- verifier, expression path -/
theorem strip_prefixed_wild {q : PathShape} (hq : q.Proper) : stripAffixes (pathPrefix :: q.wildLabels) = q.labels := by
  unfold stripAffixes
  simp only [List.head?_cons, if_true, List.tail_cons]
  have : q.wildLabels.getLast? = some wildTerm := by simp [wildLabels]
  simp only [this, or_true, if_true]
  simp only [wildLabels, List.dropLast_concat]
  exact strip_tail hq

/-- the last named segment is not one of the two terminators -/
def PlainEnd (q : PathShape) : Prop := q.slash = true ∨ (q.segs.getLast? ≠ some exactTerm ∧ q.segs.getLast? ≠ some wildTerm)

/-- the first named segment is not `http_expr` -/
def PlainStart (q : PathShape) : Prop := q.segs.head? ≠ some pathPrefix

theorem plainEnd_last {q : PathShape} (h : q.PlainEnd) :
    ¬ (q.labels.getLast? = some exactTerm ∨ q.labels.getLast? = some wildTerm) := by
  obtain ⟨a, x⟩ := q
  cases x
  · simp [PlainEnd] at h
    simp [labels, h]
  · simp [labels]
    decide

/-- verifier, request path -/
theorem strip_prefixed {q : PathShape} (hq : q.Proper) (he : q.PlainEnd) :
    stripAffixes (pathPrefix :: q.labels) = q.labels := by
  unfold stripAffixes
  simp only [List.head?_cons, if_true, List.tail_cons]
  rw [if_neg (plainEnd_last he)]
  exact strip_tail hq

theorem head?_of_plainStart {q : PathShape} (h : q.PlainStart) {t : Bytes} (ht : t ≠ pathPrefix) :
    (q.labels ++ [t]).head? ≠ some pathPrefix := by
  obtain ⟨a, x⟩ := q
  cases a with
  | nil =>
    cases x <;> simp [labels, ht]
    decide
  | cons s a => simpa [labels, PlainStart] using h

/-- generator -/
theorem strip_exact {q : PathShape} (hq : q.Proper) (hs : q.PlainStart) : stripAffixes q.exactLabels = q.labels := by
  unfold stripAffixes
  have h1 : q.exactLabels.head? ≠ some pathPrefix := head?_of_plainStart hs (by decide)
  have : q.exactLabels.getLast? = some exactTerm := by simp [exactLabels]
  simp only [h1, if_false, this, true_or, if_true]
  simp only [exactLabels, List.dropLast_concat]
  exact strip_tail hq

theorem strip_wild {q : PathShape} (hq : q.Proper) (hs : q.PlainStart) : stripAffixes q.wildLabels = q.labels := by
  unfold stripAffixes
  have h1 : q.wildLabels.head? ≠ some pathPrefix := head?_of_plainStart hs (by decide)
  have : q.wildLabels.getLast? = some wildTerm := by simp [wildLabels]
  simp only [h1, if_false, this, or_true, if_true]
  simp only [wildLabels, List.dropLast_concat]
  exact strip_tail hq

theorem segs_prefix_labels {a : List Bytes} {q : PathShape} (ha : [] ∉ a) : a <+: q.labels ↔ a <+: q.segs := by
  constructor
  · intro h
    simp only [labels] at h
    split at h
    · rcases List.prefix_concat_iff.1 h with rfl | h
      · simp at ha
      · exact h
    · simpa using h
  · intro h
    exact h.trans (List.prefix_append _ _)

theorem valid_iff {r q : PathShape} (hr : r.Proper) : isWildcardValid r.labels q.labels = true ↔ r.segs <+: q.segs := by
  unfold isWildcardValid
  rw [← segs_prefix_labels (q := q) hr]
  by_cases hs : r.slash = true
  · have e : r.labels = r.segs ++ [[]] := by simp [labels, hs]
    rw [e]
    simp only [List.getLast?_append, List.getLast?_singleton, Option.some_or, if_true, List.dropLast_concat]
    split
    · rename_i h
      simp only [true_iff]
      exact (List.prefix_append _ _).trans (List.isPrefixOf_iff_prefix.1 h)
    · simp
  · have hs' : r.slash = false := by simpa using hs
    have e : r.labels = r.segs := by simp [labels, hs']
    rw [e]
    split
    · rename_i h; simp only [true_iff]; exact List.isPrefixOf_iff_prefix.1 h
    · rename_i h
      rw [if_neg]
      · simp only [Bool.false_eq_true, false_iff]
        intro h'; exact h (List.isPrefixOf_iff_prefix.2 h')
      · rw [← e]; exact labels_getLast?_noslash hr hs'

/-- what the enumeration yields once the affixes are stripped -/
theorem enum_matches {q r : PathShape} (hq : q.Proper) (h : Matches r q) (fuel : Nat) (hf : q.ord < fuel) :
    moreSpecificLoop fuel q.labels r.labels = some (emit q r.ord (q.ord - r.ord)) := by
  obtain ⟨j, hj, rfl⟩ := matches_iff.1 h
  have := loop_at hq j (q.ord - j) (by omega) fuel (by omega)
  rw [ord_at hj]
  have e : j + (q.ord - j) = q.ord := by omega
  rw [e, at_ord] at this
  exact this

theorem enum_nomatch {q : PathShape} (hq : q.Proper) (fuel : Nat) (hf : q.ord < fuel) :
    moreSpecificLoop fuel q.labels [] = some (emit q 0 q.ord) := by
  have := loop_at hq 0 q.ord (by omega) fuel (by omega)
  simp only [Nat.zero_add, at_ord] at this
  exact this

theorem enum_lenient {q : PathShape} (hq : q.Proper) (hs : q.slash = false) (fuel : Nat) (hf : 1 < fuel) :
    moreSpecificLoop fuel q.labels (q.segs ++ [[]]) = some [q.wildLabels] := by
  have e : q.labels = q.segs := by simp [labels, hs]
  have hl := labels_getLast?_noslash hq hs
  obtain ⟨f, rfl⟩ : ∃ f, fuel = f + 2 := ⟨fuel - 2, by omega⟩
  rw [moreSpecificLoop, if_pos, moreSpecificLoop, if_neg]
  · rfl
  · rw [wildcardStep, if_neg hl, e]
    simp
  · right; simpa using hl

theorem ord_bound (q : PathShape) : q.ord < 2 * q.labels.length + 3 := by
  obtain ⟨a, x⟩ := q
  cases x <;> simp [ord, labels] <;> omega

/-- the enumeration on stripped paths -/
theorem enum_eq {q r : PathShape} (hq : q.Proper) (hr : r.Proper) {Q R : List Bytes} (hQ : stripAffixes Q = q.labels)
    (hR : stripAffixes R = r.labels) :
    moreSpecificWildcards Q R = some
      (if r.segs <+: q.segs then
        (if r.slash = true ∧ r.segs = q.segs ∧ q.slash = false then [q.wildLabels] else emit q r.ord (q.ord - r.ord))
       else emit q 0 q.ord) := by
  unfold moreSpecificWildcards
  simp only [hQ, hR, valid_iff hr]
  have hb := ord_bound q
  by_cases h : r.segs <+: q.segs
  · rw [if_pos h, if_pos h]
    by_cases h2 : r.slash = true ∧ r.segs = q.segs ∧ q.slash = false
    · rw [if_pos h2]
      have : r.labels = q.segs ++ [[]] := by simp [labels, h2.1, h2.2.1]
      rw [this]
      exact enum_lenient hq h2.2.2 _ (by omega)
    · rw [if_neg h2]
      refine enum_matches hq ⟨h, fun h3 h4 => ?_⟩ _ hb
      by_contra h5
      exact h2 ⟨h3, h4, by simpa using h5⟩
  · rw [if_neg h, if_neg h]
    exact enum_nomatch hq _ hb

/-- members of the enumeration for a matching wildcard -/
theorem mem_enum {q r : PathShape} (h : Matches r q) {p : List Bytes} :
    p ∈ emit q r.ord (q.ord - r.ord) ↔ ∃ w, Matches w q ∧ MoreSpecific w r ∧ p = w.wildLabels := by
  obtain ⟨j, hj, he⟩ := matches_iff.1 h
  have hro : r.ord = j := by rw [he, ord_at hj]
  rw [mem_emit]
  constructor
  · rintro ⟨i, h1, h2, rfl⟩
    refine ⟨q.at_ i, matches_iff.2 ⟨i, by omega, rfl⟩, moreSpecific_iff.2 ?_, rfl⟩
    rw [ord_at (by omega)]; omega
  · rintro ⟨w, h1, h2, rfl⟩
    obtain ⟨i, hi, rfl⟩ := matches_iff.1 h1
    have := moreSpecific_iff.1 h2
    rw [ord_at hi] at this
    exact ⟨i, by omega, by omega, rfl⟩

/-- members of the enumeration when the responding path does not match -/
theorem mem_enum_all {q : PathShape} {p : List Bytes} :
    p ∈ emit q 0 q.ord ↔ ∃ w, Matches w q ∧ MoreSpecific w ⟨[], false⟩ ∧ p = w.wildLabels := by
  have hm : Matches ⟨[], false⟩ q := ⟨List.nil_prefix, by simp⟩
  have := mem_enum hm (p := p)
  simpa [ord] using this

end PathShape
end Verif
