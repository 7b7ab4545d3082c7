import Verif.Lemmas.AssetServe

set_option linter.unusedSimpArgs false

/-!
# Range headers
-/

namespace Verif

def digitVal (c : Char) : Nat := c.toNat - '0'.toNat

theorem digit_iff (c : Char) : ('0' ≤ c ∧ c ≤ '9') ↔ ('0'.toNat ≤ c.toNat && c.toNat ≤ '9'.toNat) = true := by
  simp only [Bool.and_eq_true, decide_eq_true_eq, Char.le_def, UInt32.le_iff_toNat_le]
  rfl

theorem digits_iff {ds : List Char} {n : Nat} : Digits ds n ↔ ds ≠ [] ∧
    ds.all (fun c => '0'.toNat ≤ c.toNat && c.toNat ≤ '9'.toNat) = true ∧
    n = ds.foldl (fun acc c => acc * 10 + (c.toNat - '0'.toNat)) 0 := by
  induction ds using List.reverseRecOn generalizing n with
  | nil =>
    constructor
    · intro h
      generalize hd : ([] : List Char) = ds at h
      cases h <;> simp at hd
    · rintro ⟨h, -⟩; exact absurd rfl h
  | append_singleton ds c ih =>
    constructor
    · intro h
      generalize hd : ds ++ [c] = l at h
      cases h with
      | one h1 h2 =>
        have : ds = [] := by cases ds with
          | nil => rfl
          | cons a ds => simp at hd
        subst this
        simp only [List.nil_append, List.cons.injEq, and_true] at hd
        subst hd
        refine ⟨by simp, ?_, by simp⟩
        simp only [List.nil_append, List.all_cons, List.all_nil, Bool.and_true]
        exact (digit_iff c).1 ⟨h1, h2⟩
      | snoc h0 h1 h2 =>
        obtain ⟨rfl, h3⟩ := List.append_inj' hd rfl
        simp only [List.cons.injEq, and_true] at h3
        subst h3
        obtain ⟨a1, a2, a3⟩ := ih.1 h0
        refine ⟨by simp, ?_, ?_⟩
        · rw [List.all_append, a2]
          simp only [List.all_cons, List.all_nil, Bool.and_true, Bool.true_and]
          exact (digit_iff c).1 ⟨h1, h2⟩
        · rw [List.foldl_append, ← a3]
          simp only [List.foldl_cons, List.foldl_nil]
          omega
    · rintro ⟨-, h1, h2⟩
      rw [List.all_append] at h1
      simp only [List.all_cons, List.all_nil, Bool.and_true] at h1
      rw [Bool.and_eq_true] at h1
      obtain ⟨d1, d2⟩ := (digit_iff c).2 h1.2
      rw [List.foldl_append] at h2
      simp only [List.foldl_cons, List.foldl_nil] at h2
      by_cases hd : ds = []
      · subst hd
        simp only [List.foldl_nil, Nat.zero_mul, Nat.zero_add] at h2
        subst h2
        exact .one d1 d2
      · have := Digits.snoc (ih.2 ⟨hd, h1.1, rfl⟩) d1 d2
        rw [h2]
        rwa [Nat.mul_comm] at this

theorem parseUsize_iff {m : Machine} {s : List Char} {n : Nat} : parseUsize m s = some n ↔ Numeral m s n := by
  have key : ∀ d : List Char, (if d = [] then none
      else if d.all (fun c => '0'.toNat ≤ c.toNat && c.toNat ≤ '9'.toNat) then
        if d.foldl (fun acc c => acc * 10 + (c.toNat - '0'.toNat)) 0 < m.usize then
          some (d.foldl (fun acc c => acc * 10 + (c.toNat - '0'.toNat)) 0) else none
      else none) = some n ↔ Digits d n ∧ n < m.usize := by
    intro d
    rw [digits_iff]
    split
    · simp_all
    · split
      · split
        · rename_i h1 h2 h3
          simp only [Option.some.injEq]
          constructor
          · rintro rfl; exact ⟨⟨h1, h2, rfl⟩, h3⟩
          · rintro ⟨⟨-, -, rfl⟩, -⟩; rfl
        · rename_i h1 h2 h3
          constructor
          · rintro ⟨⟩
          · rintro ⟨⟨-, -, rfl⟩, h⟩; exact absurd h h3
      · rename_i h1 h2
        constructor
        · rintro ⟨⟩
        · rintro ⟨⟨-, h, -⟩, -⟩; exact absurd h h2
  have hdef : parseUsize m s = some n ↔ Digits (optChar '+' s) n ∧ n < m.usize := by
    rw [← key]; rfl
  rw [hdef]
  unfold Numeral
  constructor
  · rintro ⟨h1, h2⟩
    cases s with
    | nil => exact ⟨[], [], rfl, .inl rfl, h1, h2⟩
    | cons c r =>
      simp only [optChar] at h1
      split at h1
      · rename_i hc; subst hc; exact ⟨['+'], r, rfl, .inr rfl, h1, h2⟩
      · exact ⟨[], c :: r, rfl, .inl rfl, h1, h2⟩
  · rintro ⟨sign, ds, rfl, rfl | rfl, h1, h2⟩
    · have := (digits_iff.1 h1)
      cases ds with
      | nil => exact ⟨h1, h2⟩
      | cons c r =>
        have hc : c ≠ '+' := by
          rintro rfl
          have := this.2.1
          simp only [List.all_cons, Bool.and_eq_true] at this
          exact absurd this.1 (by decide)
        simp only [List.nil_append, optChar, if_neg hc]
        exact ⟨h1, h2⟩
    · exact ⟨h1, h2⟩

theorem trimBytesEq_fix {s : List Char} (h : ¬ ∃ r, s = "bytes=".toList ++ r) : trimBytesEq s = s := by
  unfold trimBytesEq
  split
  · rename_i r; exact absurd ⟨r, rfl⟩ h
  · rfl

theorem trimBytesEq_app (s : List Char) : trimBytesEq ("bytes=".toList ++ s) = trimBytesEq s := by
  show trimBytesEq ('b' :: 'y' :: 't' :: 'e' :: 's' :: '=' :: s) = _
  rw [trimBytesEq]

theorem trimBytesEq_spec (s : List Char) : ∃ k, s = (List.replicate k "bytes=".toList).flatten ++ trimBytesEq s := by
  induction hn : s.length using Nat.strongRecOn generalizing s with
  | _ n ih =>
    by_cases h : ∃ r, s = "bytes=".toList ++ r
    · obtain ⟨r, rfl⟩ := h
      obtain ⟨k, hk⟩ := ih r.length (by rw [← hn, List.length_append]; have : "bytes=".toList.length = 6 := rfl; omega) r rfl
      refine ⟨k + 1, ?_⟩
      rw [trimBytesEq_app, List.replicate_succ, List.flatten_cons, List.append_assoc, ← hk]
    · exact ⟨0, by rw [trimBytesEq_fix h]; rfl⟩

theorem trimBytesEq_rep (k : Nat) {s : List Char} (h : ¬ ∃ r, s = "bytes=".toList ++ r) :
    trimBytesEq ((List.replicate k "bytes=".toList).flatten ++ s) = s := by
  induction k with
  | zero => exact trimBytesEq_fix h
  | succ k ih => rw [List.replicate_succ, List.flatten_cons, List.append_assoc, trimBytesEq_app, ih]

theorem numeral_char {m : Machine} {s : List Char} {n : Nat} (h : Numeral m s n) :
    s ≠ [] ∧ ∀ c ∈ s, (c = '+' ∨ ('0'.toNat ≤ c.toNat ∧ c.toNat ≤ '9'.toNat)) := by
  obtain ⟨sign, ds, rfl, hs, hd, -⟩ := h
  obtain ⟨h1, h2, -⟩ := digits_iff.1 hd
  refine ⟨by simp [h1], fun c hc => ?_⟩
  rcases List.mem_append.1 hc with hc | hc
  · rcases hs with rfl | rfl
    · simp at hc
    · left; simpa using hc
  · right
    have := List.all_eq_true.1 h2 c hc
    simpa using this

theorem numeral_not {m : Machine} {s : List Char} {n : Nat} (h : Numeral m s n) :
    (∀ c ∈ s, isWs c = false) ∧ '-' ∉ s ∧ ∀ t, ¬ ∃ r, s ++ '-' :: t = "bytes=".toList ++ r := by
  obtain ⟨h0, h1⟩ := numeral_char h
  refine ⟨fun c hc => ?_, fun hc => ?_, ?_⟩
  · rcases h1 c hc with rfl | ⟨a, b⟩
    · decide
    · unfold isWs
      have e1 : '0'.toNat = 48 := rfl
      have e2 : '9'.toNat = 57 := rfl
      rw [e1] at a; rw [e2] at b
      simp
      omega
  · rcases h1 _ hc with h | h
    · exact absurd h (by decide)
    · exact absurd h (by decide)
  · rintro t ⟨r, hr⟩
    cases s with
    | nil => exact h0 rfl
    | cons c s =>
      have : c = 'b' := by
        have := congrArg List.head? hr
        simpa using this
      subst this
      rcases h1 'b' (by simp) with h | h <;> exact absurd h (by decide)

/-- The parser of Range headers accepts exactly the ranges. -/
theorem parseRange_iff {m : Machine} {text : List Char} {b : Nat} {e : Option Nat} :
    parseRange m text = some (b, e) ↔ IsRange m text b e := by
  constructor
  · intro h
    unfold parseRange at h
    simp only at h
    split at h
    · rename_i hp
      split at h
      · rename_i bs es hsplit
        split at h
        · cases h
        · rename_i n hn
          obtain ⟨w, w', h1, h2, h3, -⟩ := trim_spec text
          obtain ⟨v, hv⟩ := List.isPrefixOf_iff_prefix.1 hp
          obtain ⟨k, hk⟩ := trimBytesEq_spec v
          have hj : trimBytesEq v = bs ++ '-' :: es := by
            have := intercalate_splitOn '-' (trimBytesEq v)
            rw [← trimBytesEq_app, hv, hsplit] at this
            rw [← trimBytesEq_app, hv, ← this]
            simp [List.intercalate, List.intersperse]
          have htext : text = w ++ (List.replicate (k + 1) "bytes=".toList).flatten ++ bs ++ '-' :: es ++ w' := by
            rw [h1]
            congr 1
            rw [← hv, hk, hj, List.replicate_succ, List.flatten_cons]
            simp
          have hw : w.all isWs = true := List.all_eq_true.2 h2
          have hw' : w'.all isWs = true := List.all_eq_true.2 h3
          split at h
          · rename_i he
            simp only [Option.some.injEq, Prod.mk.injEq] at h
            exact ⟨w, w', k, bs, es, htext, hw, hw', by rw [← h.1]; exact parseUsize_iff.1 hn, .inl ⟨he, h.2.symm⟩⟩
          · split at h
            · cases h
            · rename_i n' hn'
              split at h
              · cases h
              · simp only [Option.some.injEq, Prod.mk.injEq] at h
                exact ⟨w, w', k, bs, es, htext, hw, hw', by rw [← h.1]; exact parseUsize_iff.1 hn,
                  .inr ⟨n', parseUsize_iff.1 hn', by omega, h.2.symm⟩⟩
      · cases h
    · cases h
  · rintro ⟨w, w', k, bs, es, rfl, hw, hw', hb, he⟩
    obtain ⟨b1, b2, b3⟩ := numeral_not hb
    have hes : (∀ c ∈ es, isWs c = false) ∧ '-' ∉ es := by
      rcases he with ⟨rfl, -⟩ | ⟨n, hn, -⟩
      · simp
      · exact ⟨(numeral_not hn).1, (numeral_not hn).2.1⟩
    have htrim : trim (w ++ (List.replicate (k + 1) "bytes=".toList).flatten ++ bs ++ '-' :: es ++ w') =
        (List.replicate (k + 1) "bytes=".toList).flatten ++ (bs ++ '-' :: es) := by
      have : w ++ (List.replicate (k + 1) "bytes=".toList).flatten ++ bs ++ '-' :: es ++ w' =
          w ++ ((List.replicate (k + 1) "bytes=".toList).flatten ++ (bs ++ '-' :: es)) ++ w' := by simp
      rw [this]
      refine trim_unique (List.all_eq_true.1 hw) (List.all_eq_true.1 hw') ?_ ?_
      · intro c hc
        rw [List.replicate_succ, List.flatten_cons] at hc
        simp at hc
        subst hc; decide
      · intro c hc
        rw [List.getLast?_append, List.getLast?_append] at hc
        simp at hc
        cases hl : es.getLast? with
        | none =>
          rw [List.getLast?_cons, hl] at hc
          simp at hc
          subst hc; decide
        | some d =>
          rw [List.getLast?_cons, hl] at hc
          simp at hc
          subst hc
          rw [hes.1 _ (List.mem_of_getLast? hl)]; decide
    unfold parseRange
    simp only
    rw [htrim]
    have hpre : "bytes=".toList.isPrefixOf ((List.replicate (k + 1) "bytes=".toList).flatten ++ (bs ++ '-' :: es)) = true := by
      rw [List.isPrefixOf_iff_prefix, List.replicate_succ, List.flatten_cons, List.append_assoc]
      exact List.prefix_append _ _
    rw [if_pos hpre, trimBytesEq_rep _ (b3 es), splitOn_append_sep b2, splitOn_none hes.2]
    simp only
    rw [parseUsize_iff.2 hb]
    simp only
    rcases he with ⟨rfl, rfl⟩ | ⟨n, hn, hle, rfl⟩
    · simp
    · have hne : es ≠ [] := (numeral_char hn).1
      rw [if_neg hne, parseUsize_iff.2 hn]
      simp only
      rw [if_neg (by omega)]

end Verif
