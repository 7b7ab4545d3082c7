import Verif.Lemmas.Header
import Verif.Props.Cbor

set_option linter.unusedSimpArgs false

/-!
# C34: the certificate header
-/

namespace Verif.Props
open Verif

/-- **C34** On every header string: parsing succeeds exactly if the *first* `certificate` field and the first `tree`
field decode, the first `version` field (if any) is a number below 256 and the first `expr_path` field (if any)
decodes; the result consists of these first occurrences, the version defaults to 1, and nothing else in the header
matters. -/
theorem C34_first_field_wins (m : Machine) (s : List Char) (h : CertHeader) :
    headerFrom m s = .ok h ↔
      (∃ v b, FirstField s "certificate".toList v ∧ b64Decode v = some b ∧
        certificateFromCbor m b = some (.ok h.certificate)) ∧
      (∃ v b, FirstField s "tree".toList v ∧ b64Decode v = some b ∧ treeFromCbor m b = some (.ok h.tree)) ∧
      ((NoField s "version".toList ∧ h.version = 1) ∨
        ∃ v, FirstField s "version".toList v ∧ parseU8 v = some h.version) ∧
      ((NoField s "expr_path".toList ∧ h.exprPath = none) ∨
        ∃ v b p, FirstField s "expr_path".toList v ∧ b64Decode v = some b ∧ stringsFromCbor m b = some (.ok p) ∧
          h.exprPath = some p) := by
  have slot : ∀ {α : Type} {dec : List Char → Out RvError α} {name : List Char} {new : Option α},
      Slot dec none (firstVal ((s.splitOn ',').filterMap headerField) name) new ↔
        (NoField s name ∧ new = none) ∨ ∃ v x, FirstField s name v ∧ dec v = .ok x ∧ new = some x := by
    intro α dec name new
    cases hf : firstVal ((s.splitOn ',').filterMap headerField) name with
    | none =>
      have hn := firstVal_none_iff.1 hf
      constructor
      · intro h; exact .inl ⟨hn, h⟩
      · rintro (⟨_, h⟩ | ⟨v, x, h1, _⟩)
        · exact h
        · rw [firstVal_some_iff.2 h1] at hf; simp at hf
    | some v =>
      constructor
      · rintro ⟨x, h1, h2⟩; exact .inr ⟨v, x, firstVal_some_iff.1 hf, h1, h2⟩
      · rintro (⟨h, _⟩ | ⟨v', x, h1, h2, h3⟩)
        · rw [firstVal_none_iff.2 h] at hf; simp at hf
        · have := firstVal_some_iff.2 h1
          rw [hf] at this; simp at this; subst this
          exact ⟨x, h2, h3⟩
  unfold headerFrom
  simp only [Out.bind_ok, headerLoop_ok, Out.ofOption_ok, slot]
  simp only [decodeCertificate, decodeTree, decodeVersion, decodeExprPath, decodeBase64, Out.bind_ok, Out.ofOption_ok,
    Out.ofRun_ok]
  constructor
  · rintro ⟨⟨ac, at', av, ap⟩, ⟨h1, h2, h3, h4⟩, c, hc, t, ht, e⟩
    simp at hc ht e h1 h2 h3 h4
    subst hc ht
    subst e
    refine ⟨?_, ?_, ?_, ?_⟩
    · rcases h1 with ⟨_, h⟩ | ⟨v, h1, x, ⟨b, h2, h3⟩, h4⟩
      · simp at h
      · simp at h4; subst h4; exact ⟨v, b, h1, h2, h3⟩
    · rcases h2 with ⟨_, h⟩ | ⟨v, h1, x, ⟨b, h2, h3⟩, h4⟩
      · simp at h
      · simp at h4; subst h4; exact ⟨v, b, h1, h2, h3⟩
    · rcases h3 with ⟨h, h'⟩ | ⟨v, h1, x, h2, h3⟩
      · subst h'; exact .inl ⟨h, rfl⟩
      · subst h3; exact .inr ⟨v, h1, h2⟩
    · rcases h4 with ⟨h, h'⟩ | ⟨v, h1, x, ⟨b, h2, h3⟩, h4⟩
      · exact .inl ⟨h, h'⟩
      · exact .inr ⟨v, b, x, h1, h2, h3, h4⟩
  · rintro ⟨⟨v1, b1, c1, c2, c3⟩, ⟨v2, b2, d1, d2, d3⟩, h3, h4⟩
    obtain ⟨hc, ht, hv, hp⟩ := h
    simp at c3 d3 h3 h4
    have hv' : ∃ av : Option Nat, av.getD 1 = hv ∧ ((NoField s "version".toList ∧ av = none) ∨
        ∃ v x, FirstField s "version".toList v ∧ parseU8 v = some x ∧ av = some x) := by
      rcases h3 with ⟨h, rfl⟩ | ⟨v, h1, h2⟩
      · exact ⟨none, rfl, .inl ⟨h, rfl⟩⟩
      · exact ⟨some hv, rfl, .inr ⟨v, hv, h1, h2, rfl⟩⟩
    obtain ⟨av, rfl, hav⟩ := hv'
    refine ⟨⟨some hc, some ht, av, hp⟩, ⟨?_, ?_, ?_, ?_⟩, hc, rfl, ht, rfl, rfl⟩
    · exact .inr ⟨v1, hc, c1, ⟨b1, c2, c3⟩, rfl⟩
    · exact .inr ⟨v2, ht, d1, ⟨b2, d2, d3⟩, rfl⟩
    · exact hav
    · rcases h4 with h | ⟨v, h1, b, h2, p, h3, h4⟩
      · exact .inl h
      · exact .inr ⟨v, p, h1, ⟨b, h2, h3⟩, h4⟩

/-- **C34** A version number is read back from its decimal form. -/
theorem C34_version_decimal : ∀ n, n < 256 → parseU8 (Nat.toDigits 10 n) = some n := by decide +kernel

theorem b64_no_sep {c : Char} {pad : Bool} {b : Bytes} (hc : c = ',' ∨ c = ':') : c ∉ b64Encode pad b := by
  intro h
  rcases C35_alphabet pad b c h with h | h
  · rcases hc with rfl | rfl <;> exact absurd h (by decide)
  · rcases hc with rfl | rfl <;> simp at h

theorem b64Encode_ne_nil {pad : Bool} {b : Bytes} (h : b ≠ []) : b64Encode pad b ≠ [] := by
  intro e
  have := C35_roundtrip pad b
  rw [e] at this
  simp [b64Decode, b64Last] at this
  exact h this

theorem isField_wrapped {sp name value : List Char} (hsp : ∀ c ∈ sp, isWs c) (hn : '=' ∉ name) (hv : ':' ∉ value)
    (h1 : name ≠ []) (h2 : value ≠ []) (hw : ∀ c, name.head? = some c → ¬ isWs c) :
    IsField (sp ++ (name ++ "=:".toList ++ value ++ ":".toList)) name value := by
  refine ⟨sp, [], name ++ '=' :: [':'] ++ value ++ [':'], [':'], [':'], by simp, hsp, by simp, rfl, ?_, ?_, hn, hv, h1, h2,
    .inr rfl, .inr rfl⟩
  · intro c hc
    cases name with
    | nil => exact absurd rfl h1
    | cons x xs => simp at hc; exact hw c (by simp [hc])
  · intro c hc
    rw [List.getLast?_concat] at hc
    simp at hc
    subst hc
    decide

theorem joined (B1 B2 B3 : List Char) :
    "certificate=:".toList ++ B1 ++ ":, tree=:".toList ++ B2 ++ ":, expr_path=:".toList ++ B3 ++ ":, version=2".toList =
    [','].intercalate ["certificate".toList ++ "=:".toList ++ B1 ++ ":".toList,
      " ".toList ++ ("tree".toList ++ "=:".toList ++ B2 ++ ":".toList),
      " ".toList ++ ("expr_path".toList ++ "=:".toList ++ B3 ++ ":".toList), " version=2".toList] := by
  simp [List.intercalate]

/-- **C34** The header written by `add_v2_certificate_header` is parsed to the same certificate, tree, expression path
and version 2. -/
theorem C34_roundtrip (m : Machine) (dataCertificate : Bytes) (c : Certificate) (w : HashTree) (p : List Bytes)
    (hm : 32 < m.usize) (hc : certificateFromCbor m dataCertificate = some (.ok c)) (hw : w.Fits m)
    (hws : w.height + 3 ≤ m.stack) (hpl : m.Fits p.length) (hp : ∀ s ∈ p, (chars s).isSome ∧ m.Fits s.length) :
    headerFrom m (v2HeaderText dataCertificate w p) =
      .ok { certificate := c, tree := w, version := 2, exprPath := some p } := by
  have hdc : dataCertificate ≠ [] := by
    rintro rfl
    have : parseCbor m [] = none ∨ parseCbor m [] = some (.error .malformedCbor) := by
      unfold parseCbor
      cases m.stack with
      | zero => exact .inl rfl
      | succ s => exact .inr rfl
    rcases this with h | h <;> rw [certificateFromCbor, h] at hc <;> cases hc
  have hsd : ∀ x : Bytes, selfDescribe ++ x ≠ [] := by intro x h; simp at h; exact absurd h.1 (by decide)
  let T1 := "certificate".toList ++ "=:".toList ++ b64Encode true dataCertificate ++ ":".toList
  let T2 := " ".toList ++ ("tree".toList ++ "=:".toList ++ b64Encode true (selfDescribe ++ encTree w) ++ ":".toList)
  let T3 := " ".toList ++ ("expr_path".toList ++ "=:".toList ++ b64Encode true (selfDescribe ++ encStrings p) ++ ":".toList)
  let T4 := " version=2".toList
  have f1 : IsField T1 "certificate".toList (b64Encode true dataCertificate) := by
    have := isField_wrapped (sp := []) (name := "certificate".toList) (value := b64Encode true dataCertificate) (by simp)
      (by decide) (b64_no_sep (.inr rfl)) (by decide) (b64Encode_ne_nil hdc) (by decide)
    simpa [T1] using this
  have f2 : IsField T2 "tree".toList (b64Encode true (selfDescribe ++ encTree w)) :=
    isField_wrapped (by decide) (by decide) (b64_no_sep (.inr rfl)) (by decide) (b64Encode_ne_nil (hsd _)) (by decide)
  have f3 : IsField T3 "expr_path".toList (b64Encode true (selfDescribe ++ encStrings p)) :=
    isField_wrapped (by decide) (by decide) (b64_no_sep (.inr rfl)) (by decide) (b64Encode_ne_nil (hsd _)) (by decide)
  have f4 : IsField T4 "version".toList "2".toList := headerField_iff.1 (by decide)
  have ht : HeaderTexts (v2HeaderText dataCertificate w p) [T1, T2, T3, T4] := by
    refine ⟨by simp, ?_, ?_⟩
    · intro t ht
      simp only [List.mem_cons, List.not_mem_nil, or_false] at ht
      rcases ht with rfl | rfl | rfl | rfl
      · simp [T1, b64_no_sep (c := ',') (.inl rfl)]
      · simp [T2, b64_no_sep (c := ',') (.inl rfl)]
      · simp [T3, b64_no_sep (c := ',') (.inl rfl)]
      · decide
    · exact joined _ _ _
  have other : ∀ {t n v n' : List Char}, IsField t n v → n ≠ n' → ∀ v', ¬ IsField t n' v' := by
    intro t n v n' h hne v' h'
    have h1 := headerField_iff.2 h
    rw [headerField_iff.2 h'] at h1
    simp at h1
    exact hne h1.1.symm
  rw [C34_first_field_wins]
  refine ⟨⟨_, _, ⟨[], T1, [T2, T3, T4], ht, f1, by simp⟩, C35_roundtrip true _, hc⟩,
    ⟨_, _, ⟨[T1], T2, [T3, T4], ht, f2, ?_⟩, C35_roundtrip true _, (C36_tree_roundtrip m w hm hw hws).2⟩,
    .inr ⟨_, ⟨[T1, T2, T3], T4, [], ht, f4, ?_⟩, (rfl : parseU8 "2".toList = some 2)⟩,
    .inr ⟨_, _, _, ⟨[T1, T2], T3, [T4], ht, f3, ?_⟩, C35_roundtrip true _, (C37_strings_roundtrip m p hpl hp (by omega)).2, rfl⟩⟩
  · intro u hu
    simp only [List.mem_cons, List.not_mem_nil, or_false] at hu
    subst hu
    exact other f1 (by decide)
  · intro u hu
    simp only [List.mem_cons, List.not_mem_nil, or_false] at hu
    rcases hu with rfl | rfl | rfl
    · exact other f1 (by decide)
    · exact other f2 (by decide)
    · exact other f3 (by decide)
  · intro u hu
    simp only [List.mem_cons, List.not_mem_nil, or_false] at hu
    rcases hu with rfl | rfl
    · exact other f1 (by decide)
    · exact other f2 (by decide)

/-! ### The hypotheses are met -/
section examples

/-- The header of a concrete response. -/
example : headerFrom exMachine (v2HeaderText (encCertificate exDelegated) exCborTree [str "http_expr", str "a", str "<$>"]) =
    .ok { certificate := exDelegated, tree := exCborTree, version := 2,
          exprPath := some [str "http_expr", str "a", str "<$>"] } :=
  C34_roundtrip exMachine _ exDelegated exCborTree _ (by decide)
    (C37_certificate_roundtrip exMachine exDelegated (by decide) (by decide)
      (by simp [exDelegated, exCborTree, HashTree.Fits, Machine.Fits, exMachine]; decide)
      (by simp [exDelegated, Machine.Fits, exMachine]; decide)
      (by intro d hd; simp [exDelegated] at hd; subst hd; simp [Machine.Fits, exMachine]; decide)
      (by decide)).1
    (by simp [exCborTree, HashTree.Fits, Machine.Fits, exMachine]; decide) (by decide)
    ⟨by decide, by decide⟩ (by simp [Machine.Fits, exMachine]; decide)

/-- Fields with spaces, without colons, unknown fields, duplicates and junk. -/
example : (("version=2, version=3,x=:1:, junk,tree = 7".toList.splitOn ',').filterMap headerField) =
    [("version".toList, "2".toList), ("version".toList, "3".toList), ("x".toList, "1".toList), ("tree ".toList, " 7".toList)] := by
  decide

example : FirstField "a=1,b=2,a=3".toList "a".toList "1".toList := firstVal_some_iff.1 (by decide)
example : NoField "a=1,b=2,a=3".toList "c".toList := firstVal_none_iff.1 (by decide)
end examples

end Verif.Props
