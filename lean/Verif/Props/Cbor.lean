import Verif.Lemmas.Cbor
import Verif.Spec.Toy

set_option linter.unusedSimpArgs false

/-!
# C36, C37, C38: CBOR
-/

namespace Verif.Props

open Verif

/-! ## C36 -/

/-- **C36** Parsing the CBOR written for any hash tree returns that tree, with and without the self-describing tag
that `add_v2_certificate_header` puts in front. The machine must be able to represent the lengths in the tree and to
hold as many nested calls as the tree has levels. -/
theorem C36_tree_roundtrip (m : Machine) (t : HashTree) (hm : 32 < m.usize) (hf : t.Fits m)
    (hs : t.height + 3 ≤ m.stack) :
    treeFromCbor m (encTree t) = some (.ok t) ∧ treeFromCbor m (selfDescribe ++ encTree t) = some (.ok t) := by
  have h := reads_tree hm t hf
  constructor
  · rw [treeFromCbor, parseCbor_of_reads h (by omega)]
    exact congrArg some (cborToTree_treeValue t)
  · rw [treeFromCbor, parseCbor_of_reads (reads_selfDescribe h) (by omega)]
    exact congrArg some (cborToTree_treeValue t)

theorem HashTree.Fits.stack {m : Machine} {t : HashTree} (h : t.Fits m) (s : Nat) : t.Fits { m with stack := s } := by
  induction t <;> simp_all [HashTree.Fits, Machine.Fits]

/-- **C36** Hence two trees with the same CBOR are the same tree. -/
theorem C36_tree_injective (m : Machine) (t u : HashTree) (hm : 32 < m.usize) (hf : t.Fits m) (hf' : u.Fits m)
    (h : encTree t = encTree u) : t = u := by
  have h1 := C36_tree_roundtrip { m with stack := t.height + u.height + 3 } t hm
    (HashTree.Fits.stack hf _) (by simp only; omega)
  have h2 := C36_tree_roundtrip { m with stack := t.height + u.height + 3 } u hm
    (HashTree.Fits.stack hf' _) (by simp only; omega)
  rw [h] at h1
  have := h1.1.symm.trans h2.1
  simpa using this

/-! ## C37 -/

theorem chars_str {s : String} (h : s.toList.all (·.toNat < 128) = true) : (chars (str s)).isSome := by
  rw [str_eq_utf8 h, chars_utf8]; rfl


theorem fits_small {m : Machine} (hm : 32 < m.usize) {n : Nat} (h : n ≤ 32) : m.Fits n := ⟨by omega, by omega⟩

def delegationValue (d : Delegation) : CborValue :=
  .map [(str "subnet_id", .bytes d.subnetId), (str "certificate", .bytes d.certificate)]

theorem reads_delegation {m : Machine} (hm : 32 < m.usize) (hc : 3 ≤ m.mapCap) {d : Delegation}
    (h1 : m.Fits d.subnetId.length) (h2 : m.Fits d.certificate.length) :
    CReads m 2 (encDelegation d) (delegationValue d) := by
  have := reads_map (m := m) (d := 1) le_rfl
    (l := [(str "subnet_id", encBytes d.subnetId, .bytes d.subnetId),
      (str "certificate", encBytes d.certificate, .bytes d.certificate)])
    (fits_small hm (by simp)) (by simp; omega) (by
      intro x hx
      simp only [List.mem_cons, List.not_mem_nil, or_false] at hx
      rcases hx with rfl | rfl
      · exact ⟨chars_str rfl, fits_small hm (Nat.le_of_ble_eq_true rfl), reads_bytes h1⟩
      · exact ⟨chars_str rfl, fits_small hm (Nat.le_of_ble_eq_true rfl), reads_bytes h2⟩)
  simpa [encDelegation, delegationValue] using this

/-- **C37** Parsing the CBOR written for any certificate, with or without a delegation and with or without the
self-describing tag, returns that certificate. -/
theorem C37_certificate_roundtrip (m : Machine) (c : Certificate) (hm : 32 < m.usize) (hcap : 3 ≤ m.mapCap)
    (ht : c.tree.Fits m) (hsig : m.Fits c.signature.length)
    (hdel : ∀ d, c.delegation = some d → m.Fits d.subnetId.length ∧ m.Fits d.certificate.length)
    (hs : c.tree.height + 4 ≤ m.stack) :
    certificateFromCbor m (encCertificate c) = some (.ok c) ∧
      certificateFromCbor m (selfDescribe ++ encCertificate c) = some (.ok c) := by
  obtain ⟨v, hv, hv'⟩ : ∃ v, CReads m (c.tree.height + 3) (encCertificate c) v ∧ cborToCertificate v = .ok c := by
    obtain ⟨tree, signature, delegation⟩ := c
    cases delegation with
    | none =>
      refine ⟨.map [(str "tree", treeValue tree), (str "signature", .bytes signature)], ?_, ?_⟩
      · have := reads_map (m := m) (d := tree.height + 2) (by omega)
          (l := [(str "tree", encTree tree, treeValue tree), (str "signature", encBytes signature, .bytes signature)])
          (fits_small hm (by simp)) (by simp; omega) (by
            intro x hx
            simp only [List.mem_cons, List.not_mem_nil, or_false] at hx
            rcases hx with rfl | rfl
            · exact ⟨chars_str rfl, fits_small hm (Nat.le_of_ble_eq_true rfl), reads_tree hm tree ht⟩
            · exact ⟨chars_str rfl, fits_small hm (Nat.le_of_ble_eq_true rfl), (reads_bytes hsig).mono (by omega)⟩)
        simpa [encCertificate] using this
      · have e1 : (str "signature" == str "tree") = false := by decide
        have e2 : (str "signature" == str "delegation") = false := by decide
        have e3 : (str "tree" == str "delegation") = false := by decide
        simp [cborToCertificate, cborGet, e1, e2, e3, cborToTree_treeValue]
    | some d =>
      obtain ⟨h1, h2⟩ := hdel d rfl
      refine ⟨.map [(str "tree", treeValue tree), (str "signature", .bytes signature),
        (str "delegation", delegationValue d)], ?_, ?_⟩
      · have := reads_map (m := m) (d := tree.height + 2) (by omega)
          (l := [(str "tree", encTree tree, treeValue tree), (str "signature", encBytes signature, .bytes signature),
            (str "delegation", encDelegation d, delegationValue d)])
          (fits_small hm (by simp)) (by simp; omega) (by
            intro x hx
            simp only [List.mem_cons, List.not_mem_nil, or_false] at hx
            rcases hx with rfl | rfl | rfl
            · exact ⟨chars_str rfl, fits_small hm (Nat.le_of_ble_eq_true rfl), reads_tree hm tree ht⟩
            · exact ⟨chars_str rfl, fits_small hm (Nat.le_of_ble_eq_true rfl), (reads_bytes hsig).mono (by omega)⟩
            · exact ⟨chars_str rfl, fits_small hm (Nat.le_of_ble_eq_true rfl), (reads_delegation hm hcap h1 h2).mono (by omega)⟩)
        simpa [encCertificate] using this
      · have e1 : (str "signature" == str "tree") = false := by decide
        have e2 : (str "delegation" == str "tree") = false := by decide
        have e3 : (str "delegation" == str "signature") = false := by decide
        have e4 : (str "certificate" == str "subnet_id") = false := by decide
        simp [cborToCertificate, cborGet, e1, e2, e3, e4, cborToTree_treeValue, delegationValue]
  constructor
  · rw [certificateFromCbor, parseCbor_of_reads hv (by omega)]
    exact congrArg some hv'
  · rw [certificateFromCbor, parseCbor_of_reads (reads_selfDescribe hv) (by omega)]
    exact congrArg some hv'

theorem cborToRanges_values : ∀ l : List (Bytes × Bytes), (∀ p ∈ l, p.1.length ≤ 29 ∧ p.2.length ≤ 29) →
    cborToRanges (l.map (fun p => .array [.bytes p.1, .bytes p.2])) = some (.ok l)
  | [], _ => rfl
  | p :: l, h => by
    have ih := cborToRanges_values l (fun q hq => h q (by simp [hq]))
    obtain ⟨h1, h2⟩ := h p (by simp)
    simp [cborToRanges, ih, principalFromSlice, h1, h2, Except.map]

/-- **C37** Parsing the CBOR of a list of canister ranges returns the ranges (a principal has at most 29 bytes). -/
theorem C37_ranges_roundtrip (m : Machine) (l : List (Bytes × Bytes)) (hm : 32 < m.usize) (hl : m.Fits l.length)
    (hp : ∀ p ∈ l, p.1.length ≤ 29 ∧ p.2.length ≤ 29) (hs : 4 ≤ m.stack) :
    rangesFromCbor m (encRanges l) = some (.ok l) ∧ rangesFromCbor m (selfDescribe ++ encRanges l) = some (.ok l) := by
  have h : CReads m 3 (encRanges l) (.array (l.map (fun p => .array [.bytes p.1, .bytes p.2]))) := by
    have := reads_array' (m := m) (d := 2)
      (l := l.map (fun p => (encHead 4 2 ++ (encBytes p.1 ++ encBytes p.2), CborValue.array [.bytes p.1, .bytes p.2])))
      (by simpa using hl) (by
        intro x hx
        simp only [List.mem_map] at hx
        obtain ⟨p, hpl, rfl⟩ := hx
        obtain ⟨h1, h2⟩ := hp p hpl
        exact reads_array2 hm (reads_bytes (fits_small hm (by omega))) (reads_bytes (fits_small hm (by omega))))
    simpa [encRanges, List.flatMap_map, Function.comp_def] using this
  constructor
  · rw [rangesFromCbor, parseCbor_of_reads h (by omega)]
    exact cborToRanges_values l hp
  · rw [rangesFromCbor, parseCbor_of_reads (reads_selfDescribe h) (by omega)]
    exact cborToRanges_values l hp

theorem cborToStrings_values : ∀ l : List Bytes, (∀ s ∈ l, (chars s).isSome) →
    cborToStrings (l.map .bytes) = .ok l
  | [], _ => rfl
  | p :: l, h => by
    have ih := cborToStrings_values l (fun q hq => h q (by simp [hq]))
    have h1 := h p (by simp)
    simp [cborToStrings, ih, h1, Except.map]

/-- **C37** Parsing the CBOR of a list of strings (as written for the expression path) returns the list. -/
theorem C37_strings_roundtrip (m : Machine) (l : List Bytes) (hl : m.Fits l.length)
    (hp : ∀ s ∈ l, (chars s).isSome ∧ m.Fits s.length) (hs : 3 ≤ m.stack) :
    stringsFromCbor m (encStrings l) = some (.ok l) ∧ stringsFromCbor m (selfDescribe ++ encStrings l) = some (.ok l) := by
  have h : CReads m 2 (encStrings l) (.array (l.map .bytes)) := by
    have := reads_array' (m := m) (d := 1) (l := l.map (fun s => (encText s, CborValue.bytes s)))
      (by simpa using hl) (by
        intro x hx
        simp only [List.mem_map] at hx
        obtain ⟨p, hpl, rfl⟩ := hx
        exact reads_text (hp p hpl).2)
    simpa [encStrings, List.flatMap_map, Function.comp_def] using this
  constructor
  · rw [stringsFromCbor, parseCbor_of_reads h (by omega)]
    exact congrArg some (cborToStrings_values l (fun s hs => (hp s hs).1))
  · rw [stringsFromCbor, parseCbor_of_reads (reads_selfDescribe h) (by omega)]
    exact congrArg some (cborToStrings_values l (fun s hs => (hp s hs).1))

/-! ## C38 -/

/-- **C38** (part) On every byte string the parser gives a value or an error, provided the stack holds one call per
byte of input and no map header in the input declares more pairs than memory can be reserved for. Without these
provisos the statement is false of the code: `C38_counterexample_map`, `C38_counterexample_stack`. -/
theorem C38_total_partial (m : Machine) (i : Bytes) (hs : i.length < m.stack) (hmap : ¬ HugeMap m i) :
    ∃ r, parseCbor m i = some r := by
  unfold parseCbor
  cases h : cborParser m m.stack i with
  | ok r v => cases r <;> exact ⟨_, rfl⟩
  | err => exact ⟨_, rfl⟩
  | crash => exact absurd (cborParser_crash m _ i hs h) hmap

/-- **C38** The proviso on maps is needed: nine bytes bring down any machine that cannot reserve space for as many
pairs as `usize` can count (no machine can). -/
theorem C38_counterexample_map (m : Machine) (hu : m.usize = 2 ^ 64 ∨ m.usize = 2 ^ 32) (hc : m.mapCap + 1 < m.usize)
    (hs : 1 ≤ m.stack) :
    parseCbor m (0xbb :: List.replicate 8 0xff) = none := by
  obtain ⟨usize, mapCap, stack, cs, hcs⟩ := m
  obtain ⟨s, rfl⟩ : ∃ k, stack = k + 1 := ⟨stack - 1, by simp at hs; omega⟩
  have hx : extractValue 0xbb (List.replicate 8 0xff) = some (⟨64, 2 ^ 64 - 1⟩, []) := by decide
  have ht : cborType 0xbb = 5 := by decide
  simp only at hu hc
  have : mapCap < (2 ^ 64 - 1) % usize := by
    rcases hu with rfl | rfl <;> omega
  unfold parseCbor cborParser
  simp only [hx, ht, CborUInt.toUsize, this, if_true]

/-- **C38** The proviso on the stack is needed: as many tag bytes as the stack holds calls overflow it. -/
theorem C38_counterexample_stack (m : Machine) : parseCbor m (List.replicate m.stack 0xc0) = none := by
  have : ∀ s, cborParser m s (List.replicate s 0xc0) = .crash := by
    intro s
    induction s with
    | zero => simp [cborParser]
    | succ s ih =>
      rw [List.replicate_succ]
      have hx : extractValue 0xc0 (List.replicate s 0xc0) = some (⟨8, 0⟩, List.replicate s 0xc0) := rfl
      have ht : cborType 0xc0 = 6 := by decide
      unfold cborParser
      simp only [hx, ht, ih]
  simp [parseCbor, this]

/-- **C38** A value is only read from the input: what is accepted with some input is not accepted when the input is
cut short or extended, unless the value contains a map (whose declared length is not enforced,
`C38_counterexample_truncated`). -/
theorem C38_trailing_rejected (m : Machine) (i x : Bytes) (v : CborValue) (h : parseCbor m i = some (.ok v))
    (hv : v.NoMap) (hx : x ≠ []) : parseCbor m (i ++ x) = some (.error .malformedCbor) := by
  unfold parseCbor at h
  split at h
  · rename_i v' hp
    simp at h
    subst h
    have := cborParser_more m x _ _ _ _ hp hv
    unfold parseCbor
    rw [this]
    cases x with
    | nil => exact absurd rfl hx
    | cons a x => rfl
  · simp at h
  · simp at h
  · simp at h

/-- **C38** Hash trees, ranges and string lists followed by anything are rejected. -/
theorem C38_trees_trailing (m : Machine) (t : HashTree) (hm : 32 < m.usize) (hf : t.Fits m)
    (hs : t.height + 3 ≤ m.stack) (x : Bytes) (hx : x ≠ []) :
    treeFromCbor m (encTree t ++ x) = some (.error .malformedCbor) := by
  have h := parseCbor_of_reads (reads_tree hm t hf) (m := m) (by omega)
  have hn : (treeValue t).NoMap := by
    clear h hf hs
    induction t with
    | empty => exact .array (by simp; exact .tag)
    | leaf b => exact .array (by simp; exact ⟨.tag, .bytes⟩)
    | pruned h => exact .array (by simp; exact ⟨.tag, .bytes⟩)
    | labeled l t ih => exact .array (by simp; exact ⟨.tag, .bytes, ih⟩)
    | fork l r ihl ihr => exact .array (by simp; exact ⟨.tag, ihl, ihr⟩)
  rw [treeFromCbor, C38_trailing_rejected m _ x _ h hn hx]
  rfl

/-- **C38** The parser never accepts the empty input, and accepted input is consumed entirely: no proper prefix of
the input is all that was read. -/
theorem C38_consumes (m : Machine) (s : Nat) (i r : Bytes) (v : CborValue) (h : cborParser m s i = .ok r v) :
    ∃ c, c ≠ [] ∧ i = c ++ r := cborParser_shrinks m s i r v h

/-- A map that declares five pairs and has none is accepted: the declared length of a map is not enforced. -/
theorem C38_counterexample_truncated (m : Machine) (hu : 5 < m.usize) (hc : 5 ≤ m.mapCap) (hs : 2 ≤ m.stack) :
    parseCbor m [0xa5] = some (.ok (.map [])) := by
  obtain ⟨usize, mapCap, stack, cs, hcs⟩ := m
  obtain ⟨s, rfl⟩ : ∃ k, stack = k + 2 := ⟨stack - 2, by simp at hs; omega⟩
  have hx : extractValue 0xa5 [] = some (⟨8, 5⟩, []) := rfl
  have ht : cborType 0xa5 = 5 := by decide
  simp only at hu hc
  have h1 : 5 % usize = 5 := Nat.mod_eq_of_lt hu
  have h2 : ¬ mapCap < 5 := by omega
  have hp : cborPairs (cborParser ⟨usize, mapCap, s + 2, cs, hcs⟩ (s + 1)) 5 [] = .ok [] [] := by
    simp [cborPairs, cborPair, cborParser]
  unfold parseCbor cborParser
  simp [hx, ht, CborUInt.toUsize, h1, h2, hp]

/-- Canister ranges holding a principal of more than 29 bytes bring the reader down: `Principal::from_slice` panics. -/
theorem C38_counterexample_principal (m : Machine) (a b : Bytes) (hm : 32 < m.usize) (ha : 29 < a.length)
    (hfa : m.Fits a.length) (hfb : m.Fits b.length) (hs : 3 ≤ m.stack) :
    rangesFromCbor m (encRanges [(a, b)]) = none := by
  have h : CReads m 3 (encRanges [(a, b)]) (.array [.array [.bytes a, .bytes b]]) := by
    have := reads_array1 hm (reads_array2 hm (reads_bytes (m := m) hfa) (reads_bytes hfb))
    simpa [encRanges] using this
  rw [rangesFromCbor, parseCbor_of_reads h hs]
  have : ¬ a.length ≤ 29 := by omega
  simp [cborToRanges, principalFromSlice, this]

/-! ### The hypotheses are met -/
section examples

def exMachine : Machine := ⟨2 ^ 64, 2 ^ 40, 1000, 1000, by decide⟩

def exCborTree : HashTree :=
  .fork (.labeled (str "a") (.leaf (str "x"))) (.labeled (str "b") (.fork .empty (.pruned ⟨List.replicate 32 7, rfl⟩)))

/-- A tree with every kind of node meets the hypotheses of C36. -/
example : treeFromCbor exMachine (encTree exCborTree) = some (.ok exCborTree) :=
  (C36_tree_roundtrip exMachine exCborTree (by decide)
    (by simp [exCborTree, HashTree.Fits, Machine.Fits, exMachine]; decide) (by decide)).1

/-- Its encoding, byte by byte. -/
example : encTree exCborTree =
    [0x83, 1, 0x83, 2, 0x41, 97, 0x82, 3, 0x41, 120, 0x83, 2, 0x41, 98, 0x83, 1, 0x81, 0, 0x82, 4, 0x58, 32] ++
      List.replicate 32 7 := by decide

/-- A certificate with a delegation. -/
def exDelegated : Certificate :=
  { tree := exCborTree, signature := str "sig", delegation := some { subnetId := str "net", certificate := str "inner" } }

example : certificateFromCbor exMachine (encCertificate exDelegated) = some (.ok exDelegated) :=
  (C37_certificate_roundtrip exMachine exDelegated (by decide) (by decide)
    (by simp [exDelegated, exCborTree, HashTree.Fits, Machine.Fits, exMachine]; decide)
    (by simp [exDelegated, Machine.Fits, exMachine]; decide)
    (by intro d hd; simp [exDelegated] at hd; subst hd; simp [Machine.Fits, exMachine]; decide)
    (by decide)).1

example : rangesFromCbor exMachine (encRanges [([1], [2, 3]), ([], [4])]) = some (.ok [([1], [2, 3]), ([], [4])]) :=
  (C37_ranges_roundtrip exMachine _ (by decide) ⟨by decide, by decide⟩ (by decide) (by decide)).1

example : stringsFromCbor exMachine (encStrings [str "http_expr", str "", str "<*>"]) =
    some (.ok [str "http_expr", str "", str "<*>"]) :=
  (C37_strings_roundtrip exMachine _ ⟨by decide, by decide⟩
    (by simp [Machine.Fits, exMachine]; decide) (by decide)).1

/-- An input that meets the provisos of C38 and is rejected. -/
example : ¬ HugeMap exMachine [0x82, 0x01] := by
  rintro ⟨pre, h, post, n, e, ⟨a, i, rfl, h1, h2, -⟩, -⟩
  have : a ∈ [(0x82 : UInt8), 0x01] := by rw [e]; simp
  simp at this
  rcases this with rfl | rfl <;> simp at h1

end examples
end Verif.Props
