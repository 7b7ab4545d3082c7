import Verif.Props.Cbor
import Verif.Props.CborGrammar

/-!
# C38: the readers of hash trees, certificates, texts and canister ranges on arbitrary bytes
-/

set_option linter.unusedSimpArgs false

namespace Verif.Props
open Verif

/-- **C38.** The readers of hash trees, certificates and texts return on every input on which the CBOR reader does: they do
not panic themselves. -/
theorem C38_documents_partial (m : Machine) (i : Bytes) (hs : i.length < m.stack) (hmap : ¬ HugeMap m i) :
    (∃ r, treeFromCbor m i = some r) ∧ (∃ r, certificateFromCbor m i = some r) ∧ (∃ r, stringsFromCbor m i = some r) := by
  obtain ⟨r, hr⟩ := C38_total_partial m i hs hmap
  exact ⟨⟨_, by rw [treeFromCbor, hr]; rfl⟩, ⟨_, by rw [certificateFromCbor, hr]; rfl⟩,
    ⟨_, by rw [stringsFromCbor, hr]; rfl⟩⟩

theorem cborToRanges_none : ∀ {vs : List CborValue}, cborToRanges vs = none ↔
    ∃ pre l a b x post, vs = pre ++ .array (.bytes a :: .bytes b :: x) :: post ∧ RangesOf pre l ∧
      (29 < a.length ∨ 29 < b.length) := by
  intro vs
  induction vs with
  | nil => simp [cborToRanges]
  | cons v vs ih =>
    constructor
    · intro h
      unfold cborToRanges at h
      split at h
      · rename_i heq; cases heq
      · rename_i a b x us heq
        cases heq
        unfold principalFromSlice at h
        by_cases ha : a.length ≤ 29
        · by_cases hb : b.length ≤ 29
          · rw [if_pos ha, if_pos hb] at h
            cases hr : cborToRanges vs with
            | none =>
              obtain ⟨pre, l, a', b', x', post, rfl, hp, hl⟩ := ih.1 hr
              exact ⟨_ :: pre, _ :: l, a', b', x', post, rfl, .cons ha hb hp, hl⟩
            | some r => rw [hr] at h; cases h
          · exact ⟨[], [], a, b, x, vs, rfl, .nil, .inr (by omega)⟩
        · exact ⟨[], [], a, b, x, vs, rfl, .nil, .inl (by omega)⟩
      · cases h
    · rintro ⟨pre, l, a, b, x, post, heq, hp, hl⟩
      cases hp with
      | nil =>
        cases heq
        by_cases ha : a.length ≤ 29
        · have hb : ¬ b.length ≤ 29 := by omega
          simp [cborToRanges, principalFromSlice, ha, hb]
        · simp [cborToRanges, principalFromSlice, ha]
      | cons ha hb hp =>
        simp only [List.cons_append, List.cons.injEq] at heq
        obtain ⟨rfl, rfl⟩ := heq
        have := ih.2 ⟨_, _, a, b, x, post, rfl, hp, hl⟩
        simp [cborToRanges, principalFromSlice, ha, hb, this]

/-- **C38.** The reader of canister ranges panics, where the CBOR reader returns, exactly on an array that holds a pair with
a principal of more than 29 bytes, after well-formed pairs only. -/
theorem C38_ranges_exact (m : Machine) (i : Bytes) (hs : i.length < m.stack) (hmap : ¬ HugeMap m i) :
    rangesFromCbor m i = none ↔
      ∃ pre l a b x post, parseCbor m i = some (.ok (.array (pre ++ .array (.bytes a :: .bytes b :: x) :: post))) ∧
        RangesOf pre l ∧ (29 < a.length ∨ 29 < b.length) := by
  obtain ⟨r, hr⟩ := C38_total_partial m i hs hmap
  unfold rangesFromCbor
  rw [hr]
  constructor
  · intro h
    split at h
    · rename_i heq; cases heq
    · cases h
    · rename_i vs heq
      cases heq
      obtain ⟨pre, l, a, b, x, post, rfl, hp, hl⟩ := cborToRanges_none.1 h
      exact ⟨pre, l, a, b, x, post, rfl, hp, hl⟩
    · cases h
  · rintro ⟨pre, l, a, b, x, post, heq, hp, hl⟩
    cases heq
    exact cborToRanges_none.2 ⟨pre, l, a, b, x, post, rfl, hp, hl⟩

/-! ### The hypotheses are met -/

/-- Stray bytes: an array of an unknown item is no tree, certificate or text; the readers return errors. -/
example : treeFromCbor exMachine [0x81, 0x07] = some (.error .malformedHashTree) ∧
    certificateFromCbor exMachine [0x81, 0x07] = some (.error .malformedCertificate) ∧
    stringsFromCbor exMachine [0x81, 0x07] = some (.error .unexpectedNodeType) := ⟨rfl, rfl, rfl⟩

/-- A long principal after a good pair: the reader panics. -/
example : rangesFromCbor exMachine ([0x82, 0x82, 0x41, 1, 0x41, 2, 0x82, 0x41, 1, 0x58, 30] ++ List.replicate 30 7) = none :=
  rfl

end Verif.Props
