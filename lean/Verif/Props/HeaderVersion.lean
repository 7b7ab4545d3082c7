import Verif.Props.Header
import Verif.Props.Decimal

/-!
# C34: the version field, for every text
-/

namespace Verif.Props
open Verif

/-- **C34** The version field is read as a decimal number of at most 255, which may have leading zeros and one plus sign in front of it; every
other text is refused. -/
theorem C34_version_iff (s : List Char) (n : Nat) : parseU8 s = some n ↔
    n ≤ 255 ∧ (Digits s n ∨ ∃ ds, s = '+' :: ds ∧ Digits ds n) := by
  have key : ∀ d, (if d = [] then none
      else if d.all (fun c => '0'.toNat ≤ c.toNat && c.toNat ≤ '9'.toNat) then
        let n := d.foldl (fun acc c => acc * 10 + (c.toNat - '0'.toNat)) 0
        if n ≤ 255 then some n else none
      else none) = some n ↔ n ≤ 255 ∧ Digits d n := by
    intro d
    rw [digits_iff]
    split
    · next h => simp [h]
    · next h =>
      split
      · next h' =>
        simp only
        split
        · next h2 =>
          constructor
          · intro e; cases e; exact ⟨h2, h, h', rfl⟩
          · rintro ⟨-, -, -, e⟩; rw [e]
        · next h2 =>
          constructor
          · intro e; cases e
          · rintro ⟨g, -, -, e⟩; omega
      · next h' =>
        constructor
        · intro e; cases e
        · rintro ⟨-, -, e, -⟩; exact absurd e h'
  have hplus : ∀ ds, ¬ Digits ('+' :: ds) n := by
    intro ds h
    have := ((digits_iff).1 h).2.1
    rw [List.all_cons] at this
    exact absurd this (by rw [show ('0'.toNat ≤ '+'.toNat && '+'.toNat ≤ '9'.toNat) = false from by decide]; simp)
  unfold parseU8
  simp only
  rw [key]
  cases s with
  | nil => simp [optChar]
  | cons c cs =>
    by_cases hc : c = '+'
    · subst hc
      simp [optChar, hplus]
    · simp [optChar, hc]

example : parseU8 "+002".toList = some 2 ∧ parseU8 "256".toList = none ∧ parseU8 "-1".toList = none ∧ parseU8 "".toList = none := by decide

end Verif.Props
