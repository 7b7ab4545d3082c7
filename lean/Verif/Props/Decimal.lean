import Verif.Props.AssetRange

/-!
# C46: numbers in headers
-/

namespace Verif.Props
open Verif

theorem toDigits_head (n : Nat) (h : 0 < n) : (Nat.toDigits 10 n).head? ≠ some '0' := by
  induction n using Nat.strongRecOn with
  | _ n ih =>
    by_cases hn : n < 10
    · rw [Nat.toDigits_of_lt_base hn]
      have : ∀ k < 10, 0 < k → [Nat.digitChar k].head? ≠ some '0' := by decide
      exact this n hn h
    · rw [Nat.toDigits_of_base_le (by decide) (by omega)]
      have := ih (n / 10) (by omega) (by omega)
      have hne : Nat.toDigits 10 (n / 10) ≠ [] := Nat.toDigits_ne_nil
      cases hd : Nat.toDigits 10 (n / 10) with
      | nil => exact absurd hd hne
      | cons c cs => rw [hd] at this; simpa using this

/-- **C46.** The numbers in the headers Content-Length and Content-Range are written in decimal digits without leading zeros. -/
theorem C46_decimal (n : Nat) : ∃ ds, decimal n = utf8 ds ∧ Digits ds n ∧ (0 < n → ds.head? ≠ some '0') ∧ (n = 0 → ds = ['0']) := by
  refine ⟨_, decimal_utf8 n, digits_repr n, ?_, ?_⟩
  · intro h
    have hr : (Nat.repr n).toList = Nat.toDigits 10 n := by simp [Nat.repr]
    rw [hr]
    exact toDigits_head n h
  · rintro rfl; rfl

example : decimal 2000000 = str "2000000" := by decide

end Verif.Props
