import Verif.Model.Base64

set_option linter.unusedSimpArgs false

/-!
# C35: base64
-/

namespace Verif.Props
open Verif

theorem b64Val_char : ∀ n, n < 64 → b64Val (b64Char n) = some n := by decide

theorem b64Char_mem : ∀ (n : Nat), n < 64 → b64Char n ∈ b64Alphabet := by decide

theorem b64Char_ne_pad (n : Nat) (h : n < 64) : b64Char n ≠ '=' := by
  intro e
  have := b64Char_mem n h
  rw [e] at this
  exact absurd this (by decide)

theorem toUInt8_eq {n : Nat} {x : UInt8} (h : n = x.toNat) : n.toUInt8 = x := by
  subst h; simp

/-- **C35** Decoding the base64 written for any byte string returns it, with or without padding. -/
theorem C35_roundtrip (pad : Bool) : ∀ b : Bytes, b64Decode (b64Encode pad b) = some b
  | [] => rfl
  | [a] => by
    have ha := a.toNat_lt
    have h1 := b64Val_char (a.toNat / 4) (by omega)
    have h2 := b64Val_char (a.toNat % 4 * 16) (by omega)
    have n1 := b64Char_ne_pad (a.toNat / 4) (by omega)
    have n2 := b64Char_ne_pad (a.toNat % 4 * 16) (by omega)
    have e1 : (a.toNat / 4 * 4 + a.toNat % 4 * 16 / 16).toUInt8 = a := toUInt8_eq (by omega)
    cases pad <;>
      simp [b64Encode, b64Decode, b64Last, n1, n2, h1, h2, List.dropWhile, List.takeWhile, b64Quad] <;>
      simpa using e1
  | [a, b] => by
    have ha := a.toNat_lt
    have hb := b.toNat_lt
    have h1 := b64Val_char (a.toNat / 4) (by omega)
    have h2 := b64Val_char (a.toNat % 4 * 16 + b.toNat / 16) (by omega)
    have h3 := b64Val_char (b.toNat % 16 * 4) (by omega)
    have n1 := b64Char_ne_pad (a.toNat / 4) (by omega)
    have n2 := b64Char_ne_pad (a.toNat % 4 * 16 + b.toNat / 16) (by omega)
    have n3 := b64Char_ne_pad (b.toNat % 16 * 4) (by omega)
    have e : b64Quad (a.toNat / 4) (a.toNat % 4 * 16 + b.toNat / 16) (b.toNat % 16 * 4) 0 = [a, b, 0] := by
      unfold b64Quad
      rw [toUInt8_eq (x := a) (by omega), toUInt8_eq (x := b) (by omega), toUInt8_eq (x := 0) (by simp)]
    cases pad <;>
      simp [b64Encode, b64Decode, b64Last, n1, n2, n3, h1, h2, h3, List.dropWhile, List.takeWhile, e]
  | a :: b :: c :: rest => by
    have ih := C35_roundtrip pad rest
    have ha := a.toNat_lt
    have hb := b.toNat_lt
    have hc := c.toNat_lt
    have h1 := b64Val_char (a.toNat / 4) (by omega)
    have h2 := b64Val_char (a.toNat % 4 * 16 + b.toNat / 16) (by omega)
    have h3 := b64Val_char (b.toNat % 16 * 4 + c.toNat / 64) (by omega)
    have h4 := b64Val_char (c.toNat % 64) (by omega)
    have n1 := b64Char_ne_pad (a.toNat / 4) (by omega)
    have n2 := b64Char_ne_pad (a.toNat % 4 * 16 + b.toNat / 16) (by omega)
    have n3 := b64Char_ne_pad (b.toNat % 16 * 4 + c.toNat / 64) (by omega)
    have n4 := b64Char_ne_pad (c.toNat % 64) (by omega)
    have e : b64Quad (a.toNat / 4) (a.toNat % 4 * 16 + b.toNat / 16) (b.toNat % 16 * 4 + c.toNat / 64) (c.toNat % 64)
        = [a, b, c] := by
      unfold b64Quad
      rw [toUInt8_eq (x := a) (by omega), toUInt8_eq (x := b) (by omega), toUInt8_eq (x := c) (by omega)]
    rw [b64Encode]
    cases hr : b64Encode pad rest with
    | nil =>
      rw [hr] at ih
      simp [b64Decode, b64Last] at ih
      subst ih
      simp [b64Decode, b64Last, n1, n2, n3, n4, h1, h2, h3, h4, List.dropWhile, List.takeWhile, e]
    | cons x xs =>
      rw [hr] at ih
      rw [b64Decode, h1, h2, h3, h4, ih]
      simp [e]

/-- **C35** Hence different byte strings have different base64. -/
theorem C35_injective (pad : Bool) {b b' : Bytes} (h : b64Encode pad b = b64Encode pad b') : b = b' := by
  have := C35_roundtrip pad b
  rw [h, C35_roundtrip pad b'] at this
  simpa using this.symm

/-- **C35** What is written consists of symbols of the alphabet and padding. -/
theorem C35_alphabet (pad : Bool) : ∀ (b : Bytes), ∀ c ∈ b64Encode pad b, c ∈ b64Alphabet ∨ c = '='
  | [], c, h => by simp [b64Encode] at h
  | [a], c, h => by
    have ha := a.toNat_lt
    have m1 := b64Char_mem (a.toNat / 4) (by omega)
    have m2 := b64Char_mem (a.toNat % 4 * 16) (by omega)
    cases pad <;> simp [b64Encode] at h
    · rcases h with rfl | rfl <;> simp [*]
    · rcases h with rfl | rfl | rfl <;> simp [*]
  | [a, b], c, h => by
    have ha := a.toNat_lt
    have hb := b.toNat_lt
    have m1 := b64Char_mem (a.toNat / 4) (by omega)
    have m2 := b64Char_mem (a.toNat % 4 * 16 + b.toNat / 16) (by omega)
    have m3 := b64Char_mem (b.toNat % 16 * 4) (by omega)
    cases pad <;> simp [b64Encode] at h
    · rcases h with rfl | rfl | rfl <;> simp [*]
    · rcases h with rfl | rfl | rfl | rfl <;> simp [*]
  | x :: y :: z :: rest, c, h => by
    have ha := x.toNat_lt
    have hb := y.toNat_lt
    have hc := z.toNat_lt
    have m1 := b64Char_mem (x.toNat / 4) (by omega)
    have m2 := b64Char_mem (x.toNat % 4 * 16 + y.toNat / 16) (by omega)
    have m3 := b64Char_mem (y.toNat % 16 * 4 + z.toNat / 64) (by omega)
    have m4 := b64Char_mem (z.toNat % 64) (by omega)
    rw [b64Encode] at h
    simp only [List.mem_cons] at h
    rcases h with rfl | rfl | rfl | rfl | h
    · exact .inl m1
    · exact .inl m2
    · exact .inl m3
    · exact .inl m4
    · exact C35_alphabet pad rest c h

/-! ### Known strings (RFC 4648) -/
example : b64Encode true (str "foobar") = "Zm9vYmFy".toList := by decide
example : b64Encode true (str "foob") = "Zm9vYg==".toList := by decide
example : b64Decode "Zm9vYg".toList = some (str "foob") := by decide
example : b64Decode "Zm9vYg=".toList = some (str "foob") := by decide
/-- Trailing bits are ignored. -/
example : b64Decode "Zm9vYh==".toList = some (str "foob") := by decide
example : b64Decode "Zm9v=".toList = none := by decide
example : b64Decode "Zm9vY".toList = none := by decide
end Verif.Props
