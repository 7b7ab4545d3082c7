import Verif.Lemmas.Wasm
import Mathlib.Tactic.Linarith

set_option linter.unusedSimpArgs false

/-!
# Property C61: bodies given as arrays of numbers
-/

namespace Verif.Props

/-- `c` is the byte that JavaScript makes of the number `x`: the number rounded towards zero and reduced modulo 256; zero
if the number is not finite. -/
def IsByteOf (x : JsNum) (c : UInt8) : Prop :=
  match x with
  | .fin q => ∃ n k : Int, (0 ≤ q → (n : Rat) ≤ q ∧ q < n + 1) ∧ (q ≤ 0 → (n : Rat) - 1 < q ∧ q ≤ n) ∧ n = 256 * k + c.toNat
  | _ => c = 0

theorem isByteOf_toUint8 (x : JsNum) : IsByteOf x x.toUint8 := by
  cases x with
  | nan => rfl
  | inf => rfl
  | negInf => rfl
  | fin q =>
    refine ⟨truncRat q, truncRat q / 256, fun h => ?_, fun h => ?_, ?_⟩
    · unfold truncRat; rw [if_pos h]
      exact ⟨Rat.floor_le _, by have := Rat.lt_floor_add_one q; rwa [Rat.intCast_add] at this⟩
    · unfold truncRat
      split
      · next h0 =>
        have : q = 0 := le_antisymm h h0
        subst this
        have e : Rat.floor 0 = 0 := by decide +kernel
        rw [e]; exact ⟨by decide +kernel, by decide +kernel⟩
      · exact ⟨by have := Rat.ceil_lt (x := q); linarith, Rat.le_ceil⟩
    · simp only [JsNum.toUint8]
      generalize truncRat q = n
      have h1 := Int.emod_nonneg n (show (256 : Int) ≠ 0 by decide)
      have h2 := Int.emod_lt_of_pos n (show (0 : Int) < 256 by decide)
      have h3 : ((n % 256).toNat.toUInt8).toNat = (n % 256).toNat := by
        simp only [Nat.toUInt8, UInt8.toNat_ofNat']; omega
      rw [h3]; omega

theorem isByteOf_unique {x : JsNum} {a b : UInt8} (ha : IsByteOf x a) (hb : IsByteOf x b) : a = b := by
  cases x with
  | nan => exact Eq.trans ha hb.symm
  | inf => exact Eq.trans ha hb.symm
  | negInf => exact Eq.trans ha hb.symm
  | fin q =>
    obtain ⟨n, k, h1, h2, h3⟩ := ha
    obtain ⟨n', k', h1', h2', h3'⟩ := hb
    have hn : n = n' := by
      have : (n : Rat) < n' + 1 ∧ (n' : Rat) < n + 1 := by
        rcases le_total 0 q with h | h
        · have a := h1 h; have b := h1' h
          exact ⟨by linarith, by linarith⟩
        · have a := h2 h; have b := h2' h
          exact ⟨by linarith, by linarith⟩
      have x : n < n' + 1 := by exact_mod_cast this.1
      have y : n' < n + 1 := by exact_mod_cast this.2
      omega
    have la := a.toNat_lt
    have lb := b.toNat_lt
    apply UInt8.toNat_inj.1
    omega

/-- **C61**, a body given as an array of numbers is the bytes JavaScript makes of these numbers. -/
theorem C61_body_numbers (l : List JsNum) (b : Bytes) :
    JsVal.toVec (.arr (l.map .num)) = some b ↔ List.Forall₂ IsByteOf l b := by
  have e : JsVal.toVec (.arr (l.map .num)) = some (l.map JsNum.toUint8) := by
    simp only [JsVal.toVec, List.mapM_map]
    induction l with
    | nil => rfl
    | cons x l ih => simp only [List.mapM_cons, Function.comp] at ih ⊢; rw [ih]; rfl
  rw [e, Option.some.injEq]
  constructor
  · rintro rfl
    clear e
    induction l with
    | nil => exact .nil
    | cons x l ih => exact .cons (isByteOf_toUint8 x) ih
  · intro h
    clear e
    induction h with
    | nil => rfl
    | cons h _ ih => rw [List.map_cons, ih, isByteOf_unique (isByteOf_toUint8 _) h]

/-- Numbers that are no bytes. -/
example : JsVal.toVec (.arr ([.fin 300, .fin (-1), .fin (7/2), .nan, .inf].map .num)) = some [44, 255, 3, 0, 0] := by
  decide +kernel

end Verif.Props
