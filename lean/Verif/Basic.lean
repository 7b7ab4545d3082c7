import Mathlib.Data.List.Lex
import Mathlib.Data.UInt

/-!
# Bytes and hashes

Shared vocabulary: byte strings with Rust's lexicographic slice ordering, 32-byte hashes and the
hash function, which is a parameter of the whole development.
-/

namespace Verif

/-- A Rust byte slice / `Vec<u8>`. -/
abbrev Bytes := List UInt8

/-- Rust's `Ord for [u8]`: lexicographic comparison, a proper prefix is smaller
(core library; used at ic-certification/src/hash_tree/mod.rs:431-440 and rb_tree/mod.rs:363). -/
def cmpB : Bytes → Bytes → Ordering
  | [], [] => .eq
  | [], _ :: _ => .lt
  | _ :: _, [] => .gt
  | a :: as, b :: bs => if a < b then .lt else if b < a then .gt else cmpB as bs

instance : LinearOrder UInt8 where
  le_refl a := UInt8.le_refl a
  le_trans _ _ _ := UInt8.le_trans
  lt_iff_le_not_ge a b := by
    simp only [UInt8.lt_iff_toNat_lt, UInt8.le_iff_toNat_le]; omega
  le_antisymm _ _ := UInt8.le_antisymm
  le_total a b := UInt8.le_total a b
  toDecidableLE := inferInstance
  toDecidableLT := inferInstance

theorem cmpB_lt {a b : Bytes} : cmpB a b = .lt ↔ a < b := by
  induction a generalizing b with
  | nil => cases b <;> simp [cmpB]
  | cons x xs ih =>
    cases b with
    | nil => simp [cmpB]
    | cons y ys =>
      simp only [cmpB, List.cons_lt_cons_iff]
      rcases lt_trichotomy x y with h | h | h
      · simp [h]
      · subst h; simp [ih]
      · simp [h, not_lt_of_gt h, ne_of_gt h]

theorem cmpB_eq {a b : Bytes} : cmpB a b = .eq ↔ a = b := by
  induction a generalizing b with
  | nil => cases b <;> simp [cmpB]
  | cons x xs ih =>
    cases b with
    | nil => simp [cmpB]
    | cons y ys =>
      simp only [cmpB]
      rcases lt_trichotomy x y with h | h | h
      · simp [h, ne_of_lt h]
      · subst h; simp [ih]
      · simp [h, not_lt_of_gt h, ne_of_gt h]

theorem cmpB_gt {a b : Bytes} : cmpB a b = .gt ↔ b < a := by
  rcases lt_trichotomy a b with h | h | h
  · have := cmpB_lt.2 h; simp [this, not_lt_of_gt h]
  · subst h; simp [cmpB_eq.2 (rfl : a = a)]
  · constructor
    · intro _; exact h
    · intro _
      cases hc : cmpB a b with
      | lt => exact absurd (cmpB_lt.1 hc) (not_lt_of_gt h)
      | eq => exact absurd (cmpB_eq.1 hc) (ne_of_gt h)
      | gt => rfl

/-- `key < other` on byte slices, decided by the comparison above. -/
def ltB (a b : Bytes) : Bool := cmpB a b == .lt

theorem ltB_iff {a b : Bytes} : ltB a b = true ↔ a < b := by
  unfold ltB; rw [← cmpB_lt]; cases cmpB a b <;> simp

/-- `pub type Hash = [u8; 32]` (ic-certification/src/hash_tree/mod.rs:11). -/
abbrev Hash := { b : Bytes // b.length = 32 }

/-- The hash function. SHA-256 is a parameter of the development: nothing is assumed about it
except that it maps byte strings to 32-byte strings. -/
class SHA where
  sha : Bytes → Hash

export SHA (sha)

/-- An *explicit* collision: two different strings, one from each list, with the same hash. The
lists are always the strings actually hashed by the two computations being compared, so this is
not the (trivially true) statement that collisions exist. -/
def CollisionIn [SHA] (xs ys : List Bytes) : Prop :=
  ∃ x ∈ xs, ∃ y ∈ ys, x ≠ y ∧ sha x = sha y

theorem CollisionIn.mono [SHA] {xs ys xs' ys' : List Bytes} (h : CollisionIn xs ys)
    (hx : ∀ x ∈ xs, x ∈ xs') (hy : ∀ y ∈ ys, y ∈ ys') : CollisionIn xs' ys' := by
  obtain ⟨x, hx', y, hy', h1, h2⟩ := h
  exact ⟨x, hx x hx', y, hy y hy', h1, h2⟩

/-- ASCII text as bytes (Rust `str::as_bytes` for ASCII string literals). -/
def str (s : String) : Bytes := s.toList.map (fun c => c.toNat.toUInt8)

end Verif
