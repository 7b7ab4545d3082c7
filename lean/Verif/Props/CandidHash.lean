import Verif.Model.Candid

/-!
# C69: field numbers
-/

namespace Verif.Props
open Verif

theorem idlHash_concat (b : Bytes) (x : UInt8) : idlHash (b ++ [x]) = idlHash b * 223 + x.toUInt32 := by
  simp [idlHash, List.foldl_append]

theorem sum_map_scale (k : Nat) : ∀ (l : List Nat) (f : Nat → Nat), (l.map (fun i => f i * k)).sum = (l.map f).sum * k
  | [], _ => by simp
  | a :: l, f => by
    simp only [List.map_cons, List.sum_cons, Nat.add_mul]
    rw [sum_map_scale k l f]

/-- **C69** The fields of messages are numbered as the Candid specification says: the number of a field with the name `b₀ … bₖ` is
`(b₀·223^k + … + bₖ·223^0) mod 2^32`. -/
theorem C69_field_numbers (name : Bytes) : (idlHash name).toNat =
    ((List.range name.length).map (fun i => (name.getD i 0).toNat * 223 ^ (name.length - 1 - i))).sum % 2 ^ 32 := by
  induction name using List.reverseRecOn with
  | nil => rfl
  | append_singleton b x ih =>
    have hs : (List.range (b ++ [x]).length).map (fun i => ((b ++ [x]).getD i 0).toNat * 223 ^ ((b ++ [x]).length - 1 - i)) =
        (List.range b.length).map (fun i => ((b.getD i 0).toNat * 223 ^ (b.length - 1 - i)) * 223) ++ [x.toNat] := by
      rw [List.length_append, List.length_singleton, List.range_succ, List.map_append]
      congr 1
      · apply List.map_congr_left
        intro i hi
        have hi := List.mem_range.1 hi
        have hg : (b ++ [x]).getD i 0 = b.getD i 0 := by
          simp [List.getD_eq_getElem?_getD, List.getElem?_append_left hi]
        rw [hg, Nat.mul_assoc, ← Nat.pow_succ]
        congr 2
        omega
      · simp [List.getD_eq_getElem?_getD]
    rw [hs, List.sum_append, sum_map_scale, idlHash_concat, UInt32.toNat_add, UInt32.toNat_mul, ih]
    simp only [List.sum_cons, List.sum_nil, Nat.add_zero, UInt8.toNat_toUInt32]
    have : (223 : UInt32).toNat = 223 := rfl
    rw [this, Nat.mod_mul_mod, Nat.mod_add_mod]

/-- The numbers of the fields of a request: those a Candid tool shows for them. -/
example : (idlHash (str "url")).toNat = 5843823 ∧ (idlHash (str "method")).toNat = 156956385 ∧ (idlHash (str "body")).toNat = 1092319906 ∧
    (idlHash (str "headers")).toNat = 1661489734 ∧ (idlHash (str "status_code")).toNat = 3475804314 := by decide +kernel

end Verif.Props
