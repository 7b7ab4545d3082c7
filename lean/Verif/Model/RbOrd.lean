import Verif.Model.RbTree

/-! # Ordering of red-black trees (ic-certification/src/rb_tree/mod.rs:290-309) -/

namespace Verif
namespace Rb
variable {V : Type}

/-- `Ord for (&K, &V)` (core): the keys are compared first, the values decide if the keys are equal. Keys are byte strings
(`cmpB`); the value type's `Ord` is a linear order. -/
def itemCmp [LinearOrder V] (x y : Bytes × V) : Ordering :=
  match cmpB x.1 y.1 with
  | .eq => compare x.2 y.2
  | o => o

/-- `Iterator::cmp` on two iterators (core `iter_compare`; used by `Ord for RbTree`, mod.rs:301-309): items are drawn
alternately and compared until one iterator ends or a difference shows. `fuel` bounds the `while` loop of each `next` and
`n` the number of items (`none` = out of fuel), as in `Iter.eq`. -/
def Iter.cmp [LinearOrder V] (fuel : Nat) : Nat → Iter V → Iter V → Option Ordering
  | 0, _, _ => none
  | n + 1, a, b =>
    match a.next fuel with
    | none => none
    | some (none, _) => (b.next fuel).map (fun r => if r.1.isNone then .eq else .lt)
    | some (some x, a') =>
      match b.next fuel with
      | none => none
      | some (none, _) => some .gt
      | some (some y, b') =>
        match itemCmp x y with
        | .eq => Iter.cmp fuel n a' b'
        | o => some o

/-- `PartialOrd for (&K, &V)` (core), for a value type whose `partial_cmp` is `pc`. -/
def itemPartialCmp (pc : V → V → Option Ordering) (x y : Bytes × V) : Option Ordering :=
  match cmpB x.1 y.1 with
  | .eq => pc x.2 y.2
  | o => some o

/-- `Iterator::partial_cmp` (core; used by `PartialOrd for RbTree`, mod.rs:290-298). The outer `Option` is the fuel, the
inner one the result of `partial_cmp`. -/
def Iter.partialCmp (pc : V → V → Option Ordering) (fuel : Nat) : Nat → Iter V → Iter V → Option (Option Ordering)
  | 0, _, _ => none
  | n + 1, a, b =>
    match a.next fuel with
    | none => none
    | some (none, _) => (b.next fuel).map (fun r => some (if r.1.isNone then .eq else .lt))
    | some (some x, a') =>
      match b.next fuel with
      | none => none
      | some (none, _) => some (some .gt)
      | some (some y, b') =>
        match itemPartialCmp pc x y with
        | some .eq => Iter.partialCmp pc fuel n a' b'
        | o => some o

end Rb
end Verif
