import Verif.Model.JsVerify
import Verif.Spec.HashTree
import Verif.Spec.RbTree

/-!
# Specification vocabulary for the certified counter
-/

namespace Verif

/-- What can happen to the counter canister. -/
inductive CounterEvent where
  | inc
  | upgrade
deriving DecidableEq

/-- The canister after a history of events since its installation. -/
def counterRun [SHA] (checks : Bool) (evs : List CounterEvent) : Option Counter :=
  evs.foldlM (fun s e => match e with | .inc => s.inc checks | .upgrade => some s.upgrade) .installed

/-- Number of increments at the end of the history: those since the last upgrade. -/
def incsAtEnd (evs : List CounterEvent) : Nat := (evs.reverse.takeWhile (· = .inc)).length

/-- The number of increments since the upgrade before the last increment, at that increment; `none` if there never was
an increment. -/
def incsAtLastInc (evs : List CounterEvent) : Option Nat :=
  match (evs.reverse.dropWhile (· = .upgrade)).takeWhile (· = .inc) with
  | [] => none
  | l => some l.length

/-- The counter after `n` increments: it wraps around, or with overflow checks stays at the greatest value. -/
def counterValue (checks : Bool) (n : Nat) : UInt32 :=
  if checks then UInt32.ofNat (min n 0xFFFFFFFF) else UInt32.ofNat n

end Verif
