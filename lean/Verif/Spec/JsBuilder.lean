import Verif.Model.JsBuilder

/-!
# Specification vocabulary for the JavaScript certificate builder
-/

namespace Verif

/-- One call of the JavaScript interface. -/
inductive JsBuilderCall where
  | withDelegation (subnet : UInt64) (ranges : List JsRange)
  | withTime (milliseconds : UInt64)
  | withInvalidSignature
deriving DecidableEq

/-- What the call does. -/
def JsBuilderCall.run [SubnetIds] (b : JsCertBuilder) : JsBuilderCall → JsCertBuilder
  | .withDelegation s r => b.withDelegation s r
  | .withTime t => b.withTime t
  | .withInvalidSignature => b.withInvalidSignature

/-- The builder after a chain of calls. -/
def jsBuilderRun [SubnetIds] (b : JsCertBuilder) (calls : List JsBuilderCall) : JsCertBuilder := calls.foldl JsBuilderCall.run b

/-- The milliseconds set last, if any. -/
def jsTimeSet (calls : List JsBuilderCall) : Option UInt64 :=
  calls.reverse.findSome? (fun c => match c with | .withTime t => some t | _ => none)

/-- The ranges of the delegation set last, if any. -/
def jsRangesSet (calls : List JsBuilderCall) : Option (List JsRange) :=
  calls.reverse.findSome? (fun c => match c with | .withDelegation _ r => some r | _ => none)

/-- The nanoseconds of a certificate without `withTime`. -/
def jsDefaultTime : Nat := 1651142233000005031

/-- The nanoseconds the certificate shows. -/
def jsNanos (calls : List JsBuilderCall) : Nat :=
  match jsTimeSet calls with
  | some ms => ms.toNat * 1000000 % 2 ^ 64
  | none => jsDefaultTime

end Verif
