import Verif.Spec.EndToEnd

/-!
# Specification vocabulary: verdicts that say the same
-/

namespace Verif

/-- Two results of verification vouch for the same content: same version, and either both return no response, or both
return responses with the same status code and body and the same headers up to their order. -/
def VerificationInfo.SameUpToOrder (a b : VerificationInfo) : Prop :=
  a.version = b.version ∧
  match a.response, b.response with
  | none, none => True
  | some r, some s => r.statusCode = s.statusCode ∧ r.body = s.body ∧ r.headers.Perm s.headers
  | _, _ => False

/-- Two calls of the verifier end alike: with results that say the same, with the same error, or without returning. -/
def Out.Alike {ε : Type} : Out ε VerificationInfo → Out ε VerificationInfo → Prop
  | .ok a, .ok b => a.SameUpToOrder b
  | .err e, .err f => e = f
  | .crash, .crash => True
  | _, _ => False

/-- The responses have the same value for a header (its last occurrence counts), or both lack it. -/
def SameHeader (a b : HttpResponse) (name : Bytes) : Prop :=
  ∀ v, LastHeader a.headers name v ↔ LastHeader b.headers name v

/-- The environments differ at most in the clock and in the allowed offset. -/
def Env.SameButTime (a b : Env) : Prop :=
  a.machine = b.machine ∧ a.checks = b.checks ∧ a.canisterId = b.canisterId ∧ a.rootKey = b.rootKey

/-- The clock and the offset are such that neither their sum nor their difference leaves the range of `u128`. -/
def Env.TimeInRange (a : Env) : Prop := a.offset ≤ a.now ∧ a.now + a.offset < 2 ^ 128

end Verif
