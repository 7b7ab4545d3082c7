import Verif.Props.HeaderAdded
import Verif.Lemmas.Http
import Verif.Model.Verify
import Verif.Spec.Toy

/-!
# C34: the added header is the one the verifier reads
-/

set_option linter.unusedSectionVars false

namespace Verif.Props
open Verif

section
variable [SHA] [UriLib] [Bls] [Inflate]

/-- Looking up a name after removing the headers of another name. -/
theorem foldl_drop_other (p q : Header → Bool) (hpq : ∀ h, p h = true → q h = true) (hs : List Header) (acc : Option Bytes) :
    (hs.filter q).foldl (fun acc h => if p h then some h.2 else acc) acc =
      hs.foldl (fun acc h => if p h then some h.2 else acc) acc := by
  induction hs generalizing acc with
  | nil => rfl
  | cons x xs ih =>
    rw [List.filter_cons]
    split
    · simp only [List.foldl_cons]; exact ih _
    · next hq =>
      have : p x = false := by cases hp : p x with
        | false => rfl
        | true => exact absurd (hpq x hp) hq
      simp only [List.foldl_cons, this, Bool.false_eq_true, if_false]
      exact ih _

/-- **C34** Headers named `IC-Certificate` (in any case) that the response already had do not matter: with them or without them, the verifier
gives the same answer, with the same response, for the response to which the header was added. -/
theorem C34_last_wins (env : Env) (req : HttpRequest) (r : HttpResponse) (dataCertificate : Bytes) (w : HashTree) (p : List Bytes)
    (minVersion : Nat) :
    verifyPair env req (addV2CertificateHeader dataCertificate r w p) minVersion =
    verifyPair env req (addV2CertificateHeader dataCertificate
      { r with headers := r.headers.filter (fun h => decide (¬ lower h.1 = lower (str "IC-Certificate"))) } w p) minVersion := by
  let cert : Header → Bool := fun h => lower h.1 == lower (str "IC-Certificate")
  let other : Header → Bool := fun h => decide (¬ lower h.1 = lower (str "IC-Certificate"))
  let v := utf8 (v2HeaderText dataCertificate w p)
  have hget : ∀ hs : List Header, headerGet (hs ++ [(certHeaderName, v)]) certHeaderName = some v := by
    intro hs; simp [headerGet, List.foldl_append]
  have hother : ∀ name, lower name ≠ lower (str "IC-Certificate") → ∀ hs : List Header,
      headerGet (hs.filter other ++ [(certHeaderName, v)]) name = headerGet (hs ++ [(certHeaderName, v)]) name := by
    intro name hn hs
    have := foldl_drop_other (fun h => lower h.1 == lower name) other
      (by intro h hh; simp only [beq_iff_eq] at hh; simp [other, hh, hn]) hs none
    simp only [headerGet, List.foldl_append]
    rw [this]
  have hfr : ∀ rc : RespCert,
      filterResponseHeaders { r with headers := r.headers.filter other ++ [(certHeaderName, v)] } rc =
      filterResponseHeaders { r with headers := r.headers ++ [(certHeaderName, v)] } rc := by
    intro rc
    have h1 : eqIgnoreCase certHeaderName certHeaderName = true := by decide
    have : ∀ hs : List Header, (hs.filter other).filterMap (fun h =>
        if eqIgnoreCase h.1 certHeaderName then none
        else if eqIgnoreCase h.1 certExprHeaderName then some (lower h.1, h.2)
        else if rc.filter h.1 then some (lower h.1, h.2) else none) = hs.filterMap (fun h =>
        if eqIgnoreCase h.1 certHeaderName then none
        else if eqIgnoreCase h.1 certExprHeaderName then some (lower h.1, h.2)
        else if rc.filter h.1 then some (lower h.1, h.2) else none) := by
      intro hs
      induction hs with
      | nil => rfl
      | cons x xs ih =>
        rw [List.filter_cons]
        split
        · rw [List.filterMap_cons, List.filterMap_cons, ih]
        · next hx =>
          have hx' : eqIgnoreCase x.1 certHeaderName = true := by
            simp [other] at hx
            simp [eqIgnoreCase, certHeaderName, hx]
          rw [ih, List.filterMap_cons]
          simp [hx']
    simp only [filterResponseHeaders, List.filterMap_append, List.foldl_append, List.foldl_cons, List.foldl_nil, h1, if_true, this]
  have h2 : ∀ t c ep eh cel,
      v2Verification env req { r with headers := r.headers.filter other ++ [(certHeaderName, v)] } t c ep eh cel =
      v2Verification env req { r with headers := r.headers ++ [(certHeaderName, v)] } t c ep eh cel := by
    intro t c ep eh cel
    have hfin : ∀ q rc,
        v2Verification.finish { r with headers := r.headers.filter other ++ [(certHeaderName, v)] } t ep eh cel q rc =
        v2Verification.finish { r with headers := r.headers ++ [(certHeaderName, v)] } t ep eh cel q rc := by
      intro q rc
      simp only [v2Verification.finish, hfr rc]
    unfold v2Verification
    simp only [hfin]
  have h1 : ∀ t c e,
      v1Verification env req { r with headers := r.headers.filter other ++ [(certHeaderName, v)] } t c e =
      v1Verification env req { r with headers := r.headers ++ [(certHeaderName, v)] } t c e := fun _ _ _ => rfl
  show verifyPair env req { r with headers := r.headers ++ [(certHeaderName, v)] } minVersion =
    verifyPair env req { r with headers := r.headers.filter other ++ [(certHeaderName, v)] } minVersion
  simp only [verifyPair, hget, h1, h2, hother (str "content-encoding") (by decide), hother certExprHeaderName (by decide)]

end

/-- A response that already had such a header, in lower case: the filter removes it. -/
example : [(str "ic-certificate", str "version=2"), (str "a", str "b")].filter
    (fun h => decide (¬ lower h.1 = lower (str "IC-Certificate"))) = [(str "a", str "b")] := by decide

end Verif.Props
