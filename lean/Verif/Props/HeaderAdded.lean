import Verif.Props.Header

/-!
# C34: what adding the header does to a response
-/

set_option linter.unusedSectionVars false

namespace Verif.Props
open Verif

/-- **C34** Adding the header leaves the status, the body and every header the response had, in their order; behind them comes exactly one
header, `IC-Certificate`, whose text the verifier reads as the certificate, the tree, the expression path and version 2. -/
theorem C34_added (m : Machine) (dataCertificate : Bytes) (c : Certificate) (w : HashTree) (p : List Bytes) (r : HttpResponse)
    (hm : 32 < m.usize) (hc : certificateFromCbor m dataCertificate = some (.ok c)) (hw : w.Fits m)
    (hws : w.height + 3 ≤ m.stack) (hpl : m.Fits p.length) (hp : ∀ s ∈ p, (chars s).isSome ∧ m.Fits s.length) :
    ∃ v text, addV2CertificateHeader dataCertificate r w p =
        { status := r.status, headers := r.headers ++ [(str "IC-Certificate", v)], body := r.body } ∧
      chars v = some text ∧ headerFrom m text = .ok { certificate := c, tree := w, version := 2, exprPath := some p } :=
  ⟨_, _, rfl, chars_utf8 _, C34_roundtrip m dataCertificate c w p hm hc hw hws hpl hp⟩

/-- A response with a header of its own, and a certificate with a delegation. -/
example : ∃ v text, addV2CertificateHeader (encCertificate exDelegated)
      { status := 404, headers := [(str "X", str "y")], body := str "gone" } exCborTree [str "http_expr", str "a", str "<$>"] =
        { status := 404, headers := [(str "X", str "y"), (str "IC-Certificate", v)], body := str "gone" } ∧
      chars v = some text ∧ headerFrom exMachine text =
        .ok { certificate := exDelegated, tree := exCborTree, version := 2, exprPath := some [str "http_expr", str "a", str "<$>"] } :=
  C34_added exMachine _ exDelegated exCborTree _ { status := 404, headers := [(str "X", str "y")], body := str "gone" } (by decide)
    (C37_certificate_roundtrip exMachine exDelegated (by decide) (by decide)
      (by simp [exDelegated, exCborTree, HashTree.Fits, Machine.Fits, exMachine]; decide)
      (by simp [exDelegated, Machine.Fits, exMachine]; decide)
      (by intro d hd; simp [exDelegated] at hd; subst hd; simp [Machine.Fits, exMachine]; decide)
      (by decide)).1
    (by simp [exCborTree, HashTree.Fits, Machine.Fits, exMachine]; decide) (by decide)
    ⟨by decide, by decide⟩ (by simp [Machine.Fits, exMachine]; decide)

end Verif.Props
