import Verif.Props.Stability
import Verif.Props.EndToEndExamples

set_option linter.unusedSimpArgs false

/-!
# The hypotheses of C73 are met
-/

namespace Verif.Props
open Verif HashTree PathShape

theorem lastHeader_cons {x : Header} {hs : List Header} {name v : Bytes} (h : ¬ SameName x.1 name) :
    LastHeader (x :: hs) name v ↔ LastHeader hs name v := by
  constructor
  · rintro ⟨pre, n, post, e, h1, h2⟩
    cases pre with
    | nil => simp at e; obtain ⟨rfl, rfl⟩ := e; exact absurd h1 h
    | cons y pre =>
      simp at e
      exact ⟨pre, n, post, e.2, h1, h2⟩
  · rintro ⟨pre, n, post, e, h1, h2⟩
    exact ⟨x :: pre, n, post, by rw [e]; rfl, h1, h2⟩

section
attribute [local instance] toySHA toyUri toyBls toyInflate

def exOtherRequest : HttpRequest := ⟨str "POST", str "/a/x?z=7", [(str "Cookie", str "c")], str "body"⟩
def exTraced (res : HttpResponse) : HttpResponse := { res with headers := (str "X-Trace", str "1") :: res.headers }
def exEarlyEnv : Env := ⟨exMachine, true, [5], 97, 3, exRootKey⟩
def exLateEnv : Env := ⟨exMachine, true, [5], 111, 10, exRootKey⟩

theorem exOther_path : exGet.getPath = exOtherRequest.getPath := by
  have h1 : exGet.getPath = .ok (str "/a/x") := rfl
  have h2 : exOtherRequest.getPath = .ok (str "/a/x") := rfl
  rw [h1, h2]

theorem exCert_trace : ¬ exCert.Certifies (str "X-Trace") := by decide

theorem exTraced_same (res : HttpResponse) : SameResponse exCert res (exTraced res) := by
  refine ⟨rfl, rfl, ?_⟩
  unfold certifiedRespHeaders exTraced
  simp [exCert_trace]

/-- The accepted response of the example stays accepted when a header is added in front and the request has another
method, body, query and header (the expression covers the response only). -/
example : ∃ res info info', verifyPair exEnv exGet res 2 = .ok info ∧
    verifyPair exEnv exOtherRequest (exTraced res) 2 = .ok info' ∧ info.SameUpToOrder info' := by
  obtain ⟨hdr, e, expr, cel, info, res, t, hc, hv, -, hcel, -⟩ := exServe_accepted
  have hs : ∀ name, ¬ SameName (str "X-Trace") name → SameHeader res (exTraced res) name :=
    fun name h v => (lastHeader_cons h).symm
  have key : (verifyPair exEnv exGet res 2).Alike (verifyPair exEnv exOtherRequest (exTraced res) 2) := by
    refine C73_nothing_else (hs _ (by decide)) exOther_path ?_ ?_
    · intro hdr' _ _
      refine ⟨hs _ (by decide), ?_⟩
      intro e' expr' cel' p hc' _
      have h1 : expr' = expr := by
        have a := headerGet_some.2 hc'.expression
        have b := headerGet_some.2 hc.expression
        rw [a] at b
        cases b; rfl
      have h2 : cel' = cel := by
        have a := hc'.parsed
        rw [h1, hc.parsed] at a
        cases a; rfl
      rw [h2, hcel]
      exact exTraced_same res
    · intro hdr' h1 h2
      have := carriesHeader_unique h1 hc.header
      rw [this, hc.version] at h2
      simp at h2
  rw [hv] at key
  cases o : verifyPair exEnv exOtherRequest (exTraced res) 2 with
  | ok info' => rw [o] at key; exact ⟨res, info, info', hv, o, key⟩
  | err _ => rw [o] at key; exact key.elim
  | crash => rw [o] at key; exact key.elim

theorem exRange : exEnv.TimeInRange ∧ exEarlyEnv.TimeInRange ∧ exLateEnv.TimeInRange := by
  refine ⟨?_, ?_, ?_⟩ <;> refine ⟨?_, ?_⟩ <;> simp only [exEnv, exEarlyEnv, exLateEnv] <;> decide

/-- The same response at another moment, with another offset: accepted with the same result; and too late: refused.
The certificate is from moment 100. -/
example : ∃ res info, verifyPair exEnv exGet res 2 = .ok info ∧ verifyPair exEarlyEnv exGet res 2 = .ok info ∧
    (∀ m, verifyPair exEnv exGet res m = .ok info ↔ m ≤ 2) ∧
    ∀ info', verifyPair exLateEnv exGet res 2 ≠ .ok info' := by
  obtain ⟨hdr, e, expr, cel, info, res, t, hc, hv, -, hcel, hcert, -⟩ := exServe_accepted
  have ht : hdr.certificate.tree.lookupPath [str "time"] = .found (lebU64 100) := by rw [hcert]; rfl
  refine ⟨res, info, hv, ?_, ?_, ?_⟩
  · have h : verifyPair exEnv exGet res 2 = verifyPair exEarlyEnv exGet res 2 := by
      refine C73_time ⟨rfl, rfl, rfl, rfl⟩ exRange.1 exRange.2.1 ?_
      intro hdr' h'
      rw [carriesHeader_unique h' hc.header]
      refine ⟨lebU64 100, 100, ht, rfl, ?_, ?_⟩ <;> simp only [InWindow, exEnv, exEarlyEnv] <;> decide
    rw [← h, hv]
  · obtain ⟨hdr', g1, g2, -⟩ := C26_version hv
    have g3 := hc.version
    rw [carriesHeader_unique g1 hc.header, g3] at g2
    have h0 : verifyPair exEnv exGet res 0 = .ok info := by
      rw [← hv]
      exact ((C73_minimum (minV := 2)).1 hdr hc.header (by rw [g3])).symm
    intro m
    rw [C73_minimum.2 info h0, g2]
  · obtain ⟨hdr', t', h1, h2, -, h4⟩ := C73_lifetime (env := exEnv) (env' := exLateEnv) ⟨rfl, rfl, rfl, rfl⟩ exRange.1 exRange.2.2 hv
    apply h4
    obtain ⟨v, h5, h6⟩ := h2
    rw [carriesHeader_unique h1 hc.header, hcert] at h5
    have h7 : v = lebU64 100 := by
      unfold HasLeaf exStateCert at h5
      cases h5 with
      | left h => cases h
      | right h => cases h with
        | down h => cases h; rfl
    subst h7
    have h8 : t' = 100 := by
      have : lebRead (lebU64 100) = some 100 := rfl
      rw [this] at h6; cases h6; rfl
    subst h8
    simp only [InWindow, exLateEnv]
    decide

end
end Verif.Props
