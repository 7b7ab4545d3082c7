import Verif.Props.Verify
import Verif.Lemmas.Range

/-!
# The version of an accepted response, in the text of its header (C26)
-/
set_option linter.unusedSectionVars false

namespace Verif.Props
open Verif HashTree

theorem parseU8_iff {s : List Char} {n : Nat} : parseU8 s = some n ↔ Numeral ⟨256, 0, 0, 10, Nat.le_refl _⟩ s n := by
  rw [← parseUsize_iff]
  unfold parseU8 parseUsize
  have : ∀ k : Nat, (k ≤ 255) = (k < 256) := fun k => by simp only [eq_iff_iff]; omega
  simp only [this]

variable [SHA] [UriLib] [Bls] [Inflate]

/-- **C26.** The version of an accepted response is written in its last IC-Certificate header: it is the number in the first field
`version`, or 1 if there is no such field; the fields are separated by commas. (Accepted responses of both versions exist: the examples
beside C22 and C64.) -/
theorem C26_text {env : Env} {req : HttpRequest} {res : HttpResponse} {minV : Nat} {info : VerificationInfo}
    (h : verifyPair env req res minV = .ok info) :
    ∃ text, LastHeader res.headers (str "IC-Certificate") text ∧
      ((NoField ((chars text).getD []) "version".toList ∧ info.version = 1) ∨
        ∃ v, FirstField ((chars text).getD []) "version".toList v ∧ Numeral ⟨256, 0, 0, 10, Nat.le_refl _⟩ v info.version) := by
  obtain ⟨hdr, ⟨text, h1, h2⟩, h3, -, -⟩ := C26_version h
  refine ⟨text, h1, ?_⟩
  rw [h3]
  rcases ((C34_first_field_wins _ _ _).1 h2).2.2.1 with ⟨a, b⟩ | ⟨v, a, b⟩
  · exact .inl ⟨a, b⟩
  · exact .inr ⟨v, a, parseU8_iff.1 b⟩

end Verif.Props
