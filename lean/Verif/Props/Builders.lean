import Verif.Spec.Builders
import Verif.Props.Certification
import Verif.Props.Cel

set_option linter.unusedSimpArgs false
set_option linter.unusedSectionVars false

/-!
# Property C57: builders and conversions of requests, responses and CEL expressions
-/

namespace Verif.Props
open Verif

theorem lastArg_snoc {C α : Type} (pick : C → Option α) (calls : List C) (c : C) :
    lastArg pick (calls ++ [c]) = (pick c).or (lastArg pick calls) := by
  unfold lastArg
  rw [List.reverse_append, List.reverse_singleton, List.singleton_append, List.findSome?_cons]
  cases pick c <;> rfl

/-- **C57** A request built by any history of calls has in each field the argument of the last call for that field, or
the default (`GET`, `/`, nothing); `build_update` gives the same request as converting the result of `build`. -/
theorem C57_request (calls : List RequestCall) :
    (calls.foldl RequestCall.run .new).build = ⟨(lastArg RequestCall.method? calls).getD (str "GET"),
      (lastArg RequestCall.url? calls).getD (str "/"), (lastArg RequestCall.headers? calls).getD [],
      (lastArg RequestCall.body? calls).getD [], lastArg RequestCall.certificateVersion? calls⟩ ∧
    (calls.foldl RequestCall.run .new).buildUpdate = (calls.foldl RequestCall.run .new).build.toUpdate := by
  refine ⟨?_, rfl⟩
  have : calls.foldl RequestCall.run .new = ⟨lastArg RequestCall.method? calls, lastArg RequestCall.url? calls,
      (lastArg RequestCall.headers? calls).getD [], (lastArg RequestCall.body? calls).getD [],
      lastArg RequestCall.certificateVersion? calls⟩ := by
    induction calls using List.reverseRecOn with
    | nil => rfl
    | append_singleton calls c ih =>
      rw [List.foldl_append, ih]
      simp only [lastArg_snoc]
      cases c <;> rfl
  rw [this]; rfl

/-- **C57** The same for responses (default status 200). -/
theorem C57_response (calls : List ResponseCall) :
    (calls.foldl ResponseCall.run .new).build = ⟨(lastArg ResponseCall.status? calls).getD 200,
      (lastArg ResponseCall.headers? calls).getD [], (lastArg ResponseCall.body? calls).getD [],
      lastArg ResponseCall.upgrade? calls⟩ ∧
    (calls.foldl ResponseCall.run .new).buildUpdate = (calls.foldl ResponseCall.run .new).build.toUpdate := by
  refine ⟨?_, rfl⟩
  have : calls.foldl ResponseCall.run .new = ⟨lastArg ResponseCall.status? calls,
      (lastArg ResponseCall.headers? calls).getD [], (lastArg ResponseCall.body? calls).getD [],
      lastArg ResponseCall.upgrade? calls⟩ := by
    induction calls using List.reverseRecOn with
    | nil => rfl
    | append_singleton calls c ih =>
      rw [List.foldl_append, ih]
      simp only [lastArg_snoc]
      cases c <;> rfl
  rw [this]; rfl

/-- **C57** Turning a response back into a builder and applying further calls changes the fields of these calls and
keeps all others. -/
theorem C57_rebuild (r : FullResponse) (calls : List ResponseCall) :
    (calls.foldl ResponseCall.run r.toBuilder).build = ⟨(lastArg ResponseCall.status? calls).getD r.status,
      (lastArg ResponseCall.headers? calls).getD r.headers, (lastArg ResponseCall.body? calls).getD r.body,
      (lastArg ResponseCall.upgrade? calls).or r.upgrade⟩ := by
  have : calls.foldl ResponseCall.run r.toBuilder = ⟨some ((lastArg ResponseCall.status? calls).getD r.status),
      (lastArg ResponseCall.headers? calls).getD r.headers, (lastArg ResponseCall.body? calls).getD r.body,
      (lastArg ResponseCall.upgrade? calls).or r.upgrade⟩ := by
    induction calls using List.reverseRecOn with
    | nil => rfl
    | append_singleton calls c ih =>
      rw [List.foldl_append, ih]
      simp only [lastArg_snoc]
      cases c <;> rfl
  rw [this]; rfl

/-- **C57** Converting a request or response to its update form keeps everything that is hashed: path, query, request
hash and response hash are the same. -/
theorem C57_update [SHA] [UriLib] (r : FullRequest) (p : FullResponse) (q : ReqCert) (c : RespCert) (bh : Option Hash) :
    r.toUpdate.plain.getPath = r.plain.getPath ∧ r.toUpdate.plain.getQuery = r.plain.getQuery ∧
    requestHash r.toUpdate.plain q = requestHash r.plain q ∧
    responseHash ⟨p.toUpdate.status, p.toUpdate.headers, p.toUpdate.body⟩ c bh = responseHash p.plain c bh :=
  ⟨rfl, rfl, rfl, rfl⟩

/-- **C57** A CEL expression built by any history of calls has in each part the argument of the last call, or the
default: no request headers, no query parameters, no certified response headers. -/
theorem C57_cel (calls : List CelCall) (cs : List RespCert) :
    (calls.foldl CelCall.run .new).build = .full ⟨(lastArg CelCall.requestHeaders? calls).getD [],
      (lastArg CelCall.queryParams? calls).getD []⟩ ((lastArg CelCall.response? calls).getD (.certifiedHeaders [])) ∧
    (cs.foldl ResponseOnlyBuilder.withResponse .new).build = .responseOnly (cs.getLast?.getD (.certifiedHeaders [])) := by
  constructor
  · have : calls.foldl CelCall.run .new = ⟨(lastArg CelCall.requestHeaders? calls).getD [],
        (lastArg CelCall.queryParams? calls).getD [], (lastArg CelCall.response? calls).getD (.certifiedHeaders [])⟩ := by
      induction calls using List.reverseRecOn with
      | nil => rfl
      | append_singleton calls c ih =>
        rw [List.foldl_append, ih]
        simp only [lastArg_snoc]
        cases c <;> rfl
    rw [this]; rfl
  · induction cs using List.reverseRecOn with
    | nil => rfl
    | append_singleton cs c ih => rw [List.foldl_append]; simp [ResponseOnlyBuilder.withResponse, ResponseOnlyBuilder.build]

/-! ### Equality of responses -/

instance : IsTrans Header headerLe := ⟨by
  rintro ⟨a1, a2⟩ ⟨b1, b2⟩ ⟨c1, c2⟩ h1 h2
  simp only [headerLe] at *
  rcases h1 with h1 | ⟨rfl, h1⟩ <;> rcases h2 with h2 | ⟨rfl, h2⟩
  · exact .inl (lt_trans h1 h2)
  · exact .inl h1
  · exact .inl h2
  · exact .inr ⟨rfl, le_trans h1 h2⟩⟩

instance : Std.Total (α := Header) headerLe := ⟨by
  rintro ⟨a1, a2⟩ ⟨b1, b2⟩
  simp only [headerLe]
  rcases lt_trichotomy a1 b1 with h | rfl | h
  · exact .inl (.inl h)
  · rcases le_total a2 b2 with h | h
    · exact .inl (.inr ⟨rfl, h⟩)
    · exact .inr (.inr ⟨rfl, h⟩)
  · exact .inr (.inl h)⟩

instance : Std.Antisymm (α := Header) headerLe := ⟨by
  rintro ⟨a1, a2⟩ ⟨b1, b2⟩ h1 h2
  simp only [headerLe] at *
  rcases h1 with h1 | ⟨rfl, h1⟩ <;> rcases h2 with h2 | ⟨h, h2⟩
  · exact absurd h2 (lt_asymm h1)
  · subst h; exact absurd h1 (lt_irrefl _)
  · exact absurd h2 (lt_irrefl _)
  · rw [le_antisymm h1 h2]⟩

theorem headerSort_eq_iff (a b : List Header) : a.insertionSort headerLe = b.insertionSort headerLe ↔ a.Perm b := by
  constructor
  · intro h
    exact (List.perm_insertionSort headerLe a).symm.trans (h ▸ List.perm_insertionSort headerLe b)
  · intro h
    have hp := ((List.perm_insertionSort headerLe a).trans h).trans (List.perm_insertionSort headerLe b).symm
    exact hp.eq_of_pairwise' (List.pairwise_insertionSort headerLe a) (List.pairwise_insertionSort headerLe b)

/-- **C57** Two responses are equal exactly if status, body and upgrade flag are the same and the headers are the same
up to their order, counted with multiplicity. -/
theorem C57_eq (a b : FullResponse) :
    a.eqv b = true ↔ a.status = b.status ∧ a.headers.Perm b.headers ∧ a.body = b.body ∧ a.upgrade = b.upgrade := by
  simp only [FullResponse.eqv, Bool.and_eq_true, beq_iff_eq, headerSort_eq_iff]
  tauto

/-- **C57** Equality of responses is an equivalence relation, kept by adding a header. -/
theorem C57_eq_equiv : (∀ a : FullResponse, a.eqv a = true) ∧ (∀ a b : FullResponse, a.eqv b = true → b.eqv a = true) ∧
    (∀ a b c : FullResponse, a.eqv b = true → b.eqv c = true → a.eqv c = true) ∧
    ∀ (a b : FullResponse) (h : Header), (a.addHeader h).eqv (b.addHeader h) = a.eqv b := by
  refine ⟨fun a => (C57_eq a a).2 ⟨rfl, .refl _, rfl, rfl⟩, fun a b h => ?_, fun a b c h1 h2 => ?_, fun a b h => ?_⟩
  · obtain ⟨h1, h2, h3, h4⟩ := (C57_eq a b).1 h
    exact (C57_eq b a).2 ⟨h1.symm, h2.symm, h3.symm, h4.symm⟩
  · obtain ⟨a1, a2, a3, a4⟩ := (C57_eq a b).1 h1
    obtain ⟨b1, b2, b3, b4⟩ := (C57_eq b c).1 h2
    exact (C57_eq a c).2 ⟨a1.trans b1, a2.trans b2, a3.trans b3, a4.trans b4⟩
  · rw [Bool.eq_iff_iff, C57_eq, C57_eq]
    simp only [FullResponse.addHeader]
    rw [List.perm_append_right_iff]

section
variable [SHA] [UriLib]

/-- **C57** Equal responses are interchangeable for certification: the same certification is made from both, or none
from either. -/
theorem C57_eq_certification (a b : FullResponse) (h : a.eqv b = true) (c : RespCert) (q : ReqCert) (req : HttpRequest)
    (bh : Option Hash) (cert : HttpCert) :
    (HttpCert.mkResponseOnly c a.plain bh = .ok cert ↔ HttpCert.mkResponseOnly c b.plain bh = .ok cert) ∧
    (HttpCert.mkFull q c req a.plain bh = .ok cert ↔ HttpCert.mkFull q c req b.plain bh = .ok cert) ∧
    responseHash a.plain c bh = responseHash b.plain c bh := by
  obtain ⟨h1, h2, h3, _⟩ := (C57_eq a b).1 h
  have hh : responseHash a.plain c bh = responseHash b.plain c bh :=
    C30_ignores_uncertified h1 h3 (by unfold certifiedRespHeaders; exact (h2.filter _).map _)
  have hv : ∀ v, exprHeaderValues a.plain = [v] ↔ exprHeaderValues b.plain = [v] := by
    intro v
    have hp : (exprHeaderValues a.plain).Perm (exprHeaderValues b.plain) := (h2.filter _).map _
    constructor
    · intro e; rw [e] at hp; exact List.perm_singleton.1 hp.symm
    · intro e; rw [e] at hp; exact List.perm_singleton.1 hp
  refine ⟨?_, ?_, hh⟩
  · rw [C44_response_only, C44_response_only, hh, hv]
  · rw [C44_full, C44_full, hh, hv]

end

/-- **C57** What is written to the wire for the status of a response is read back; other numbers are refused. -/
theorem C57_status (n : UInt16) : (statusFromWire n = some n ↔ 100 ≤ n ∧ n ≤ 999) ∧ ∀ k, statusFromWire n = some k → k = n := by
  unfold statusFromWire
  constructor
  · split
    · next h => simp only [true_iff]; exact ⟨h.1, by have := h.2; rw [UInt16.lt_iff_toNat_lt] at this; rw [UInt16.le_iff_toNat_le]; exact Nat.lt_succ_iff.1 this⟩
    · next h =>
      simp only [reduceCtorEq, false_iff]
      rintro ⟨a, b⟩
      refine h ⟨a, ?_⟩
      rw [UInt16.le_iff_toNat_le] at b; rw [UInt16.lt_iff_toNat_lt]; exact Nat.lt_succ_iff.2 b
  · intro k h; split at h
    · cases h; rfl
    · cases h

/-! ### Concrete instances -/

/-- calls in a strange order: the last ones count -/
example : ([RequestCall.url (str "/a"), .method (str "POST"), .url (str "/b"), .body [1]].foldl RequestCall.run .new).build =
    ⟨str "POST", str "/b", [], [1], none⟩ := rfl
example : ([ResponseCall.status 404, .headers [(str "A", str "1")], .headers [], .upgrade true].foldl ResponseCall.run .new).build =
    ⟨404, [], [], some true⟩ := rfl
/-- equal up to the order of headers, but not up to repetition -/
example : FullResponse.eqv ⟨200, [(str "A", str "1"), (str "B", str "2")], [], none⟩
    ⟨200, [(str "B", str "2"), (str "A", str "1")], [], none⟩ = true := by decide +kernel
example : FullResponse.eqv ⟨200, [(str "A", str "1"), (str "A", str "1")], [], none⟩ ⟨200, [(str "A", str "1")], [], none⟩ = false := by
  decide +kernel
/-- header names that differ in case make responses different -/
example : FullResponse.eqv ⟨200, [(str "a", str "1")], [], none⟩ ⟨200, [(str "A", str "1")], [], none⟩ = false := by decide +kernel

end Verif.Props
