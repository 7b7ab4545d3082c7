import Verif.Props.CertVerify

set_option linter.unusedSectionVars false

/-!
# C41 through the API: which canisters a delegation speaks for
-/

namespace Verif.Props
open Verif HashTree

section
variable [SHA] [Bls]

/-- **C41** A certificate with a delegation that is right in every other respect is accepted for a canister exactly if
some range of the delegation contains the id of the canister, ends included; otherwise the error says that the canister
is out of range. -/
theorem C41_delegation (m : Machine) (checks : Bool) (c : Certificate) (d : Delegation) (inner : Certificate)
    (canisterId rootKey subnetKey rangesCbor v : Bytes) (ranges : List (Bytes × Bytes)) (now off t : Nat)
    (hl : c.tree.lookupPath [str "time"] = .found v) (ht : lebRead v = some t) (h1 : off ≤ now)
    (h2 : now + off < 2 ^ 128) (hw : InWindow t now off) (hid : canisterId.length ≤ 29)
    (hd : c.delegation = some d) (hs : SignedBy c subnetKey)
    (g1 : certificateFromCbor m d.certificate = some (.ok inner)) (g2 : inner.delegation = none) (g3 : SignedBy inner rootKey)
    (g4 : inner.tree.lookupPath [str "subnet", d.subnetId, str "canister_ranges"] = .found rangesCbor)
    (g5 : rangesFromCbor m rangesCbor = some (.ok ranges))
    (g7 : inner.tree.lookupPath [str "subnet", d.subnetId, str "public_key"] = .found subnetKey) :
    (certVerify m checks c canisterId rootKey now off = .ok () ↔
      ∃ lo hi, (lo, hi) ∈ ranges ∧ PrincipalLe lo canisterId ∧ PrincipalLe canisterId hi) ∧
    (certVerify m checks c canisterId rootKey now off = .ok () ∨
      certVerify m checks c canisterId rootKey now off = .err .principalOutOfRange) := by
  by_cases g6 : ∃ lo hi, (lo, hi) ∈ ranges ∧ PrincipalLe lo canisterId ∧ PrincipalLe canisterId hi
  · have := C40_accepts m checks c canisterId rootKey now off t v hl ht h1 h2 hw hid
      (.inr ⟨d, subnetKey, inner, ranges, rangesCbor, hd, hs, g1, g2, g3, g4, g5, g6, g7⟩)
    exact ⟨⟨fun _ => g6, fun _ => this⟩, .inl this⟩
  · have hn : withinRanges canisterId ranges = false := by
      by_contra h
      exact g6 ((C41_ranges _ _).1 (by simpa using h))
    have : certVerify m checks c canisterId rootKey now off = .err .principalOutOfRange := by
      unfold certVerify
      rw [(C39_window_exact_partial checks c now off t v hl ht h1 h2).2 hw, Out.ok_bind, hd]
      have : verifyDelegation m d canisterId rootKey = .err .principalOutOfRange := by
        unfold verifyDelegation
        rw [g1]
        simp only [Out.ofRun, Out.ok_bind, g2, Option.isSome_none, Bool.false_eq_true, if_false,
          verifyCertSignature_ok.2 g3, g4, principalFromSlice, hid, if_true, g5, hn]
      simp only [this]
      rfl
    exact ⟨⟨fun h => (by rw [this] at h; cases h), fun h => absurd h g6⟩, .inr this⟩

end

/-- The hypotheses are met, by a canister inside and by one outside the range from 1 to 9. -/
example : letI := toySHA; letI := toyBls; certVerify exMachine true exSubnetCert [9] exRootKey 95 5 = .ok () ∧
    certVerify exMachine true exSubnetCert [10] exRootKey 95 5 = .err .principalOutOfRange := by
  let _ := toySHA
  let _ := toyBls
  have h : ∀ id : Bytes, id.length ≤ 29 → _ := fun id hid =>
    C41_delegation exMachine true exSubnetCert _ exInnerCert id exRootKey exSubnetKey (encRanges [([1], [9])]) (lebU64 100) [([1], [9])]
      95 5 100 (by decide) (by decide) (by decide) (by decide) ⟨by decide, by decide⟩ hid rfl
      ⟨_, ⟨rfl, by simp⟩, congrArg some (beq_self_eq_true _)⟩ exInner_decodes rfl ⟨_, ⟨rfl, by simp⟩, congrArg some (beq_self_eq_true _)⟩
      (by decide +kernel) (C37_ranges_roundtrip exMachine _ (by decide) ⟨by decide, by decide⟩ (by decide) (by decide)).1 (by decide +kernel)
  refine ⟨(h [9] (by decide)).1.2 ⟨[1], [9], by simp, .inr ⟨rfl, by decide⟩, .inr ⟨rfl, by decide⟩⟩, ?_⟩
  rcases (h [10] (by decide)).2 with k | k
  · obtain ⟨lo, hi, k1, -, k2⟩ := (h [10] (by decide)).1.1 k
    simp only [List.mem_singleton, Prod.mk.injEq] at k1
    obtain ⟨rfl, rfl⟩ := k1
    rcases k2 with k2 | ⟨-, k2⟩
    · simp at k2
    · exact absurd k2 (by decide)
  · exact k

end Verif.Props
