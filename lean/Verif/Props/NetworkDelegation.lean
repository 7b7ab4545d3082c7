import Verif.Props.NetworkExamples

/-!
# C79 for certificates, and a case with a delegation
-/

namespace Verif.Props
open Verif HashTree

section
variable [SHA] [Bls]

/-- **C79** for certificates: certified data that are read out of a verified certificate are those of a time in the window. -/
theorem C79_certificate {net : Network} {m : Machine} {checks : Bool} {c : Certificate} {cid root : Bytes} {now off : Nat} {d : Bytes}
    (hn : net.Honest m cid root) (hf : net.NoForgery m root c) (h : certVerify m checks c cid root now off = .ok ())
    (hd : c.tree.lookupPath [str "canister", cid, str "certified_data"] = .found d) :
    (∃ t, InWindow t now off ∧ net.data t = d) ∨ net.Collision m c := by
  rcases fresh_cert hn hf h with ⟨t, key, S, h1, h2, h3, h4, h5⟩ | hcol
  · rcases C01_found_is_true (hn.complete key S h2) h3.symm hd with h6 | h6
    · exact .inl ⟨t, h1, (h5 _ h6).symm⟩
    · exact .inr (.outer h2 h3 h6)
  · exact .inr hcol

end

section
attribute [local instance] toySHA toyBls

/-- The state of a subnet with the canister `[5]`, signed by the subnet, with a delegation by the root subnet. -/
def exDelegatedCert (data : Bytes) : Certificate :=
  { tree := (exStateCert data).tree, signature := List.replicate 96 2,
    delegation := some { subnetId := str "net", certificate := encCertificate exInnerCert } }

/-- A network with a root subnet and a subnet that has the canisters `[1]` to `[9]`; the state of time 100 is signed. -/
def exTwoSubnets (data : Nat → Bytes) : Network :=
  { signed := fun key S => (key = exRootKey ∧ S = exInnerCert.tree) ∨ (key = exSubnetKey ∧ S = (exStateCert (data 100)).tree),
    inCharge := fun key => key = exSubnetKey, data := data }

theorem exTwoSubnets_honest (data : Nat → Bytes) : (exTwoSubnets data).Honest exMachine [5] exRootKey := by
  refine ⟨?_, ?_, ?_⟩
  · rintro key S (⟨-, rfl⟩ | ⟨-, rfl⟩)
    · unfold WellFormed exInnerCert; simp only [WF, HashTree.labels]; decide
    · unfold WellFormed exStateCert; simp only [WF, HashTree.labels]; decide
  · rintro S subnet rc ranges lo hi key (⟨-, rfl⟩ | ⟨h, -⟩) h1 h2 h3 h4 h5 h6
    · unfold exInnerCert at h6
      rcases h6 with _ | _ | _ | h6
      rcases h6 with _ | _ | _ | h6
      rcases h6 with _ | h6 | h6
      · rcases h6
      · rcases h6 with _ | _ | _ | h6
        cases h6
        rfl
    · exact absurd h (by decide)
  · rintro key S v t d - (⟨-, rfl⟩ | ⟨-, rfl⟩) ht hv h
    · unfold exInnerCert at ht
      rcases ht
    · exact (exNetOf_honest (root := data 100) (data := data) rfl).truthful exRootKey _ v t d (.inl rfl) ⟨rfl, rfl⟩ ht hv h

theorem exTwoSubnets_noForgery (data : Nat → Bytes) : (exTwoSubnets data).NoForgery exMachine exRootKey (exDelegatedCert (data 100)) := by
  refine ⟨?_, ?_⟩
  · rintro key (rfl | rfl) hs
    · obtain ⟨pk, ⟨h1, -⟩, h2⟩ := hs
      have h3 : List.replicate 96 (1 : UInt8) = pk := List.append_cancel_left h1
      subst h3
      exact absurd h2 (show ¬ (some (List.replicate 96 (2 : UInt8) == List.replicate 96 1) = some true) by decide)
    · exact ⟨_, .inr ⟨rfl, rfl⟩, rfl⟩
  · intro d i hd hi
    cases hd
    rw [exInner_decodes] at hi
    cases hi
    rintro key (rfl | rfl) hs
    · exact ⟨_, .inl ⟨rfl, rfl⟩, rfl⟩
    · obtain ⟨pk, ⟨h1, -⟩, h2⟩ := hs
      have h3 : List.replicate 96 (2 : UInt8) = pk := List.append_cancel_left h1
      subst h3
      exact absurd h2 (by show ¬ (some _ = some true); decide)

theorem exDelegated_verifies (data : Bytes) :
    certVerify exMachine true (exDelegatedCert data) [5] exRootKey 110 10 = .ok () := by
  refine C40_accepts exMachine true (exDelegatedCert data) [5] exRootKey 110 10 100 (lebU64 100) rfl (by decide) (by decide)
    (by decide) ⟨by decide, by decide⟩ (by decide) (.inr ⟨_, exSubnetKey, exInnerCert, [([1], [9])], encRanges [([1], [9])], rfl,
      ⟨_, ⟨rfl, by simp⟩, congrArg some (beq_self_eq_true _)⟩, exInner_decodes, rfl, ⟨_, ⟨rfl, by simp⟩, congrArg some (beq_self_eq_true _)⟩,
      by decide +kernel, ?_, ⟨[1], [9], by simp, .inr ⟨rfl, by decide⟩, .inr ⟨rfl, by decide⟩⟩, by decide +kernel⟩)
  exact (C37_ranges_roundtrip exMachine _ (by decide) ⟨by decide, by decide⟩ (by decide) (by decide)).1

/-- All hypotheses of `C79_certificate` are met by a certificate with a delegation. -/
example (data : Nat → Bytes) : (∃ t, InWindow t 110 10 ∧ (exTwoSubnets data).data t = data 100) ∨
    (exTwoSubnets data).Collision exMachine (exDelegatedCert (data 100)) :=
  C79_certificate (exTwoSubnets_honest data) (exTwoSubnets_noForgery data) (exDelegated_verifies _) rfl

end
end Verif.Props
