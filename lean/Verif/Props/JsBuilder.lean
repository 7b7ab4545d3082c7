import Verif.Spec.JsBuilder
import Verif.Props.CertBuilder

set_option linter.unusedSimpArgs false
set_option linter.unusedSectionVars false

/-!
# Property C56: the JavaScript certificate builder
-/

namespace Verif.Props
open Verif HashTree

/-- The calls of the wrapped builder. -/
def jsCall : JsBuilderCall → BuilderCall
  | .withDelegation s r => .delegation s (r.map fun r => (r.low, r.high))
  | .withTime t => .time (t.toNat * 1000000)
  | .withInvalidSignature => .invalidSignature

theorem jsRun_eq [SubnetIds] (b : JsCertBuilder) (calls : List JsBuilderCall) :
    (jsBuilderRun b calls).builder = builderRun b.builder (calls.map jsCall) := by
  induction calls generalizing b with
  | nil => rfl
  | cons c calls ih =>
    rw [show jsBuilderRun b (c :: calls) = jsBuilderRun (JsBuilderCall.run b c) calls from rfl, ih]
    cases c <;> rfl

theorem js_time (calls : List JsBuilderCall) :
    timeSet (calls.map jsCall) = (jsTimeSet calls).map (fun t => t.toNat * 1000000) := by
  unfold timeSet jsTimeSet
  rw [← List.map_reverse]
  induction calls.reverse with
  | nil => rfl
  | cons c l ih => cases c <;> first | exact ih | rfl

theorem js_nested (calls : List JsBuilderCall) : nestedSet (calls.map jsCall) = none := by
  unfold nestedSet
  rw [← List.map_reverse]
  induction calls.reverse with
  | nil => rfl
  | cons c l ih => cases c <;> first | exact ih | rfl

theorem js_delegation (calls : List JsBuilderCall) :
    (delegationSet (calls.map jsCall)).map Prod.snd = (jsRangesSet calls).map (fun r => r.map fun r => (r.low, r.high)) := by
  unfold delegationSet jsRangesSet
  rw [← List.map_reverse]
  induction calls.reverse with
  | nil => rfl
  | cons c l ih => cases c <;> first | exact ih | rfl

theorem js_invalid (calls : List JsBuilderCall) :
    BuilderCall.invalidSignature ∈ calls.map jsCall ↔ JsBuilderCall.withInvalidSignature ∈ calls := by
  rw [List.mem_map]
  constructor
  · rintro ⟨c, h, e⟩
    cases c <;> simp [jsCall] at e
    exact h
  · exact fun h => ⟨_, h, rfl⟩

section
variable [SHA] [Bls] [TreeLib] [BlsSign] [SubnetIds]

/-- **C56** From JavaScript: every chain of calls builds, the CBOR parses back to the certificate and it carries the data; the
certificate verifies exactly when the time set last, in milliseconds (modulo 2^64 nanoseconds), lies in the window, no
signature was spoilt and, if there is a delegation, a range of the delegation set last contains the canister. -/
theorem C56_js (m : Machine) (hm : 32 < m.usize) (hcap : 3 ≤ m.mapCap) (hlib : TreeLib.Lawful) (checks : Bool)
    (cid data : Bytes) (hcid : cid.length ≤ 29) (calls : List JsBuilderCall) (k0 k1 k2 : KeyPair) (g0 : k0.Good) (g1 : k1.Good)
    (hstack : 4 ≤ m.stack) :
    ∃ d, (jsBuilderRun (.new cid data) calls).build k0 k1 k2 = .ok d ∧
      d.certificate.tree.lookupPath [str "canister", cid, str "certified_data"] = .found data ∧
      (d.certificate.Holdable m → certificateFromCbor m d.cbor = some (.ok d.certificate)) ∧
      ((∀ r, jsRangesSet calls = some r → m.Fits r.length) →
       (∀ del inner, d.certificate.delegation = some del → del.certificate = selfDescribe ++ encCertificate inner →
          inner.Holdable m) →
       ∀ now off, off ≤ now → now + off < 2 ^ 128 →
        (certVerify m checks d.certificate cid d.rootKey now off = .ok () ↔
          InWindow (jsNanos calls) now off ∧ JsBuilderCall.withInvalidSignature ∉ calls ∧
          ∀ r, jsRangesSet calls = some r → ∃ x ∈ r, PrincipalLe (canisterOfU64 x.low) cid ∧
            PrincipalLe cid (canisterOfU64 x.high))) := by
  obtain ⟨d, h1, h2, h3⟩ := C56_builds m hm hcap hlib cid data (calls.map jsCall) k0 k1 k2
  refine ⟨d, ?_, h2, h3, ?_⟩
  · unfold JsCertBuilder.build
    rw [jsRun_eq]; exact h1
  intro hf hin now off ho hno
  have hd := js_delegation calls
  rw [C56_verifies m hm hcap hlib checks cid data hcid (calls.map jsCall) k0 k1 k2 g0 g1 (.inl (js_nested calls)) d h1 ?_ hin hstack
    now off ho hno, js_invalid, js_time]
  · have e : ((jsTimeSet calls).map (fun t => t.toNat * 1000000)).getD 1651142233000005031 % 2 ^ 64 = jsNanos calls := by
      unfold jsNanos
      cases jsTimeSet calls <;> rfl
    rw [e]
    refine and_congr Iff.rfl (and_congr Iff.rfl ?_)
    cases hs : delegationSet (calls.map jsCall) with
    | none =>
      rw [hs] at hd
      cases hr : jsRangesSet calls with
      | none => simp
      | some r => simp [hr] at hd
    | some s =>
      obtain ⟨s, r'⟩ := s
      rw [hs] at hd
      cases hr : jsRangesSet calls with
      | none => simp [hr] at hd
      | some r =>
        rw [hr] at hd
        simp only [Option.map_some, Option.some.injEq] at hd
        subst hd
        constructor
        · intro h r1 e1
          cases e1
          obtain ⟨lo, hi, h1, h2, h3⟩ := h _ _ rfl
          obtain ⟨x, hx, e⟩ := List.mem_map.1 h1
          cases e
          exact ⟨x, hx, h2, h3⟩
        · intro h s1 r1 e1
          cases e1
          obtain ⟨x, hx, h2, h3⟩ := h _ rfl
          exact ⟨_, _, List.mem_map.2 ⟨x, hx, rfl⟩, h2, h3⟩
  · intro s r hs
    rw [hs] at hd
    cases hr : jsRangesSet calls with
    | none => simp [hr] at hd
    | some r' =>
      rw [hr] at hd
      simp only [Option.map_some, Option.some.injEq] at hd
      subst hd
      rw [List.length_map]
      exact hf _ hr

/-- **C56** A certificate built at the millisecond of the verifier's clock verifies at that moment and at all moments up to the
offset away, if that time is before the year 2554 (2^64 nanoseconds); a time past that is never accepted at its own moment with an
offset of less than 2^64 nanoseconds. -/
theorem C56_js_clock (m : Machine) (hm : 32 < m.usize) (hcap : 3 ≤ m.mapCap) (hlib : TreeLib.Lawful) (checks : Bool)
    (cid data : Bytes) (hcid : cid.length ≤ 29) (ms : UInt64) (k0 k1 k2 : KeyPair) (g0 : k0.Good) (g1 : k1.Good)
    (hstack : 4 ≤ m.stack) (off : Nat) :
    ∃ d, ((JsCertBuilder.new cid data).withTime ms).build k0 k1 k2 = .ok d ∧
      (ms.toNat * 1000000 < 2 ^ 64 → ∀ now, off ≤ now → now + off < 2 ^ 128 →
        now ≤ ms.toNat * 1000000 + off → ms.toNat * 1000000 ≤ now + off →
        certVerify m checks d.certificate cid d.rootKey now off = .ok ()) ∧
      (2 ^ 64 ≤ ms.toNat * 1000000 → off < 2 ^ 64 → off ≤ ms.toNat * 1000000 →
        certVerify m checks d.certificate cid d.rootKey (ms.toNat * 1000000) off ≠ .ok ()) := by
  obtain ⟨d, h1, -, -, h4⟩ := C56_js m hm hcap hlib checks cid data hcid [.withTime ms] k0 k1 k2 g0 g1 hstack
  have hnd : d.certificate.delegation = none := by
    have h1' : ((JsCertBuilder.new cid data).withTime ms).builder.build k0 k1 k2 = .ok d := h1
    dsimp only [JsCertBuilder.withTime, JsCertBuilder.new, CertBuilder.withTime, CertBuilder.new, CertBuilder.build] at h1'
    injection h1' with h1'
    subst h1'
    rfl
  have hms := ms.toNat_lt
  have key := h4 (by intro r h; simp [jsRangesSet] at h) (by intro del inner h; rw [hnd] at h; cases h)
  have e : jsNanos [.withTime ms] = ms.toNat * 1000000 % 2 ^ 64 := rfl
  refine ⟨d, h1, ?_, ?_⟩
  · intro hlt now ho hno ha hb
    rw [key now off ho hno, e, Nat.mod_eq_of_lt hlt]
    refine ⟨?_, by simp, by simp [jsRangesSet]⟩
    unfold InWindow
    constructor <;> omega
  · intro hge hoff ho hv
    have := (key _ off ho (by omega)).1 hv
    rw [e] at this
    have h := this.1
    unfold InWindow at h
    omega
end

section examples
attribute [local instance] toySHA toyBls toyTreeLib toySign toySubnets

/-- The hypotheses are met: a certificate of 2024 with an hour of tolerance verifies, and a far-away year wraps. -/
example : ∃ d, ((JsCertBuilder.new (canisterOfU64 4) [1, 2]).withTime 1704067200000).build (exKeyPair 1) (exKeyPair 2) (exKeyPair 3) =
      .ok d ∧
    certVerify exBuilderMachine true d.certificate (canisterOfU64 4) d.rootKey 1704067201000000000 3600000000000 = .ok () := by
  obtain ⟨d, h1, h2, -⟩ := C56_js_clock exBuilderMachine (by decide) (by decide) combTree_represents true (canisterOfU64 4) [1, 2]
    (by decide) 1704067200000 (exKeyPair 1) (exKeyPair 2) (exKeyPair 3) (exKeyPair_good 1) (exKeyPair_good 2) (by decide)
    3600000000000
  exact ⟨d, h1, h2 (by decide) _ (by decide) (by decide) (by decide) (by decide)⟩

/-- A delegation whose ranges contain the canister, replacing one whose ranges do not. -/
def exJsCalls : List JsBuilderCall :=
  [.withDelegation 7 [⟨5, 9⟩], .withTime 1, .withDelegation 7 [⟨0, 2⟩, ⟨3, 9⟩], .withTime 1000]

example : jsNanos exJsCalls = 1000000000 ∧ jsRangesSet exJsCalls = some [⟨0, 2⟩, ⟨3, 9⟩] := ⟨by decide, by decide⟩

example : (match (jsBuilderRun (.new (canisterOfU64 4) [1, 2]) exJsCalls).build (exKeyPair 1) (exKeyPair 2) (exKeyPair 3) with
    | .ok d => (match certVerify exBuilderMachine true d.certificate (canisterOfU64 4) d.rootKey 1000000010 20 with
      | .ok () => true | _ => false)
    | .error _ => false) = true := by decide +kernel

/-- The wrap: 18446744073710 milliseconds. -/
example : 2 ^ 64 ≤ (18446744073710 : UInt64).toNat * 1000000 ∧ jsNanos [.withTime 18446744073710] = 448384 := ⟨by decide, by decide⟩

end examples

end Verif.Props
