import Verif.Spec.CertBuilder
import Verif.Props.CertVerify
import Verif.Props.Cbor

set_option linter.unusedSimpArgs false
set_option linter.unusedSectionVars false

/-!
# Property C56: certificates made by `CertificateBuilder`
-/

namespace Verif.Props
open Verif HashTree

theorem builder_fields [SubnetIds] (cid data : Bytes) (calls : List BuilderCall) :
    builderRun (.new cid data) calls = ⟨timeSet calls, some (cid, data), (delegationSet calls).map (fun s => mkSubnet s.1 s.2),
      (nestedSet calls).map (fun s => mkSubnet s.1 s.2),
      if BuilderCall.invalidSignature ∈ calls then some CertBuilder.invalidSig else none, none⟩ := by
  induction calls using List.reverseRecOn with
  | nil => rfl
  | append_singleton calls c ih =>
    rw [show builderRun _ (calls ++ [c]) = BuilderCall.run (builderRun (.new cid data) calls) c by simp [builderRun], ih]
    cases c <;> simp [BuilderCall.run, CertBuilder.withDelegation, CertBuilder.withNestedDelegation, CertBuilder.withTime,
      CertBuilder.withInvalidSignature, timeSet, delegationSet, nestedSet]

theorem lookup_represents {h : HashTree} {t : LTree} (hr : Represents h t) {p : List Bytes} {v : Bytes}
    (hv : t.leafAt p = some v) : h.lookupPath p = .found v := by
  let _ := toySHA
  rw [C04_found_iff, lookupSubtree_eq_found_iff hr.1]
  exact (hr.2 p v).2 hv

theorem certTree_ordered (cid data time : Bytes) : (createCertificateTree cid data time).Ordered := by
  refine .sub _ (by simp; decide) ?_
  intro e he
  simp at he
  rcases he with rfl | rfl
  · exact .sub _ (by simp) (by simp; exact .sub _ (by simp) (by simp; exact .leaf _))
  · exact .leaf _

theorem delTree_ordered (key time : Bytes) (s : SubnetData) : (createDelegationTree key time s).Ordered := by
  refine .sub _ (by simp; decide) ?_
  intro e he
  simp at he
  rcases he with rfl | rfl
  · exact .sub _ (by simp) (by simp; exact .sub _ (by simp; decide) (by
      simp; exact ⟨.leaf _, .leaf _⟩))
  · exact .leaf _

theorem certTree_data (cid data time : Bytes) :
    (createCertificateTree cid data time).leafAt [str "canister", cid, str "certified_data"] = some data := by
  simp [createCertificateTree, LTree.leafAt]

theorem certTree_time (cid data time : Bytes) : (createCertificateTree cid data time).leafAt [str "time"] = some time := by
  have : ¬ str "canister" = str "time" := by decide
  simp [createCertificateTree, LTree.leafAt, this]

theorem delTree_ranges (key time : Bytes) (s : SubnetData) :
    (createDelegationTree key time s).leafAt [str "subnet", s.subnetId, str "canister_ranges"] =
      some (selfDescribe ++ encRanges s.ranges) := by
  simp [createDelegationTree, LTree.leafAt]

theorem delTree_key (key time : Bytes) (s : SubnetData) :
    (createDelegationTree key time s).leafAt [str "subnet", s.subnetId, str "public_key"] = some key := by
  have : ¬ str "canister_ranges" = str "public_key" := by decide
  simp [createDelegationTree, LTree.leafAt, this]

theorem leaf_of_represents {h : HashTree} {t : LTree} (hr : Represents h t) {p : List Bytes} {v w : Bytes}
    (hv : t.leafAt p = some v) (hw : h.HasLeaf p w) : w = v := by
  have := (hr.2 p w).1 hw
  rw [hv] at this
  exact (Option.some.inj this).symm

section
variable [SHA] [Bls] [BlsSign]

theorem good_signs [TreeLib] {k : KeyPair} (hk : k.Good) (t : LTree) (d : Option Delegation) :
    SignedBy ⟨(buildCertificate k t).1, (buildCertificate k t).2, d⟩ k.publicKey := by
  obtain ⟨pk, h1, h2, _⟩ := hk.valid
  exact ⟨pk, h1, h2 _⟩

theorem good_rejects {k : KeyPair} (hk : k.Good) {c : Certificate} (hc : c.signature = CertBuilder.invalidSig) :
    ¬ SignedBy c k.publicKey := by
  obtain ⟨pk, h1, _, h3⟩ := hk.valid
  rintro ⟨pk', h1', h2'⟩
  have : pk' = pk := by
    have e := h1.1
    rw [h1'.1] at e
    exact List.append_cancel_left e
  subst this
  rw [hc, h3] at h2'
  simp at h2'

end

theorem encodeTime_read (t : Nat) : lebRead (encodeTime t) = some (t % 2 ^ 64) := by
  have := C39_time_roundtrip t.toUInt64 []
  rw [List.append_nil] at this
  unfold encodeTime
  rw [this]
  simp

/-- the certificate of the delegation -/
def delegationCert [SHA] [TreeLib] [BlsSign] (delegatee k : KeyPair) (time : Bytes) (s : SubnetData)
    (nested : Option Delegation) : Certificate :=
  let r := buildCertificate k (createDelegationTree delegatee.publicKey time s)
  ⟨r.1, r.2, nested⟩

theorem createDelegation_eq [SHA] [TreeLib] [BlsSign] (delegatee k : KeyPair) (time : Bytes) (s : SubnetData)
    (nested : Option Delegation) :
    createDelegation delegatee k time s nested = ⟨s.subnetId, selfDescribe ++ encCertificate (delegationCert delegatee k time s nested)⟩ := rfl

theorem holdable_parses {m : Machine} (hm : 32 < m.usize) (hcap : 3 ≤ m.mapCap) {c : Certificate} (h : c.Holdable m) :
    certificateFromCbor m (selfDescribe ++ encCertificate c) = some (.ok c) :=
  (C37_certificate_roundtrip m c hm hcap h.tree h.signature h.delegation h.height).2

section
variable [SHA] [Bls] [TreeLib] [BlsSign] [SubnetIds]

/-- **C56** A builder for a canister always builds; the CBOR it returns parses back to the certificate it returns, and
that certificate carries the certified data it was given. -/
theorem C56_builds (m : Machine) (hm : 32 < m.usize) (hcap : 3 ≤ m.mapCap) (hlib : TreeLib.Lawful) (cid data : Bytes)
    (calls : List BuilderCall) (k0 k1 k2 : KeyPair) :
    ∃ d, (builderRun (.new cid data) calls).build k0 k1 k2 = .ok d ∧
      d.certificate.tree.lookupPath [str "canister", cid, str "certified_data"] = .found data ∧
      (d.certificate.Holdable m → certificateFromCbor m d.cbor = some (.ok d.certificate)) := by
  rw [builder_fields]
  have hl := lookup_represents (hlib _ (certTree_ordered cid data (encodeTime ((timeSet calls).getD defaultTime))))
    (certTree_data cid data _)
  cases h1 : delegationSet calls with
  | none => exact ⟨_, rfl, hl, fun h => holdable_parses hm hcap h⟩
  | some s =>
    cases h2 : nestedSet calls with
    | none => exact ⟨_, rfl, hl, fun h => holdable_parses hm hcap h⟩
    | some n => exact ⟨_, rfl, hl, fun h => holdable_parses hm hcap h⟩

theorem custom_fields (t : LTree) (calls : List BuilderCall) :
    builderRun (.fromCustomTree t) calls = ⟨timeSet calls, none, (delegationSet calls).map (fun s => mkSubnet s.1 s.2),
      (nestedSet calls).map (fun s => mkSubnet s.1 s.2),
      if BuilderCall.invalidSignature ∈ calls then some CertBuilder.invalidSig else none, some t⟩ := by
  induction calls using List.reverseRecOn with
  | nil => rfl
  | append_singleton calls c ih =>
    rw [show builderRun _ (calls ++ [c]) = BuilderCall.run (builderRun (.fromCustomTree t) calls) c by simp [builderRun], ih]
    cases c <;> simp [BuilderCall.run, CertBuilder.withDelegation, CertBuilder.withNestedDelegation, CertBuilder.withTime,
      CertBuilder.withInvalidSignature, timeSet, delegationSet, nestedSet]

/-- **C56** A builder made from a custom tree always builds, and looking up any path of the certificate's tree finds
exactly the leaves of the custom tree: a leaf's content if there is one, and nothing else anywhere. -/
theorem C56_custom (m : Machine) (hm : 32 < m.usize) (hcap : 3 ≤ m.mapCap) (hlib : TreeLib.Lawful) (t : LTree) (ht : t.Ordered)
    (calls : List BuilderCall) (k0 k1 k2 : KeyPair) :
    ∃ d, (builderRun (.fromCustomTree t) calls).build k0 k1 k2 = .ok d ∧
      (∀ p v, d.certificate.tree.lookupPath p = .found v ↔ t.leafAt p = some v) ∧
      (d.certificate.Holdable m → certificateFromCbor m d.cbor = some (.ok d.certificate)) ∧
      (k0.Good → (SignedBy d.certificate k0.publicKey ↔ BuilderCall.invalidSignature ∉ calls)) := by
  have hrep := hlib t ht
  have hl : ∀ p v, (TreeLib.mixed t).lookupPath p = .found v ↔ t.leafAt p = some v := by
    intro p v
    rw [C04_found_iff, lookupSubtree_eq_found_iff hrep.1]
    exact hrep.2 p v
  have hsig : ∀ d, k0.Good → (SignedBy ⟨(buildCertificate k0 t).1, (if BuilderCall.invalidSignature ∈ calls then
      some CertBuilder.invalidSig else none).getD (buildCertificate k0 t).2, d⟩ k0.publicKey ↔ BuilderCall.invalidSignature ∉ calls) := by
    intro d hk
    by_cases h : BuilderCall.invalidSignature ∈ calls
    · simp only [if_pos h, Option.getD_some, h, not_true_eq_false, iff_false]
      exact good_rejects hk rfl
    · simp only [if_neg h, Option.getD_none, h, not_false_eq_true, iff_true]
      exact good_signs hk t d
  rw [custom_fields]
  cases h1 : delegationSet calls with
  | none => exact ⟨_, rfl, hl, fun h => holdable_parses hm hcap h, hsig _⟩
  | some s =>
    cases h2 : nestedSet calls with
    | none => exact ⟨_, rfl, hl, fun h => holdable_parses hm hcap h, hsig _⟩
    | some n => exact ⟨_, rfl, hl, fun h => holdable_parses hm hcap h, hsig _⟩

/-- **C56** Without a nested delegation, the certificate verifies for the canister with the returned root key exactly
when its time (modulo 2^64) is in the window, the signature was not spoilt, and the ranges of the delegation, if one
was asked for, contain the canister. A nested delegation without an outer one has no effect. -/
theorem C56_verifies (m : Machine) (hm : 32 < m.usize) (hcap : 3 ≤ m.mapCap) (hlib : TreeLib.Lawful) (checks : Bool)
    (cid data : Bytes) (hcid : cid.length ≤ 29) (calls : List BuilderCall) (k0 k1 k2 : KeyPair) (g0 : k0.Good) (g1 : k1.Good)
    (hn : nestedSet calls = none ∨ delegationSet calls = none) (d : CertData)
    (hb : (builderRun (.new cid data) calls).build k0 k1 k2 = .ok d)
    (hfit : ∀ s r, delegationSet calls = some (s, r) → m.Fits r.length)
    (hin : ∀ del inner, d.certificate.delegation = some del → del.certificate = selfDescribe ++ encCertificate inner →
      inner.Holdable m)
    (hstack : 4 ≤ m.stack) (now off : Nat) (ho : off ≤ now) (hno : now + off < 2 ^ 128) :
    certVerify m checks d.certificate cid d.rootKey now off = .ok () ↔
      InWindow ((timeSet calls).getD 1651142233000005031 % 2 ^ 64) now off ∧
      BuilderCall.invalidSignature ∉ calls ∧
      ∀ s r, delegationSet calls = some (s, r) → ∃ lo hi, (lo, hi) ∈ r ∧ PrincipalLe (canisterOfU64 lo) cid ∧
        PrincipalLe cid (canisterOfU64 hi) := by
  rw [builder_fields] at hb
  have hrep := hlib _ (certTree_ordered cid data (encodeTime ((timeSet calls).getD defaultTime)))
  have htime := lookup_represents hrep (certTree_time cid data _)
  have hread := encodeTime_read ((timeSet calls).getD defaultTime)
  have time_of : ∀ {c : Certificate} {t : Nat}, c.tree = TreeLib.mixed (createCertificateTree cid data
      (encodeTime ((timeSet calls).getD defaultTime))) → CertTime c t → t = (timeSet calls).getD defaultTime % 2 ^ 64 := by
    rintro c t hc ⟨v, h1, h2⟩
    rw [hc] at h1
    have := leaf_of_represents hrep (certTree_time cid data _) h1
    subst this
    rw [hread] at h2
    exact (Option.some.inj h2).symm
  cases h1 : delegationSet calls with
  | none =>
    rw [h1] at hb
    dsimp only [CertBuilder.build, Option.map] at hb
    injection hb with hb
    subst hb
    constructor
    · intro h
      obtain ⟨⟨t, ht, hw⟩, hs⟩ := C40_chain m checks _ cid _ now off h
      refine ⟨(time_of rfl ht) ▸ hw, fun hi => ?_, by simp⟩
      rcases hs with ⟨_, hs⟩ | ⟨d, _, hd, _⟩
      · exact good_rejects g0 (by simp [hi]) hs
      · simp at hd
    · rintro ⟨hw, hi, _⟩
      refine C40_accepts m checks _ cid _ now off _ _ htime hread ho hno hw hcid (.inl ⟨rfl, ?_⟩)
      simp only [hi, if_false, Option.getD_none]
      exact good_signs g0 _ _
  | some s =>
    obtain ⟨s, r⟩ := s
    have h2 : nestedSet calls = none := by
      rcases hn with h | h
      · exact h
      · rw [h1] at h; simp at h
    rw [h1, h2] at hb
    dsimp only [CertBuilder.build, Option.map] at hb
    injection hb with hb
    subst hb
    have hdr := hlib _ (delTree_ordered k0.publicKey (encodeTime ((timeSet calls).getD defaultTime)) (mkSubnet s r))
    have hparse : certificateFromCbor m (selfDescribe ++ encCertificate (delegationCert k0 k1
        (encodeTime ((timeSet calls).getD defaultTime)) (mkSubnet s r) none)) =
        some (.ok (delegationCert k0 k1 (encodeTime ((timeSet calls).getD defaultTime)) (mkSubnet s r) none)) :=
      holdable_parses hm hcap (hin _ _ rfl rfl)
    have hranges : rangesFromCbor m (selfDescribe ++ encRanges (mkSubnet s r).ranges) = some (.ok (mkSubnet s r).ranges) := by
      refine (C37_ranges_roundtrip m _ hm ?_ ?_ hstack).2
      · simpa [mkSubnet] using hfit s r h1
      · intro p hp
        simp only [mkSubnet, List.mem_map] at hp
        obtain ⟨x, _, rfl⟩ := hp
        constructor <;> simp [canisterOfU64, beBytes]
    constructor
    · intro h
      obtain ⟨⟨t, ht, hw⟩, hs⟩ := C40_chain m checks _ cid _ now off h
      rcases hs with ⟨hs, _⟩ | ⟨d, key, hd, hdel, hs⟩
      · simp at hs
      · simp only [Option.some.injEq] at hd
        subst hd
        obtain ⟨inner, ranges, rc, lo, hi, e1, e2, e3, e4, e5, e6, e7, e8, e9⟩ := hdel.holds
        rw [createDelegation_eq] at e1 e4 e9
        simp only at e1 e4 e9
        rw [hparse] at e1
        simp only [Option.some.injEq, Except.ok.injEq] at e1
        subst e1
        have := leaf_of_represents hdr (delTree_ranges _ _ _) e4
        subst this
        rw [hranges] at e5
        simp only [Option.some.injEq, Except.ok.injEq] at e5
        subst e5
        have := leaf_of_represents hdr (delTree_key _ _ _) e9
        subst this
        refine ⟨(time_of rfl ht) ▸ hw, fun hi => good_rejects g0 (by simp [hi]) hs, ?_⟩
        rintro s' r' hsr
        simp only [Option.some.injEq, Prod.mk.injEq] at hsr
        obtain ⟨rfl, rfl⟩ := hsr
        simp only [mkSubnet, List.mem_map, Prod.mk.injEq] at e6
        obtain ⟨x, hx, rfl, rfl⟩ := e6
        exact ⟨x.1, x.2, hx, e7, e8⟩
    · rintro ⟨hw, hi, hr⟩
      obtain ⟨lo, hi', hx, hlo, hhi⟩ := hr s r rfl
      refine C40_accepts m checks _ cid _ now off _ _ htime hread ho hno hw hcid (.inr ⟨_, k0.publicKey, _, _, _, rfl, ?_, hparse, rfl,
        good_signs g1 _ _, lookup_represents hdr (delTree_ranges _ _ _), hranges, ?_, lookup_represents hdr (delTree_key _ _ _)⟩)
      · simp only [hi, if_false, Option.getD_none]
        exact good_signs g0 _ _
      · exact ⟨_, _, List.mem_map.2 ⟨(lo, hi'), hx, rfl⟩, hlo, hhi⟩

/-- **C56** With both delegations the certificate is always refused, with the error for too many delegations. -/
theorem C56_nested (m : Machine) (hm : 32 < m.usize) (hcap : 3 ≤ m.mapCap) (hlib : TreeLib.Lawful) (checks : Bool)
    (cid data rootKey : Bytes) (calls : List BuilderCall) (k0 k1 k2 : KeyPair)
    (hs : (delegationSet calls).isSome) (hn : (nestedSet calls).isSome) (d : CertData)
    (hb : (builderRun (.new cid data) calls).build k0 k1 k2 = .ok d)
    (hin : ∀ del inner, d.certificate.delegation = some del → del.certificate = selfDescribe ++ encCertificate inner →
      inner.Holdable m)
    (now off : Nat) (ho : off ≤ now) (hno : now + off < 2 ^ 128)
    (hw : InWindow ((timeSet calls).getD 1651142233000005031 % 2 ^ 64) now off) :
    certVerify m checks d.certificate cid rootKey now off = .err .tooManyDelegations := by
  rw [builder_fields] at hb
  have hrep := hlib _ (certTree_ordered cid data (encodeTime ((timeSet calls).getD defaultTime)))
  have htime := lookup_represents hrep (certTree_time cid data _)
  have hread := encodeTime_read ((timeSet calls).getD defaultTime)
  obtain ⟨s, h1⟩ := Option.isSome_iff_exists.1 hs
  obtain ⟨n, h2⟩ := Option.isSome_iff_exists.1 hn
  rw [h1, h2] at hb
  dsimp only [CertBuilder.build, Option.map] at hb
  injection hb with hb
  subst hb
  have hparse := holdable_parses hm hcap (hin _ _ rfl rfl)
  unfold certVerify
  rw [(C39_window_exact_partial checks _ now off _ _ htime hread ho hno).2 hw, Out.ok_bind]
  simp only
  unfold verifyDelegation
  rw [createDelegation_eq]
  simp only
  erw [hparse]
  rfl

end

theorem snoc_lt {a b : Bytes} {x y : UInt8} (h : a.length = b.length) : a ++ [x] < b ++ [y] ↔ a < b ∨ (a = b ∧ x < y) := by
  induction a generalizing b with
  | nil =>
    have : b = [] := by simpa using h.symm
    subst this
    simp [List.cons_lt_cons_iff]
  | cons u a ih =>
    cases b with
    | nil => simp at h
    | cons v b =>
      simp only [List.cons_append, List.cons_lt_cons_iff, ih (by simpa using h), List.cons.injEq]
      tauto

theorem beBytes_length (w n : Nat) : (beBytes w n).length = w := by
  induction w generalizing n with
  | zero => rfl
  | succ w ih => simp [beBytes, ih]

theorem beBytes_lt (w : Nat) : ∀ n k : Nat, n < 256 ^ w → k < 256 ^ w → (beBytes w n < beBytes w k ↔ n < k) ∧ (beBytes w n = beBytes w k ↔ n = k) := by
  induction w with
  | zero => intro n k hn hk; simp at hn hk; subst hn; subst hk; simp [beBytes]
  | succ w ih =>
    intro n k hn hk
    rw [pow_succ] at hn hk
    obtain ⟨h1, h2⟩ := ih (n / 256) (k / 256) (by omega) (by omega)
    have hb : ∀ a b : Nat, a < 256 → b < 256 → (a.toUInt8 < b.toUInt8 ↔ a < b) ∧ (a.toUInt8 = b.toUInt8 ↔ a = b) := by
      intro a b ha hb
      rw [UInt8.lt_iff_toNat_lt, ← UInt8.toNat_inj, toNat_toUInt8 ha, toNat_toUInt8 hb]
      exact ⟨Iff.rfl, Iff.rfl⟩
    obtain ⟨h3, h4⟩ := hb (n % 256) (k % 256) (by omega) (by omega)
    constructor
    · rw [beBytes, beBytes, snoc_lt (by rw [beBytes_length, beBytes_length]), h1, h2, h3]
      omega
    · rw [beBytes, beBytes]
      constructor
      · intro h
        obtain ⟨e1, e2⟩ := List.append_inj' h rfl
        have := h2.1 e1
        have := h4.1 (List.singleton_inj.1 e2)
        omega
      · rintro rfl; rfl

/-- **C56** Canister ids made from numbers are ordered as the numbers, so a range contains exactly the canisters with
numbers between its ends. -/
theorem C56_numbers (a b : UInt64) : PrincipalLe (canisterOfU64 a) (canisterOfU64 b) ↔ a ≤ b := by
  have ha := a.toNat_lt
  have hb := b.toNat_lt
  obtain ⟨h1, h2⟩ := beBytes_lt 8 a.toNat b.toNat (by omega) (by omega)
  have hl : (canisterOfU64 a).length = (canisterOfU64 b).length := by simp [canisterOfU64, beBytes_length]
  have hc : ∀ (x y : Bytes), x.length = y.length → (x ++ [1, 1] ≤ y ++ [1, 1] ↔ x ≤ y) := by
    intro x y h
    have e : ∀ z : Bytes, z ++ [(1 : UInt8), 1] = (z ++ [1]) ++ [1] := by simp
    rw [← not_lt, ← not_lt, e, e, snoc_lt (by simp [h]), snoc_lt h.symm]
    simp
  unfold PrincipalLe
  rw [show (canisterOfU64 a ≤ canisterOfU64 b) = _ from propext (hc (beBytes 8 a.toNat) (beBytes 8 b.toNat) (by rw [beBytes_length, beBytes_length])),
    le_iff_lt_or_eq, h1, h2, UInt64.le_iff_toNat_le]
  omega

/-! ### Concrete instances -/

mutual
/-- a conversion to hash trees: every level a comb of forks -/
def combTree : LTree → HashTree
  | .leaf b => .leaf b
  | .sub cs => combList cs
def combList : List (Bytes × LTree) → HashTree
  | [] => .empty
  | e :: cs =>
    match cs with
    | [] => combPair e
    | _ :: _ => .fork (combPair e) (combList cs)
def combPair : Bytes × LTree → HashTree
  | (k, t) => .labeled k (combTree t)
end

theorem combList_labels : ∀ cs : List (Bytes × LTree), (combList cs).labels = cs.map (·.1)
  | [] => by simp [combList, labels]
  | [(k, t)] => by simp [combList, combPair, labels]
  | (k, t) :: e :: cs => by
    have ih := combList_labels (e :: cs)
    rw [combList]
    simp only [labels, combPair, ih]
    simp

/-- the comb conversion meets the contract -/
theorem combTree_represents (t : LTree) (h : t.Ordered) : Represents (combTree t) t := by
  induction h with
  | leaf b =>
    refine ⟨by simp [combTree, WellFormed, WF], fun p v => ?_⟩
    rw [combTree, HasLeaf]
    cases p with
    | nil =>
      simp only [LTree.leafAt, Option.some.injEq]
      constructor
      · intro h; cases h; rfl
      · rintro rfl; exact .here _
    | cons x p => constructor <;> intro h <;> [cases h; simp [LTree.leafAt] at h]
  | sub cs hs hc ih =>
    have key : ∀ cs : List (Bytes × LTree), cs.Pairwise (fun a b => a.1 < b.1) → (∀ e ∈ cs, Represents (combTree e.2) e.2) →
        WF true (combList cs) ∧ (cs ≠ [] → WF false (combList cs)) ∧
        ∀ p v, HasLeaf (combList cs) p v ↔ LTree.leafAt p (.sub cs) = some v := by
      intro cs
      induction cs with
      | nil =>
        intro _ _
        refine ⟨by simp [combList, WF], by simp, fun p v => ?_⟩
        cases p with
        | nil =>
          simp only [combList, HasLeaf, LTree.leafAt]
          constructor
          · intro h; cases h
          · intro h; simp at h
        | cons x p =>
          simp only [combList, HasLeaf, LTree.leafAt]
          constructor
          · intro h; cases h
          · intro h; simp at h
      | cons e cs ihc =>
        obtain ⟨k, t⟩ := e
        intro hp hr
        have hk := hr (k, t) (by simp)
        have hp' := List.pairwise_cons.1 hp
        obtain ⟨i1, i2, i3⟩ := ihc hp'.2 (fun e he => hr e (by simp [he]))
        have hleaf : ∀ p v, HasLeaf (combPair (k, t)) p v ↔ ∃ q, p = k :: q ∧ t.leafAt q = some v := by
          intro p v
          rw [combPair]
          constructor
          · intro h; cases h with | down h => exact ⟨_, rfl, (hk.2 _ _).1 h⟩
          · rintro ⟨q, rfl, h⟩; exact .down ((hk.2 _ _).2 h)
        have hcons : ∀ p v, LTree.leafAt p (.sub ((k, t) :: cs)) = some v ↔
            (∃ q, p = k :: q ∧ t.leafAt q = some v) ∨ LTree.leafAt p (.sub cs) = some v := by
          intro p v
          cases p with
          | nil => simp [LTree.leafAt]
          | cons x p =>
            by_cases hx : k = x
            · subst hx
              have hnone : cs.find? (fun e => decide (e.1 = k)) = none := by
                rw [List.find?_eq_none]
                intro e he
                simpa using (ne_of_gt (hp'.1 e he))
              simp [LTree.leafAt, hnone]
            · have hx' : ¬ x = k := fun e => hx e.symm
              simp [LTree.leafAt, hx, hx']
        cases cs with
        | nil =>
          rw [combList]
          refine ⟨by rw [combPair]; exact hk.1, fun _ => by rw [combPair]; exact hk.1, fun p v => ?_⟩
          rw [hleaf, hcons]
          cases p <;> simp [LTree.leafAt]
        | cons e cs =>
          rw [combList]
          have hw : WF true (.fork (combPair (k, t)) (combList (e :: cs))) := by
            refine ⟨by rw [combPair]; exact hk.1, i2 (by simp), ?_⟩
            intro a ha b hb
            rw [combPair, labels, List.mem_singleton] at ha
            rw [combList_labels] at hb
            obtain ⟨x, hx, rfl⟩ := List.mem_map.1 hb
            rw [ha]; exact hp'.1 x hx
          refine ⟨hw, fun _ => hw, fun p v => ?_⟩
          rw [hcons, ← hleaf, ← i3]
          constructor
          · intro h
            cases h with
            | left h => exact .inl h
            | right h => exact .inr h
          · intro h
            cases p with
            | nil =>
              rcases h with h | h
              · rw [combPair] at h; cases h
              · have := (i3 [] v).1 h
                simp [LTree.leafAt] at this
            | cons x p =>
              rcases h with h | h
              · exact .left h
              · exact .right h
    obtain ⟨k1, _, k3⟩ := key cs hs ih
    exact ⟨by rw [combTree]; exact k1, fun p v => by rw [combTree]; exact k3 p v⟩

section examples

@[instance_reducible] def toyTreeLib : TreeLib := ⟨combTree⟩
/-- the toy signature is the public key, which is the private key -/
@[instance_reducible] def toySign : BlsSign := ⟨fun sk _ => sk⟩
@[instance_reducible] def toySubnets : SubnetIds := ⟨fun n => canisterOfU64 n⟩
attribute [local instance] toySHA toyBls toyTreeLib toySign toySubnets

def exKeyPair (n : UInt8) : KeyPair := ⟨derPrefix ++ List.replicate 96 n, List.replicate 96 n⟩

theorem exKeyPair_good (n : UInt8) : (exKeyPair n).Good := by
  refine ⟨List.replicate 96 n, ⟨rfl, by simp⟩, fun msg => ?_, fun msg => ?_⟩
  · simp [Bls.verify, BlsSign.sign, exKeyPair]
  · have h : (CertBuilder.invalidSig == List.replicate 96 n) = false := by
      rw [beq_eq_false_iff_ne]
      intro h
      have := congrArg List.length h
      simp at this
      exact absurd this (by decide)
    show some (CertBuilder.invalidSig == List.replicate 96 n) = some false
    rw [h]

theorem encTree_bounds {m : Machine} (t : HashTree) (h1 : (encTree t).length < m.usize) (h2 : (encTree t).length < 2 ^ 64) :
    t.Fits m ∧ t.height ≤ (encTree t).length := by
  induction t with
  | empty => exact ⟨trivial, Nat.zero_le _⟩
  | pruned h => exact ⟨trivial, Nat.zero_le _⟩
  | leaf b =>
    simp only [encTree, encBytes, List.length_append] at h1 h2 ⊢
    exact ⟨⟨by omega, by omega⟩, Nat.zero_le _⟩
  | labeled l t ih =>
    have hp : (encHead 4 3).length = 1 := rfl
    simp only [encTree, encBytes, List.length_append, HashTree.height] at h1 h2 ⊢
    have := ih (by omega) (by omega)
    exact ⟨⟨⟨by omega, by omega⟩, this.1⟩, by omega⟩
  | fork l r ihl ihr =>
    have hp : (encHead 4 3).length = 1 := rfl
    simp only [encTree, List.length_append, HashTree.height] at h1 h2 ⊢
    have a := ihl (by omega) (by omega)
    have b := ihr (by omega) (by omega)
    exact ⟨⟨a.1, b.1⟩, by omega⟩

/-- Any certificate whose CBOR is shorter than the machine's limits is holdable: the hypotheses of C56 are met by every
certificate, on a large enough machine. -/
theorem small_holdable {m : Machine} (c : Certificate) {n : Nat} (hn : (selfDescribe ++ encCertificate c).length = n)
    (h1 : n < m.usize) (h2 : n < 2 ^ 64) (h3 : n + 4 ≤ m.stack) : c.Holdable m := by
  subst hn
  have key : (encTree c.tree).length + (encBytes c.signature).length +
      (match c.delegation with | none => 0 | some d => (encBytes d.subnetId).length + (encBytes d.certificate).length) ≤
      (selfDescribe ++ encCertificate c).length := by
    cases hd : c.delegation with
    | none => simp only [encCertificate, hd, List.length_append]; omega
    | some d => simp only [encCertificate, encDelegation, hd, List.length_append]; omega
  generalize (selfDescribe ++ encCertificate c).length = n at *
  have ht := encTree_bounds (m := m) c.tree (by omega) (by omega)
  refine ⟨ht.1, by omega, ?_, ?_⟩
  · simp only [encBytes, List.length_append] at key
    exact ⟨by omega, by omega⟩
  · intro d hd
    rw [hd] at key
    simp only [encBytes, List.length_append] at key
    exact ⟨⟨by omega, by omega⟩, ⟨by omega, by omega⟩⟩

/-- a delegated certificate, its time set twice -/
def exBuilderCalls : List BuilderCall := [.time 5, .delegation 7 [(1, 9)], .time 1000]

/-- what the builder makes of a history of calls, for canister number 4 -/
def exBuilt (calls : List BuilderCall) : CertData :=
  match (builderRun (.new (canisterOfU64 4) [1, 2]) calls).build (exKeyPair 1) (exKeyPair 2) (exKeyPair 3) with
  | .ok d => d
  | .error _ => ⟨⟨.empty, [], none⟩, [], []⟩

theorem exBuilt_eq (calls : List BuilderCall) :
    (builderRun (.new (canisterOfU64 4) [1, 2]) calls).build (exKeyPair 1) (exKeyPair 2) (exKeyPair 3) = .ok (exBuilt calls) := by
  obtain ⟨d, h, _⟩ := C56_builds ⟨2 ^ 64, 1000, 1000, 100, by decide⟩ (by decide) (by decide) combTree_represents (canisterOfU64 4) [1, 2]
    calls (exKeyPair 1) (exKeyPair 2) (exKeyPair 3)
  unfold exBuilt
  rw [h]

def exBuilderMachine : Machine := ⟨2 ^ 64, 1000, 5000, 100, by decide⟩

/-- the hypotheses of `C56_verifies` hold, and it verifies -/
example : certVerify exBuilderMachine true (exBuilt exBuilderCalls).certificate (canisterOfU64 4) (exBuilt exBuilderCalls).rootKey
    1010 20 = .ok () := by
  refine (C56_verifies exBuilderMachine (by decide) (by decide) combTree_represents true (canisterOfU64 4) [1, 2] (by decide)
    exBuilderCalls (exKeyPair 1) (exKeyPair 2) (exKeyPair 3) (exKeyPair_good 1) (exKeyPair_good 2) (.inl rfl) _ (exBuilt_eq _)
    ?_ ?_ (by decide) 1010 20 (by decide) (by decide)).2 ⟨?_, by decide, ?_⟩
  · intro s r h; cases h; exact ⟨by decide, by decide⟩
  · intro del inner h1 h2
    cases h1
    exact small_holdable inner (congrArg List.length h2).symm (by decide +kernel) (by decide +kernel) (by decide +kernel)
  · exact ⟨by decide, by decide⟩
  · intro s r h; cases h
    exact ⟨1, 9, by decide, (C56_numbers 1 4).2 (by decide), (C56_numbers 4 9).2 (by decide)⟩

/-- out of the range, outside the window, or with the spoilt signature it does not -/
example : (match certVerify exBuilderMachine true (exBuilt [.delegation 7 [(5, 9)], .time 1000]).certificate (canisterOfU64 4)
      (exBuilt [.delegation 7 [(5, 9)], .time 1000]).rootKey 1010 20 with
    | .err .principalOutOfRange => true | _ => false) = true := by decide +kernel
example : (match certVerify exBuilderMachine true (exBuilt [.time 1000]).certificate (canisterOfU64 4)
      (exBuilt [.time 1000]).rootKey 1021 20 with
    | .err .timePast => true | _ => false) = true := by decide +kernel
example : (match certVerify exBuilderMachine true (exBuilt [.time 1000, .invalidSignature]).certificate (canisterOfU64 4)
      (exBuilt [.time 1000, .invalidSignature]).rootKey 1010 20 with
    | .err _ => true | _ => false) = true := by decide +kernel
/-- a nested delegation without an outer one is ignored -/
example : (match certVerify exBuilderMachine true (exBuilt [.time 1000, .nested 3 [(7, 8)]]).certificate (canisterOfU64 4)
      (exBuilt [.time 1000, .nested 3 [(7, 8)]]).rootKey 1010 20 with
    | .ok () => true | _ => false) = true := by decide +kernel
/-- a nested delegation is refused: the hypotheses of `C56_nested` hold -/
example : certVerify exBuilderMachine true (exBuilt (.nested 3 [(1, 9)] :: exBuilderCalls)).certificate (canisterOfU64 4)
    (exKeyPair 3).publicKey 1010 20 = .err .tooManyDelegations := by
  refine C56_nested exBuilderMachine (by decide) (by decide) combTree_represents true (canisterOfU64 4) [1, 2] _
    (.nested 3 [(1, 9)] :: exBuilderCalls) (exKeyPair 1) (exKeyPair 2) (exKeyPair 3) rfl rfl _ (exBuilt_eq _) ?_
    1010 20 (by decide) (by decide) ⟨by decide, by decide⟩
  intro del inner h1 h2
  cases h1
  exact small_holdable inner (congrArg List.length h2).symm (by decide +kernel) (by decide +kernel) (by decide +kernel)

/-- `C56_custom` on a tree of two levels -/
example : LTree.Ordered (.sub [([1], .leaf [7]), ([2], .sub [([1], .leaf [8])])]) :=
  .sub _ (by simp; decide) (by simp; exact ⟨.leaf _, .sub _ (by simp) (by simp; exact .leaf _)⟩)

end examples

end Verif.Props
