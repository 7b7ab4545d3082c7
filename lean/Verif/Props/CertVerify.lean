import Verif.Spec.CertVerify
import Verif.Lemmas.Lookup
import Verif.Lemmas.Header
import Verif.Props.HashTree
import Verif.Props.Cbor
import Verif.Spec.Toy

set_option linter.unusedSimpArgs false
set_option linter.unusedSectionVars false

/-!
# C39–C43: certificate verification
-/

namespace Verif.Props
open Verif HashTree

/-! ## C43 -/

/-- **C43** Extraction accepts exactly the documented encoding and returns the key. -/
theorem C43_extract_der (der pk : Bytes) : extractDer der = .ok pk ↔ IsDerKey der pk := by
  unfold extractDer IsDerKey
  have hl : derPrefix.length = 37 := rfl
  constructor
  · intro h
    split at h
    · simp at h
    · rename_i h1
      split at h
      · simp at h
      · rename_i h2
        push Not at h1 h2
        simp at h
        subst h
        constructor
        · conv_lhs => rw [← List.take_append_drop derPrefix.length der]
          rw [h2]
        · simp [h1, keyLength]
  · rintro ⟨rfl, h⟩
    simp [h, keyLength]

/-- **C43** The two errors: wrong length; right length and wrong prefix. -/
theorem C43_errors (der : Bytes) :
    (extractDer der = .error .derKeyLength ↔ der.length ≠ 133) ∧
    (extractDer der = .error .derPrefix ↔ der.length = 133 ∧ ¬ ∃ pk, der = derPrefix ++ pk) := by
  have hl : derPrefix.length = 37 := rfl
  unfold extractDer
  constructor
  · split
    · rename_i h; simpa [hl, keyLength] using h
    · rename_i h
      have h' : der.length = 133 := by simpa [hl, keyLength] using h
      split <;> simp [h']
  · split
    · rename_i h
      have h' : der.length ≠ 133 := by simpa [hl, keyLength] using h
      simp [h']
    · rename_i h
      have h' : der.length = 133 := by simpa [hl, keyLength] using h
      split
      · rename_i h2
        simp only [h', true_and, true_iff]
        rintro ⟨pk, rfl⟩
        exact h2 (by simp)
      · rename_i h2
        push Not at h2
        simp only [h', true_and]
        constructor
        · intro h; simp at h
        · intro h; exact absurd ⟨der.drop derPrefix.length, by conv_lhs => rw [← List.take_append_drop derPrefix.length der]
                                                               rw [h2]⟩ h

/-! ## C41 -/

theorem cmpB_append_same {a b z : Bytes} (h : a.length = b.length) : cmpB (a ++ z) (b ++ z) = cmpB a b := by
  induction a generalizing b with
  | nil =>
    have : b = [] := by simpa using h.symm
    subst this
    simp only [List.nil_append]
    rw [cmpB_eq.2 rfl]; rfl
  | cons x xs ih =>
    cases b with
    | nil => simp at h
    | cons y ys => simp at h; simp [cmpB, ih h]

theorem principalLe_iff {a b : Bytes} : principalLe a b = true ↔ PrincipalLe a b := by
  unfold principalLe PrincipalLe
  split
  · rename_i h; simp [h]
  · rename_i h1
    split
    · rename_i h2
      simp; constructor
      · omega
      · intro h; omega
    · rename_i h2
      have e : a.length = b.length := by omega
      unfold pad29
      rw [e, cmpB_append_same e]
      rw [bne_iff_ne, ne_eq, cmpB_gt]
      simp [not_lt]

/-- **C41** A canister id is within the ranges exactly if some range contains it, ends included, in the order of
principals (length first, then bytes). -/
theorem C41_ranges (id : Bytes) (ranges : List (Bytes × Bytes)) :
    withinRanges id ranges = true ↔ ∃ lo hi, (lo, hi) ∈ ranges ∧ PrincipalLe lo id ∧ PrincipalLe id hi := by
  unfold withinRanges
  rw [List.any_eq_true]
  constructor
  · rintro ⟨⟨lo, hi⟩, h, h2⟩
    simp [principalLe_iff] at h2
    exact ⟨lo, hi, h, h2⟩
  · rintro ⟨lo, hi, h, h2⟩
    exact ⟨(lo, hi), h, by simp [principalLe_iff]; exact h2⟩

/-- **C41** The order of principals is a total order; on ids of the same length it is the byte order. -/
theorem C41_order :
    (∀ a, PrincipalLe a a) ∧ (∀ a b c, PrincipalLe a b → PrincipalLe b c → PrincipalLe a c) ∧
    (∀ a b, PrincipalLe a b → PrincipalLe b a → a = b) ∧ (∀ a b, PrincipalLe a b ∨ PrincipalLe b a) ∧
    (∀ a b, a.length = b.length → (PrincipalLe a b ↔ a ≤ b)) := by
  unfold PrincipalLe
  refine ⟨?_, ?_, ?_, ?_, ?_⟩
  · intro a; exact .inr ⟨rfl, le_refl a⟩
  · rintro a b c (h1 | ⟨h1, h1'⟩) (h2 | ⟨h2, h2'⟩)
    · left; omega
    · left; omega
    · left; omega
    · right; exact ⟨by omega, le_trans h1' h2'⟩
  · rintro a b (h1 | ⟨h1, h1'⟩) (h2 | ⟨h2, h2'⟩)
    · omega
    · omega
    · omega
    · exact le_antisymm h1' h2'
  · intro a b
    rcases lt_trichotomy a.length b.length with h | h | h
    · left; left; exact h
    · rcases le_total a b with h' | h'
      · left; right; exact ⟨h, h'⟩
      · right; right; exact ⟨h.symm, h'⟩
    · right; left; exact h
  · intro a b h
    simp [h]

/-! ## C39 -/

theorem lebReadFrom_bound : ∀ (b : Bytes) (k n : Nat), k ≤ 9 → lebReadFrom (7 * k) b = some n → n + 2 ^ (7 * k) ≤ 2 ^ 64
  | [], _, _, _, h => by simp [lebReadFrom] at h
  | x :: r, k, n, hk, h => by
    unfold lebReadFrom at h
    split at h
    · simp at h
    · rename_i h1
      by_cases hk9 : k = 9
      · subst hk9
        simp at h1
        have hx : x = 0 ∨ x = 1 := by
          by_cases hx0 : x = 0
          · exact .inl hx0
          · exact .inr (h1 hx0)
        rcases hx with rfl | rfl
        · simp at h; subst h; decide
        · simp at h; subst h; decide
      · have hk8 : k ≤ 8 := by omega
        have hp : (2 : Nat) ^ (7 * k) * 128 = 2 ^ (7 * (k + 1)) := by
          rw [Nat.mul_add, Nat.pow_add]
        have hle : (2 : Nat) ^ (7 * (k + 1)) ≤ 2 ^ 63 := Nat.pow_le_pow_right (by decide) (by omega)
        have hlow : x.toNat % 128 < 128 := Nat.mod_lt _ (by decide)
        have hlow' : x.toNat % 128 * 2 ^ (7 * k) + 2 ^ (7 * k) ≤ 2 ^ (7 * (k + 1)) := by
          rw [← hp]
          have : (x.toNat % 128 + 1) * 2 ^ (7 * k) ≤ 128 * 2 ^ (7 * k) := Nat.mul_le_mul_right _ (by omega)
          rw [Nat.add_mul] at this
          omega
        split at h
        · simp at h; omega
        · rw [Option.map_eq_some_iff] at h
          obtain ⟨n', h2, h3⟩ := h
          have h2' : lebReadFrom (7 * (k + 1)) r = some n' := by rw [Nat.mul_add]; exact h2
          have := lebReadFrom_bound r (k + 1) n' (by omega) h2'
          omega

theorem lebRead_lt {b : Bytes} {n : Nat} (h : lebRead b = some n) : n < 2 ^ 64 := by
  have := lebReadFrom_bound b 0 n (by omega) h
  simp at this
  omega

theorem lebReadFrom_write : ∀ (fuel n k : Nat), n < 128 ^ fuel → n * 2 ^ (7 * k) < 2 ^ 64 → 0 < fuel → k ≤ 9 → ∀ rest,
    lebReadFrom (7 * k) (lebWrite fuel n ++ rest) = some (n * 2 ^ (7 * k))
  | 0, _, _, _, _, h, _, _ => absurd h (by decide)
  | fuel + 1, n, k, hf, hn, _, hk, rest => by
    unfold lebWrite
    split
    · rename_i hlt
      have e : n.toUInt8.toNat = n := toNat_toUInt8 (by omega)
      simp only [List.cons_append, List.nil_append]
      unfold lebReadFrom
      have h1 : ¬ (7 * k = 63 ∧ n.toUInt8 ≠ 0 ∧ n.toUInt8 ≠ 1) := by
        rintro ⟨h1, h2, h3⟩
        rw [h1] at hn
        have : n = 0 ∨ n = 1 := by omega
        rcases this with rfl | rfl
        · exact h2 rfl
        · exact h3 rfl
      have h2 : n.toUInt8 < 128 := by rw [UInt8.lt_iff_toNat_lt, e]; exact hlt
      rw [if_neg h1, if_pos h2, e, Nat.mod_eq_of_lt hlt]
    · rename_i hge
      have e : (n % 128 + 128).toUInt8.toNat = n % 128 + 128 := toNat_toUInt8 (by omega)
      rw [List.cons_append]
      unfold lebReadFrom
      have h63 : 7 * k ≠ 63 := by
        intro h; rw [h] at hn; omega
      have h1 : ¬ (7 * k = 63 ∧ (n % 128 + 128).toUInt8 ≠ 0 ∧ (n % 128 + 128).toUInt8 ≠ 1) := fun h => h63 h.1
      have h2 : ¬ (n % 128 + 128).toUInt8 < 128 := by
        rw [UInt8.lt_iff_toNat_lt, e]
        have : (128 : UInt8).toNat = 128 := rfl
        omega
      rw [if_neg h1, if_neg h2, e]
      have hp : (2 : Nat) ^ (7 * (k + 1)) = 2 ^ (7 * k) * 128 := by rw [Nat.mul_add, Nat.pow_add]
      have hdiv : n / 128 * 128 + n % 128 = n := Nat.div_add_mod' n 128
      have hnf : n / 128 < 128 ^ fuel := by
        rw [Nat.div_lt_iff_lt_mul (by decide), ← Nat.pow_succ]; exact hf
      have hfuel : 0 < fuel := by
        rcases Nat.eq_zero_or_pos fuel with h | h
        · subst h; simp at hf; omega
        · exact h
      have hsum : n / 128 * 2 ^ (7 * (k + 1)) + n % 128 * 2 ^ (7 * k) = n * 2 ^ (7 * k) := by
        rw [hp]
        conv_rhs => rw [← hdiv]
        rw [Nat.add_mul, Nat.mul_assoc (n / 128) 128, Nat.mul_comm 128]
      have ih := lebReadFrom_write fuel (n / 128) (k + 1) hnf (by omega) hfuel (by omega) rest
      have e2 : 7 * k + 7 = 7 * (k + 1) := by omega
      have e3 : (n % 128 + 128) % 128 = n % 128 := by omega
      rw [e2, ih, e3]
      simp
      omega

/-- **C39** A time written as the system writes it is read back. -/
theorem C39_time_roundtrip (t : UInt64) (rest : Bytes) : lebRead (lebU64 t ++ rest) = some t.toNat := by
  have h := lebReadFrom_write 10 t.toNat 0 (by have := t.toNat_lt; omega) (by have := t.toNat_lt; omega) (by decide) (by decide) rest
  unfold lebRead lebU64
  simpa using h

theorem lookupPath_found_hasLeaf {t : HashTree} {p : List Bytes} {v : Bytes} (h : t.lookupPath p = .found v) :
    t.HasLeaf p v := by
  let _ := toySHA
  exact lookupSubtree_found ((C04_found_iff t p v).1 h)

/-- **C39** (one direction, without any assumption) A certificate that passes the time check has a time in the
window. -/
theorem C39_accepted_in_window (checks : Bool) (c : Certificate) (now off : Nat)
    (h : verifyTime checks c.tree now off = .ok ()) : ∃ t, CertTime c t ∧ InWindow t now off := by
  unfold verifyTime at h
  cases hl : c.tree.lookupPath [str "time"] with
  | found v =>
    simp only [hl] at h
    cases ht : lebRead v with
    | none => simp [ht] at h
    | some t =>
      simp only [ht] at h
      cases ha : addU128 checks now off with
      | none => simp [ha] at h
      | some mx =>
        simp only [ha] at h
        cases hs : subU128 checks now off with
        | none => simp [hs] at h
        | some mn =>
          simp only [hs] at h
          split at h
          · simp at h
          · split at h
            · simp at h
            · refine ⟨t, ⟨v, lookupPath_found_hasLeaf hl, ht⟩, ?_⟩
              unfold addU128 at ha
              unfold subU128 at hs
              constructor
              · split at ha
                · simp at ha; omega
                · split at ha
                  · simp at ha
                  · simp at ha; omega
              · split at hs
                · simp at hs; omega
                · split at hs
                  · simp at hs
                  · simp at hs; omega
  | _ => simp [hl] at h

/-- **C39** (part) The time check accepts exactly the times that differ from the current time by at most the offset,
provided the window `now - off … now + off` lies within `u128`. Otherwise the code panics or rejects everything, see
`C39_counterexample_underflow`. -/
theorem C39_window_exact_partial (checks : Bool) (c : Certificate) (now off t : Nat) (v : Bytes)
    (hl : c.tree.lookupPath [str "time"] = .found v) (ht : lebRead v = some t) (h1 : off ≤ now)
    (h2 : now + off < 2 ^ 128) : verifyTime checks c.tree now off = .ok () ↔ InWindow t now off := by
  have ha : addU128 checks now off = some (now + off) := by unfold addU128; rw [if_pos h2]
  have hs : subU128 checks now off = some (now - off) := by simp [subU128, h1]
  unfold verifyTime
  simp only [hl, ht, ha, hs]
  unfold InWindow
  split
  · simp; omega
  · split
    · simp; omega
    · simp; omega

/-- **C39** is false if the offset exceeds the current time: then nothing is accepted, not even a certificate made
right now. With overflow checks the call panics. -/
theorem C39_counterexample_underflow (checks : Bool) (c : Certificate) (now off t : Nat) (v : Bytes)
    (hl : c.tree.lookupPath [str "time"] = .found v) (ht : lebRead v = some t) (h : now < off) (ho : off ≤ 2 ^ 127) :
    verifyTime checks c.tree now off ≠ .ok () ∧ (checks = true → verifyTime checks c.tree now off = .crash) := by
  have ha : addU128 checks now off = some (now + off) := by
    have : now + off < 2 ^ 128 := by omega
    unfold addU128; rw [if_pos this]
  have hsub : ¬ off ≤ now := by omega
  have htl := lebRead_lt ht
  unfold verifyTime
  simp only [hl, ht, ha]
  cases checks with
  | true => simp [subU128, hsub]
  | false =>
    simp only [subU128, hsub, if_false, Bool.false_eq_true, false_implies, and_true]
    split
    · simp
    · split
      · simp
      · rename_i h3; omega

/-- **C39**, for all times and offsets: what the time check does to a certificate of time `t`. If `now - off` and `now + off`
are representable, it accepts exactly the window. Otherwise a build with overflow checks panics, and one without accepts less
than the window: where a bound wraps around, only times on the far side of it. -/
theorem C39_all_inputs (checks : Bool) (c : Certificate) (now off t : Nat) (v : Bytes)
    (hl : c.tree.lookupPath [str "time"] = .found v) (ht : lebRead v = some t) :
    (verifyTime checks c.tree now off = .ok () ↔ InWindow t now off ∧
      (off ≤ now ∨ (checks = false ∧ now + 2 ^ 128 ≤ t + off)) ∧
      (now + off < 2 ^ 128 ∨ (checks = false ∧ t + 2 ^ 128 ≤ now + off))) ∧
    (verifyTime checks c.tree now off = .crash ↔ checks = true ∧ (now < off ∨ 2 ^ 128 ≤ now + off)) := by
  unfold verifyTime
  simp only [hl, ht]
  unfold InWindow
  by_cases h1 : off ≤ now <;> by_cases h2 : now + off < 2 ^ 128 <;> cases checks <;>
    simp only [addU128, subU128, h1, h2, if_true, if_false, Bool.false_eq_true, Bool.true_eq_false] <;>
    (try split) <;> (try split) <;> simp <;> omega

/-- A time that wraps around: one minute after the epoch, with the default offset of five minutes, in a release build. -/
example : letI := toySHA; verifyTime false (.labeled (str "time") (.leaf (lebU64 60))) 60 300 = .err .timePast := rfl

/-! ## C40 -/

section
variable [SHA] [Bls]

theorem verifyCertSignature_ok {c : Certificate} {der : Bytes} : verifyCertSignature c der = .ok () ↔ SignedBy c der := by
  unfold verifyCertSignature SignedBy
  rw [Out.bind_ok]
  constructor
  · rintro ⟨pk, h1, h2⟩
    refine ⟨pk, (C43_extract_der _ _).1 (Out.ofExcept_ok.1 h1), ?_⟩
    unfold verifySignature at h2
    split at h2
    · simp at h2
    · rename_i h; exact h
    · simp at h2
  · rintro ⟨pk, h1, h2⟩
    refine ⟨pk, Out.ofExcept_ok.2 ((C43_extract_der _ _).2 h1), ?_⟩
    have h2' : Bls.verify pk c.signature (stateRootMsg c.tree.digest) = some true := h2
    simp [verifySignature, h2']

/-- **C40** Verification succeeds only if the certificate's time is in the window and its tree is signed by the root
key, or by the key that a delegation, itself signed by the root key and without further delegation, gives to a
subnet whose ranges include the canister. -/
theorem C40_chain (m : Machine) (checks : Bool) (c : Certificate) (canisterId rootKey : Bytes) (now off : Nat)
    (h : certVerify m checks c canisterId rootKey now off = .ok ()) :
    (∃ t, CertTime c t ∧ InWindow t now off) ∧
    ((c.delegation = none ∧ SignedBy c rootKey) ∨
      ∃ d subnetKey, c.delegation = some d ∧ Delegates m d canisterId rootKey subnetKey ∧ SignedBy c subnetKey) := by
  unfold certVerify at h
  rw [Out.bind_ok] at h
  obtain ⟨_, h1, h⟩ := h
  refine ⟨C39_accepted_in_window checks c now off h1, ?_⟩
  rw [Out.bind_ok] at h
  obtain ⟨key, h2, h3⟩ := h
  rw [verifyCertSignature_ok] at h3
  cases hd : c.delegation with
  | none =>
    rw [hd] at h2
    simp at h2
    subst h2
    exact .inl ⟨rfl, h3⟩
  | some d =>
    rw [hd] at h2
    simp only at h2
    refine .inr ⟨d, key, rfl, ?_, h3⟩
    unfold verifyDelegation at h2
    rw [Out.bind_ok] at h2
    obtain ⟨inner, h4, h5⟩ := h2
    split at h5
    · simp at h5
    · rename_i hno
      rw [Out.bind_ok] at h5
      obtain ⟨_, h6, h7⟩ := h5
      split at h7
      · rename_i cr hcr
        split at h7
        · simp at h7
        · rename_i id hid
          rw [Out.bind_ok] at h7
          obtain ⟨ranges, h8, h9⟩ := h7
          split at h9
          · rename_i hin
            split at h9
            · rename_i key' hk
              simp at h9
              subst h9
              have hid' : id = canisterId := by
                unfold principalFromSlice at hid
                split at hid
                · simp at hid; exact hid.symm
                · simp at hid
              subst hid'
              obtain ⟨lo, hi, h10, h11, h12⟩ := (C41_ranges _ _).1 hin
              exact ⟨inner, ranges, cr, lo, hi, Out.ofRun_ok.1 h4, by simpa using hno, verifyCertSignature_ok.1 h6,
                lookupPath_found_hasLeaf hcr, Out.ofRun_ok.1 h8, h10, h11, h12, lookupPath_found_hasLeaf hk⟩
            · simp at h9
          · simp at h9
      · simp at h7

/-- **C40** Conversely such a certificate is accepted (trees without a second node at the paths read, as all honest
ones; canister ids of at most 29 bytes; a window within `u128`). -/
theorem C40_accepts (m : Machine) (checks : Bool) (c : Certificate) (canisterId rootKey : Bytes) (now off t : Nat)
    (v : Bytes) (hl : c.tree.lookupPath [str "time"] = .found v) (ht : lebRead v = some t) (h1 : off ≤ now)
    (h2 : now + off < 2 ^ 128) (hw : InWindow t now off) (hid : canisterId.length ≤ 29)
    (hsig : (c.delegation = none ∧ SignedBy c rootKey) ∨
      ∃ d subnetKey inner ranges rangesCbor, c.delegation = some d ∧ SignedBy c subnetKey ∧
        certificateFromCbor m d.certificate = some (.ok inner) ∧ inner.delegation = none ∧ SignedBy inner rootKey ∧
        inner.tree.lookupPath [str "subnet", d.subnetId, str "canister_ranges"] = .found rangesCbor ∧
        rangesFromCbor m rangesCbor = some (.ok ranges) ∧
        (∃ lo hi, (lo, hi) ∈ ranges ∧ PrincipalLe lo canisterId ∧ PrincipalLe canisterId hi) ∧
        inner.tree.lookupPath [str "subnet", d.subnetId, str "public_key"] = .found subnetKey) :
    certVerify m checks c canisterId rootKey now off = .ok () := by
  unfold certVerify
  rw [(C39_window_exact_partial checks c now off t v hl ht h1 h2).2 hw, Out.ok_bind]
  rcases hsig with ⟨hd, hs⟩ | ⟨d, key, inner, ranges, rc, hd, hs, g1, g2, g3, g4, g5, g6, g7⟩
  · rw [hd]
    exact verifyCertSignature_ok.2 hs
  · rw [hd]
    have : verifyDelegation m d canisterId rootKey = .ok key := by
      unfold verifyDelegation
      rw [g1]
      simp only [Out.ofRun, Out.ok_bind, g2, Option.isSome_none, Bool.false_eq_true, if_false,
        verifyCertSignature_ok.2 g3, g4, principalFromSlice, hid, if_true, g5, (C41_ranges _ _).2 g6, g7]
    simp only [this, Out.ok_bind]
    exact verifyCertSignature_ok.2 hs

/-! ## C42 -/

theorem cacheGet_mem {c c' : SigCache} {k : Hash} {b : Bool} (h : cacheGet c k = (b, c')) :
    (b = true ↔ k ∈ c) ∧ (∀ x, x ∈ c' ↔ x ∈ c) ∧ c'.length = c.length := by
  unfold cacheGet at h
  split at h
  · rename_i hk
    simp at h
    obtain ⟨rfl, rfl⟩ := h
    refine ⟨by simp [hk], ?_, ?_⟩
    · intro x
      simp only [List.mem_cons]
      by_cases hx : x = k
      · subst hx; simp [hk]
      · simp [hx, List.mem_erase_of_ne hx]
    · have := List.length_erase_of_mem hk
      have hpos : 0 < c.length := List.length_pos_of_mem hk
      simp [this]; omega
  · rename_i hk
    simp at h
    obtain ⟨rfl, rfl⟩ := h
    simp [hk]

theorem cacheSet_mem {cap : Nat} {c : SigCache} {k x : Hash} (h : x ∈ cacheSet cap c k) : x = k ∨ x ∈ c := by
  unfold cacheSet at h
  have hsub : ∀ y, y ∈ (if cap ≤ c.length then c.dropLast else c) → y ∈ c := by
    intro y hy
    split at hy
    · exact List.mem_of_mem_dropLast hy
    · exact hy
  generalize (if cap ≤ c.length then c.dropLast else c) = c' at h hsub
  simp only at h
  split at h
  · exact .inr (hsub x h)
  · rcases List.mem_cons.1 h with h | h
    · exact .inl h
    · exact .inr (hsub x h)

theorem cacheSet_length {cap : Nat} {c : SigCache} {k : Hash} (hcap : 0 < cap) (h : c.length ≤ cap) :
    (cacheSet cap c k).length ≤ cap := by
  unfold cacheSet
  have hlt : (if cap ≤ c.length then c.dropLast else c).length < cap := by
    split
    · simp; omega
    · omega
  generalize (if cap ≤ c.length then c.dropLast else c) = c' at hlt
  simp only
  split
  · omega
  · simp; omega

/-- **C42** In every execution, with any number of threads interleaved in any way, the cached check answers as the
uncached BLS check, unless two different requests of the history have keys with a hash collision; and the cache never
exceeds its capacity. A request is made of a 96-byte key, a signature and a 46-byte message, as
`verify_certificate_signature` makes them. -/
theorem C42_cache_transparent (cap : Nat) (hcap : 0 < cap) (l : List (SigReq × Bool)) (s : SigState)
    (h : SigRun cap l s) (hreq : ∀ r b, (r, b) ∈ l → r.pk.length = 96 ∧ r.msg.length = 46)
    (r : SigReq) (b : Bool) (hr : (r, b) ∈ l) :
    (Bls.verify r.pk r.sig r.msg = some b ∨
      ∃ r', (r', true) ∈ l ∧ CollisionIn [r'.pk ++ r'.sig ++ r'.msg] [r.pk ++ r.sig ++ r.msg]) ∧
    s.cache.length ≤ cap := by
  have inv : (∀ k ∈ s.cache, ∃ r', (r', true) ∈ l ∧ k = cacheKey r'.pk r'.sig r'.msg ∧ Bls.verify r'.pk r'.sig r'.msg = some true) ∧
      (∀ r' ∈ s.pending, Bls.verify r'.pk r'.sig r'.msg = some true) ∧ s.cache.length ≤ cap ∧
      (∀ r b, (r, b) ∈ l → Bls.verify r.pk r.sig r.msg = some b ∨ (b = true ∧
        ∃ r', (r', true) ∈ l ∧ Bls.verify r'.pk r'.sig r'.msg = some true ∧ cacheKey r'.pk r'.sig r'.msg = cacheKey r.pk r.sig r.msg)) := by
    clear hr r b hreq
    induction h with
    | start => simp
    | @step l s o s' h0 hs ih =>
      obtain ⟨i1, i2, i3, i4⟩ := ih
      cases hs with
      | @hit r c hg =>
        obtain ⟨g1, g2, g3⟩ := cacheGet_mem hg
        refine ⟨?_, i2, by simp only; omega, ?_⟩
        · intro k hk
          obtain ⟨r', h1, h2⟩ := i1 k ((g2 k).1 hk)
          exact ⟨r', by simp [h1], h2⟩
        · intro r1 b1 h1
          simp at h1
          rcases h1 with ⟨rfl, rfl⟩ | h1
          · obtain ⟨r', h2, h3, h4⟩ := i1 _ (g1.1 rfl)
            exact .inr ⟨rfl, r', by simp [h2], h4, h3.symm⟩
          · rcases i4 r1 b1 h1 with h | ⟨h, r', h2, h3⟩
            · exact .inl h
            · exact .inr ⟨h, r', by simp [h2], h3⟩
      | @reject r c hg hb =>
        obtain ⟨g1, g2, g3⟩ := cacheGet_mem hg
        refine ⟨?_, i2, by simp only; omega, ?_⟩
        · intro k hk
          obtain ⟨r', h1, h2⟩ := i1 k ((g2 k).1 hk)
          exact ⟨r', by simp [h1], h2⟩
        · intro r1 b1 h1
          simp at h1
          rcases h1 with ⟨rfl, rfl⟩ | h1
          · exact .inl hb
          · rcases i4 r1 b1 h1 with h | ⟨h, r', h2, h3⟩
            · exact .inl h
            · exact .inr ⟨h, r', by simp [h2], h3⟩
      | @check r c hg hb =>
        obtain ⟨g1, g2, g3⟩ := cacheGet_mem hg
        refine ⟨?_, ?_, by simp only; omega, ?_⟩
        · intro k hk
          obtain ⟨r', h1, h2⟩ := i1 k ((g2 k).1 hk)
          exact ⟨r', by simp [h1], h2⟩
        · intro r' hr'
          rcases List.mem_cons.1 hr' with rfl | hr'
          · exact hb
          · exact i2 r' hr'
        · simpa using i4
      | @store r hp =>
        refine ⟨?_, ?_, cacheSet_length hcap i3, ?_⟩
        · intro k hk
          rcases cacheSet_mem hk with rfl | hk
          · exact ⟨r, by simp, rfl, i2 r hp⟩
          · obtain ⟨r', h1, h2⟩ := i1 k hk
            exact ⟨r', by simp [h1], h2⟩
        · intro r' hr'
          exact i2 r' (List.mem_of_mem_erase hr')
        · intro r1 b1 h1
          simp at h1
          rcases h1 with ⟨rfl, rfl⟩ | h1
          · exact .inl (i2 r1 hp)
          · rcases i4 r1 b1 h1 with h | ⟨h, r', h2, h3⟩
            · exact .inl h
            · exact .inr ⟨h, r', by simp [h2], h3⟩
  obtain ⟨-, -, i3, i4⟩ := inv
  refine ⟨?_, i3⟩
  rcases i4 r b hr with h | ⟨rfl, r', h1, h2, h3⟩
  · exact .inl h
  · by_cases heq : r'.pk ++ r'.sig ++ r'.msg = r.pk ++ r.sig ++ r.msg
    · left
      obtain ⟨p1, p2⟩ := hreq r true hr
      obtain ⟨q1, q2⟩ := hreq r' true h1
      rw [List.append_assoc, List.append_assoc] at heq
      obtain ⟨e1, e2⟩ := List.append_inj heq (by omega)
      have hlen : r'.sig.length = r.sig.length := by
        have := congrArg List.length e2
        simp at this
        omega
      obtain ⟨e3, e4⟩ := List.append_inj e2 hlen
      rw [← e1, ← e3, ← e4]; exact h2
    · exact .inr ⟨r', h1, _, List.mem_singleton.2 rfl, _, List.mem_singleton.2 rfl, heq, h3⟩

/-- **C42** The keys and messages that certificate verification passes to the signature check have these lengths. -/
theorem C42_request_lengths (c : Certificate) (der pk : Bytes) (h : extractDer der = .ok pk) :
    pk.length = 96 ∧ (stateRootMsg c.tree.digest).length = 46 := by
  refine ⟨((C43_extract_der _ _).1 h).2, ?_⟩
  have := c.tree.digest.2
  simp [stateRootMsg, this]
  decide

end

/-! ## Examples: the hypotheses are met -/

section examples

/-- A toy signature scheme: the signature is the key. -/
@[instance_reducible] def toyBls : Bls := ⟨fun pk sig _ => some (sig == pk)⟩

def exRootKey : Bytes := derPrefix ++ List.replicate 96 1
def exSubnetKey : Bytes := derPrefix ++ List.replicate 96 2

/-- A certificate signed by the root, made at time 100. -/
def exRootCert : Certificate :=
  { tree := .labeled (str "time") (.leaf (lebU64 100)), signature := List.replicate 96 1, delegation := none }

/-- The delegation certificate: subnet `net` may speak for canisters `[1]` to `[9]`. -/
def exInnerCert : Certificate :=
  { tree := .labeled (str "subnet") (.labeled (str "net")
      (.fork (.labeled (str "canister_ranges") (.leaf (encRanges [([1], [9])])))
        (.labeled (str "public_key") (.leaf exSubnetKey)))),
    signature := List.replicate 96 1, delegation := none }

/-- A certificate signed by the subnet, with the delegation. -/
def exSubnetCert : Certificate :=
  { tree := .labeled (str "time") (.leaf (lebU64 100)), signature := List.replicate 96 2,
    delegation := some { subnetId := str "net", certificate := encCertificate exInnerCert } }

example : IsDerKey exRootKey (List.replicate 96 1) := ⟨rfl, by simp⟩
example : extractDer exRootKey = .ok (List.replicate 96 1) := by decide +kernel
example : extractDer (List.replicate 133 0) = .error .derPrefix := by decide +kernel
example : extractDer [] = .error .derKeyLength := by decide

/-- Length first: `[9]` is before `[1, 0]`. -/
example : PrincipalLe [9] [1, 0] ∧ ¬ PrincipalLe [1, 0] [9] := by simp [PrincipalLe]

theorem exRootSigned : letI := toySHA; letI := toyBls; SignedBy exRootCert exRootKey :=
  ⟨_, ⟨rfl, by simp⟩, congrArg some (beq_self_eq_true _)⟩

/-- The hypotheses of C40 (no delegation) are met. -/
example : letI := toySHA; letI := toyBls; certVerify exMachine true exRootCert [5] exRootKey 110 10 = .ok () := by
  let _ := toySHA
  let _ := toyBls
  exact C40_accepts exMachine true exRootCert [5] exRootKey 110 10 100 (lebU64 100) (by decide) (by decide) (by decide)
    (by decide) ⟨by decide, by decide⟩ (by decide) (.inl ⟨rfl, exRootSigned⟩)

theorem exInner_decodes : certificateFromCbor exMachine (encCertificate exInnerCert) = some (.ok exInnerCert) :=
  (C37_certificate_roundtrip exMachine exInnerCert (by decide) (by decide)
    (by simp [exInnerCert, HashTree.Fits, Machine.Fits, exMachine]; decide +kernel)
    (by simp [exInnerCert, Machine.Fits, exMachine])
    (by intro d hd; simp [exInnerCert] at hd)
    (by decide)).1

/-- The hypotheses of C40 (with a delegation) are met. -/
example : letI := toySHA; letI := toyBls; certVerify exMachine true exSubnetCert [5] exRootKey 95 5 = .ok () := by
  let _ := toySHA
  let _ := toyBls
  refine C40_accepts exMachine true exSubnetCert [5] exRootKey 95 5 100 (lebU64 100) (by decide) (by decide) (by decide)
    (by decide) ⟨by decide, by decide⟩ (by decide) (.inr ⟨_, exSubnetKey, exInnerCert, [([1], [9])], encRanges [([1], [9])], rfl,
      ⟨_, ⟨rfl, by simp⟩, congrArg some (beq_self_eq_true _)⟩, exInner_decodes, rfl, ⟨_, ⟨rfl, by simp⟩, congrArg some (beq_self_eq_true _)⟩,
      by decide +kernel, ?_, ⟨[1], [9], by simp, .inr ⟨rfl, by decide⟩, .inr ⟨rfl, by decide⟩⟩, by decide +kernel⟩)
  exact (C37_ranges_roundtrip exMachine _ (by decide) ⟨by decide, by decide⟩ (by decide) (by decide)).1

/-- A certificate outside the window, just past either end. -/
example : verifyTime true exRootCert.tree 89 10 = .err .timeFuture ∧ verifyTime true exRootCert.tree 111 10 = .err .timePast ∧
    verifyTime true exRootCert.tree 90 10 = .ok () := ⟨rfl, rfl, rfl⟩

/-- The panic of `C39_counterexample_underflow`. -/
example : verifyTime true exRootCert.tree 100 101 = .crash ∧ verifyTime false exRootCert.tree 100 101 = .err .timePast :=
  ⟨rfl, rfl⟩

def exSigReq : SigReq := ⟨List.replicate 96 1, List.replicate 96 1, List.replicate 46 3⟩
def exSigBad : SigReq := ⟨List.replicate 96 2, List.replicate 96 1, List.replicate 46 4⟩

/-- An execution with a miss, a store, a hit and a rejection, with cache capacity 1. -/
example : letI := toySHA; letI := toyBls;
    ∃ s, SigRun 1 [(exSigReq, true), (exSigBad, false), (exSigReq, true)] s := by
  let _ := toySHA
  let _ := toyBls
  have h1 : SigRun 1 [] ⟨[], [exSigReq]⟩ := .step .start (.check (r := exSigReq) (by decide +kernel) (by decide +kernel))
  have h2 := SigRun.step h1 (.store (r := exSigReq) (by simp))
  have h3 : SigRun 1 [(exSigBad, false), (exSigReq, true)] _ :=
    SigRun.step h2 (.reject (r := exSigBad) (c := [cacheKey exSigReq.pk exSigReq.sig exSigReq.msg]) (by decide +kernel) (by decide +kernel))
  exact ⟨_, .step h3 (.hit (r := exSigReq) (c := [cacheKey exSigReq.pk exSigReq.sig exSigReq.msg]) (by decide +kernel))⟩

end examples
end Verif.Props
