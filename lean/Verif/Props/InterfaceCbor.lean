import Verif.Spec.InterfaceCbor
import Verif.Props.CborGrammar
import Verif.Props.Base64Bits
import Verif.Model.Header

set_option linter.unusedSimpArgs false

/-!
# C77: the wire formats are those of the public specifications
-/

namespace Verif.Props
open Verif HashTree Interface

theorem bigEndian_lt : ∀ b : Bytes, bigEndian b < 256 ^ b.length
  | [] => by simp [bigEndian]
  | x :: b => by
    have h1 := bigEndian_lt b
    have h2 := x.toNat_lt
    rw [bigEndian, List.length_cons, Nat.pow_succ]
    have : x.toNat * 256 ^ b.length ≤ 255 * 256 ^ b.length := Nat.mul_le_mul_right _ (by omega)
    omega

theorem bigEndian_inj : ∀ {a b : Bytes}, a.length = b.length → bigEndian a = bigEndian b → a = b
  | [], [], _, _ => rfl
  | x :: a, y :: b, hl, h => by
    have hl : a.length = b.length := by simpa using hl
    have h1 := bigEndian_lt a
    have h2 := bigEndian_lt b
    rw [bigEndian, bigEndian, hl] at h
    rw [hl] at h1
    have hd : ∀ (n : Nat) (c : Bytes), bigEndian c < 256 ^ b.length → (n * 256 ^ b.length + bigEndian c) / 256 ^ b.length = n := by
      intro n c hc
      rw [Nat.mul_comm, Nat.mul_add_div (by omega), Nat.div_eq_of_lt hc, Nat.add_zero]
    have hx : x.toNat = y.toNat := by rw [← hd x.toNat a h1, h, hd y.toNat b h2]
    rw [hx] at h
    rw [UInt8.toNat_inj.1 hx, bigEndian_inj hl (by omega)]

theorem head_unique {major n w w' : Nat} {h h' : Bytes} (a : IsHead major h w n) (b : IsHead major h' w' n) (hl : h.length = h'.length) :
    h = h' := by
  cases a with
  | short a1 a2 =>
    cases b with
    | short b1 b2 => rw [UInt8.toNat_inj.1 (a1.trans b1.symm)]
    | @long e arg k b1 b2 b3 =>
      exfalso
      simp at hl
      rw [hl] at b3
      have : 0 < 2 ^ k := Nat.pow_pos (by omega)
      simp at b3; omega
  | @long e arg k a1 a2 a3 =>
    generalize hn : bigEndian arg = n at b
    cases b with
    | short b1 b2 =>
      exfalso
      simp at hl
      rw [hl] at a3
      have : 0 < 2 ^ k := Nat.pow_pos (by omega)
      simp at a3; omega
    | @long e' arg' k' b1 b2 b3 =>
      have hl : arg.length = arg'.length := by simpa using hl
      have hk : k = k' := by
        rw [a3, b3] at hl
        exact Nat.pow_right_injective (Nat.le_refl 2) hl
      subst hk
      rw [UInt8.toNat_inj.1 (a1.trans b1.symm), bigEndian_inj hl hn]

theorem encHead_isHead {major n : Nat} (hm : major ≤ 7) (hn : n < 2 ^ 64) :
    (∃ w, IsHead major (encHead major n) w n) ∧
    (encHead major n).length = (if n ≤ 23 then 1 else if n < 2 ^ 8 then 2 else if n < 2 ^ 16 then 3 else if n < 2 ^ 32 then 5 else 9) := by
  have hb : ∀ k, n < 256 ^ k → bigEndian (beBytes k n) = n := fun k h => by rw [← beNat_eq, beNat_beBytes k n h]
  have long : ∀ k, k ≤ 3 → n < 256 ^ 2 ^ k → ∃ w, IsHead major ((major * 32 + (24 + k)).toUInt8 :: beBytes (2 ^ k) n) w n := by
    intro k hk h
    have := IsHead.long (major := major) (e := (major * 32 + (24 + k)).toUInt8) (arg := beBytes (2 ^ k) n) (k := k)
      (by simp; omega) hk (beBytes_length _ _)
    rw [hb _ h] at this
    exact ⟨_, this⟩
  unfold encHead
  split
  · rename_i h
    exact ⟨⟨8, .short (by simp; omega) h⟩, rfl⟩
  split
  · exact ⟨long 0 (by omega) (by simpa using by omega), by simp [beBytes_length]⟩
  split
  · exact ⟨long 1 (by omega) (by simpa using by omega), by simp [beBytes_length]⟩
  split
  · exact ⟨long 2 (by omega) (by simpa using by omega), by simp [beBytes_length]⟩
  · exact ⟨long 3 (by omega) (by simpa using by omega), by simp [beBytes_length]⟩

theorem head_iff {major n : Nat} (hm : major ≤ 7) (hn : n < 2 ^ 64) (h : Bytes) : Head major n h ↔ h = encHead major n := by
  obtain ⟨⟨w, h1⟩, h2⟩ := encHead_isHead hm hn
  have hmin : ∀ h' w', IsHead major h' w' n → (encHead major n).length ≤ h'.length := by
    intro h' w' hh
    rw [h2]
    generalize hx : n = x at hh
    cases hh with
    | short _ b => subst hx; rw [if_pos b]; simp
    | @long e arg k b1 b2 b3 =>
      have hlt := bigEndian_lt arg
      rw [← hx, b3] at hlt
      rw [List.length_cons, b3, ← hx]
      have : k = 0 ∨ k = 1 ∨ k = 2 ∨ k = 3 := by omega
      rcases this with rfl | rfl | rfl | rfl <;> simp at hlt ⊢ <;> (repeat' split) <;> omega
  constructor
  · rintro ⟨⟨w', h3⟩, h4⟩
    exact head_unique h3 h1 (Nat.le_antisymm (h4 _ _ h1) (hmin _ _ h3))
  · rintro rfl
    exact ⟨⟨w, h1⟩, hmin⟩

theorem string_iff {major : Nat} (hm : major ≤ 7) {b : Bytes} (hb : b.length < 2 ^ 64) (out : Bytes) :
    StringCbor major b out ↔ out = encHead major b.length ++ b := by
  unfold StringCbor
  simp only [head_iff hm hb, exists_eq_left]

theorem bytes_iff {b : Bytes} (hb : b.length < 2 ^ 64) (out : Bytes) : StringCbor 2 b out ↔ out = encBytes b := string_iff (by omega) hb out
theorem text_iff {b : Bytes} (hb : b.length < 2 ^ 64) (out : Bytes) : StringCbor 3 b out ↔ out = encText b := string_iff (by omega) hb out

/-- **C77** The CBOR written for a tree is the one of the interface specification, in its shortest form, and no other bytes are. -/
theorem C77_tree_cbor (m : Machine) {t : HashTree} (ht : t.Fits m) (out : Bytes) : TreeCbor t out ↔ out = encTree t := by
  induction t generalizing out with
  | empty =>
    constructor
    · rintro ⟨h1, h2⟩
      rw [head_iff (by omega) (by omega)] at *
      subst_vars; rfl
    · rintro rfl
      exact .empty ((head_iff (by omega) (by omega) _).2 rfl) ((head_iff (by omega) (by omega) _).2 rfl)
  | fork l r ihl ihr =>
    have ihl := ihl ht.1
    have ihr := ihr ht.2
    constructor
    · rintro ⟨⟩
      rename_i h1 h2 h3 h4
      rw [head_iff (by omega) (by omega)] at h1 h2
      rw [ihl] at h3
      rw [ihr] at h4
      subst_vars
      simp only [encTree, List.append_assoc]
    · rintro rfl
      have := TreeCbor.fork ((head_iff (by omega) (by omega) _).2 rfl) ((head_iff (by omega) (by omega) _).2 rfl) ((ihl _).2 rfl) ((ihr _).2 rfl)
      simpa only [encTree, List.append_assoc] using this
  | labeled l t ih =>
    have ih := ih ht.2
    have hl := ht.1.2
    constructor
    · rintro ⟨⟩
      rename_i h1 h2 h3 h4
      rw [head_iff (by omega) (by omega)] at h1 h2
      rw [bytes_iff hl] at h3
      rw [ih] at h4
      subst_vars
      simp only [encTree, List.append_assoc]
    · rintro rfl
      have := TreeCbor.labeled ((head_iff (by omega) (by omega) _).2 rfl) ((head_iff (by omega) (by omega) _).2 rfl) ((bytes_iff hl _).2 rfl) ((ih _).2 rfl)
      simpa only [encTree, List.append_assoc] using this
  | leaf v =>
    have hl := ht.2
    constructor
    · rintro ⟨⟩
      rename_i h1 h2 h3
      rw [head_iff (by omega) (by omega)] at h1 h2
      rw [bytes_iff hl] at h3
      subst_vars
      simp only [encTree, List.append_assoc]
    · rintro rfl
      have := TreeCbor.leaf ((head_iff (by omega) (by omega) _).2 rfl) ((head_iff (by omega) (by omega) _).2 rfl) ((bytes_iff hl _).2 rfl)
      simpa only [encTree, List.append_assoc] using this
  | pruned h =>
    have hl : h.1.length < 2 ^ 64 := by rw [h.2]; omega
    constructor
    · rintro ⟨⟩
      rename_i h1 h2 h3
      rw [head_iff (by omega) (by omega)] at h1 h2
      rw [bytes_iff hl] at h3
      subst_vars
      simp only [encTree, List.append_assoc]
    · rintro rfl
      have := TreeCbor.pruned ((head_iff (by omega) (by omega) _).2 rfl) ((head_iff (by omega) (by omega) _).2 rfl) ((bytes_iff hl _).2 rfl)
      simpa only [encTree, List.append_assoc] using this

/-- **C77** The same for lists of texts. -/
theorem C77_texts_cbor {l : List Bytes} (hl : l.length < 2 ^ 64) (hs : ∀ s ∈ l, s.length < 2 ^ 64) (out : Bytes) :
    TextsCbor l out ↔ out = encStrings l := by
  have key : ∀ xs, List.Forall₂ (StringCbor 3) l xs ↔ xs = l.map encText := by
    clear hl
    induction l with
    | nil => intro xs; simp
    | cons s l ih =>
      intro xs
      rw [List.forall₂_cons_left_iff]
      simp only [ih (fun x hx => hs x (List.mem_cons_of_mem _ hx)), text_iff (hs s List.mem_cons_self)]
      simp
  unfold TextsCbor
  simp only [head_iff (major := 4) (by omega) hl, key]
  constructor
  · rintro ⟨_, _, rfl, rfl, rfl⟩; rfl
  · rintro rfl; exact ⟨_, _, rfl, rfl, rfl⟩

/-- **C77** The same for certificates. -/
theorem C77_certificate_cbor (m : Machine) {c : Certificate} (ht : c.tree.Fits m) (hsig : c.signature.length < 2 ^ 64)
    (hd : ∀ d, c.delegation = some d → d.subnetId.length < 2 ^ 64 ∧ d.certificate.length < 2 ^ 64) (out : Bytes) :
    CertificateCbor c out ↔ out = encCertificate c := by
  have k1 := text_iff (b := str "tree") (by decide)
  have k2 := text_iff (b := str "signature") (by decide)
  have k3 := text_iff (b := str "delegation") (by decide)
  have k4 := text_iff (b := str "subnet_id") (by decide)
  have k5 := text_iff (b := str "certificate") (by decide)
  have h52 : ∀ a, Head 5 2 a ↔ a = _ := fun a => head_iff (by omega) (by omega) a
  have h53 : ∀ a, Head 5 3 a ↔ a = _ := fun a => head_iff (by omega) (by omega) a
  have hdel : ∀ d, c.delegation = some d → ∀ x, DelegationCbor d x ↔ x = encDelegation d := by
    intro d hdd x
    obtain ⟨d1, d2⟩ := hd d hdd
    unfold DelegationCbor
    simp only [h52, k4, k5, bytes_iff d1, bytes_iff d2]
    constructor
    · rintro ⟨_, _, _, _, _, rfl, rfl, rfl, rfl, rfl, rfl⟩
      simp only [encDelegation, List.append_assoc]
    · rintro rfl
      exact ⟨_, _, _, _, _, rfl, rfl, rfl, rfl, rfl, by simp only [encDelegation, List.append_assoc]⟩
  constructor
  · intro h
    cases h with
    | plain h0 h1 h2 h3 h4 h5 =>
      rw [h52] at h1; rw [k1] at h2; rw [C77_tree_cbor m ht] at h3; rw [k2] at h4; rw [bytes_iff hsig] at h5
      subst_vars
      simp only [encCertificate, h0, List.append_assoc]
    | delegated h0 h1 h2 h3 h4 h5 h6 h7 =>
      rw [h53] at h1; rw [k1] at h2; rw [C77_tree_cbor m ht] at h3; rw [k2] at h4; rw [bytes_iff hsig] at h5; rw [k3] at h6
      rw [hdel _ h0] at h7
      subst_vars
      simp only [encCertificate, h0, List.append_assoc]
  · rintro rfl
    cases h0 : c.delegation with
    | none =>
      have := CertificateCbor.plain h0 ((h52 _).2 rfl) ((k1 _).2 rfl) ((C77_tree_cbor m ht _).2 rfl) ((k2 _).2 rfl) ((bytes_iff hsig _).2 rfl)
      simpa only [encCertificate, h0, List.append_assoc] using this
    | some d =>
      have := CertificateCbor.delegated h0 ((h53 _).2 rfl) ((k1 _).2 rfl) ((C77_tree_cbor m ht _).2 rfl) ((k2 _).2 rfl) ((bytes_iff hsig _).2 rfl)
        ((k3 _).2 rfl) ((hdel d h0 _).2 rfl)
      simpa only [encCertificate, h0, List.append_assoc] using this

theorem padded_encode (b : Bytes) : Padded (b64Encode true b) b := by
  refine ⟨(C35_decodes _ _).1 (C35_roundtrip true b), ?_⟩
  obtain ⟨v, z, -, -, -, h⟩ := C35_encodes true b
  rw [h]
  simp only [List.length_append, List.length_map, List.length_replicate, if_true]
  omega

/-- **C77** The certificate header that is written is the one of the HTTP gateway protocol. -/
theorem C77_header (m : Machine) (certificate : Bytes) {w : HashTree} {path : List Bytes} (hw : w.Fits m) (hl : path.length < 2 ^ 64)
    (hs : ∀ s ∈ path, s.length < 2 ^ 64) : CertificateHeader certificate w path (v2HeaderText certificate w path) := by
  have hd : ∀ b, selfDescribed b = selfDescribe ++ b := fun b => rfl
  exact ⟨_, _, _, _, _, padded_encode _, (C77_tree_cbor m hw _).2 rfl, by rw [hd]; exact padded_encode _,
    (C77_texts_cbor hl hs _).2 rfl, by rw [hd]; exact padded_encode _, rfl⟩

/-! ### Concrete cases -/
example : encTree (.labeled (str "a") (.leaf [])) = [0x83, 2, 0x41, 0x61, 0x82, 3, 0x40] := by decide
example : TreeCbor (.fork .empty (.leaf [1])) [0x83, 1, 0x81, 0, 0x82, 3, 0x41, 1] :=
  (C77_tree_cbor (t := .fork .empty (.leaf [1])) ⟨2 ^ 64, 100, 100, 100, by decide⟩ ⟨trivial, by decide, by decide⟩ _).2 (by decide)

end Verif.Props
