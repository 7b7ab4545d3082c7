import Verif.Spec.Cost
import Verif.Props.CborGrammar
import Verif.Props.Base64Bits
import Verif.Props.Header
import Verif.Props.HttpPath

set_option linter.unusedSimpArgs false
set_option linter.unusedSectionVars false

/-!
# C81: reading a response takes memory and hashing in proportion to its size
-/

namespace Verif.Props
open Verif HashTree

theorem isHead_length {major : Nat} {h : Bytes} {w n : Nat} (hh : IsHead major h w n) : 1 ≤ h.length := by
  cases hh <;> simp

theorem describes_parts {m : Machine} {s : Bool} (k : Nat) : ∀ {i : Bytes} {v : CborValue}, i.length ≤ k → Describes m s i v →
    1 ≤ i.length ∧ (∀ b, v = .bytes b → b.length + 1 ≤ i.length) ∧
    (∀ vs, v = .array vs → ∃ b, DescribesAll m s b vs ∧ b.length + 1 ≤ i.length) ∧
    (∀ kvs, v = .map kvs → ∃ b, DescribesPairs m s b kvs ∧ b.length + 1 ≤ i.length) := by
  induction k with
  | zero =>
    intro i v hl h
    exfalso
    cases h with
    | tag h => have := isHead_length h; omega
    | unsigned h => have := isHead_length h; omega
    | negative h => have := isHead_length h; omega
    | wrapped h => have := isHead_length h; omega
    | bytes h => have := isHead_length h; rw [List.length_append] at hl; omega
    | text h => have := isHead_length h; rw [List.length_append] at hl; omega
    | array h => have := isHead_length h; rw [List.length_append] at hl; omega
    | map h => have := isHead_length h; rw [List.length_append] at hl; omega
    | tagged h => have := isHead_length h; rw [List.length_append] at hl; omega
    | simple h => have := isHead_length h; rw [List.length_append] at hl; omega
  | succ k ih =>
    intro i v hl h
    have rest : ∀ {major w n h b}, IsHead major h w n → (h ++ b).length ≤ k + 1 → Describes m s b v →
        1 ≤ (h ++ b).length ∧ (∀ c, v = .bytes c → c.length + 1 ≤ (h ++ b).length) ∧
        (∀ vs, v = .array vs → ∃ c, DescribesAll m s c vs ∧ c.length + 1 ≤ (h ++ b).length) ∧
        (∀ kvs, v = .map kvs → ∃ c, DescribesPairs m s c kvs ∧ c.length + 1 ≤ (h ++ b).length) := by
      intro major w n h b hh hl hb
      have := isHead_length hh
      rw [List.length_append] at hl ⊢
      obtain ⟨a1, a2, a3, a4⟩ := ih (by omega) hb
      refine ⟨by omega, fun c e => ?_, fun vs e => ?_, fun kvs e => ?_⟩
      · have := a2 c e; omega
      · obtain ⟨c, c1, c2⟩ := a3 vs e; exact ⟨c, c1, by omega⟩
      · obtain ⟨c, c1, c2⟩ := a4 kvs e; exact ⟨c, c1, by omega⟩
    cases h with
    | tag h => exact ⟨isHead_length h, by simp, by simp, by simp⟩
    | unsigned h => exact ⟨isHead_length h, by simp, by simp, by simp⟩
    | negative h => exact ⟨isHead_length h, by simp, by simp, by simp⟩
    | wrapped h => exact ⟨isHead_length h, by simp, by simp, by simp⟩
    | bytes h =>
      have := isHead_length h
      refine ⟨by rw [List.length_append]; omega, ?_, by simp, by simp⟩
      rintro b e; cases e; rw [List.length_append]; omega
    | text h =>
      have := isHead_length h
      refine ⟨by rw [List.length_append]; omega, ?_, by simp, by simp⟩
      rintro b e; cases e; rw [List.length_append]; omega
    | array h _ hb =>
      have := isHead_length h
      refine ⟨by rw [List.length_append]; omega, by simp, ?_, by simp⟩
      rintro vs e; cases e; exact ⟨_, hb, by rw [List.length_append]; omega⟩
    | map h _ _ hb =>
      have := isHead_length h
      refine ⟨by rw [List.length_append]; omega, by simp, by simp, ?_⟩
      rintro vs e; cases e; exact ⟨_, hb, by rw [List.length_append]; omega⟩
    | tagged h hb => exact rest h hl hb
    | simple h hb => exact rest h hl hb

theorem treeOf_cost {m : Machine} {s : Bool} {v : CborValue} {t : HashTree} (ht : TreeOf v t) :
    ∀ {i : Bytes}, Describes m s i v → 2 * t.nodes + t.payload ≤ i.length := by
  induction ht with
  | empty =>
    intro i h
    obtain ⟨b, hb, hl⟩ := (describes_parts _ (Nat.le_refl _) h).2.2.1 _ rfl
    cases hb with | cons h1 h2 =>
    have := (describes_parts _ (Nat.le_refl _) h1).1
    rw [List.length_append] at hl
    simp only [HashTree.nodes, HashTree.payload]; omega
  | fork _ _ ih1 ih2 =>
    intro i h
    obtain ⟨b, hb, hl⟩ := (describes_parts _ (Nat.le_refl _) h).2.2.1 _ rfl
    cases hb with | cons h1 hb =>
    cases hb with | cons h2 hb =>
    cases hb with | cons h3 hb =>
    have := (describes_parts _ (Nat.le_refl _) h1).1
    have := ih1 h2
    have := ih2 h3
    simp only [List.length_append] at hl
    simp only [HashTree.nodes, HashTree.payload]; omega
  | labeled _ ih =>
    intro i h
    obtain ⟨b, hb, hl⟩ := (describes_parts _ (Nat.le_refl _) h).2.2.1 _ rfl
    cases hb with | cons h1 hb =>
    cases hb with | cons h2 hb =>
    cases hb with | cons h3 hb =>
    have := (describes_parts _ (Nat.le_refl _) h1).1
    have := (describes_parts _ (Nat.le_refl _) h2).2.1 _ rfl
    have := ih h3
    simp only [List.length_append] at hl
    simp only [HashTree.nodes, HashTree.payload]; omega
  | leaf =>
    intro i h
    obtain ⟨b, hb, hl⟩ := (describes_parts _ (Nat.le_refl _) h).2.2.1 _ rfl
    cases hb with | cons h1 hb =>
    cases hb with | cons h2 hb =>
    have := (describes_parts _ (Nat.le_refl _) h1).1
    have := (describes_parts _ (Nat.le_refl _) h2).2.1 _ rfl
    simp only [List.length_append] at hl
    simp only [HashTree.nodes, HashTree.payload]; omega
  | @pruned hash x =>
    intro i h
    obtain ⟨b, hb, hl⟩ := (describes_parts _ (Nat.le_refl _) h).2.2.1 _ rfl
    cases hb with | cons h1 hb =>
    cases hb with | cons h2 hb =>
    have := (describes_parts _ (Nat.le_refl _) h1).1
    have := (describes_parts _ (Nat.le_refl _) h2).2.1 _ rfl
    have := hash.2
    simp only [List.length_append] at hl
    simp only [HashTree.nodes, HashTree.payload]; omega

/-- **C81** A tree that is read has at most one node for every two bytes of the document, and no more bytes in it than the document. -/
theorem C81_tree {m : Machine} {i : Bytes} {t : HashTree} (h : treeFromCbor m i = some (.ok t)) :
    2 * t.nodes + t.payload ≤ i.length := by
  obtain ⟨v, h1, h2⟩ := C65_tree_accepted h
  exact treeOf_cost h2 h1

theorem pairs_value {m : Machine} {s : Bool} : ∀ {kvs : List (Bytes × CborValue)} {b : Bytes}, DescribesPairs m s b kvs →
    ∀ x ∈ kvs, ∃ a c, Describes m s a (.bytes x.1) ∧ Describes m s c x.2 ∧ a.length + c.length ≤ b.length
  | [], _, _ => by intro x hx; simp at hx
  | (k, v) :: kvs, _, h => by
    cases h with
    | cons h1 h2 h3 h4 =>
      intro x hx
      rcases List.mem_cons.1 hx with rfl | hx
      · exact ⟨_, _, h1, h3, by simp only [List.length_append]; omega⟩
      · obtain ⟨a, c, g1, g2, g3⟩ := pairs_value h4 x hx
        exact ⟨a, c, g1, g2, by simp only [List.length_append]; omega⟩

theorem lastValue_mem {kvs : List (Bytes × CborValue)} {k : Bytes} {v : CborValue} (h : LastValue kvs k v) : (k, v) ∈ kvs := by
  obtain ⟨pre, post, rfl, -⟩ := h
  simp

/-- **C81** No part of a certificate that is read is larger than the document. -/
theorem C81_certificate {m : Machine} {i : Bytes} {c : Certificate} (h : certificateFromCbor m i = some (.ok c)) :
    2 * c.tree.nodes + c.tree.payload ≤ i.length ∧ c.signature.length ≤ i.length ∧
    ∀ d, c.delegation = some d → d.subnetId.length ≤ i.length ∧ d.certificate.length ≤ i.length := by
  obtain ⟨v, h1, kvs, tree, rfl, h2, h3, h4, h5⟩ := C65_certificate_accepted h
  obtain ⟨b, hb, hl⟩ := (describes_parts _ (Nat.le_refl _) h1).2.2.2 _ rfl
  refine ⟨?_, ?_, ?_⟩
  · obtain ⟨a, c', -, g2, g3⟩ := pairs_value hb _ (lastValue_mem h2)
    have := treeOf_cost h3 g2
    omega
  · obtain ⟨a, c', -, g2, g3⟩ := pairs_value hb _ (lastValue_mem h4)
    have := (describes_parts _ (Nat.le_refl _) g2).2.1 _ rfl
    omega
  · intro d hd
    rw [hd] at h5
    obtain ⟨dkvs, k1, k2, k3⟩ := h5
    obtain ⟨a, c', -, g2, g3⟩ := pairs_value hb _ (lastValue_mem k1)
    obtain ⟨b', hb', hl'⟩ := (describes_parts _ (Nat.le_refl _) g2).2.2.2 _ rfl
    obtain ⟨_, _, -, f2, f3⟩ := pairs_value hb' _ (lastValue_mem k2)
    obtain ⟨_, _, -, e2, e3⟩ := pairs_value hb' _ (lastValue_mem k3)
    have := (describes_parts _ (Nat.le_refl _) f2).2.1 _ rfl
    have := (describes_parts _ (Nat.le_refl _) e2).2.1 _ rfl
    constructor <;> simp only at * <;> omega

theorem describesAll_bytes {m : Machine} {s : Bool} : ∀ {l : List Bytes} {b : Bytes}, DescribesAll m s b (l.map .bytes) →
    l.length + totalLength l ≤ b.length
  | [], _, _ => by simp [totalLength]
  | x :: l, _, h => by
    rw [List.map_cons] at h
    cases h with
    | cons h1 h2 =>
      have := (describes_parts _ (Nat.le_refl _) h1).2.1 _ rfl
      have := describesAll_bytes h2
      simp only [totalLength, List.map_cons, List.sum_cons, List.length_cons, List.length_append] at *
      omega

section
variable [SHA]

/-- **C81** The root hash of a tree takes at most one call of the hash function for each node, on 81 bytes for each node and the bytes in the tree. -/
theorem C81_hashing (t : HashTree) : t.hashed.length ≤ t.nodes ∧ totalLength t.hashed ≤ 81 * t.nodes + t.payload := by
  induction t with
  | empty => simp only [hashed, HashTree.nodes, HashTree.payload, totalLength]; decide
  | leaf b =>
    have : sepLeaf.length = 17 := by decide
    simp only [hashed, HashTree.nodes, HashTree.payload, totalLength, List.map_cons, List.map_nil, List.sum_cons, List.sum_nil, List.length_append,
      List.length_cons, List.length_nil]
    omega
  | pruned h => simp [hashed, HashTree.nodes, HashTree.payload, totalLength]
  | labeled k t ih =>
    have := t.digest.2
    have : sepLabeled.length = 20 := by decide
    simp only [hashed, HashTree.nodes, HashTree.payload, totalLength, List.map_cons, List.sum_cons, List.length_append, List.length_cons] at ih ⊢
    omega
  | fork l r ih1 ih2 =>
    have := l.digest.2
    have := r.digest.2
    have : sepFork.length = 17 := by decide
    simp only [hashed, HashTree.nodes, HashTree.payload, totalLength, List.map_cons, List.map_append, List.sum_cons, List.sum_append,
      List.length_append, List.length_cons] at ih1 ih2 ⊢
    omega

end

theorem base64_length {s : List Char} {b : Bytes} (h : b64Decode s = some b) : 4 * b.length ≤ 3 * s.length := by
  obtain ⟨v, k, e, h1, rfl, h3, h4, -⟩ := (C35_decodes s b).1 h
  have := congrArg List.length h3
  rw [sextets_length, List.length_append, bits_length] at this
  simp only [List.length_append, List.length_map, List.length_replicate]
  omega

theorem intercalate_mem_length {t : List Char} : ∀ {l : List (List Char)}, t ∈ l → t.length ≤ ([','].intercalate l).length
  | [], h => by simp at h
  | [x], h => by
    rw [List.mem_singleton.1 h]
    simp [List.intercalate]
  | x :: y :: l, h => by
    have e : [','].intercalate (x :: y :: l) = x ++ [','] ++ [','].intercalate (y :: l) := by simp [List.intercalate]
    rw [e, List.length_append, List.length_append]
    rcases List.mem_cons.1 h with rfl | h
    · omega
    · have := intercalate_mem_length h; omega

theorem field_length {s name v : List Char} (h : FirstField s name v) : v.length ≤ s.length := by
  obtain ⟨pre, t, post, ⟨-, -, rfl⟩, ⟨before, after, body, op, cl, rfl, -⟩, -⟩ := h
  have := intercalate_mem_length (t := before ++ (name ++ '=' :: op ++ v ++ cl) ++ after) (l := pre ++ (before ++ (name ++ '=' :: op ++ v ++ cl) ++ after) :: post)
    (by simp)
  simp only [List.length_append, List.length_cons] at this ⊢
  omega

/-- **C81** A list of texts that is read has no more texts, and no more bytes in them, than the document has bytes. -/
theorem C81_texts {m : Machine} {i : Bytes} {l : List Bytes} (h : stringsFromCbor m i = some (.ok l)) : l.length + totalLength l ≤ i.length := by
  unfold stringsFromCbor at h
  cases hp : parseCbor m i with
  | none => simp [hp] at h
  | some r =>
    cases r with
    | error e => rw [hp] at h; cases h
    | ok v =>
      rw [hp] at h
      cases v with
      | array vs =>
        obtain ⟨rfl, h2⟩ := cborToStrings_iff.1 (Option.some.inj h)
        obtain ⟨b, hb, hl⟩ := (describes_parts _ (Nat.le_refl _) (C65_describes hp)).2.2.1 _ rfl
        have := describesAll_bytes hb
        omega
      | _ => cases h

/-- **C81** The certificate, the tree and the expression path that are read out of a certificate header of `n` characters have at most `3n/4` bytes, and
at most one node for every two bytes. -/
theorem C81_header {m : Machine} {s : List Char} {h : CertHeader} (hh : headerFrom m s = .ok h) :
    4 * (2 * h.tree.nodes + h.tree.payload) ≤ 3 * s.length ∧
    4 * (2 * h.certificate.tree.nodes + h.certificate.tree.payload) ≤ 3 * s.length ∧
    4 * h.certificate.signature.length ≤ 3 * s.length ∧
    (∀ d, h.certificate.delegation = some d → 4 * d.certificate.length ≤ 3 * s.length) ∧
    ∀ p, h.exprPath = some p → 4 * (p.length + totalLength p) ≤ 3 * s.length := by
  obtain ⟨⟨v, b, f1, f2, f3⟩, ⟨v', b', g1, g2, g3⟩, -, he⟩ := (C34_first_field_wins m s h).1 hh
  have a1 := field_length f1
  have a2 := base64_length f2
  obtain ⟨a3, a4, a5⟩ := C81_certificate f3
  have b1 := field_length g1
  have b2 := base64_length g2
  have b3 := C81_tree g3
  refine ⟨by omega, by omega, by omega, fun d hd => ?_, fun p hp => ?_⟩
  · have := (a5 d hd).2
    omega
  · rcases he with ⟨-, e⟩ | ⟨w, c, q, e1, e2, e3, e4⟩
    · rw [e] at hp; cases hp
    · rw [e4] at hp; cases hp
      have := field_length e1
      have := base64_length e2
      have := C81_texts e3
      omega

section
variable [SHA]

/-- **C81** Computing the root hashes of the trees in a certificate header hashes at most 31 bytes for each character of the header. -/
theorem C81_header_hashing {m : Machine} {s : List Char} {h : CertHeader} (hh : headerFrom m s = .ok h) :
    totalLength h.tree.hashed ≤ 31 * s.length ∧ totalLength h.certificate.tree.hashed ≤ 31 * s.length ∧
    ∀ d i, h.certificate.delegation = some d → certificateFromCbor m d.certificate = some (.ok i) →
      totalLength i.tree.hashed ≤ 31 * s.length := by
  obtain ⟨h1, h2, -, h4, -⟩ := C81_header hh
  have a := (C81_hashing h.tree).2
  have b := (C81_hashing h.certificate.tree).2
  refine ⟨by omega, by omega, fun d i hd hi => ?_⟩
  have := h4 d hd
  have := (C81_certificate hi).1
  have := (C81_hashing i.tree).2
  omega

end

theorem loop_length : ∀ (fuel : Nat) {pp r : List Bytes} {ws}, moreSpecificLoop fuel pp r = some ws → ws.length + 1 ≤ fuel
  | 0, _, _, _, h => by simp [moreSpecificLoop] at h
  | fuel + 1, pp, r, ws, h => by
    unfold moreSpecificLoop at h
    split at h
    · obtain ⟨ws', h1, rfl⟩ := Option.map_eq_some_iff.1 h
      have := loop_length fuel h1
      simp only [List.length_cons]; omega
    · cases h; simp

/-- **C81** The verifier looks up at most two more specific wildcard paths for each segment of the request path, and two besides. -/
theorem C81_wildcards {requested responding : List Bytes} {ws} (h : moreSpecificWildcards requested responding = some ws) :
    ws.length ≤ 2 * requested.length + 2 := by
  have h1 := loop_length _ h
  have h2 : (stripAffixes requested).length ≤ requested.length := by
    unfold stripAffixes
    have a : ∀ (l : List Bytes) (c : Prop) [Decidable c], (if c then l.tail else l).length ≤ l.length := by
      intro l c _; split <;> simp
    have b : ∀ (l : List Bytes) (c : Prop) [Decidable c], (if c then l.dropLast else l).length ≤ l.length := by
      intro l c _; split <;> simp
    simp only
    exact (a _ _).trans ((b _ _).trans (a _ _))
  omega

/-! ### Concrete cases -/

/-- 4 nodes, one byte in a label and two in a leaf, read out of 13 bytes; the bound of `C81_tree` is 11.
-/
example : treeFromCbor exMachine [0x83, 1, 0x81, 0, 0x83, 2, 0x41, 7, 0x82, 3, 0x42, 1, 2] =
    some (.ok (.fork .empty (.labeled [7] (.leaf [1, 2])))) ∧
    2 * (HashTree.fork .empty (.labeled [7] (.leaf [1, 2]))).nodes + (HashTree.fork .empty (.labeled [7] (.leaf [1, 2]))).payload = 11 := ⟨rfl, rfl⟩

example : stringsFromCbor exMachine [0x82, 0x61, 0x61, 0x60] = some (.ok [[0x61], []]) := rfl

example : moreSpecificWildcards [str "http_expr", str "a", str "b", str "<$>"] [str "http_expr", [], str "<*>"] =
    some [[str "a", str "b", str "<*>"], [str "a", [], str "<*>"], [str "a", str "<*>"]] := by decide

end Verif.Props
