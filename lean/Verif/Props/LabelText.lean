import Verif.Model.LabelText
import Verif.Spec.LabelText
import Verif.Spec.Toy

/-!
# C75: text forms of labels and hashes
-/

set_option linter.unusedSimpArgs false

namespace Verif.Props
open Verif HashTree

theorem _root_.Verif.DigitOf.inj {c : UInt8} {m n : Nat} (h : DigitOf c m) (h' : DigitOf c n) : m = n := by
  unfold DigitOf at h h'; omega

theorem _root_.Verif.DigitOf.lt {c : UInt8} {m : Nat} (h : DigitOf c m) : m < 16 := by
  unfold DigitOf at h; omega

theorem _root_.Verif.HexOf.inj {s b b' : Bytes} (h : HexOf s b) (h' : HexOf s b') : b = b' := by
  induction h generalizing b' with
  | nil => cases h'; rfl
  | cons hc hd hx _ ih =>
    cases h' with
    | cons hc' hd' hx' h2 =>
      rw [ih h2]
      have e1 := hc.inj hc'
      have e2 := hd.inj hd'
      congr 1
      apply UInt8.toNat_inj.1
      omega

theorem _root_.Verif.HexOf.length {s b : Bytes} (h : HexOf s b) : s.length = 2 * b.length := by
  induction h with
  | nil => rfl
  | cons _ _ _ _ ih => simp [ih]; omega

theorem upper_digit {n : Nat} (h : n < 16) : DigitOf (hexUpper.hexDigit n) n := by
  have : ∀ n, n < 16 → DigitOf (hexUpper.hexDigit n) n := by
    intro n hn
    unfold DigitOf hexUpper.hexDigit
    split
    · left
      have : ((48 + n).toUInt8).toNat = 48 + n := by simp [Nat.toUInt8]; omega
      omega
    · right; left
      have : ((55 + n).toUInt8).toNat = 55 + n := by simp [Nat.toUInt8]; omega
      omega
  exact this n h

theorem lower_digit {n : Nat} (h : n < 16) : DigitOf (hexLower.hexDigit n) n := by
  unfold DigitOf hexLower.hexDigit
  split
  · left
    have : ((48 + n).toUInt8).toNat = 48 + n := by simp [Nat.toUInt8]; omega
    omega
  · right; right
    have : ((87 + n).toUInt8).toNat = 87 + n := by simp [Nat.toUInt8]; omega
    omega

theorem hexUpper_hexOf (b : Bytes) : HexOf (hexUpper b) b := by
  induction b with
  | nil => exact .nil
  | cons x b ih =>
    have hx := x.toNat_lt
    exact .cons (upper_digit (by omega)) (upper_digit (by omega)) (by omega) ih

theorem hexLower_hexOf (b : Bytes) : HexOf (hexLower b) b := by
  induction b with
  | nil => exact .nil
  | cons x b ih =>
    have hx := x.toNat_lt
    exact .cons (lower_digit (by omega)) (lower_digit (by omega)) (by omega) ih

theorem chars_of_ascii {b : Bytes} (h : ∀ x ∈ b, x.toNat < 128) : chars b = some (b.map (fun x => Char.ofNat x.toNat)) := by
  have hc : ∀ x ∈ b, (Char.ofNat x.toNat).toNat = x.toNat := by
    intro x hx
    have := h x hx
    have hv : x.toNat.isValidChar := Or.inl (by omega)
    rw [Char.ofNat, dif_pos hv]
    simp [Char.ofNatAux, Char.toNat]
  have e : utf8 (b.map (fun x => Char.ofNat x.toNat)) = b := by
    rw [utf8_ascii]
    · rw [List.map_map]
      conv => rhs; rw [← List.map_id b]
      apply List.map_congr_left
      intro x hx
      simp only [Function.comp, id]
      rw [hc x hx]
      simp [Nat.toUInt8]
    · intro c hcm
      simp only [List.mem_map] at hcm
      obtain ⟨x, hx, rfl⟩ := hcm
      rw [hc x hx]
      exact h x hx
  have := chars_utf8 (b.map (fun x => Char.ofNat x.toNat))
  rwa [e] at this

theorem isReadable_iff (b : Bytes) : isReadable b = true ↔ Visible b := by
  constructor
  · intro h
    unfold isReadable at h
    cases hc : chars b with
    | none => simp [hc] at h
    | some cs =>
      simp only [hc, List.all_eq_true] at h
      have hg : ∀ c ∈ cs, 33 ≤ c.toNat ∧ c.toNat ≤ 126 := by
        intro c hm
        have := h c hm
        simpa [isGraphic] using this
      have hb := utf8_chars hc
      rw [utf8_ascii (fun c hm => by have := hg c hm; omega)] at hb
      intro x hx
      rw [← hb] at hx
      simp only [List.mem_map] at hx
      obtain ⟨c, hm, rfl⟩ := hx
      have := hg c hm
      have e : (c.toNat.toUInt8).toNat = c.toNat := by simp [Nat.toUInt8]; omega
      omega
  · intro h
    unfold isReadable
    rw [chars_of_ascii (fun x hx => by have := h x hx; omega)]
    simp only [List.all_map, List.all_eq_true]
    intro x hx
    have := h x hx
    have hv : x.toNat.isValidChar := Or.inl (by omega)
    have e : (Char.ofNat x.toNat).toNat = x.toNat := by
      rw [Char.ofNat, dif_pos hv]
      simp [Char.ofNatAux, Char.toNat]
    have e1 : '!'.toNat = 33 := rfl
    have e2 : '~'.toNat = 126 := rfl
    simp only [Function.comp, isGraphic, Bool.and_eq_true, decide_eq_true_eq, e, e1, e2]
    exact this

/-- **C75** A label of visible ASCII characters is displayed between quotation marks, any other as `0x` and its hexadecimal
digits. -/
theorem C75_label_display (b : Bytes) :
    (Visible b ∧ labelDisplay b = str "\"" ++ b ++ str "\"") ∨
    (¬ Visible b ∧ ∃ s, labelDisplay b = str "0x" ++ s ∧ HexOf s b) := by
  unfold labelDisplay
  by_cases h : isReadable b = true
  · exact .inl ⟨(isReadable_iff b).1 h, by rw [if_pos h]⟩
  · exact .inr ⟨fun hv => h ((isReadable_iff b).2 hv), hexUpper b, by rw [if_neg h]; rfl, hexUpper_hexOf b⟩

/-- **C75** Labels that are displayed alike are equal; so are labels with the same debug output. -/
theorem C75_label_unambiguous (a b : Bytes) :
    (labelDisplay a = labelDisplay b → a = b) ∧ (labelDebug a = labelDebug b → a = b) := by
  constructor
  · intro h
    rcases C75_label_display a with ⟨_, ha⟩ | ⟨_, s, ha, hs⟩ <;> rcases C75_label_display b with ⟨_, hb⟩ | ⟨_, s', hb, hs'⟩
    · rw [ha, hb] at h
      have h1 := List.append_inj_left' h rfl
      exact List.append_cancel_left h1
    · rw [ha, hb] at h
      have := congrArg List.head? h
      simp [str] at this
    · rw [ha, hb] at h
      have := congrArg List.head? h
      simp [str] at this
    · rw [ha, hb] at h
      have := List.append_cancel_left h
      subst this
      exact hs.inj hs'
  · intro h
    have h1 := hexUpper_hexOf a
    have h2 := hexUpper_hexOf b
    unfold labelDebug at h
    rw [h] at h1
    exact h1.inj h2

theorem hexVal_ok {c : UInt8} {i : Nat} {x : UInt8} : hexVal c i = .ok x ↔ DigitOf c x.toNat := by
  have a1 : (65 : UInt8).toNat = 65 := rfl
  have a2 : (70 : UInt8).toNat = 70 := rfl
  have a3 : (97 : UInt8).toNat = 97 := rfl
  have a4 : (102 : UInt8).toNat = 102 := rfl
  have a5 : (48 : UInt8).toNat = 48 := rfl
  have a6 : (57 : UInt8).toNat = 57 := rfl
  have a7 : (10 : UInt8).toNat = 10 := rfl
  have hc := c.toNat_lt
  unfold hexVal DigitOf
  simp only [UInt8.le_iff_toNat_le, a1, a2, a3, a4, a5, a6]
  split
  · have e : (c - 65 + 10).toNat = c.toNat - 55 := by
      rw [UInt8.toNat_add, UInt8.toNat_sub, a1, a7]
      omega
    rw [Except.ok.injEq, ← UInt8.toNat_inj, e]
    omega
  · split
    · have e : (c - 97 + 10).toNat = c.toNat - 87 := by
        rw [UInt8.toNat_add, UInt8.toNat_sub, a3, a7]
        omega
      rw [Except.ok.injEq, ← UInt8.toNat_inj, e]
      omega
    · split
      · have e : (c - 48).toNat = c.toNat - 48 := by
          rw [UInt8.toNat_sub, a5]
          omega
        rw [Except.ok.injEq, ← UInt8.toNat_inj, e]
        omega
      · simp only [reduceCtorEq, false_iff]
        omega

theorem hexVal_error {c : UInt8} {i : Nat} {e : HexError} (h : hexVal c i = .error e) :
    e = .invalidCharacter c i ∧ ∀ n, ¬ DigitOf c n := by
  constructor
  · unfold hexVal at h
    split at h
    · simp at h
    · split at h
      · simp at h
      · split at h
        · simp at h
        · simpa using h.symm
  · intro n hn
    have hl := hn.lt
    have e : (n.toUInt8).toNat = n := by simp [Nat.toUInt8]; omega
    have := (hexVal_ok (c := c) (i := i) (x := n.toUInt8)).2 (by rw [e]; exact hn)
    rw [h] at this
    simp at this

theorem nibbles (x y : UInt8) (hx : x.toNat < 16) (hy : y.toNat < 16) : (x <<< 4 ||| y).toNat = 16 * x.toNat + y.toNat := by
  have : ∀ a b : Fin 16, ((a.1.toUInt8) <<< 4 ||| (b.1.toUInt8)).toNat = 16 * a.1 + b.1 := by decide
  have h := this ⟨x.toNat, hx⟩ ⟨y.toNat, hy⟩
  have ex : x.toNat.toUInt8 = x := by simp [Nat.toUInt8]
  have ey : y.toNat.toUInt8 = y := by simp [Nat.toUInt8]
  simp only [ex, ey] at h
  exact h

theorem hexPairs_ok : ∀ (s : Bytes) (i : Nat) (b : Bytes), s.length % 2 = 0 → (hexPairs i s = .ok b ↔ HexOf s b)
  | [], i, b, _ => by
    constructor
    · intro h; simp [hexPairs] at h; subst h; exact .nil
    · intro h; cases h; rfl
  | [x], i, b, h => by simp at h
  | c :: d :: s, i, b, hs => by
    have hs' : s.length % 2 = 0 := by simp only [List.length_cons] at hs; omega
    constructor
    · intro h
      unfold hexPairs at h
      cases h1 : hexVal c i with
      | error e => simp [h1] at h
      | ok x =>
        cases h2 : hexVal d (i + 1) with
        | error e => simp [h1, h2] at h
        | ok y =>
          cases h3 : hexPairs (i + 2) s with
          | error e => simp [h1, h2, h3] at h
          | ok bs =>
            simp [h1, h2, h3] at h
            subst h
            have d1 := hexVal_ok.1 h1
            have d2 := hexVal_ok.1 h2
            exact .cons d1 d2 (nibbles x y d1.lt d2.lt) ((hexPairs_ok s (i + 2) bs hs').1 h3)
    · intro h
      cases h with
      | @cons _ _ z _ bs m n hc hd hx h' =>
        have e1 : (m.toUInt8).toNat = m := by have := hc.lt; simp [Nat.toUInt8]; omega
        have e2 : (n.toUInt8).toNat = n := by have := hd.lt; simp [Nat.toUInt8]; omega
        have h1 := (hexVal_ok (c := c) (i := i) (x := m.toUInt8)).2 (by rw [e1]; exact hc)
        have h2 := (hexVal_ok (c := d) (i := i + 1) (x := n.toUInt8)).2 (by rw [e2]; exact hd)
        have h3 := (hexPairs_ok s (i + 2) bs hs').2 h'
        have e : m.toUInt8 <<< 4 ||| n.toUInt8 = z := by
          apply UInt8.toNat_inj.1
          rw [nibbles _ _ (by rw [e1]; exact hc.lt) (by rw [e2]; exact hd.lt), e1, e2, hx]
        unfold hexPairs
        simp [h1, h2, h3, e]

/-- What is wrong with the hexadecimal digits: the first that is none, and where. -/
theorem hexPairs_error : ∀ (s : Bytes) (i : Nat) (e : HexError), hexPairs i s = .error e →
    ∃ k c, s[k]? = some c ∧ (∀ n, ¬ DigitOf c n) ∧ (∀ j d, j < k → s[j]? = some d → ∃ n, DigitOf d n) ∧
      e = .invalidCharacter c (i + k)
  | [], i, e, h => by simp [hexPairs] at h
  | [x], i, e, h => by simp [hexPairs] at h
  | c :: d :: s, i, e, h => by
    unfold hexPairs at h
    cases h1 : hexVal c i with
    | error e' =>
      simp [h1] at h
      obtain ⟨g1, g2⟩ := hexVal_error h1
      exact ⟨0, c, rfl, g2, fun j d hj => absurd hj (by omega), by rw [← h, g1]; rfl⟩
    | ok x =>
      cases h2 : hexVal d (i + 1) with
      | error e' =>
        simp [h1, h2] at h
        obtain ⟨g1, g2⟩ := hexVal_error h2
        refine ⟨1, d, rfl, g2, ?_, by rw [← h, g1]⟩
        intro j d' hj hd'
        have : j = 0 := by omega
        subst this
        simp at hd'
        subst hd'
        exact ⟨_, hexVal_ok.1 h1⟩
      | ok y =>
        cases h3 : hexPairs (i + 2) s with
        | ok bs => simp [h1, h2, h3] at h
        | error e' =>
          simp [h1, h2, h3] at h
          obtain ⟨k, c', g1, g2, g3, g4⟩ := hexPairs_error s (i + 2) e' h3
          refine ⟨k + 2, c', by simpa using g1, g2, ?_, by rw [← h, g4]; congr 1; omega⟩
          intro j d' hj hd'
          match j with
          | 0 => simp at hd'; subst hd'; exact ⟨_, hexVal_ok.1 h1⟩
          | 1 => simp at hd'; subst hd'; exact ⟨_, hexVal_ok.1 h2⟩
          | j + 2 => exact g3 j d' (by omega) (by simpa using hd')

/-- **C75** `pruned_from_hex` succeeds exactly on the hexadecimal text, in upper or lower case, of a 32-byte hash, and returns
the pruned node of that hash, whose digest it is. -/
theorem C75_pruned_from_hex [SHA] (s : Bytes) (t : HashTree) :
    prunedFromHex s = .ok t ↔ ∃ h : Hash, HexOf s h.1 ∧ t = .pruned h ∧ t.digest = h := by
  constructor
  · intro h
    unfold prunedFromHex hexDecode at h
    split at h
    · simp at h
    · rename_i b hb
      split at hb
      · simp at hb
      · split at hb
        · simp at hb
        · rename_i h1 h2
          have hx := (hexPairs_ok s 0 b (by omega)).1 hb
          split at h
          · rename_i hl
            simp at h
            subst h
            exact ⟨⟨b, hl⟩, hx, rfl, rfl⟩
          · rename_i hl
            have := hx.length
            omega
  · rintro ⟨h, hx, rfl, _⟩
    have hl := hx.length
    have h32 := h.2
    unfold prunedFromHex hexDecode
    rw [if_neg (by omega), if_neg (by omega), (hexPairs_ok s 0 h.1 (by omega)).2 hx]
    simp [h32]

/-- **C75** The errors of `pruned_from_hex`: an odd number of characters, another number than 64, or the first character that is
no hexadecimal digit with its position. -/
theorem C75_hex_errors (s : Bytes) (e : HexError) (h : prunedFromHex s = .error e) :
    (e = .oddLength ∧ s.length % 2 = 1) ∨ (e = .invalidStringLength ∧ s.length % 2 = 0 ∧ s.length ≠ 64) ∨
    ∃ k c, s.length = 64 ∧ e = .invalidCharacter c k ∧ s[k]? = some c ∧ (∀ n, ¬ DigitOf c n) ∧
      ∀ j d, j < k → s[j]? = some d → ∃ n, DigitOf d n := by
  unfold prunedFromHex hexDecode at h
  split at h
  · rename_i e' he
    simp at h
    subst h
    split at he
    · simp at he; exact .inl ⟨he.symm, by omega⟩
    · split at he
      · simp at he; exact .inr (.inl ⟨he.symm, by omega, by omega⟩)
      · obtain ⟨k, c, g1, g2, g3, g4⟩ := hexPairs_error s 0 e' he
        exact .inr (.inr ⟨k, c, by omega, by simpa using g4, g1, g2, g3⟩)
  · rename_i b hb
    split at hb
    · simp at hb
    · split at hb
      · simp at hb
      · have hx := (hexPairs_ok s 0 b (by omega)).1 hb
        have := hx.length
        split at h
        · simp at h
        · omega

/-- **C75** Writing a hash as text, as labels and pruned nodes are shown, and reading it back. -/
theorem C75_hex_roundtrip (h : Hash) :
    prunedFromHex (hexLower h.1) = .ok (.pruned h) ∧ prunedFromHex (hexUpper h.1) = .ok (.pruned h) ∧
    nodeDebug (.pruned h) = str "Pruned(" ++ hexLower h.1 ++ str ")" := by
  let _ := toySHA
  exact ⟨(C75_pruned_from_hex _ _).2 ⟨h, hexLower_hexOf _, rfl, rfl⟩, (C75_pruned_from_hex _ _).2 ⟨h, hexUpper_hexOf _, rfl, rfl⟩, rfl⟩

/-- The debug output of a tree does not determine it: a leaf with one byte and a leaf with four characters look alike. -/
theorem C75_debug_ambiguous : treeDebug (.leaf [0]) = treeDebug (.leaf (str "0x00")) ∧ HashTree.leaf [0] ≠ .leaf (str "0x00") := by
  constructor
  · have h1 : isReadable [0] = false := by
      cases h : isReadable [0] with
      | false => rfl
      | true => exact absurd ((isReadable_iff _).1 h 0 (by simp)) (by decide)
    have h2 : isReadable (str "0x00") = true := (isReadable_iff _).2 (by unfold Visible; decide)
    simp only [treeDebug, nodeDebug, readablePrint, h1, h2]
    rfl
  · decide

/-! Examples -/

example : labelDisplay (str "canister") = str "\"canister\"" := by
  have h : isReadable (str "canister") = true := (isReadable_iff _).2 (by unfold Visible; decide)
  simp only [labelDisplay, h]; rfl

example : labelDisplay [0xAB, 0x20] = str "0xAB20" := by
  have h : isReadable [0xAB, 0x20] = false := by
    cases h : isReadable [0xAB, 0x20] with
    | false => rfl
    | true => exact absurd ((isReadable_iff _).1 h 0x20 (by simp)) (by decide)
  simp only [labelDisplay, h]; rfl

example : prunedFromHex (List.replicate 63 0x61 ++ str "g") = .error (.invalidCharacter 0x67 63) := by decide +kernel
example : ∃ t, prunedFromHex (List.replicate 64 0x61) = .ok t := ⟨_, rfl⟩

end Verif.Props
