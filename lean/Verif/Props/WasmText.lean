import Verif.Props.Wasm

/-!
# The text of any JavaScript string (C61)

A JavaScript string is any sequence of 16-bit units, which need not be the UTF-16 of a text.
-/

namespace Verif.Props
open Verif

/-- The units `s` read as the characters `cs`, as the `TextEncoder` reads them: a high surrogate followed by a low one is one
character above U+FFFF, any other surrogate is the replacement character, any other unit is the character with its number. -/
inductive UnitsText : List UInt16 → List Char → Prop
  | nil : UnitsText [] []
  | plain (u : UInt16) (c : Char) (s : List UInt16) (cs : List Char) (hc : c.toNat = u.toNat) (h : UnitsText s cs) :
    UnitsText (u :: s) (c :: cs)
  | pair (u v : UInt16) (c : Char) (s : List UInt16) (cs : List Char) (hu : 0xD800 ≤ u.toNat ∧ u.toNat ≤ 0xDBFF)
    (hv : 0xDC00 ≤ v.toNat ∧ v.toNat ≤ 0xDFFF)
    (hc : c.toNat = 0x10000 + (u.toNat - 0xD800) * 0x400 + (v.toNat - 0xDC00)) (h : UnitsText s cs) :
    UnitsText (u :: v :: s) (c :: cs)
  | high (u : UInt16) (s : List UInt16) (cs : List Char) (hu : 0xD800 ≤ u.toNat ∧ u.toNat ≤ 0xDBFF)
    (hs : ∀ v, s.head? = some v → ¬ (0xDC00 ≤ v.toNat ∧ v.toNat ≤ 0xDFFF)) (h : UnitsText s cs) :
    UnitsText (u :: s) ('\uFFFD' :: cs)
  | low (u : UInt16) (s : List UInt16) (cs : List Char) (hu : 0xDC00 ≤ u.toNat ∧ u.toNat ≤ 0xDFFF) (h : UnitsText s cs) :
    UnitsText (u :: s) ('\uFFFD' :: cs)

theorem unitsText_unique {s : List UInt16} {cs : List Char} (h : UnitsText s cs) : ∀ {ds}, UnitsText s ds → cs = ds := by
  have inj : ∀ {c d : Char}, c.toNat = d.toNat → c = d := fun {c d} e => by
    rw [← Char.ofNat_toNat c, e, Char.ofNat_toNat]
  have ns : ∀ c : Char, ¬ (0xD800 ≤ c.toNat ∧ c.toNat ≤ 0xDFFF) := fun c => by
    have hv : c.toNat < 0xD800 ∨ (0xDFFF < c.toNat ∧ c.toNat < 0x110000) := c.valid
    omega
  induction h with
  | nil => intro ds h; cases h; rfl
  | plain u c s cs hc _ ih =>
    have := ns c
    intro ds h
    cases h with
    | plain _ d _ es hd h => rw [inj (hc.trans hd.symm), ih h]
    | pair _ _ _ _ _ hu => omega
    | high _ _ _ hu => omega
    | low _ _ _ hu => omega
  | pair u v c s cs hu hv hc _ ih =>
    intro ds h
    cases h with
    | plain _ d _ es hd h => have := ns d; omega
    | pair _ _ d _ _ _ _ hd h => rw [inj (hc.trans hd.symm), ih h]
    | high _ _ _ _ hs => exact absurd hv (hs v rfl)
    | low _ _ _ hu => omega
  | high u s cs hu hs _ ih =>
    intro ds h
    cases h with
    | plain _ d _ es hd h => have := ns d; omega
    | pair _ v _ _ _ _ hv => exact absurd hv (hs v rfl)
    | high _ _ _ _ _ h => rw [ih h]
    | low _ _ _ hu => omega
  | low u s cs hu _ ih =>
    intro ds h
    cases h with
    | plain _ d _ es hd h => have := ns d; omega
    | pair _ v _ _ _ hu => omega
    | high _ _ _ hu => omega
    | low _ _ _ _ h => rw [ih h]

theorem unitsText_decode : ∀ s : List UInt16, UnitsText s (utf16Decode s) := by
  have e1 : (0xD800 : UInt16).toNat = 0xD800 := rfl
  have e2 : (0xDBFF : UInt16).toNat = 0xDBFF := rfl
  have e3 : (0xDC00 : UInt16).toNat = 0xDC00 := rfl
  have e4 : (0xDFFF : UInt16).toNat = 0xDFFF := rfl
  have hn : ∀ n, n.isValidChar → (Char.ofNat n).toNat = n := fun n h => by
    unfold Char.ofNat
    rw [dif_pos h]
    rfl
  intro s
  induction s using utf16Decode.induct with
  | case1 => exact .nil
  | case2 u =>
    have hlt : u.toNat < 65536 := u.toNat_lt
    rw [utf16Decode]
    split_ifs with c
    · simp only [UInt16.le_iff_toNat_le, e1, e4] at c
      by_cases hd : u.toNat ≤ 0xDBFF
      · exact .high u [] [] ⟨c.1, hd⟩ (by simp) .nil
      · exact .low u [] [] ⟨by omega, c.2⟩ .nil
    · simp only [UInt16.le_iff_toNat_le, e1, e4] at c
      exact .plain u _ [] [] (hn _ (by unfold Nat.isValidChar; omega)) .nil
  | case3 u v rest c1 c2 ih =>
    rw [utf16Decode, if_pos c1, if_pos c2]
    simp only [UInt16.le_iff_toNat_le, e1, e2, e3, e4] at c1 c2
    exact .pair u v _ rest _ c1 c2 (hn _ (by unfold Nat.isValidChar; omega)) ih
  | case4 u v rest c1 c2 ih =>
    rw [utf16Decode, if_pos c1, if_neg c2]
    simp only [UInt16.le_iff_toNat_le, e1, e2, e3, e4] at c1 c2
    exact .high u _ _ c1 (fun w hw => by simp only [List.head?_cons, Option.some.injEq] at hw; subst hw; exact c2) ih
  | case5 u v rest c1 c2 ih =>
    rw [utf16Decode, if_neg c1, if_pos c2]
    simp only [UInt16.le_iff_toNat_le, e1, e2, e3, e4] at c1 c2
    exact .low u _ _ c2 ih
  | case6 u v rest c1 c2 ih =>
    have hlt : u.toNat < 65536 := u.toNat_lt
    rw [utf16Decode, if_neg c1, if_neg c2]
    simp only [UInt16.le_iff_toNat_le, e1, e2, e3, e4] at c1 c2
    exact .plain u _ _ _ (hn _ (by unfold Nat.isValidChar; omega)) ih

/-- **C61** Whatever string JavaScript passes, the text that is read is the UTF-8 of its units read one after the other, pairs of
surrogates as one character and every other surrogate as U+FFFD: no unit is skipped. -/
theorem C61_any_text (s : List UInt16) (b : Bytes) :
    JsVal.asString (.str s) = some b ↔ ∃ cs, UnitsText s cs ∧ b = utf8 cs := by
  simp only [JsVal.asString, Option.some.injEq]
  exact ⟨fun h => ⟨_, unitsText_decode s, h.symm⟩, fun ⟨cs, h, e⟩ => by
    rw [unitsText_unique (unitsText_decode s) h, e]⟩

/-- A lone high surrogate does not swallow the letter after it. -/
example : JsVal.asString (.str [0xD83D, 0x61]) = some (utf8 ['\uFFFD', 'a']) :=
  (C61_any_text _ _).2 ⟨_, .high _ _ _ (by decide) (by simp) (.plain _ 'a' _ _ rfl .nil), rfl⟩

example : JsVal.asString (.str [0x61, 0xD83D, 0xDE00, 0xDE00]) = some (utf8 ['a', '😀', '\uFFFD']) :=
  (C61_any_text _ _).2 ⟨_, .plain _ 'a' _ _ rfl (.pair _ _ '😀' _ _ (by decide) (by decide) rfl (.low _ _ _ (by decide) .nil)),
    rfl⟩

end Verif.Props
