import Verif.Basic

/-!
# UTF-8

Rust's `str` is modelled by its UTF-8 bytes; the few functions that look at characters decode them first. Encoding
and decoding are Lean core's.
-/

namespace Verif

/-- The bytes of a string with these characters (`str::as_bytes`, Rust core library). -/
def utf8 (cs : List Char) : Bytes := cs.flatMap String.utf8EncodeChar

/-- The characters of a string with these bytes (`str::chars`, Rust core library); `none` if the bytes are not
UTF-8, which the type `str` excludes (`String::from_utf8` returns the error in that case). -/
def chars (b : Bytes) : Option (List Char) := (b.toByteArray.utf8Decode?).map Array.toList

theorem chars_utf8 (cs : List Char) : chars (utf8 cs) = some cs := by
  have h : (utf8 cs).toByteArray = cs.utf8Encode := rfl
  simp [chars, h, List.utf8Decode?_utf8Encode]

theorem utf8_inj {a b : List Char} (h : utf8 a = utf8 b) : a = b := by
  have := congrArg chars h
  simpa [chars_utf8] using this

theorem utf8_append (a b : List Char) : utf8 (a ++ b) = utf8 a ++ utf8 b := by simp [utf8]

theorem utf8EncodeChar_ascii {c : Char} (h : c.toNat < 128) : String.utf8EncodeChar c = [c.toNat.toUInt8] := by
  have h' : c.val.toNat ≤ 127 := by have : c.val.toNat < 128 := h; omega
  have e : c.toNat = c.val.toNat := rfl
  rw [e]; unfold String.utf8EncodeChar
  simp only [h', if_true]

theorem utf8_ascii {cs : List Char} (h : ∀ c ∈ cs, c.toNat < 128) :
    utf8 cs = cs.map (fun c => c.toNat.toUInt8) := by
  induction cs with
  | nil => rfl
  | cons c cs ih =>
    have h1 := utf8EncodeChar_ascii (h c (by simp))
    have h2 := ih (fun d hd => h d (by simp [hd]))
    simp only [utf8] at h2
    simp [utf8, h1, h2]

theorem str_eq_utf8 {s : String} (h : s.toList.all (fun c => c.toNat < 128) = true) : str s = utf8 s.toList := by
  rw [utf8_ascii (fun c hc => by simpa using List.all_eq_true.1 h c hc)]; rfl

/-- Bytes that are valid UTF-8 are the encoding of their characters. -/
theorem utf8_chars {b : Bytes} {cs : List Char} (h : chars b = some cs) : utf8 cs = b := by
  unfold chars at h
  cases hd : b.toByteArray.utf8Decode? with
  | none => simp [hd] at h
  | some a =>
    have h1 : b.toByteArray.utf8Decode?.isSome = true := by simp [hd]
    have h2 := ByteArray.utf8Encode_get_utf8Decode? (b := b.toByteArray) (h := h1)
    simp [hd] at h h2
    subst h
    have h3 : (utf8 a.toList).toByteArray = b.toByteArray := h2
    have h4 := congrArg (fun x => x.data.toList) h3
    simpa using h4

end Verif
