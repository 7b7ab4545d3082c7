import Verif.Props.Cel
import Verif.Model.HttpPath
import Verif.Lemmas.HttpPath

set_option linter.unusedSimpArgs false

/-! Splitting a UTF-8 string at an ASCII character. -/

namespace Verif

theorem ascii_mem_encode {c : Char} {b : UInt8} (hb : b.toNat < 128) (h : b ∈ String.utf8EncodeChar c) :
    c.toNat = b.toNat := by
  by_cases hc : c.toNat < 128
  · rw [utf8EncodeChar_ascii hc] at h
    simp at h
    subst h
    simp
    omega
  · exfalso
    have hc' : ¬ c.val.toNat ≤ 127 := by have : ¬ c.val.toNat < 128 := hc; omega
    unfold String.utf8EncodeChar at h
    simp only [hc', if_false] at h
    split at h
    · simp only [List.mem_cons, List.not_mem_nil, or_false] at h
      rcases h with rfl | rfl <;> simp at hb <;> omega
    · split at h
      · simp only [List.mem_cons, List.not_mem_nil, or_false] at h
        rcases h with rfl | rfl | rfl <;> simp at hb <;> omega
      · simp only [List.mem_cons, List.not_mem_nil, or_false] at h
        rcases h with rfl | rfl | rfl | rfl <;> simp at hb <;> omega

theorem splitOn_utf8 {a : UInt8} {c : Char} (ha : a.toNat < 128) (hc : c.toNat = a.toNat) (cs : List Char) :
    (utf8 cs).splitOn a = (cs.splitOn c).map utf8 := by
  have h1 : cs = [c].intercalate (cs.splitOn c) := (List.intercalate_splitOn c).symm
  have h2 : utf8 [c] = [a] := by
    simp only [utf8, List.flatMap_cons, List.flatMap_nil, List.append_nil]
    rw [utf8EncodeChar_ascii (by omega), hc]
    simp
  conv_lhs => rw [h1, utf8_intercalate, h2]
  refine List.splitOn_intercalate _ ?_ (by simp [List.splitOn_ne_nil])
  intro l hl
  simp only [List.mem_map] at hl
  obtain ⟨s, hs, rfl⟩ := hl
  intro hm
  simp only [utf8, List.mem_flatMap] at hm
  obtain ⟨d, hd, hm⟩ := hm
  have h3 := ascii_mem_encode ha hm
  have : d = c := by
    apply Char.ext; apply UInt32.toNat_inj.1
    show d.toNat = c.toNat
    rw [h3, hc]
  subst this
  exact not_mem_of_mem_splitOn hs hd

/-- The segments of a string are strings. -/
theorem segments_chars {p s : Bytes} (h : (chars p).isSome) (hs : s ∈ pathSegments p) : (chars s).isSome := by
  obtain ⟨cs, hcs⟩ := Option.isSome_iff_exists.1 h
  have := utf8_chars hcs
  subst this
  unfold pathSegments slashByte at hs
  rw [splitOn_utf8 (c := '/') (by decide) (by decide)] at hs
  have := (List.mem_filter.1 hs).1
  simp only [List.mem_map] at this
  obtain ⟨l, _, rfl⟩ := this
  simp [chars_utf8]

end Verif
