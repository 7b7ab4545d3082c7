import Verif.Spec.Base64
import Verif.Props.Base64

set_option linter.unusedSimpArgs false

/-!
# C35: base64 in terms of bits
-/

namespace Verif.Props
open Verif

theorem b64Char_symbol : ∀ n < 64, b64Char n = base64Symbol n := by decide +kernel

theorem b64Val_iff {c : Char} {n : Nat} : b64Val c = some n ↔ n < 64 ∧ c = base64Symbol n := by
  constructor
  · intro h
    unfold b64Val at h
    obtain ⟨h1, h2, -⟩ := List.findIdx?_eq_some_iff_getElem.1 h
    have hl : b64Alphabet.length = 64 := by decide
    have hn : n < 64 := by omega
    refine ⟨hn, ?_⟩
    rw [← b64Char_symbol n hn]
    unfold b64Char
    have : b64Alphabet.getD n '=' = b64Alphabet[n] := by rw [List.getD, List.getElem?_eq_getElem h1]; rfl
    rw [this]
    exact (eq_of_beq h2).symm
  · rintro ⟨h, rfl⟩
    rw [← b64Char_symbol n h]
    exact b64Val_char n h

theorem symbol_ne_pad : ∀ n < 64, base64Symbol n ≠ '=' := by decide +kernel

theorem bits_quad {a b c d : Nat} (ha : a < 64) (hb : b < 64) (hc : c < 64) (hd : d < 64) :
    Bytes.bits (b64Quad a b c d) = bitsOf 6 a ++ (bitsOf 6 b ++ (bitsOf 6 c ++ bitsOf 6 d)) := by
  have e1 : (a * 4 + b / 16).toUInt8.toNat = a * 4 + b / 16 := by simp; omega
  have e2 : (b % 16 * 16 + c / 4).toUInt8.toNat = b % 16 * 16 + c / 4 := by simp; omega
  have e3 : (c % 4 * 64 + d).toUInt8.toNat = c % 4 * 64 + d := by simp; omega
  simp only [Bytes.bits, b64Quad, List.flatMap_cons, List.flatMap_nil, e1, e2, e3]
  simp only [bitsOf, List.range, List.range.loop, List.reverse, List.reverseAux, List.map, List.cons_append, List.nil_append, List.append_nil]
  simp only [List.cons.injEq, and_true]
  refine ⟨?_, ?_, ?_, ?_, ?_, ?_, ?_, ?_, ?_, ?_, ?_, ?_, ?_, ?_, ?_, ?_, ?_, ?_, ?_, ?_, ?_, ?_, ?_, ?_⟩ <;> omega

theorem bits_quad1 {a b : Nat} (ha : a < 64) (hb : b < 64) :
    [a, b].flatMap (bitsOf 6) = Bytes.bits ((b64Quad a b 0 0).take 1) ++ bitsOf 4 b := by
  have e1 : (a * 4 + b / 16).toUInt8.toNat = a * 4 + b / 16 := by simp; omega
  simp only [Bytes.bits, b64Quad, List.take, List.flatMap_cons, List.flatMap_nil, e1]
  simp only [bitsOf, List.range, List.range.loop, List.reverse, List.reverseAux, List.map, List.cons_append, List.nil_append, List.append_nil]
  simp only [List.cons.injEq, and_true]
  refine ⟨?_, ?_, ?_, ?_, ?_, ?_, ?_, ?_⟩ <;> omega

theorem bits_quad2 {a b c : Nat} (ha : a < 64) (hb : b < 64) (hc : c < 64) :
    [a, b, c].flatMap (bitsOf 6) = Bytes.bits ((b64Quad a b c 0).take 2) ++ bitsOf 2 c := by
  have e1 : (a * 4 + b / 16).toUInt8.toNat = a * 4 + b / 16 := by simp; omega
  have e2 : (b % 16 * 16 + c / 4).toUInt8.toNat = b % 16 * 16 + c / 4 := by simp; omega
  simp only [Bytes.bits, b64Quad, List.take, List.flatMap_cons, List.flatMap_nil, e1, e2]
  simp only [bitsOf, List.range, List.range.loop, List.reverse, List.reverseAux, List.map, List.cons_append, List.nil_append, List.append_nil]
  simp only [List.cons.injEq, and_true]
  refine ⟨?_, ?_, ?_, ?_, ?_, ?_, ?_, ?_, ?_, ?_, ?_, ?_, ?_, ?_, ?_, ?_⟩ <;> omega

theorem bitsOf_length (w n : Nat) : (bitsOf w n).length = w := by simp [bitsOf]

theorem bits_length (b : Bytes) : b.bits.length = 8 * b.length := by
  induction b with
  | nil => rfl
  | cons x b ih => simp only [Bytes.bits, List.flatMap_cons, List.length_append, bitsOf_length, List.length_cons] at *; omega

theorem sextets_length (v : List Nat) : (v.flatMap (bitsOf 6)).length = 6 * v.length := by
  induction v with
  | nil => rfl
  | cons x b ih => simp only [List.flatMap_cons, List.length_append, bitsOf_length, List.length_cons] at *; omega

theorem bitsOf_eight {x y : Nat} (hx : x < 256) (hy : y < 256) (h : bitsOf 8 x = bitsOf 8 y) : x = y := by
  simp only [bitsOf, List.range, List.range.loop, List.reverse, List.reverseAux, List.map, List.cons.injEq, and_true] at h
  omega

theorem bits_inj : ∀ {b c : Bytes}, b.bits = c.bits → b = c
  | [], [], _ => rfl
  | [], y :: c, h => by have := congrArg List.length h; rw [bits_length, bits_length] at this; simp at this
  | x :: b, [], h => by have := congrArg List.length h; rw [bits_length, bits_length] at this; simp at this
  | x :: b, y :: c, h => by
    simp only [Bytes.bits, List.flatMap_cons] at h
    obtain ⟨h1, h2⟩ := List.append_inj h (by rw [bitsOf_length, bitsOf_length])
    have : x = y := UInt8.toNat_inj.1 (bitsOf_eight x.toNat_lt y.toNat_lt h1)
    rw [this, bits_inj (b := b) (c := c) h2]

theorem symbol_inj {m n : Nat} (hm : m < 64) (hn : n < 64) (h : base64Symbol m = base64Symbol n) : m = n := by
  have h1 := b64Val_iff.2 ⟨hm, rfl⟩
  have h2 := b64Val_iff.2 ⟨hn, rfl⟩
  rw [h, h2] at h1
  exact (Option.some.inj h1).symm

theorem symbols_inj : ∀ {v w : List Nat} {k l : Nat}, (∀ n ∈ v, n < 64) → (∀ n ∈ w, n < 64) →
    v.map base64Symbol ++ List.replicate k '=' = w.map base64Symbol ++ List.replicate l '=' → v = w ∧ k = l
  | [], [], k, l, _, _, h => ⟨rfl, by have := congrArg List.length h; simpa using this⟩
  | [], y :: w, k, l, _, hw, h => by
    exfalso
    cases k with
    | zero => simp at h
    | succ k =>
      simp only [List.map_nil, List.nil_append, List.replicate_succ, List.map_cons, List.cons_append, List.cons.injEq] at h
      exact symbol_ne_pad y (hw y List.mem_cons_self) h.1.symm
  | x :: v, [], k, l, hv, _, h => by
    exfalso
    cases l with
    | zero => simp at h
    | succ l =>
      simp only [List.map_nil, List.nil_append, List.replicate_succ, List.map_cons, List.cons_append, List.cons.injEq] at h
      exact symbol_ne_pad x (hv x List.mem_cons_self) h.1
  | x :: v, y :: w, k, l, hv, hw, h => by
    simp only [List.map_cons, List.cons_append, List.cons.injEq] at h
    obtain ⟨h1, h2⟩ := symbols_inj (v := v) (w := w) (fun n hn => hv n (List.mem_cons_of_mem _ hn))
      (fun n hn => hw n (List.mem_cons_of_mem _ hn)) h.2
    exact ⟨by rw [h1, symbol_inj (hv x List.mem_cons_self) (hw y List.mem_cons_self) h.1], h2⟩

/-- **C35** No text is base64 for two byte strings. -/
theorem C35_unambiguous {s : List Char} {b c : Bytes} (hb : IsBase64 s b) (hc : IsBase64 s c) : b = c := by
  obtain ⟨v, k, e, h1, h2, h3, h4, -⟩ := hb
  obtain ⟨w, l, f, g1, g2, g3, g4, -⟩ := hc
  obtain ⟨rfl, -⟩ := symbols_inj h1 g1 (h2.symm.trans g2)
  rw [h3] at g3
  have hl := congrArg List.length g3
  simp only [List.length_append, bits_length] at hl
  exact bits_inj (List.append_inj_left g3 (by rw [bits_length, bits_length]; omega))

theorem mapM_val {s : List Char} {v : List Nat} (h : s.mapM b64Val = some v) : (∀ n ∈ v, n < 64) ∧ s = v.map base64Symbol := by
  induction s generalizing v with
  | nil => cases h; simp
  | cons c s ih =>
    rw [List.mapM_cons] at h
    simp only [Option.bind_eq_bind, Option.bind_eq_some_iff, Option.pure_def, Option.some.injEq] at h
    obtain ⟨n, h1, w, h2, rfl⟩ := h
    obtain ⟨g1, g2⟩ := ih h2
    obtain ⟨g3, g4⟩ := b64Val_iff.1 h1
    exact ⟨by simpa using ⟨g3, g1⟩, by rw [g2, g4]; rfl⟩

theorem val_mapM {v : List Nat} (h : ∀ n ∈ v, n < 64) : (v.map base64Symbol).mapM b64Val = some v := by
  induction v with
  | nil => rfl
  | cons n v ih =>
    rw [List.map_cons, List.mapM_cons, b64Val_iff.2 ⟨h n List.mem_cons_self, rfl⟩, ih (fun x hx => h x (List.mem_cons_of_mem _ hx))]
    rfl

theorem all_pads {s : List Char} (h : s.all (· == '=') = true) : s = List.replicate s.length '=' := by
  rw [List.eq_replicate_iff]
  refine ⟨rfl, ?_⟩
  intro c hc
  exact eq_of_beq (List.all_eq_true.1 h c hc)

theorem last_sound {s : List Char} {b : Bytes} (hs : s.length ≤ 4) (h : b64Last s = some b) : IsBase64 s b := by
  unfold b64Last at h
  split at h
  · rename_i h0
    cases h
    exact ⟨[], 0, [], by simp, by simp [h0], rfl, by simp, .inl rfl⟩
  split at h
  swap
  · cases h
  rename_i hp
  have hp := all_pads hp
  have hsplit := (List.takeWhile_append_dropWhile (p := fun c : Char => decide (c ≠ '=')) (l := s)).symm
  generalize s.takeWhile (fun c => decide (c ≠ '=')) = u at h hsplit
  generalize s.dropWhile (fun c => decide (c ≠ '=')) = q at hp hsplit
  rw [hp] at hsplit
  have hl := congrArg List.length hsplit
  simp only [List.length_append, List.length_replicate] at hl
  split at h
  · rename_i x y hm
    obtain ⟨h1, h2⟩ := mapM_val hm
    simp only [List.mem_cons, List.not_mem_nil, or_false, forall_eq_or_imp, forall_eq] at h1
    cases h
    have hu : u.length = 2 := by rw [h2]; rfl
    refine ⟨[x, y], q.length, bitsOf 4 y, by simpa using h1, by rw [← h2]; exact hsplit, bits_quad1 h1.1 h1.2,
      by simp [bitsOf_length], ?_⟩
    by_cases h0 : q.length = 0
    · exact .inl h0
    · exact .inr ⟨by simp, by simp; omega⟩
  · rename_i x y z hm
    obtain ⟨h1, h2⟩ := mapM_val hm
    simp only [List.mem_cons, List.not_mem_nil, or_false, forall_eq_or_imp, forall_eq] at h1
    cases h
    have hu : u.length = 3 := by rw [h2]; rfl
    refine ⟨[x, y, z], q.length, bitsOf 2 z, by simpa using h1, by rw [← h2]; exact hsplit, bits_quad2 h1.1 h1.2.1 h1.2.2,
      by simp [bitsOf_length], ?_⟩
    by_cases h0 : q.length = 0
    · exact .inl h0
    · exact .inr ⟨by simp, by simp; omega⟩
  · rename_i x y z t hm
    obtain ⟨h1, h2⟩ := mapM_val hm
    simp only [List.mem_cons, List.not_mem_nil, or_false, forall_eq_or_imp, forall_eq] at h1
    cases h
    have hu : u.length = 4 := by rw [h2]; rfl
    refine ⟨[x, y, z, t], q.length, [], by simpa using h1, by rw [← h2]; exact hsplit, ?_, by simp, .inl (by omega)⟩
    rw [bits_quad h1.1 h1.2.1 h1.2.2.1 h1.2.2.2]
    simp only [List.flatMap_cons, List.flatMap_nil, List.append_nil]
  · cases h

theorem decode_sound : ∀ (s : List Char) {b : Bytes}, b64Decode s = some b → IsBase64 s b
  | c1 :: c2 :: c3 :: c4 :: c5 :: rest, b, h => by
    rw [b64Decode] at h
    simp only [Option.bind_eq_bind, Option.bind_eq_some_iff, Option.pure_def, Option.some.injEq] at h
    obtain ⟨x, hx, y, hy, z, hz, t, ht, r, hr, rfl⟩ := h
    obtain ⟨v, k, e, h1, h2, h3, h4, h5⟩ := decode_sound (c5 :: rest) hr
    obtain ⟨x1, rfl⟩ := b64Val_iff.1 hx
    obtain ⟨y1, rfl⟩ := b64Val_iff.1 hy
    obtain ⟨z1, rfl⟩ := b64Val_iff.1 hz
    obtain ⟨t1, rfl⟩ := b64Val_iff.1 ht
    refine ⟨x :: y :: z :: t :: v, k, e, ?_, ?_, ?_, h4, ?_⟩
    · simp only [List.mem_cons, forall_eq_or_imp]
      exact ⟨x1, y1, z1, t1, h1⟩
    · rw [h2]; rfl
    · have := bits_quad x1 y1 z1 t1
      simp only [Bytes.bits, List.flatMap_append, List.flatMap_cons] at this h3 ⊢
      rw [this, h3]
      simp only [List.append_assoc]
    · simp only [List.length_cons] at h5 ⊢; omega
  | [], b, h => last_sound (by simp) (by rwa [b64Decode] at h; simp)
  | [_], b, h => last_sound (by simp) (by rwa [b64Decode] at h; simp)
  | [_, _], b, h => last_sound (by simp) (by rwa [b64Decode] at h; simp)
  | [_, _, _], b, h => last_sound (by simp) (by rwa [b64Decode] at h; simp)
  | [_, _, _, _], b, h => last_sound (by simp) (by rwa [b64Decode] at h; simp)

theorem last_total {v : List Nat} {k : Nat} (hv : ∀ n ∈ v, n < 64) (h1 : v.length ≤ 4) (h2 : v.length ≠ 1) (h3 : v = [] → k = 0) :
    ∃ b, b64Last (v.map base64Symbol ++ List.replicate k '=') = some b := by
  have ht : (v.map base64Symbol ++ List.replicate k '=').takeWhile (fun c => decide (c ≠ '=')) = v.map base64Symbol := by
    rw [List.takeWhile_append_of_pos]
    · cases k <;> simp [List.replicate_succ]
    · intro c hc
      obtain ⟨n, hn, rfl⟩ := List.mem_map.1 hc
      simpa using symbol_ne_pad n (hv n hn)
  have hd : (v.map base64Symbol ++ List.replicate k '=').dropWhile (fun c => decide (c ≠ '=')) = List.replicate k '=' := by
    rw [List.dropWhile_append_of_pos]
    · cases k <;> simp [List.replicate_succ]
    · intro c hc
      obtain ⟨n, hn, rfl⟩ := List.mem_map.1 hc
      simpa using symbol_ne_pad n (hv n hn)
  unfold b64Last
  rw [ht, hd, val_mapM hv]
  split
  · exact ⟨_, rfl⟩
  rename_i hne
  rw [if_pos (by simp)]
  match v, h1, h2, h3, hne with
  | [], _, _, h3, hne => exact absurd (by rw [h3 rfl]; rfl) hne
  | [_, _], _, _, _, _ => exact ⟨_, rfl⟩
  | [_, _, _], _, _, _, _ => exact ⟨_, rfl⟩
  | [_, _, _, _], _, _, _, _ => exact ⟨_, rfl⟩

theorem decode_total : ∀ {v : List Nat} {k : Nat}, (∀ n ∈ v, n < 64) → v.length % 4 ≠ 1 →
    (k = 0 ∨ v.length % 4 ≠ 0 ∧ v.length % 4 + k ≤ 4) → ∃ b, b64Decode (v.map base64Symbol ++ List.replicate k '=') = some b
  | x :: y :: z :: t :: w :: v, k, hv, h1, h2 => by
    simp only [List.mem_cons, forall_eq_or_imp] at hv
    obtain ⟨x1, y1, z1, t1, w1, hv⟩ := hv
    obtain ⟨b, hb⟩ := decode_total (v := w :: v) (k := k) (by simpa using ⟨w1, hv⟩) (by simp only [List.length_cons] at h1 ⊢; omega)
      (by simp only [List.length_cons] at h2 ⊢; omega)
    refine ⟨b64Quad x y z t ++ b, ?_⟩
    simp only [List.map_cons, List.cons_append] at hb ⊢
    rw [b64Decode, b64Val_iff.2 ⟨x1, rfl⟩, b64Val_iff.2 ⟨y1, rfl⟩, b64Val_iff.2 ⟨z1, rfl⟩, b64Val_iff.2 ⟨t1, rfl⟩]
    simp [hb]
  | [], k, hv, h1, h2 => by
    obtain ⟨b, hb⟩ := last_total (k := k) hv (by simp) (by simp) (by intro _; rcases h2 with h | ⟨h, -⟩ <;> simp_all)
    rcases h2 with rfl | ⟨h, -⟩
    · exact ⟨[], rfl⟩
    · simp at h
  | [x], k, hv, h1, h2 => absurd rfl h1
  | [x, y], k, hv, h1, h2 => by
    obtain ⟨b, hb⟩ := last_total (k := k) hv (by simp) (by simp) (by simp)
    refine ⟨b, ?_⟩
    have : k ≤ 2 := by rcases h2 with rfl | ⟨-, h⟩ <;> simp at * <;> omega
    match k, this with
    | 0, _ => exact hb
    | 1, _ => exact hb
    | 2, _ => exact hb
  | [x, y, z], k, hv, h1, h2 => by
    obtain ⟨b, hb⟩ := last_total (k := k) hv (by simp) (by simp) (by simp)
    refine ⟨b, ?_⟩
    have : k ≤ 1 := by rcases h2 with rfl | ⟨-, h⟩ <;> simp at * <;> omega
    match k, this with
    | 0, _ => exact hb
    | 1, _ => exact hb
  | [x, y, z, t], k, hv, h1, h2 => by
    obtain ⟨b, hb⟩ := last_total (k := k) hv (by simp) (by simp) (by simp)
    refine ⟨b, ?_⟩
    have : k = 0 := by rcases h2 with rfl | ⟨h, -⟩ <;> simp at *
    subst this
    exact hb

/-- **C35** The decoder accepts a text, as this byte string, exactly if it is base64 for it: with the standard alphabet, with or without
padding, and whatever the unused last bits are. -/
theorem C35_decodes (s : List Char) (b : Bytes) : b64Decode s = some b ↔ IsBase64 s b := by
  refine ⟨decode_sound s, ?_⟩
  rintro ⟨v, k, e, h1, rfl, h3, h4, h5⟩
  have hl := congrArg List.length h3
  rw [sextets_length, List.length_append, bits_length] at hl
  obtain ⟨c, hc⟩ := decode_total (k := k) h1 (by omega) h5
  rw [hc, C35_unambiguous (decode_sound _ hc) ⟨v, k, e, h1, rfl, h3, h4, h5⟩]

/-- **C35** What is written is base64 for the bytes; with padding it is as long as a multiple of four, without it has no `=`; and the
unused bits of the last symbol are zero. -/
theorem C35_encodes (pad : Bool) (b : Bytes) : ∃ (v : List Nat) (z : Nat), (∀ n ∈ v, n < 64) ∧ z < 6 ∧
    v.flatMap (bitsOf 6) = b.bits ++ List.replicate z 0 ∧
    b64Encode pad b = v.map base64Symbol ++ List.replicate (if pad then (4 - v.length % 4) % 4 else 0) '=' :=
  match b with
  | [] => ⟨[], 0, by simp, by simp, rfl, by cases pad <;> rfl⟩
  | [x] => by
    have hx := x.toNat_lt
    refine ⟨[x.toNat / 4, x.toNat % 4 * 16], 4, ?_, by omega, ?_, ?_⟩
    · simp only [List.mem_cons, List.not_mem_nil, or_false, forall_eq_or_imp, forall_eq]; omega
    · simp only [Bytes.bits, List.flatMap_cons, List.flatMap_nil, bitsOf, List.range, List.range.loop, List.reverse, List.reverseAux,
        List.map, List.cons_append, List.nil_append, List.append_nil, List.replicate, List.cons.injEq, and_true]
      refine ⟨?_, ?_, ?_, ?_, ?_, ?_, ?_, ?_, ?_, ?_, ?_, ?_⟩ <;> omega
    · rw [b64Encode, b64Char_symbol _ (by omega), b64Char_symbol _ (by omega)]
      cases pad <;> rfl
  | [x, y] => by
    have hx := x.toNat_lt
    have hy := y.toNat_lt
    refine ⟨[x.toNat / 4, x.toNat % 4 * 16 + y.toNat / 16, y.toNat % 16 * 4], 2, ?_, by omega, ?_, ?_⟩
    · simp only [List.mem_cons, List.not_mem_nil, or_false, forall_eq_or_imp, forall_eq]; omega
    · simp only [Bytes.bits, List.flatMap_cons, List.flatMap_nil, bitsOf, List.range, List.range.loop, List.reverse, List.reverseAux,
        List.map, List.cons_append, List.nil_append, List.append_nil, List.replicate, List.cons.injEq, and_true]
      refine ⟨?_, ?_, ?_, ?_, ?_, ?_, ?_, ?_, ?_, ?_, ?_, ?_, ?_, ?_, ?_, ?_, ?_, ?_⟩ <;> omega
    · rw [b64Encode, b64Char_symbol _ (by omega), b64Char_symbol _ (by omega), b64Char_symbol _ (by omega)]
      cases pad <;> rfl
  | x :: y :: t :: rest => by
    have hx := x.toNat_lt
    have hy := y.toNat_lt
    have ht := t.toNat_lt
    obtain ⟨v, z, h1, h2, h3, h4⟩ := C35_encodes pad rest
    refine ⟨x.toNat / 4 :: (x.toNat % 4 * 16 + y.toNat / 16) :: (y.toNat % 16 * 4 + t.toNat / 64) :: (t.toNat % 64) :: v, z, ?_, h2, ?_, ?_⟩
    · simp only [List.mem_cons, forall_eq_or_imp]
      exact ⟨by omega, by omega, by omega, by omega, h1⟩
    · have h3 : _ = rest.flatMap (fun x => bitsOf 8 x.toNat) ++ _ := h3
      simp only [Bytes.bits, List.flatMap_cons, h3]
      simp only [bitsOf, List.range, List.range.loop, List.reverse, List.reverseAux,
        List.map, List.cons_append, List.nil_append, List.append_nil, List.replicate, List.cons.injEq, and_true]
      refine ⟨?_, ?_, ?_, ?_, ?_, ?_, ?_, ?_, ?_, ?_, ?_, ?_, ?_, ?_, ?_, ?_, ?_, ?_, ?_, ?_, ?_, ?_, ?_, ?_⟩ <;> omega
    · rw [b64Encode, b64Char_symbol _ (by omega), b64Char_symbol _ (by omega), b64Char_symbol _ (by omega), b64Char_symbol _ (by omega), h4]
      simp only [List.map_cons, List.cons_append, List.length_cons]
      have : (v.length + 1 + 1 + 1 + 1) % 4 = v.length % 4 := by omega
      rw [this]

/-! ### Concrete cases -/
example : IsBase64 "Zm9vYh=".toList (str "foob") := (C35_decodes _ _).1 (by decide)
example : ¬ IsBase64 "Zm9v=".toList (str "foo") := fun h => absurd ((C35_decodes _ _).2 h) (by decide)

end Verif.Props
