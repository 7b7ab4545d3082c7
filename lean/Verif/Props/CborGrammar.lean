import Verif.Spec.CborGrammar
import Verif.Props.Cbor

/-!
# What the CBOR readers accept (C65)
-/
set_option linter.unusedSimpArgs false

namespace Verif.Props
open Verif HashTree

/-! ## Heads -/

theorem extract_head {e : UInt8} {i r : Bytes} {n : CborUInt} (h : extractValue e i = some (n, r)) :
    ∃ arg, i = arg ++ r ∧ IsHead (cborType e) (e :: arg) n.width n.val := by
  have hsz : ∀ k, k ≤ 3 → cborInfo e = 24 + k →
      (takeB (2 ^ k) i).map (fun p => ((⟨8 * 2 ^ k, beNat p.1⟩ : CborUInt), p.2)) = some (n, r) →
      ∃ arg, i = arg ++ r ∧ IsHead (cborType e) (e :: arg) n.width n.val := by
    intro k hk he hw
    rw [Option.map_eq_some_iff] at hw
    obtain ⟨⟨a, b⟩, h1, h2⟩ := hw
    simp at h2
    obtain ⟨rfl, rfl⟩ := h2
    obtain ⟨h3, h4⟩ := takeB_some h1
    rw [beNat_eq]
    refine ⟨a, h3, .long ?_ hk h4⟩
    unfold cborType; unfold cborInfo at he; omega
  unfold extractValue at h
  simp only at h
  split at h
  · rename_i h0
    simp at h
    obtain ⟨rfl, rfl⟩ := h
    refine ⟨[], rfl, .short ?_ h0⟩
    show e.toNat = 32 * cborType e + cborInfo e
    unfold cborType cborInfo; omega
  · split at h
    · exact hsz 0 (by omega) (by omega) h
    · split at h
      · exact hsz 1 (by omega) (by omega) h
      · split at h
        · exact hsz 2 (by omega) (by omega) h
        · split at h
          · exact hsz 3 (by omega) (by omega) h
          · simp at h

theorem head_extract {major w n : Nat} {h : Bytes} (hh : IsHead major h w n) :
    ∃ e arg, h = e :: arg ∧ cborType e = major ∧ ∀ rest, extractValue e (arg ++ rest) = some (⟨w, n⟩, rest) := by
  cases hh with
  | @short e _ he hn =>
    refine ⟨e, [], rfl, by unfold cborType; omega, ?_⟩
    intro rest
    have h1 : cborInfo e = n := by unfold cborInfo; omega
    simp [extractValue, h1, hn]
  | @long e arg k he hk hl =>
    refine ⟨e, arg, rfl, by unfold cborType; omega, ?_⟩
    intro rest
    have h1 : cborInfo e = 24 + k := by unfold cborInfo; omega
    have ht := takeB_append (rest := rest) hl
    have : k = 0 ∨ k = 1 ∨ k = 2 ∨ k = 3 := by omega
    rcases this with rfl | rfl | rfl | rfl <;> simp at h1 hl ht <;> simp [extractValue, h1, ht, beNat_eq]

theorem _root_.Verif.IsHead.length_pos {major w n : Nat} {h : Bytes} (hh : IsHead major h w n) : 0 < h.length := by
  cases hh <;> simp

theorem signed_describes {m : Machine} {h : Bytes} {n : CborUInt} (hh : IsHead 1 h n.width n.val) : Describes m false h n.toNegative := by
  unfold CborUInt.toNegative CborUInt.asSigned
  split
  · rename_i hlt
    exact .negative hh hlt
  · rename_i hlt
    have := Describes.wrapped (m := m) (strict := false) hh (by omega)
    have e : (2 : Int) ^ n.width - 1 - n.val = -1 - ((n.val : Int) - 2 ^ n.width) := by omega
    rw [e] at this
    exact this

theorem unsigned_describes {m : Machine} {h : Bytes} {n : CborUInt} (hh : IsHead 0 h n.width n.val) :
    Describes m false h (unsignedValue n) := by
  obtain ⟨w, v⟩ := n
  simp only at hh
  unfold unsignedValue
  split
  · rename_i hw
    simp only at hw
    subst hw
    match v, hh with
    | 0, hh => exact .tag (t := .empty) hh
    | 1, hh => exact .tag (t := .fork) hh
    | 2, hh => exact .tag (t := .labelled) hh
    | 3, hh => exact .tag (t := .leaf) hh
    | 4, hh => exact .tag (t := .pruned) hh
    | v + 5, hh => exact .unsigned hh (by omega)
  · rename_i hw
    exact .unsigned hh (fun e => absurd e hw)

/-! ## The reader reads what is described -/

theorem count_describes {m : Machine} {p : Bytes → CRes CborValue}
    (hp : ∀ i r v, p i = .ok r v → ∃ c, i = c ++ r ∧ Describes m false c v) : ∀ (n : Nat) (i r : Bytes) (vs : List CborValue),
    cborCount p n i = .ok r vs → ∃ c, i = c ++ r ∧ vs.length = n ∧ DescribesAll m false c vs
  | 0, i, r, vs, h => by
    simp [cborCount] at h
    obtain ⟨rfl, rfl⟩ := h
    exact ⟨[], rfl, rfl, .nil⟩
  | n + 1, i, r, vs, h => by
    unfold cborCount at h
    cases hv : p i with
    | err => simp [hv] at h
    | crash => simp [hv] at h
    | ok i1 v =>
      simp only [hv] at h
      cases hc : cborCount p n i1 with
      | err => simp [hc] at h
      | crash => simp [hc] at h
      | ok r' vs' =>
        simp [hc] at h
        obtain ⟨rfl, rfl⟩ := h
        obtain ⟨c1, rfl, d1⟩ := hp _ _ _ hv
        obtain ⟨c2, rfl, l2, d2⟩ := count_describes hp n _ _ _ hc
        exact ⟨c1 ++ c2, by simp, by simp [l2], .cons d1 d2⟩

theorem pairs_describe {m : Machine} {p : Bytes → CRes CborValue}
    (hp : ∀ i r v, p i = .ok r v → ∃ c, i = c ++ r ∧ Describes m false c v) : ∀ (n : Nat) (i r : Bytes)
    (kvs : List (Bytes × CborValue)),
    cborPairs p n i = .ok r kvs → ∃ c, i = c ++ r ∧ kvs.length ≤ n ∧ DescribesPairs m false c kvs
  | 0, i, r, vs, h => by
    simp [cborPairs] at h
    obtain ⟨rfl, rfl⟩ := h
    exact ⟨[], rfl, by simp, .nil⟩
  | n + 1, i, r, kvs, h => by
    unfold cborPairs at h
    cases hv : cborPair p i with
    | crash => simp [hv] at h
    | err =>
      simp [hv] at h
      obtain ⟨rfl, rfl⟩ := h
      exact ⟨[], rfl, by simp, .nil⟩
    | ok i1 kv =>
      simp only [hv] at h
      cases hc : cborPairs p n i1 with
      | err => simp [hc] at h
      | crash => simp [hc] at h
      | ok r' kvs' =>
        simp [hc] at h
        obtain ⟨rfl, rfl⟩ := h
        obtain ⟨c2, rfl, l2, d2⟩ := pairs_describe hp n _ _ _ hc
        unfold cborPair at hv
        split at hv
        · simp at hv
        · simp at hv
        · rename_i i1' k hk
          split at hv
          · rename_i hu
            split at hv
            · simp at hv
            · simp at hv
            · rename_i i2 v hv2
              simp at hv
              obtain ⟨rfl, rfl⟩ := hv
              obtain ⟨a, rfl, da⟩ := hp _ _ _ hk
              obtain ⟨b, rfl, db⟩ := hp _ _ _ hv2
              exact ⟨a ++ b ++ c2, by simp, by simp [l2], .cons da hu db d2⟩
          · simp at hv
        · simp at hv

theorem parser_describes (m : Machine) : ∀ (s : Nat) (i r : Bytes) (v : CborValue), cborParser m s i = .ok r v →
    ∃ c, i = c ++ r ∧ Describes m false c v
  | 0, _, _, _, h => by simp [cborParser] at h
  | s + 1, [], _, _, h => by simp [cborParser] at h
  | s + 1, e :: i, r, v, h => by
    have ih := parser_describes m s
    unfold cborParser at h
    cases hx : extractValue e i with
    | none => simp [hx] at h
    | some nr =>
      obtain ⟨n, i1⟩ := nr
      simp only [hx] at h
      obtain ⟨arg, rfl, hh⟩ := extract_head hx
      split at h <;> rename_i ht
      · simp at h
        obtain ⟨rfl, rfl⟩ := h
        rw [ht] at hh
        exact ⟨e :: arg, rfl, unsigned_describes hh⟩
      · simp at h
        obtain ⟨rfl, rfl⟩ := h
        rw [ht] at hh
        exact ⟨e :: arg, rfl, signed_describes hh⟩
      · split at h
        · rename_i d r' htk
          simp at h
          obtain ⟨rfl, rfl⟩ := h
          obtain ⟨rfl, hl⟩ := takeB_some htk
          rw [ht] at hh
          exact ⟨(e :: arg) ++ d, by simp, .bytes hh hl⟩
        · simp at h
      · split at h
        · rename_i d r' htk
          simp at h
          obtain ⟨rfl, rfl⟩ := h
          obtain ⟨rfl, hl⟩ := takeB_some htk
          rw [ht] at hh
          exact ⟨(e :: arg) ++ d, by simp, .text hh hl⟩
        · simp at h
      · split at h
        · rename_i r' vs hc
          simp at h
          obtain ⟨rfl, rfl⟩ := h
          obtain ⟨c, rfl, hl, hd⟩ := count_describes ih _ _ _ _ hc
          rw [ht] at hh
          exact ⟨(e :: arg) ++ c, by simp, .array hh hl hd⟩
        · simp at h
        · simp at h
      · split at h
        · simp at h
        · split at h
          · rename_i r' kvs hc
            simp at h
            obtain ⟨rfl, rfl⟩ := h
            obtain ⟨c, rfl, hl, hd⟩ := pairs_describe ih _ _ _ _ hc
            rw [ht] at hh
            exact ⟨(e :: arg) ++ c, by simp, .map hh hl (fun h => by cases h) hd⟩
          · simp at h
          · simp at h
      · obtain ⟨c, rfl, hd⟩ := ih _ _ _ h
        have hlt : cborType e < 8 := by unfold cborType; have := e.toNat_lt; omega
        refine ⟨(e :: arg) ++ c, by simp, ?_⟩
        by_cases h6 : cborType e = 6
        · rw [h6] at hh; exact .tagged hh hd
        · have h7 : cborType e = 7 := by
            generalize cborType e = k at *
            rcases k with _ | _ | _ | _ | _ | _ | _ | _ | k <;> first | rfl | (simp_all; done) | omega
          rw [h7] at hh; exact .simple hh hd

/-- **C65.** Whatever bytes the reader accepts are one CBOR item, whole, with the value returned. -/
theorem C65_describes {m : Machine} {i : Bytes} {v : CborValue} (h : parseCbor m i = some (.ok v)) : Describes m false i v := by
  unfold parseCbor at h
  split at h
  · rename_i v' hp
    simp at h
    subst h
    obtain ⟨c, hc, hd⟩ := parser_describes m _ _ _ _ hp
    simp at hc
    subst hc
    exact hd
  · simp at h
  · simp at h
  · simp at h

/-! ## What is described is read -/

theorem head_type {major w n : Nat} {h : Bytes} (hh : IsHead major h w n) (rest : Bytes) :
    ∃ e arg, h = e :: arg ∧ cborType e = major ∧ extractValue e (arg ++ rest) = some (⟨w, n⟩, rest) := by
  obtain ⟨e, arg, h1, h2, h3⟩ := head_extract hh
  exact ⟨e, arg, h1, h2, h3 rest⟩

theorem _root_.Verif.Describes.ne_nil {m : Machine} {st : Bool} {i : Bytes} {v : CborValue} (h : Describes m st i v) : 0 < i.length := by
  cases h with
  | tag hh => exact hh.length_pos
  | unsigned hh => exact hh.length_pos
  | negative hh => exact hh.length_pos
  | wrapped hh => exact hh.length_pos
  | bytes hh => have := hh.length_pos; simp; omega
  | text hh => have := hh.length_pos; simp; omega
  | array hh => have := hh.length_pos; simp; omega
  | map hh => have := hh.length_pos; simp; omega
  | tagged hh => have := hh.length_pos; simp; omega
  | simple hh => have := hh.length_pos; simp; omega

theorem describesPairs_length {m : Machine} {st : Bool} : ∀ {i : Bytes} {kvs : List (Bytes × CborValue)},
    DescribesPairs m st i kvs → kvs.length ≤ i.length
  | _, _, .nil => by simp
  | _, _, .cons hk _ _ hds => by
    have := describesPairs_length hds
    have := hk.ne_nil
    simp; omega

mutual
theorem describes_parse {m : Machine} : ∀ {i : Bytes} {v : CborValue}, Describes m true i v →
    ∀ (s : Nat) (rest : Bytes), i.length ≤ s → i.length ≤ m.mapCap → cborParser m s (i ++ rest) = .ok rest v
  | _, _, .tag (h := h) (t := t) hh, s, rest, hs, hc0 => by
    obtain ⟨e, arg, rfl, h2, h3⟩ := head_type hh rest
    obtain ⟨s, rfl⟩ : ∃ k, s = k + 1 := ⟨s - 1, by simp at hs; omega⟩
    rw [List.cons_append]; unfold cborParser
    rw [h3]; simp only [h2]
    cases t <;> rfl
  | _, _, .unsigned (h := h) (w := w) (n := n) hh hw, s, rest, hs, hc0 => by
    obtain ⟨e, arg, rfl, h2, h3⟩ := head_type hh rest
    obtain ⟨s, rfl⟩ : ∃ k, s = k + 1 := ⟨s - 1, by simp at hs; omega⟩
    rw [List.cons_append]; unfold cborParser
    rw [h3]; simp only [h2]
    unfold unsignedValue
    by_cases h8 : w = 8
    · have := hw h8
      subst h8
      obtain ⟨k, rfl⟩ : ∃ k, n = k + 5 := ⟨n - 5, by omega⟩
      rfl
    · simp [h8]
  | _, _, .negative (h := h) (w := w) (n := n) hh hw, s, rest, hs, hc0 => by
    obtain ⟨e, arg, rfl, h2, h3⟩ := head_type hh rest
    obtain ⟨s, rfl⟩ : ∃ k, s = k + 1 := ⟨s - 1, by simp at hs; omega⟩
    rw [List.cons_append]; unfold cborParser
    rw [h3]; simp only [h2]
    simp [CborUInt.toNegative, CborUInt.asSigned, hw]
  | _, _, .wrapped (h := h) (w := w) (n := n) hh hw, s, rest, hs, hc0 => by
    obtain ⟨e, arg, rfl, h2, h3⟩ := head_type hh rest
    obtain ⟨s, rfl⟩ : ∃ k, s = k + 1 := ⟨s - 1, by simp at hs; omega⟩
    rw [List.cons_append]; unfold cborParser
    rw [h3]; simp only [h2]
    have : ¬ n < 2 ^ (w - 1) := by omega
    simp only [CborUInt.toNegative, CborUInt.asSigned, this, if_false]
    congr 2
    omega
  | _, _, .bytes (h := h) (n := n) (b := b) hh hl, s, rest, hs, hc0 => by
    obtain ⟨e, arg, rfl, h2, h3⟩ := head_type hh (b ++ rest)
    obtain ⟨s, rfl⟩ : ∃ k, s = k + 1 := ⟨s - 1, by simp at hs; omega⟩
    rw [List.append_assoc, List.cons_append]; unfold cborParser
    rw [h3]; simp only [h2, CborUInt.toUsize, takeB_append hl]
  | _, _, .text (h := h) (n := n) (b := b) hh hl, s, rest, hs, hc0 => by
    obtain ⟨e, arg, rfl, h2, h3⟩ := head_type hh (b ++ rest)
    obtain ⟨s, rfl⟩ : ∃ k, s = k + 1 := ⟨s - 1, by simp at hs; omega⟩
    rw [List.append_assoc, List.cons_append]; unfold cborParser
    rw [h3]; simp only [h2, CborUInt.toUsize, takeB_append hl]
  | _, _, .array (h := h) (n := n) (b := b) (vs := vs) hh hl hd, s, rest, hs, hc0 => by
    obtain ⟨e, arg, rfl, h2, h3⟩ := head_type hh (b ++ rest)
    obtain ⟨s, rfl⟩ : ∃ k, s = k + 1 := ⟨s - 1, by simp at hs; omega⟩
    rw [List.append_assoc, List.cons_append]; unfold cborParser
    have hc := describesAll_count hd s rest (by simp at hs; omega) (by simp at hc0; omega)
    rw [hl] at hc
    rw [h3]; simp only [h2, CborUInt.toUsize, hc]
  | _, _, .map (h := h) (n := n) (b := b) (kvs := kvs) hh hl hl' hd, s, rest, hs, hc0 => by
    obtain ⟨e, arg, rfl, h2, h3⟩ := head_type hh (b ++ rest)
    obtain ⟨s, rfl⟩ : ∃ k, s = k + 1 := ⟨s - 1, by simp at hs; omega⟩
    rw [List.append_assoc, List.cons_append]; unfold cborParser
    have hk := describesPairs_length hd
    have hc := describesPairs_count hd s rest (by simp at hs; omega) (by simp at hc0; omega)
    rw [hl' rfl] at hc hk
    have hcap : ¬ m.mapCap < n % m.usize := by simp at hc0; omega
    rw [h3]; simp only [h2, CborUInt.toUsize, hc, if_neg hcap]
  | _, _, .tagged (h := h) (b := b) hh hd, s, rest, hs, hc0 => by
    obtain ⟨e, arg, rfl, h2, h3⟩ := head_type hh (b ++ rest)
    obtain ⟨s, rfl⟩ : ∃ k, s = k + 1 := ⟨s - 1, by simp at hs; omega⟩
    rw [List.append_assoc, List.cons_append]; unfold cborParser
    have hc := describes_parse hd s rest (by simp at hs; omega) (by simp at hc0; omega)
    rw [h3]; simp only [h2, hc]
  | _, _, .simple (h := h) (b := b) hh hd, s, rest, hs, hc0 => by
    obtain ⟨e, arg, rfl, h2, h3⟩ := head_type hh (b ++ rest)
    obtain ⟨s, rfl⟩ : ∃ k, s = k + 1 := ⟨s - 1, by simp at hs; omega⟩
    rw [List.append_assoc, List.cons_append]; unfold cborParser
    have hc := describes_parse hd s rest (by simp at hs; omega) (by simp at hc0; omega)
    rw [h3]; simp only [h2, hc]
theorem describesAll_count {m : Machine} : ∀ {i : Bytes} {vs : List CborValue}, DescribesAll m true i vs →
    ∀ (s : Nat) (rest : Bytes), i.length ≤ s → i.length ≤ m.mapCap → cborCount (cborParser m s) vs.length (i ++ rest) = .ok rest vs
  | _, _, .nil, s, rest, _, _ => rfl
  | _, _, .cons (a := a) (b := b) (v := v) (vs := vs) hd hds, s, rest, hs, hc0 => by
    have h1 := describes_parse hd s (b ++ rest) (by simp at hs; omega) (by simp at hc0; omega)
    have h2 := describesAll_count hds s rest (by simp at hs; omega) (by simp at hc0; omega)
    rw [List.append_assoc, List.length_cons]; unfold cborCount
    rw [h1]; simp only [h2]
theorem describesPairs_count {m : Machine} : ∀ {i : Bytes} {kvs : List (Bytes × CborValue)}, DescribesPairs m true i kvs →
    ∀ (s : Nat) (rest : Bytes), i.length ≤ s → i.length ≤ m.mapCap →
    cborPairs (cborParser m s) kvs.length (i ++ rest) = .ok rest kvs
  | _, _, .nil, s, rest, _, _ => rfl
  | _, _, .cons (a := a) (b := b) (c := c) hk hu hv hds, s, rest, hs, hc0 => by
    have h1 := describes_parse hk s (b ++ (c ++ rest)) (by simp at hs; omega) (by simp at hc0; omega)
    have h2 := describes_parse hv s (c ++ rest) (by simp at hs; omega) (by simp at hc0; omega)
    have h3 := describesPairs_count hds s rest (by simp at hs; omega) (by simp at hc0; omega)
    rw [List.append_assoc, List.append_assoc, List.length_cons]; unfold cborPairs cborPair
    rw [h1]; simp only [hu, if_true, h2, h3]
end

/-- **C65.** Every CBOR item is read, in whatever form it is written, if the stack holds as many calls, and maps can hold as many pairs,
as it has bytes. -/
theorem C65_reads {m : Machine} {i : Bytes} {v : CborValue} (h : Describes m true i v) (hs : i.length ≤ m.stack)
    (hc : i.length ≤ m.mapCap) :
    parseCbor m i = some (.ok v) := by
  have := describes_parse h m.stack [] hs hc
  rw [List.append_nil] at this
  unfold parseCbor; rw [this]

mutual
theorem describes_strict {m : Machine} : ∀ {i : Bytes} {v : CborValue}, Describes m false i v → v.NoMap → Describes m true i v
  | _, _, .tag hh, _ => .tag hh
  | _, _, .unsigned hh hw, _ => .unsigned hh hw
  | _, _, .negative hh hw, _ => .negative hh hw
  | _, _, .wrapped hh hw, _ => .wrapped hh hw
  | _, _, .bytes hh hl, _ => .bytes hh hl
  | _, _, .text hh hl, _ => .text hh hl
  | _, _, .array hh hl hd, hm => .array hh hl (describesAll_strict hd (by cases hm with | array hm => exact hm))
  | _, _, .map _ _ _ _, hm => by cases hm
  | _, _, .tagged hh hd, hm => .tagged hh (describes_strict hd hm)
  | _, _, .simple hh hd, hm => .simple hh (describes_strict hd hm)
theorem describesAll_strict {m : Machine} : ∀ {i : Bytes} {vs : List CborValue}, DescribesAll m false i vs → (∀ v ∈ vs, v.NoMap) →
    DescribesAll m true i vs
  | _, _, .nil, _ => .nil
  | _, _, .cons hd hds, hm => .cons (describes_strict hd (hm _ (by simp))) (describesAll_strict hds (fun w hw => hm w (by simp [hw])))
end

mutual
theorem describes_machine {m m' : Machine} (hu : m.usize = m'.usize) {b : Bool} : ∀ {i : Bytes} {v : CborValue}, Describes m b i v →
    Describes m' b i v
  | _, _, .tag hh => .tag hh
  | _, _, .unsigned hh hw => .unsigned hh hw
  | _, _, .negative hh hw => .negative hh hw
  | _, _, .wrapped hh hw => .wrapped hh hw
  | _, _, .bytes hh hl => .bytes hh (hu ▸ hl)
  | _, _, .text hh hl => .text hh (hu ▸ hl)
  | _, _, .array hh hl hd => .array hh (hu ▸ hl) (describesAll_machine hu hd)
  | _, _, .map hh hl hx hd => .map hh (hu ▸ hl) (hu ▸ hx) (describesPairs_machine hu hd)
  | _, _, .tagged hh hd => .tagged hh (describes_machine hu hd)
  | _, _, .simple hh hd => .simple hh (describes_machine hu hd)
theorem describesAll_machine {m m' : Machine} (hu : m.usize = m'.usize) {b : Bool} : ∀ {i : Bytes} {vs : List CborValue},
    DescribesAll m b i vs → DescribesAll m' b i vs
  | _, _, .nil => .nil
  | _, _, .cons hd hds => .cons (describes_machine hu hd) (describesAll_machine hu hds)
theorem describesPairs_machine {m m' : Machine} (hu : m.usize = m'.usize) {b : Bool} : ∀ {i : Bytes} {vs : List (Bytes × CborValue)},
    DescribesPairs m b i vs → DescribesPairs m' b i vs
  | _, _, .nil => .nil
  | _, _, .cons hk hc hv hd => .cons (describes_machine hu hk) hc (describes_machine hu hv) (describesPairs_machine hu hd)
end

/-- **C65.** The grammar is unambiguous and no document continues another one: if a document is a prefix of another, they are the
same, and so are their values. -/
theorem C65_unambiguous {m : Machine} {i j : Bytes} {v w : CborValue} (h : Describes m true i v) (h' : Describes m true j w)
    (hp : i <+: j) : i = j ∧ v = w := by
  obtain ⟨x, rfl⟩ := hp
  let m' : Machine := ⟨m.usize, (i ++ x).length, 0, m.celStack, m.celStack_ok⟩
  have e1 := describes_parse (describes_machine (m := m) (m' := m') rfl h) (i ++ x).length x (by simp) (by simp [m'])
  have e2 := describes_parse (describes_machine (m := m) (m' := m') rfl h') (i ++ x).length [] (by simp) (by simp [m'])
  rw [List.append_nil, e1] at e2
  injection e2 with a b
  subst a b
  exact ⟨(List.append_nil i).symm, rfl⟩

/-! ## Hash trees -/

theorem treeOf_complete {v : CborValue} {t : HashTree} (h : TreeOf v t) : cborToTree v = .ok t := by
  induction h with
  | empty => simp [cborToTree]
  | fork _ _ ih1 ih2 => simp [cborToTree, ih1, ih2]
  | labeled _ ih => simp [cborToTree, ih]
  | leaf => simp [cborToTree]
  | @pruned h x => obtain ⟨b, hb⟩ := h; simp [cborToTree, hb]

theorem treeOf_sound : ∀ (v : CborValue) (t : HashTree), cborToTree v = .ok t → TreeOf v t := by
  intro v
  induction v using cborToTree.induct with
  | case1 x => intro t h; simp [cborToTree] at h; subst h; exact .empty
  | case2 d x => intro t h; simp [cborToTree] at h; subst h; exact .leaf
  | case3 d x hd => intro t h; simp [cborToTree, hd] at h; subst h; exact .pruned (h := ⟨d, hd⟩)
  | case4 d x hd => intro t h; simp [cborToTree, hd] at h
  | case5 d c x u hu ih => intro t h; simp [cborToTree, hu] at h; subst h; exact .labeled (ih _ hu)
  | case6 d c x e he ih => intro t h; simp [cborToTree, he] at h
  | case7 l r x e he ih => intro t h; simp [cborToTree, he] at h
  | case8 l r x lt hl e he ih1 ih2 => intro t h; simp [cborToTree, hl, he] at h
  | case9 l r x lt hl rt hr ih1 ih2 => intro t h; simp [cborToTree, hl, hr] at h; subst h; exact .fork (ih1 _ hl) (ih2 _ hr)
  | case10 v h1 h2 h3 h4 h5 => intro t h; rw [cborToTree] at h <;> first | cases h | assumption

theorem treeOf_iff {v : CborValue} {t : HashTree} : cborToTree v = .ok t ↔ TreeOf v t := ⟨treeOf_sound v t, treeOf_complete⟩

/-- **C65.** Whatever bytes are accepted as a hash tree are a CBOR item that is that hash tree. -/
theorem C65_tree_accepted {m : Machine} {i : Bytes} {t : HashTree} (h : treeFromCbor m i = some (.ok t)) :
    ∃ v, Describes m false i v ∧ TreeOf v t := by
  unfold treeFromCbor at h
  cases hp : parseCbor m i with
  | none => simp [hp] at h
  | some r =>
    cases r with
    | error e => rw [hp] at h; cases h
    | ok v =>
      rw [hp] at h
      exact ⟨v, C65_describes hp, treeOf_sound _ _ (Option.some.inj h)⟩

/-- **C65.** Every CBOR item that is a hash tree is accepted, in whatever form it is written. -/
theorem C65_tree_read {m : Machine} {i : Bytes} {v : CborValue} {t : HashTree} (h : Describes m true i v) (ht : TreeOf v t)
    (hs : i.length ≤ m.stack) (hc : i.length ≤ m.mapCap) : treeFromCbor m i = some (.ok t) := by
  unfold treeFromCbor
  rw [C65_reads h hs hc]
  exact congrArg some (treeOf_complete ht)

/-! ## Certificates -/

theorem cborGet_iff {kvs : List (Bytes × CborValue)} {key : Bytes} {v : CborValue} :
    cborGet kvs key = some v ↔ LastValue kvs key v := by
  unfold cborGet LastValue
  rw [Option.map_eq_some_iff]
  constructor
  · rintro ⟨⟨k, w⟩, h, rfl⟩
    rw [List.find?_eq_some_iff_append] at h
    obtain ⟨h1, as, bs, h2, h3⟩ := h
    simp at h1
    subst h1
    refine ⟨bs.reverse, as.reverse, ?_, ?_⟩
    · rw [← List.reverse_reverse kvs, h2]; simp
    · intro x hx
      have := h3 x (by simpa using hx)
      simpa using this
  · rintro ⟨pre, post, rfl, h⟩
    refine ⟨(key, v), ?_, rfl⟩
    rw [List.find?_eq_some_iff_append]
    refine ⟨by simp, post.reverse, pre.reverse, by simp, ?_⟩
    intro x hx
    have := h x (by simpa using hx)
    simpa using this

theorem certificateOf_iff {v : CborValue} {c : Certificate} : cborToCertificate v = .ok c ↔ CertificateOf v c := by
  constructor
  · intro h
    unfold cborToCertificate at h
    split at h
    · rename_i kvs
      split at h
      · cases h
      · rename_i tc htc
        cases ht : cborToTree tc with
        | error e => rw [ht] at h; cases h
        | ok tree =>
          rw [ht] at h
          simp only [bind, Except.bind] at h
          split at h
          · rename_i sig hsig
            split at h
            · rename_i d hd
              split at h
              · rename_i sn hsn
                split at h
                · rename_i ce hce
                  cases h
                  exact ⟨kvs, tc, rfl, cborGet_iff.1 htc, treeOf_sound _ _ ht, cborGet_iff.1 hsig, d, cborGet_iff.1 hd,
                    cborGet_iff.1 hsn, cborGet_iff.1 hce⟩
                · cases h
              · cases h
            · rename_i hd
              cases h
              exact ⟨kvs, tc, rfl, cborGet_iff.1 htc, treeOf_sound _ _ ht, cborGet_iff.1 hsig,
                fun d h => hd d (cborGet_iff.2 h)⟩
          · cases h
    · cases h
  · rintro ⟨kvs, tc, rfl, htc, ht, hsig, hd⟩
    obtain ⟨tree, sig, del⟩ := c
    simp only at ht hsig hd
    unfold cborToCertificate
    simp only [cborGet_iff.2 htc, treeOf_complete ht, cborGet_iff.2 hsig]
    cases del with
    | none =>
      simp only at hd
      cases hg : cborGet kvs (str "delegation") with
      | none => rfl
      | some x =>
        cases x with
        | map d => exact absurd (cborGet_iff.1 hg) (hd d)
        | _ => rfl
    | some del =>
      obtain ⟨sn, ce⟩ := del
      obtain ⟨d, h1, h2, h3⟩ := hd
      simp only [cborGet_iff.2 h1]
      simp only at h2 h3
      simp only [cborGet_iff.2 h2, cborGet_iff.2 h3]
      rfl

/-- **C65.** Whatever bytes are accepted as a certificate are a CBOR item that is that certificate. -/
theorem C65_certificate_accepted {m : Machine} {i : Bytes} {c : Certificate} (h : certificateFromCbor m i = some (.ok c)) :
    ∃ v, Describes m false i v ∧ CertificateOf v c := by
  unfold certificateFromCbor at h
  cases hp : parseCbor m i with
  | none => simp [hp] at h
  | some r =>
    cases r with
    | error e => rw [hp] at h; cases h
    | ok v =>
      rw [hp] at h
      exact ⟨v, C65_describes hp, certificateOf_iff.1 (Option.some.inj h)⟩

/-- **C65.** Every CBOR item that is a certificate is accepted, in whatever form it is written. -/
theorem C65_certificate_read {m : Machine} {i : Bytes} {v : CborValue} {c : Certificate} (h : Describes m true i v)
    (ht : CertificateOf v c) (hs : i.length ≤ m.stack) (hc : i.length ≤ m.mapCap) : certificateFromCbor m i = some (.ok c) := by
  unfold certificateFromCbor
  rw [C65_reads h hs hc]
  exact congrArg some (certificateOf_iff.2 ht)

/-- **C65.** An item the reader reads is accepted as a certificate exactly if it is one. -/
theorem C65_certificate_exact {m : Machine} {i : Bytes} {v : CborValue} {c : Certificate} (h : parseCbor m i = some (.ok v)) :
    certificateFromCbor m i = some (.ok c) ↔ CertificateOf v c := by
  unfold certificateFromCbor
  rw [h, ← certificateOf_iff]
  constructor
  · intro h; exact Option.some.inj h
  · intro h; exact congrArg some h

/-! ## Strings and ranges -/

theorem cborToStrings_iff : ∀ {vs : List CborValue} {l : List Bytes},
    cborToStrings vs = .ok l ↔ vs = l.map .bytes ∧ ∀ s ∈ l, (chars s).isSome
  | [], l => by cases l <;> simp [cborToStrings]
  | v :: vs, l => by
    have ih := @cborToStrings_iff vs
    constructor
    · intro h
      unfold cborToStrings at h
      split at h
      · rename_i heq; cases heq
      · rename_i b vs' heq
        cases heq
        split at h
        · rename_i hb
          cases hr : cborToStrings vs with
          | error e => rw [hr] at h; cases h
          | ok r =>
            rw [hr] at h
            cases h
            obtain ⟨rfl, h2⟩ := ih.1 hr
            exact ⟨rfl, by simpa using ⟨hb, h2⟩⟩
        · cases h
      · cases h
    · rintro ⟨h1, h2⟩
      cases l with
      | nil => cases h1
      | cons b l =>
        cases h1
        have := ih.2 ⟨rfl, fun s hs => h2 s (by simp [hs])⟩
        simp [cborToStrings, this, h2 b (by simp), Except.map]

/-- **C65.** Exactly the CBOR arrays of strings of valid UTF-8 are accepted as lists of strings. -/
theorem C65_strings {m : Machine} {i : Bytes} {l : List Bytes} (hs : i.length ≤ m.stack)
    (hc : i.length ≤ m.mapCap) :
    stringsFromCbor m i = some (.ok l) ↔ Describes m true i (.array (l.map .bytes)) ∧ ∀ s ∈ l, (chars s).isSome := by
  constructor
  · intro h
    unfold stringsFromCbor at h
    cases hp : parseCbor m i with
    | none => simp [hp] at h
    | some r =>
      cases r with
      | error e => rw [hp] at h; cases h
      | ok v =>
        rw [hp] at h
        cases v with
        | array vs =>
          obtain ⟨rfl, h2⟩ := cborToStrings_iff.1 (Option.some.inj h)
          exact ⟨describes_strict (C65_describes hp) (.array (by intro v hv; simp at hv; obtain ⟨b, -, rfl⟩ := hv; exact .bytes)), h2⟩
        | _ => cases h
  · rintro ⟨h1, h2⟩
    unfold stringsFromCbor
    rw [C65_reads h1 hs hc]
    exact congrArg some (cborToStrings_iff.2 ⟨rfl, h2⟩)

theorem rangesOf_iff : ∀ {vs : List CborValue} {l : List (Bytes × Bytes)}, cborToRanges vs = some (.ok l) ↔ RangesOf vs l
  | [], l => by
    constructor
    · intro h; cases h; exact .nil
    · intro h; cases h; rfl
  | v :: vs, l => by
    have ih := @rangesOf_iff vs
    constructor
    · intro h
      unfold cborToRanges at h
      split at h
      · rename_i heq; cases heq
      · rename_i a b x vs' heq
        cases heq
        unfold principalFromSlice at h
        by_cases ha : a.length ≤ 29
        · by_cases hb : b.length ≤ 29
          · rw [if_pos ha, if_pos hb] at h
            cases hr : cborToRanges vs with
            | none => rw [hr] at h; cases h
            | some r =>
              rw [hr] at h
              cases r with
              | error e => cases h
              | ok r =>
                cases h
                exact .cons ha hb (ih.1 hr)
          · rw [if_pos ha, if_neg hb] at h; cases h
        · rw [if_neg ha] at h; cases h
      · cases h
    · intro h
      cases h with
      | cons ha hb hr =>
        have := ih.2 hr
        simp [cborToRanges, principalFromSlice, ha, hb, this, Except.map]

/-- **C65.** Whatever bytes are accepted as canister ranges are a CBOR array of these pairs. -/
theorem C65_ranges_accepted {m : Machine} {i : Bytes} {l : List (Bytes × Bytes)} (h : rangesFromCbor m i = some (.ok l)) :
    ∃ vs, Describes m false i (.array vs) ∧ RangesOf vs l := by
  unfold rangesFromCbor at h
  split at h
  · cases h
  · cases h
  · rename_i vs hp
    exact ⟨vs, C65_describes hp, rangesOf_iff.1 h⟩
  · cases h

/-- **C65.** Every CBOR array of pairs of principals is accepted as canister ranges. -/
theorem C65_ranges_read {m : Machine} {i : Bytes} {vs : List CborValue} {l : List (Bytes × Bytes)} (h : Describes m true i (.array vs))
    (hr : RangesOf vs l) (hs : i.length ≤ m.stack) (hc : i.length ≤ m.mapCap) : rangesFromCbor m i = some (.ok l) := by
  unfold rangesFromCbor
  rw [C65_reads h hs hc]
  exact rangesOf_iff.2 hr

/-! ### The hypotheses are met -/
section examples

/-- The leaf `x` written with a tag, long heads, a simple value and a further item. -/
def exOddLeaf : Bytes := [0xc1, 0x98, 3, 0x18, 3, 0xf6, 0x59, 0, 1, 120, 0x20]

theorem exOddLeaf_describes : Describes exMachine true exOddLeaf (.array [.tag .leaf, .bytes (str "x"), .signed 8 (-1)]) := by
  refine .tagged (h := [0xc1]) (b := [0x98, 3, 0x18, 3, 0xf6, 0x59, 0, 1, 120, 0x20]) (w := 8) (n := 1) (.short (by decide) (by decide)) ?_
  refine .array (h := [0x98, 3]) (b := [0x18, 3, 0xf6, 0x59, 0, 1, 120, 0x20]) (w := 8) (n := 3)
    (.long (k := 0) (arg := [3]) (by decide) (by decide) rfl) rfl ?_
  refine .cons (a := [0x18, 3]) (b := [0xf6, 0x59, 0, 1, 120, 0x20])
    (.tag (t := .leaf) (.long (k := 0) (arg := [3]) (by decide) (by decide) rfl)) ?_
  refine .cons (a := [0xf6, 0x59, 0, 1, 120]) (b := [0x20]) ?_ ?_
  · refine .simple (h := [0xf6]) (b := [0x59, 0, 1, 120]) (w := 8) (n := 22) (.short (by decide) (by decide)) ?_
    exact .bytes (h := [0x59, 0, 1]) (b := [120]) (w := 16) (n := 1) (.long (k := 1) (arg := [0, 1]) (by decide) (by decide) rfl) rfl
  · exact .cons (a := [0x20]) (b := []) (.negative (n := 0) (.short (by decide) (by decide)) (by decide)) .nil

/-- `C65_unambiguous` applies: nothing else is said by those bytes. -/
example (j : Bytes) (w : CborValue) (h : Describes exMachine true j w) (hp : exOddLeaf <+: j) : j = exOddLeaf :=
  (C65_unambiguous exOddLeaf_describes h hp).1.symm

/-- All hypotheses of `C65_tree_read` are met. -/
example : treeFromCbor exMachine exOddLeaf = some (.ok (.leaf (str "x"))) :=
  C65_tree_read exOddLeaf_describes .leaf (by decide) (by decide)

/-- The hypothesis of `C65_certificate_accepted` is met. -/
example : ∃ v, Describes exMachine false (encCertificate exDelegated) v ∧ CertificateOf v exDelegated :=
  C65_certificate_accepted (C37_certificate_roundtrip exMachine exDelegated (by decide) (by decide)
    (by simp [exDelegated, exCborTree, HashTree.Fits, Machine.Fits, exMachine]; decide)
    (by simp [exDelegated, Machine.Fits, exMachine]; decide)
    (by intro d hd; simp [exDelegated] at hd; subst hd; simp [Machine.Fits, exMachine]; decide) (by decide)).1

/-- An array of a byte string that is not UTF-8 is not a list of strings. -/
example : Describes exMachine false [0x81, 0x41, 0xff] (.array [.bytes [0xff]]) ∧ stringsFromCbor exMachine [0x81, 0x41, 0xff] ≠ some (.ok [[0xff]]) := by
  refine ⟨C65_describes rfl, fun h => ?_⟩
  have := ((C65_strings (by decide) (by decide)).1 h).2 [0xff] (by simp)
  exact absurd this (by decide)

/-- `{"signature": h'01', "tree": [0]}`, the keys in an order the library does not write. -/
def exSmallMap : Bytes := [0xa2, 0x69] ++ str "signature" ++ [0x41, 1] ++ [0x64] ++ str "tree" ++ [0x81, 0]

theorem exSmallMap_describes : Describes exMachine true exSmallMap
    (.map [(str "signature", .bytes [1]), (str "tree", .array [.tag .empty])]) := by
  refine .map (h := [0xa2]) (b := (0x69 :: str "signature") ++ [0x41, 1] ++ ((0x64 :: str "tree") ++ [0x81, 0] ++ []))
    (w := 8) (n := 2) (.short (by decide) (by decide)) ?_ ?_ ?_
  · decide
  · decide
  refine .cons (.text (h := [0x69]) (w := 8) (n := 9) (.short (by decide) (by decide)) (by decide)) (by decide)
    (.bytes (h := [0x41]) (b := [1]) (w := 8) (n := 1) (.short (by decide) (by decide)) (by decide)) ?_
  refine .cons (.text (h := [0x64]) (w := 8) (n := 4) (.short (by decide) (by decide)) (by decide)) (by decide) ?_ .nil
  exact .array (h := [0x81]) (b := [0] ++ []) (w := 8) (n := 1) (.short (by decide) (by decide)) (by decide)
    (.cons (.tag (t := .empty) (.short (by decide) (by decide))) .nil)

/-- All hypotheses of `C65_certificate_read` are met. -/
example : certificateFromCbor exMachine exSmallMap = some (.ok ⟨.empty, [1], none⟩) :=
  C65_certificate_read exSmallMap_describes
    ⟨_, _, rfl, ⟨[(str "signature", .bytes [1])], [], rfl, by simp⟩, .empty, ⟨[], [(str "tree", .array [.tag .empty])], rfl, by
      intro x hx; simp at hx; subst hx; decide⟩, by
      rintro d ⟨pre, post, h, -⟩
      have : (str "delegation", CborValue.map d) ∈ pre ++ (str "delegation", CborValue.map d) :: post := by simp
      rw [← h] at this
      simp at this⟩ (by decide) (by decide)

/-- All hypotheses of `C65_ranges_read` are met. -/
example : rangesFromCbor exMachine [0x81, 0x82, 0x41, 1, 0x41, 2] = some (.ok [([1], [2])]) :=
  C65_ranges_read (vs := [.array [.bytes [1], .bytes [2]]])
    (.array (h := [0x81]) (b := [0x82, 0x41, 1, 0x41, 2] ++ []) (w := 8) (n := 1) (.short (by decide) (by decide)) (by decide)
      (.cons (.array (h := [0x82]) (b := [0x41, 1] ++ ([0x41, 2] ++ [])) (w := 8) (n := 2) (.short (by decide) (by decide)) (by decide)
        (.cons (.bytes (h := [0x41]) (b := [1]) (w := 8) (n := 1) (.short (by decide) (by decide)) (by decide))
          (.cons (.bytes (h := [0x41]) (b := [2]) (w := 8) (n := 1) (.short (by decide) (by decide)) (by decide)) .nil))) .nil))
    (.cons (by decide) (by decide) .nil) (by decide) (by decide)

end examples

end Verif.Props
