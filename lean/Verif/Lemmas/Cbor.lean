import Verif.Spec.Cbor

set_option linter.unusedSimpArgs false
set_option linter.unusedVariables false

namespace Verif

/-! ## Heads -/

theorem beBytes_length : ∀ (w n : Nat), (beBytes w n).length = w
  | 0, _ => rfl
  | w + 1, n => by simp [beBytes, beBytes_length w]

theorem beNat_from (b : Bytes) (k : Nat) : b.foldl (fun acc x => acc * 256 + x.toNat) k = k * 256 ^ b.length + bigEndian b := by
  induction b generalizing k with
  | nil => simp [bigEndian]
  | cons x b ih => rw [List.foldl_cons, ih, bigEndian, List.length_cons, Nat.pow_succ]; grind

theorem beNat_eq (b : Bytes) : beNat b = bigEndian b := by
  rw [beNat, beNat_from]; simp

theorem beNat_append (a : Bytes) (x : UInt8) : beNat (a ++ [x]) = beNat a * 256 + x.toNat := by
  simp [beNat]

theorem toNat_toUInt8 {n : Nat} (h : n < 256) : n.toUInt8.toNat = n := by
  show n % 256 = n
  exact Nat.mod_eq_of_lt h

theorem beNat_beBytes : ∀ (w n : Nat), n < 256 ^ w → beNat (beBytes w n) = n
  | 0, n, h => by simp at h; subst h; rfl
  | w + 1, n, h => by
    rw [beBytes, beNat_append, beNat_beBytes w (n / 256)]
    · rw [toNat_toUInt8 (Nat.mod_lt _ (by decide))]; omega
    · rw [Nat.div_lt_iff_lt_mul (by decide)]; rw [Nat.pow_succ] at h; exact h

theorem takeB_append {w : Nat} {a rest : Bytes} (h : a.length = w) : takeB w (a ++ rest) = some (a, rest) := by
  subst h
  simp [takeB]

/-- The head of an encoded item is read back, whatever follows. -/
theorem head_reads {major n : Nat} (hm : major < 8) (hn : n < 2 ^ 64) :
    ∃ e i0 w, encHead major n = e :: i0 ∧ cborType e = major ∧ (n ≤ 23 → w = 8) ∧
      ∀ rest, extractValue e (i0 ++ rest) = some (⟨w, n⟩, rest) := by
  have hty : ∀ k, k < 32 → cborType (major * 32 + k).toUInt8 = major := by
    intro k hk; unfold cborType; rw [toNat_toUInt8 (by omega)]; omega
  have hin : ∀ k, k < 32 → cborInfo (major * 32 + k).toUInt8 = k := by
    intro k hk; unfold cborInfo; rw [toNat_toUInt8 (by omega)]; omega
  unfold encHead
  split
  · rename_i h
    refine ⟨_, [], 8, rfl, hty n (by omega), fun _ => rfl, ?_⟩
    intro rest
    unfold extractValue
    rw [hin n (by omega)]
    simp only [h, if_true, List.nil_append]
  · rename_i h
    have step : ∀ (k w : Nat), 24 ≤ k → k ≤ 27 → w = 2 ^ (k - 24) → n < 256 ^ w → ∀ rest,
        extractValue (major * 32 + k).toUInt8 (beBytes w n ++ rest) = some (⟨8 * w, n⟩, rest) := by
      intro k w h1 h2 h3 h4 rest
      have hk := hin k (by omega)
      unfold extractValue
      rw [hk]
      have hk' : k = 24 ∨ k = 25 ∨ k = 26 ∨ k = 27 := by omega
      rcases hk' with rfl | rfl | rfl | rfl <;>
      · simp at h3
        subst h3
        simp [takeB_append (beBytes_length _ _), beNat_beBytes _ _ h4]
    split
    · exact ⟨_, _, 8 * 1, rfl, hty 24 (by omega), fun h' => by omega,
        step 24 1 (by omega) (by omega) rfl (by omega)⟩
    · split
      · exact ⟨_, _, 8 * 2, rfl, hty 25 (by omega), fun h' => by omega,
          step 25 2 (by omega) (by omega) rfl (by omega)⟩
      · split
        · exact ⟨_, _, 8 * 4, rfl, hty 26 (by omega), fun h' => by omega,
            step 26 4 (by omega) (by omega) rfl (by omega)⟩
        · exact ⟨_, _, 8 * 8, rfl, hty 27 (by omega), fun h' => by omega,
            step 27 8 (by omega) (by omega) rfl (by omega)⟩

/-- `enc` is read as `v` with at least `d` stack frames, whatever follows. -/
def CReads (m : Machine) (d : Nat) (enc : Bytes) (v : CborValue) : Prop :=
  ∀ s rest, d ≤ s → cborParser m s (enc ++ rest) = .ok rest v

theorem CReads.mono {m : Machine} {d d' : Nat} {enc : Bytes} {v : CborValue} (h : CReads m d enc v) (hd : d ≤ d') :
    CReads m d' enc v := fun s rest hs => h s rest (by omega)

theorem reads_tag {m : Machine} {n : Nat} (hn : n ≤ 4) : CReads m 1 (encHead 0 n) (unsignedValue ⟨8, n⟩) := by
  intro s rest hs
  obtain ⟨e, i0, w, h1, h2, h3, h4⟩ := head_reads (major := 0) (n := n) (by decide) (by omega)
  have hw := h3 (by omega)
  subst hw
  obtain ⟨s, rfl⟩ : ∃ k, s = k + 1 := ⟨s - 1, by omega⟩
  rw [h1]
  simp [cborParser, h4, h2]

theorem reads_bytes' {m : Machine} {b : Bytes} {major : Nat} (hmaj : major = 2 ∨ major = 3) (hb : m.Fits b.length) :
    CReads m 1 (encHead major b.length ++ b) (.bytes b) := by
  intro s rest hs
  obtain ⟨e, i0, w, h1, h2, h3, h4⟩ := head_reads (major := major) (n := b.length) (by omega) hb.2
  obtain ⟨s, rfl⟩ : ∃ k, s = k + 1 := ⟨s - 1, by omega⟩
  have hl : b.length % m.usize = b.length := Nat.mod_eq_of_lt hb.1
  rw [h1]
  rcases hmaj with rfl | rfl <;>
    simp [cborParser, h4, h2, CborUInt.toUsize, hl, takeB_append rfl]

theorem reads_bytes {m : Machine} {b : Bytes} (hb : m.Fits b.length) : CReads m 1 (encBytes b) (.bytes b) :=
  reads_bytes' (.inl rfl) hb

theorem reads_text {m : Machine} {b : Bytes} (hb : m.Fits b.length) : CReads m 1 (encText b) (.bytes b) :=
  reads_bytes' (.inr rfl) hb

theorem count_reads {m : Machine} {d s : Nat} (hs : d ≤ s) : ∀ (l : List (Bytes × CborValue)) (rest : Bytes),
    (∀ x ∈ l, CReads m d x.1 x.2) →
    cborCount (cborParser m s) l.length (l.flatMap Prod.fst ++ rest) = .ok rest (l.map Prod.snd)
  | [], rest, _ => by simp [cborCount]
  | x :: l, rest, h => by
    have h1 := h x (by simp) s (l.flatMap Prod.fst ++ rest) hs
    have ih := count_reads hs l rest (fun y hy => h y (by simp [hy]))
    simp [cborCount, h1, ih]

theorem reads_array' {m : Machine} {d : Nat} {l : List (Bytes × CborValue)} (hl : m.Fits l.length)
    (h : ∀ x ∈ l, CReads m d x.1 x.2) :
    CReads m (d + 1) (encHead 4 l.length ++ l.flatMap Prod.fst) (.array (l.map Prod.snd)) := by
  intro s rest hs
  obtain ⟨e, i0, w, h1, h2, h3, h4⟩ := head_reads (major := 4) (n := l.length) (by decide) hl.2
  obtain ⟨s, rfl⟩ : ∃ k, s = k + 1 := ⟨s - 1, by omega⟩
  have hlen : l.length % m.usize = l.length := Nat.mod_eq_of_lt hl.1
  rw [h1]
  have hc := count_reads (m := m) (d := d) (s := s) (by omega) l rest h
  simp [cborParser, h4, h2, CborUInt.toUsize, hlen, hc]

theorem pair_reads {m : Machine} {d s : Nat} (hd : d ≤ s) (h1s : 1 ≤ s) {k enc : Bytes} {v : CborValue}
    (hk : (chars k).isSome) (hkf : m.Fits k.length) (h : CReads m d enc v) (rest : Bytes) :
    cborPair (cborParser m s) (encText k ++ enc ++ rest) = .ok rest (k, v) := by
  have h1 := reads_text hkf s (enc ++ rest) h1s
  have h2 := h s rest hd
  rw [List.append_assoc]
  simp [cborPair, h1, hk, h2]

theorem pairs_reads {m : Machine} {d s : Nat} (hd : d ≤ s) (h1s : 1 ≤ s) :
    ∀ (l : List (Bytes × Bytes × CborValue)) (rest : Bytes),
    (∀ x ∈ l, (chars x.1).isSome ∧ m.Fits x.1.length ∧ CReads m d x.2.1 x.2.2) →
    cborPairs (cborParser m s) l.length (l.flatMap (fun x => encText x.1 ++ x.2.1) ++ rest) =
      .ok rest (l.map (fun x => (x.1, x.2.2)))
  | [], rest, _ => by simp [cborPairs]
  | x :: l, rest, h => by
    obtain ⟨a, b, c⟩ := h x (by simp)
    have h1 := pair_reads hd h1s a b c (l.flatMap (fun x => encText x.1 ++ x.2.1) ++ rest)
    have ih := pairs_reads hd h1s l rest (fun y hy => h y (by simp [hy]))
    have e : (x :: l).flatMap (fun x => encText x.1 ++ x.2.1) ++ rest =
        encText x.1 ++ x.2.1 ++ (l.flatMap (fun x => encText x.1 ++ x.2.1) ++ rest) := by simp
    rw [e, List.length_cons, cborPairs, h1]
    simp only
    rw [ih]
    simp

theorem reads_map {m : Machine} {d : Nat} (hd : 1 ≤ d) {l : List (Bytes × Bytes × CborValue)} (hl : m.Fits l.length)
    (hcap : l.length ≤ m.mapCap)
    (h : ∀ x ∈ l, (chars x.1).isSome ∧ m.Fits x.1.length ∧ CReads m d x.2.1 x.2.2) :
    CReads m (d + 1) (encHead 5 l.length ++ l.flatMap (fun x => encText x.1 ++ x.2.1))
      (.map (l.map (fun x => (x.1, x.2.2)))) := by
  intro s rest hs
  obtain ⟨e, i0, w, h1, h2, h3, h4⟩ := head_reads (major := 5) (n := l.length) (by decide) hl.2
  obtain ⟨s, rfl⟩ : ∃ k, s = k + 1 := ⟨s - 1, by omega⟩
  have hlen : l.length % m.usize = l.length := Nat.mod_eq_of_lt hl.1
  rw [h1]
  have hc := pairs_reads (m := m) (d := d) (s := s) (by omega) (by omega) l rest h
  have hcap' : ¬ m.mapCap < l.length := by omega
  simp only [List.flatMap_def] at hc
  simp only [List.cons_append, List.append_assoc, cborParser, h4, h2, CborUInt.toUsize, hlen, hcap', if_false,
    List.flatMap_def, hc]

theorem reads_selfDescribe {m : Machine} {d : Nat} {enc : Bytes} {v : CborValue} (h : CReads m d enc v) :
    CReads m (d + 1) (selfDescribe ++ enc) v := by
  intro s rest hs
  obtain ⟨e, i0, w, h1, h2, h3, h4⟩ := head_reads (major := 6) (n := 55799) (by decide) (by decide)
  obtain ⟨s, rfl⟩ : ∃ k, s = k + 1 := ⟨s - 1, by omega⟩
  unfold selfDescribe
  rw [h1]
  simp [cborParser, h4, h2, h s rest (by omega)]

/-! ## Trees -/

/-- The CBOR value of a hash tree. -/
def treeValue : HashTree → CborValue
  | .empty => .array [.tag .empty]
  | .fork l r => .array [.tag .fork, treeValue l, treeValue r]
  | .labeled l t => .array [.tag .labelled, .bytes l, treeValue t]
  | .leaf b => .array [.tag .leaf, .bytes b]
  | .pruned h => .array [.tag .pruned, .bytes h.1]

theorem cborToTree_treeValue : ∀ t, cborToTree (treeValue t) = .ok t
  | .empty => by simp [treeValue, cborToTree]
  | .fork l r => by simp [treeValue, cborToTree, cborToTree_treeValue l, cborToTree_treeValue r]
  | .labeled l t => by simp [treeValue, cborToTree, cborToTree_treeValue t]
  | .leaf b => by simp [treeValue, cborToTree]
  | .pruned h => by
    have := h.2
    simp [treeValue, cborToTree, this]

theorem reads_array1 {m : Machine} {d : Nat} {e1 : Bytes} {v1 : CborValue} (hu : 32 < m.usize)
    (h1 : CReads m d e1 v1) : CReads m (d + 1) (encHead 4 1 ++ e1) (.array [v1]) := by
  have := reads_array' (m := m) (d := d) (l := [(e1, v1)]) ⟨by simp; omega, by simp⟩ (by simpa using h1)
  simpa using this

theorem reads_array2 {m : Machine} {d : Nat} {e1 e2 : Bytes} {v1 v2 : CborValue} (hu : 32 < m.usize)
    (h1 : CReads m d e1 v1) (h2 : CReads m d e2 v2) :
    CReads m (d + 1) (encHead 4 2 ++ (e1 ++ e2)) (.array [v1, v2]) := by
  have := reads_array' (m := m) (d := d) (l := [(e1, v1), (e2, v2)]) ⟨by simp; omega, by simp⟩
    (by simpa using ⟨h1, h2⟩)
  simpa using this

theorem reads_array3 {m : Machine} {d : Nat} {e1 e2 e3 : Bytes} {v1 v2 v3 : CborValue} (hu : 32 < m.usize)
    (h1 : CReads m d e1 v1) (h2 : CReads m d e2 v2) (h3 : CReads m d e3 v3) :
    CReads m (d + 1) (encHead 4 3 ++ (e1 ++ (e2 ++ e3))) (.array [v1, v2, v3]) := by
  have := reads_array' (m := m) (d := d) (l := [(e1, v1), (e2, v2), (e3, v3)]) ⟨by simp; omega, by simp⟩
    (by simpa using ⟨h1, h2, h3⟩)
  simpa using this

theorem reads_tree {m : Machine} (hu : 32 < m.usize) : ∀ t : HashTree, t.Fits m →
    CReads m (t.height + 2) (encTree t) (treeValue t)
  | .empty, _ => reads_array1 hu ((reads_tag (n := 0) (by decide)))
  | .fork l r, h => by
    have h1 := reads_tree hu l h.1
    have h2 := reads_tree hu r h.2
    exact reads_array3 hu ((reads_tag (n := 1) (by decide)).mono (by omega))
      (h1.mono (by simp [HashTree.height])) (h2.mono (by simp [HashTree.height]))
  | .labeled l t, h => by
    have h1 := reads_tree hu t h.2
    exact reads_array3 hu ((reads_tag (n := 2) (by decide)).mono (by omega)) ((reads_bytes h.1).mono (by omega))
      (h1.mono (by simp [HashTree.height]))
  | .leaf b, h => reads_array2 hu (reads_tag (n := 3) (by decide)) (reads_bytes h)
  | .pruned p, h => reads_array2 hu (reads_tag (n := 4) (by decide))
      (reads_bytes ⟨by rw [p.2]; exact hu, by rw [p.2]; decide⟩)

theorem parseCbor_of_reads {m : Machine} {d : Nat} {enc : Bytes} {v : CborValue} (h : CReads m d enc v)
    (hd : d ≤ m.stack) : parseCbor m enc = some (.ok v) := by
  have := h m.stack [] hd
  rw [List.append_nil] at this
  simp [parseCbor, this]

/-! ## The parser on arbitrary input -/

theorem takeB_some {n : Nat} {i a r : Bytes} (h : takeB n i = some (a, r)) : i = a ++ r ∧ a.length = n := by
  unfold takeB at h
  split at h
  · simp at h
  · simp at h
    rw [← h.1, ← h.2]
    refine ⟨(List.take_append_drop n i).symm, ?_⟩
    simp; omega

/-- What a head is: a prefix of the input of one of the five forms. -/
theorem extractValue_some {e : UInt8} {i r : Bytes} {n : CborUInt} (h : extractValue e i = some (n, r)) :
    ∃ h', i = h' ++ r ∧ ((e.toNat % 32 ≤ 23 ∧ h' = [] ∧ n.val = e.toNat % 32) ∨
      (∃ k, e.toNat % 32 = 24 + k ∧ k ≤ 3 ∧ h'.length = 2 ^ k ∧ n.val = bigEndian h')) := by
  have hsz : ∀ w, (takeB w i).map (fun p => ((⟨8 * w, beNat p.1⟩ : CborUInt), p.2)) = some (n, r) →
      ∃ h', i = h' ++ r ∧ h'.length = w ∧ n.val = bigEndian h' := by
    intro w hw
    rw [Option.map_eq_some_iff] at hw
    obtain ⟨⟨a, b⟩, h1, h2⟩ := hw
    simp at h2
    obtain ⟨rfl, rfl⟩ := h2
    obtain ⟨h3, h4⟩ := takeB_some h1
    exact ⟨a, h3, h4, beNat_eq a⟩
  unfold extractValue cborInfo at h
  simp only at h
  split at h
  · rename_i h0
    simp at h
    obtain ⟨rfl, rfl⟩ := h
    exact ⟨[], rfl, .inl ⟨h0, rfl, rfl⟩⟩
  · split at h
    · obtain ⟨h', a, b, c⟩ := hsz 1 h
      exact ⟨h', a, .inr ⟨0, by omega, by omega, b, c⟩⟩
    · split at h
      · obtain ⟨h', a, b, c⟩ := hsz 2 h
        exact ⟨h', a, .inr ⟨1, by omega, by omega, b, c⟩⟩
      · split at h
        · obtain ⟨h', a, b, c⟩ := hsz 4 h
          exact ⟨h', a, .inr ⟨2, by omega, by omega, b, c⟩⟩
        · split at h
          · obtain ⟨h', a, b, c⟩ := hsz 8 h
            exact ⟨h', a, .inr ⟨3, by omega, by omega, b, c⟩⟩
          · simp at h

/-- Success consumes a nonempty prefix. -/
def CShrinks {α : Type} (p : Bytes → CRes α) : Prop := ∀ i r v, p i = .ok r v → ∃ c, c ≠ [] ∧ i = c ++ r

theorem cborCount_suffix {p : Bytes → CRes CborValue} (hp : CShrinks p) : ∀ (n : Nat) (i r : Bytes) (vs : List CborValue),
    cborCount p n i = .ok r vs → ∃ c, i = c ++ r
  | 0, i, r, vs, h => by simp [cborCount] at h; exact ⟨[], by simp [h.1]⟩
  | n + 1, i, r, vs, h => by
    unfold cborCount at h
    cases hv : p i with
    | err => simp [hv] at h
    | crash => simp [hv] at h
    | ok i1 v =>
      obtain ⟨c1, _, h1⟩ := hp _ _ _ hv
      simp only [hv] at h
      cases hc : cborCount p n i1 with
      | err => simp [hc] at h
      | crash => simp [hc] at h
      | ok r' vs' =>
        obtain ⟨c2, h2⟩ := cborCount_suffix hp n _ _ _ hc
        simp [hc] at h
        obtain ⟨rfl, _⟩ := h
        exact ⟨c1 ++ c2, by rw [h1, h2, List.append_assoc]⟩

theorem cborPair_shrinks {p : Bytes → CRes CborValue} (hp : CShrinks p) : CShrinks (cborPair p) := by
  intro i r kv h
  unfold cborPair at h
  split at h
  · simp at h
  · simp at h
  · rename_i i1 k hk
    obtain ⟨c1, hc1, h1⟩ := hp _ _ _ hk
    split at h
    · split at h
      · simp at h
      · simp at h
      · rename_i i2 v hv
        obtain ⟨c2, _, h2⟩ := hp _ _ _ hv
        simp at h
        obtain ⟨rfl, _⟩ := h
        exact ⟨c1 ++ c2, by simp [hc1], by rw [h1, h2, List.append_assoc]⟩
    · simp at h
  · simp at h

theorem cborPairs_suffix {p : Bytes → CRes CborValue} (hp : CShrinks p) :
    ∀ (n : Nat) (i r : Bytes) (vs : List (Bytes × CborValue)), cborPairs p n i = .ok r vs → ∃ c, i = c ++ r
  | 0, i, r, vs, h => by simp [cborPairs] at h; exact ⟨[], by simp [h.1]⟩
  | n + 1, i, r, vs, h => by
    unfold cborPairs at h
    cases hv : cborPair p i with
    | err => simp [hv] at h; exact ⟨[], by simp [h.1]⟩
    | crash => simp [hv] at h
    | ok i1 v =>
      obtain ⟨c1, _, h1⟩ := cborPair_shrinks hp _ _ _ hv
      simp only [hv] at h
      cases hc : cborPairs p n i1 with
      | err => simp [hc] at h
      | crash => simp [hc] at h
      | ok r' vs' =>
        obtain ⟨c2, h2⟩ := cborPairs_suffix hp n _ _ _ hc
        simp [hc] at h
        obtain ⟨rfl, _⟩ := h
        exact ⟨c1 ++ c2, by rw [h1, h2, List.append_assoc]⟩

theorem cborParser_shrinks (m : Machine) : ∀ s, CShrinks (cborParser m s)
  | 0 => by intro i r v h; simp [cborParser] at h
  | s + 1 => by
    intro i r v h
    cases i with
    | nil => simp [cborParser] at h
    | cons e i =>
      unfold cborParser at h
      cases hx : extractValue e i with
      | none => simp [hx] at h
      | some nr =>
        obtain ⟨n, i1⟩ := nr
        obtain ⟨hd, hi, -⟩ := extractValue_some hx
        have done : ∀ {r : Bytes}, (∃ c, i1 = c ++ r) → ∃ c, c ≠ [] ∧ e :: i = c ++ r := by
          rintro r ⟨c, rfl⟩
          exact ⟨e :: (hd ++ c), by simp, by rw [hi]; simp⟩
        simp only [hx] at h
        split at h
        · simp at h; exact done ⟨[], by simp [h.1]⟩
        · simp at h; exact done ⟨[], by simp [h.1]⟩
        · split at h
          · rename_i d r' ht
            simp at h
            obtain ⟨rfl, _⟩ := h
            exact done ⟨d, (takeB_some ht).1⟩
          · simp at h
        · split at h
          · rename_i d r' ht
            simp at h
            obtain ⟨rfl, _⟩ := h
            exact done ⟨d, (takeB_some ht).1⟩
          · simp at h
        · split at h
          · rename_i r' vs hc
            simp at h
            obtain ⟨rfl, _⟩ := h
            exact done (cborCount_suffix (cborParser_shrinks m s) _ _ _ _ hc)
          · simp at h
          · simp at h
        · split at h
          · simp at h
          · split at h
            · rename_i r' vs hc
              simp at h
              obtain ⟨rfl, _⟩ := h
              exact done (cborPairs_suffix (cborParser_shrinks m s) _ _ _ _ hc)
            · simp at h
            · simp at h
        · obtain ⟨c, _, hc⟩ := cborParser_shrinks m s _ _ _ h
          exact done ⟨c, hc⟩

theorem HugeMap.mono {m : Machine} {a i : Bytes} (h : HugeMap m i) : HugeMap m (a ++ i) := by
  obtain ⟨pre, hd, post, n, rfl, h1, h2⟩ := h
  exact ⟨a ++ pre, hd, post, n, by simp, h1, h2⟩

theorem cborCount_crash {m : Machine} {p : Bytes → CRes CborValue} (hp : CShrinks p) {L : Nat}
    (hc : ∀ i, i.length ≤ L → p i = .crash → HugeMap m i) : ∀ (n : Nat) (i : Bytes), i.length ≤ L →
    cborCount p n i = .crash → HugeMap m i
  | 0, i, _, h => by simp [cborCount] at h
  | n + 1, i, hl, h => by
    unfold cborCount at h
    cases hv : p i with
    | err => simp [hv] at h
    | crash => exact hc i hl hv
    | ok i1 v =>
      obtain ⟨c1, _, h1⟩ := hp _ _ _ hv
      simp only [hv] at h
      cases hk : cborCount p n i1 with
      | err => simp [hk] at h
      | ok r' vs' => simp [hk] at h
      | crash =>
        have := cborCount_crash hp hc n i1 (by rw [h1] at hl; simp at hl; omega) hk
        rw [h1]; exact this.mono

theorem cborPair_crash {m : Machine} {p : Bytes → CRes CborValue} (hp : CShrinks p) {L : Nat}
    (hc : ∀ i, i.length ≤ L → p i = .crash → HugeMap m i) {i : Bytes} (hl : i.length ≤ L)
    (h : cborPair p i = .crash) : HugeMap m i := by
  unfold cborPair at h
  split at h
  · simp at h
  · rename_i hv; exact hc i hl hv
  · rename_i i1 k hk
    obtain ⟨c1, hc1, h1⟩ := hp _ _ _ hk
    split at h
    · split at h
      · simp at h
      · rename_i hv
        have := hc i1 (by rw [h1] at hl; simp at hl; omega) hv
        rw [h1]; exact this.mono
      · simp at h
    · simp at h
  · simp at h

theorem cborPairs_crash {m : Machine} {p : Bytes → CRes CborValue} (hp : CShrinks p) {L : Nat}
    (hc : ∀ i, i.length ≤ L → p i = .crash → HugeMap m i) : ∀ (n : Nat) (i : Bytes), i.length ≤ L →
    cborPairs p n i = .crash → HugeMap m i
  | 0, i, _, h => by simp [cborPairs] at h
  | n + 1, i, hl, h => by
    unfold cborPairs at h
    cases hv : cborPair p i with
    | err => simp [hv] at h
    | crash => exact cborPair_crash hp hc hl hv
    | ok i1 v =>
      obtain ⟨c1, _, h1⟩ := cborPair_shrinks hp _ _ _ hv
      simp only [hv] at h
      cases hk : cborPairs p n i1 with
      | err => simp [hk] at h
      | ok r' vs' => simp [hk] at h
      | crash =>
        have := cborPairs_crash hp hc n i1 (by rw [h1] at hl; simp at hl; omega) hk
        rw [h1]; exact this.mono

/-- With a stack deeper than the input is long, the only crash is a map header that declares too many pairs. -/
theorem cborParser_crash (m : Machine) : ∀ (s : Nat) (i : Bytes), i.length < s → cborParser m s i = .crash → HugeMap m i
  | 0, i, hl, _ => by omega
  | s + 1, [], _, h => by simp [cborParser] at h
  | s + 1, e :: i, hl, h => by
    simp only [List.length_cons] at hl
    unfold cborParser at h
    cases hx : extractValue e i with
    | none => simp [hx] at h
    | some nr =>
      obtain ⟨n, i1⟩ := nr
      obtain ⟨hd, hi, hform⟩ := extractValue_some hx
      have hl1 : i1.length < s := by rw [hi] at hl; simp at hl; omega
      have done : HugeMap m i1 → HugeMap m (e :: i) := by
        intro hh
        have := hh.mono (a := e :: hd)
        rw [hi]; simpa using this
      have ihp : ∀ j, j.length ≤ i1.length → cborParser m s j = .crash → HugeMap m j :=
        fun j hj hc => cborParser_crash m s j (by omega) hc
      simp only [hx] at h
      split at h
      · simp at h
      · simp at h
      · split at h <;> simp at h
      · split at h <;> simp at h
      · split at h
        · simp at h
        · simp at h
        · rename_i hc
          exact done (cborCount_crash (cborParser_shrinks m s) ihp _ _ le_rfl hc)
      · rename_i ht
        split at h
        · rename_i hcap
          refine ⟨[], e :: hd, i1, n.val, by simp [hi], ⟨e, hd, rfl, ?_, ?_, hform⟩, hcap⟩
          · unfold cborType at ht; omega
          · unfold cborType at ht; omega
        · split at h
          · simp at h
          · simp at h
          · rename_i hc
            exact done (cborPairs_crash (cborParser_shrinks m s) ihp _ _ le_rfl hc)
      · exact done (cborParser_crash m s i1 hl1 h)

/-! ## Trailing bytes -/

theorem takeB_more {n : Nat} {i a r : Bytes} (h : takeB n i = some (a, r)) (x : Bytes) :
    takeB n (i ++ x) = some (a, r ++ x) := by
  obtain ⟨rfl, rfl⟩ := takeB_some h
  rw [List.append_assoc]; exact takeB_append rfl

theorem extractValue_more {e : UInt8} {i r : Bytes} {n : CborUInt} (h : extractValue e i = some (n, r)) (x : Bytes) :
    extractValue e (i ++ x) = some (n, r ++ x) := by
  have hsz : ∀ w, (takeB w i).map (fun p => ((⟨8 * w, beNat p.1⟩ : CborUInt), p.2)) = some (n, r) →
      (takeB w (i ++ x)).map (fun p => ((⟨8 * w, beNat p.1⟩ : CborUInt), p.2)) = some (n, r ++ x) := by
    intro w hw
    rw [Option.map_eq_some_iff] at hw
    obtain ⟨⟨a, b⟩, h1, h2⟩ := hw
    rw [takeB_more h1]
    simp at h2 ⊢
    exact ⟨h2.1, h2.2⟩
  unfold extractValue at h ⊢
  simp only at h ⊢
  split at h
  · rename_i h0
    rw [if_pos h0]; simp at h ⊢; exact h
  · rename_i h0
    rw [if_neg h0]
    split at h
    · rename_i h1; rw [if_pos h1]; exact hsz 1 h
    · rename_i h1
      rw [if_neg h1]
      split at h
      · rename_i h2; rw [if_pos h2]; exact hsz 2 h
      · rename_i h2
        rw [if_neg h2]
        split at h
        · rename_i h3; rw [if_pos h3]; exact hsz 4 h
        · rename_i h3
          rw [if_neg h3]
          split at h
          · rename_i h4; rw [if_pos h4]; exact hsz 8 h
          · simp at h

theorem cborCount_more {p : Bytes → CRes CborValue} {x : Bytes}
    (hp : ∀ i r v, p i = .ok r v → v.NoMap → p (i ++ x) = .ok (r ++ x) v) : ∀ (n : Nat) (i r : Bytes)
    (vs : List CborValue), cborCount p n i = .ok r vs → (∀ v ∈ vs, v.NoMap) → cborCount p n (i ++ x) = .ok (r ++ x) vs
  | 0, i, r, vs, h, _ => by simp [cborCount] at h ⊢; exact h
  | n + 1, i, r, vs, h, hm => by
    unfold cborCount at h ⊢
    cases hv : p i with
    | err => simp [hv] at h
    | crash => simp [hv] at h
    | ok i1 v =>
      simp only [hv] at h
      cases hc : cborCount p n i1 with
      | err => simp [hc] at h
      | crash => simp [hc] at h
      | ok r' vs' =>
        simp [hc] at h
        obtain ⟨rfl, rfl⟩ := h
        have h1 := hp _ _ _ hv (hm v (by simp))
        have h2 := cborCount_more hp n _ _ _ hc (fun w hw => hm w (by simp [hw]))
        simp [h1, h2]

theorem cborParser_more (m : Machine) (x : Bytes) : ∀ (s : Nat) (i r : Bytes) (v : CborValue),
    cborParser m s i = .ok r v → v.NoMap → cborParser m s (i ++ x) = .ok (r ++ x) v
  | 0, _, _, _, h, _ => by simp [cborParser] at h
  | s + 1, [], _, _, h, _ => by simp [cborParser] at h
  | s + 1, e :: i, r, v, h, hm => by
    have ih := cborParser_more m x s
    unfold cborParser at h
    cases hx : extractValue e i with
    | none => simp [hx] at h
    | some nr =>
      obtain ⟨n, i1⟩ := nr
      simp only [hx] at h
      rw [List.cons_append]
      unfold cborParser
      rw [extractValue_more hx]
      simp only
      split at h <;> rename_i ht
      · simp at h; simp [ht, h]
      · simp at h; simp [ht, h]
      · split at h
        · rename_i d r' htk
          simp at h
          simp [takeB_more htk, h]
        · simp at h
      · split at h
        · rename_i d r' htk
          simp at h
          simp [takeB_more htk, h]
        · simp at h
      · split at h
        · rename_i r' vs hc
          simp at h
          obtain ⟨rfl, rfl⟩ := h
          cases hm with
          | array hm => simp [cborCount_more ih _ _ _ _ hc hm]
        · simp at h
        · simp at h
      · split at h
        · simp at h
        · split at h
          · simp at h
            obtain ⟨rfl, rfl⟩ := h
            cases hm
          · simp at h
          · simp at h
      · exact ih _ _ _ h hm

end Verif
