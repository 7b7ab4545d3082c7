import Verif.Spec.Rih

set_option linter.unusedSimpArgs false
set_option linter.unusedSectionVars false

namespace Verif

theorem lebWrite_inj {fuel n m : Nat} (hn : n < 128 ^ fuel) (hm : m < 128 ^ fuel) (h : lebWrite fuel n = lebWrite fuel m) :
    n = m := by
  induction fuel generalizing n m with
  | zero => simp at hn hm; omega
  | succ f ih =>
    have key : ∀ a : Nat, a < 256 → (a.toUInt8).toNat = a := by
      intro a ha
      simp [Nat.toUInt8, UInt8.toNat_ofNat']
      omega
    simp only [lebWrite] at h
    by_cases h1 : n < 128 <;> by_cases h2 : m < 128
    · rw [if_pos h1, if_pos h2] at h
      simp only [List.cons.injEq, and_true] at h
      have := congrArg UInt8.toNat h
      rw [key _ (by omega), key _ (by omega)] at this
      exact this
    · rw [if_pos h1, if_neg h2] at h
      simp only [List.cons.injEq] at h
      have := congrArg UInt8.toNat h.1
      rw [key _ (by omega), key _ (by omega)] at this
      omega
    · rw [if_neg h1, if_pos h2] at h
      simp only [List.cons.injEq] at h
      have := congrArg UInt8.toNat h.1
      rw [key _ (by omega), key _ (by omega)] at this
      omega
    · rw [if_neg h1, if_neg h2] at h
      simp only [List.cons.injEq] at h
      have h3 := congrArg UInt8.toNat h.1
      rw [key _ (by omega), key _ (by omega)] at h3
      have h4 := ih (n := n / 128) (m := m / 128)
        (Nat.div_lt_of_lt_mul (by rw [pow_succ, Nat.mul_comm] at hn; exact hn))
        (Nat.div_lt_of_lt_mul (by rw [pow_succ, Nat.mul_comm] at hm; exact hm)) h.2
      omega

theorem lebU64_inj {n m : UInt64} (h : lebU64 n = lebU64 m) : n = m := by
  have b : ∀ x : UInt64, x.toNat < 128 ^ 10 := fun x => by
    have := x.toNat_lt
    omega
  exact UInt64.toNat_inj.1 (lebWrite_inj (b n) (b m) h)

section
variable [SHA]

theorem RValue.hashes_eq (es : List RValue) : RValue.hashes es = es.flatMap (fun e => e.hash.1) := by
  induction es with
  | nil => rfl
  | cons e es ih => simp [RValue.hashes, ih]

theorem RValue.hash_raw (v : RValue) : v.hash = sha v.raw := by
  cases v <;> simp [RValue.hash, RValue.raw, RValue.hashes_eq]

theorem RValue.raw_mem (v : RValue) : v.raw ∈ v.hashedIn := by
  cases v <;> simp [RValue.raw, RValue.hashedIn]

theorem RValue.Same.hash_eq {a b : RValue} (h : Same a b) : a.hash = b.hash := by
  have key : ∀ n, ∀ a b : RValue, sizeOf a ≤ n → Same a b → a.hash = b.hash := by
    intro n
    induction n with
    | zero => intro a b hs; cases a <;> simp at hs
    | succ n ih =>
      intro a b hs h
      cases h with
      | flat _ h => rw [RValue.hash_raw, RValue.hash_raw, h]
      | @array as bs h =>
        rw [RValue.hash_raw, RValue.hash_raw]
        congr 1
        simp only [RValue.raw]
        have hs' : ∀ x ∈ as, sizeOf x ≤ n := by
          intro x hx
          have := List.sizeOf_lt_of_mem hx
          simp at hs; omega
        clear hs
        induction h with
        | nil => rfl
        | cons h1 h2 ih2 =>
          simp only [List.flatMap_cons]
          rw [ih _ _ (hs' _ (by simp)) h1, ih2 (fun x hx => hs' x (by simp [hx]))]
  exact key _ a b le_rfl h

theorem flatMap_hash_inj {as bs : List RValue} (h : as.flatMap (fun e => e.hash.1) = bs.flatMap (fun e => e.hash.1)) :
    List.Forall₂ (fun a b => RValue.hash a = RValue.hash b) as bs := by
  induction as generalizing bs with
  | nil =>
    cases bs with
    | nil => exact .nil
    | cons b bs =>
      have := congrArg List.length h
      simp [b.hash.2] at this; omega
  | cons a as ih =>
    cases bs with
    | nil =>
      have := congrArg List.length h
      simp [a.hash.2] at this
    | cons b bs =>
      simp only [List.flatMap_cons] at h
      have := List.append_inj h (by rw [a.hash.2, b.hash.2])
      exact .cons (Subtype.ext this.1) (ih this.2)

theorem RValue.mem_hashedInAll {es : List RValue} {e : RValue} (h : e ∈ es) {x : Bytes} (hx : x ∈ e.hashedIn) :
    x ∈ RValue.hashedInAll es := by
  induction es with
  | nil => simp at h
  | cons a es ih =>
    simp only [RValue.hashedInAll, List.mem_append]
    simp at h
    rcases h with rfl | h
    · exact .inl hx
    · exact .inr (ih h)

/-- equal value hashes: same value, or a collision -/
theorem RValue.hash_inj (a b : RValue) (h : a.hash = b.hash) : Same a b ∨ CollisionIn a.hashedIn b.hashedIn := by
  have key : ∀ n, ∀ a b : RValue, sizeOf a ≤ n → a.hash = b.hash → Same a b ∨ CollisionIn a.hashedIn b.hashedIn := by
    intro n
    induction n with
    | zero => intro a b hs; cases a <;> simp at hs
    | succ n ih =>
      intro a b hs h
      by_cases hc : a.raw = b.raw
      · by_cases ha : a.isArray = false ∨ b.isArray = false
        · exact .inl (.flat ha hc)
        · cases a with
          | string _ => simp [isArray] at ha
          | number _ => simp [isArray] at ha
          | bytes _ => simp [isArray] at ha
          | array as =>
            cases b with
            | string _ => simp [isArray] at ha
            | number _ => simp [isArray] at ha
            | bytes _ => simp [isArray] at ha
            | array bs =>
              have hf := flatMap_hash_inj hc
              have hs' : ∀ x ∈ as, sizeOf x ≤ n := by
                intro x hx
                have := List.sizeOf_lt_of_mem hx
                simp at hs; omega
              have : List.Forall₂ Same as bs ∨ CollisionIn (hashedInAll as) (hashedInAll bs) := by
                clear hc ha h hs
                induction hf with
                | nil => exact .inl .nil
                | cons h1 h2 ih2 =>
                  simp only [hashedInAll]
                  rcases ih _ _ (hs' _ (by simp)) h1 with g | g
                  · rcases ih2 (fun x hx => hs' x (by simp [hx])) with k | k
                    · exact .inl (.cons g k)
                    · exact .inr (k.mono (fun x hx => by simp [hx]) (fun x hx => by simp [hx]))
                  · exact .inr (g.mono (fun x hx => by simp [hx]) (fun x hx => by simp [hx]))
              rcases this with g | g
              · exact .inl (.array g)
              · exact .inr (g.mono (fun x hx => by simp [hashedIn, hx]) (fun x hx => by simp [hashedIn, hx]))
      · right
        rw [RValue.hash_raw, RValue.hash_raw] at h
        exact ⟨_, a.raw_mem, _, b.raw_mem, hc, h⟩
  exact key _ a b le_rfl h

theorem pairLe_total (a b : Hash × Hash) : pairLe a b ∨ pairLe b a := by
  unfold pairLe
  rcases lt_trichotomy a.1.1 b.1.1 with h | h | h
  · exact .inl (.inl (cmpB_lt.2 h))
  · rcases lt_trichotomy a.2.1 b.2.1 with h' | h' | h'
    · left; right; refine ⟨cmpB_eq.2 h, ?_⟩; rw [cmpB_lt.2 h']; simp
    · left; right; refine ⟨cmpB_eq.2 h, ?_⟩; rw [cmpB_eq.2 h']; simp
    · right; right; refine ⟨cmpB_eq.2 h.symm, ?_⟩; rw [cmpB_lt.2 h']; simp
  · exact .inr (.inl (cmpB_lt.2 h))

theorem cmpB_ne_gt {a b : Bytes} : cmpB a b ≠ .gt ↔ a ≤ b := by
  rw [ne_eq, cmpB_gt, not_lt]

theorem pairLe_iff (a b : Hash × Hash) : pairLe a b ↔ a.1.1 < b.1.1 ∨ (a.1.1 = b.1.1 ∧ a.2.1 ≤ b.2.1) := by
  unfold pairLe; rw [cmpB_lt, cmpB_eq, cmpB_ne_gt]

instance : Std.Total pairLe := ⟨pairLe_total⟩
instance : IsTrans (Hash × Hash) pairLe := ⟨by
  intro a b c
  rw [pairLe_iff, pairLe_iff, pairLe_iff]
  rintro (h | ⟨h, h'⟩) (g | ⟨g, g'⟩)
  · exact .inl (lt_trans h g)
  · exact .inl (g ▸ h)
  · exact .inl (h ▸ g)
  · exact .inr ⟨h.trans g, le_trans h' g'⟩⟩
instance : Std.Antisymm pairLe := ⟨by
  intro a b
  rw [pairLe_iff, pairLe_iff]
  rintro (h | ⟨h, h'⟩) (g | ⟨g, g'⟩)
  · exact absurd g (not_lt_of_gt h)
  · exact absurd (g ▸ h) (lt_irrefl _)
  · exact absurd (h ▸ g) (lt_irrefl _)
  · exact Prod.ext (Subtype.ext h) (Subtype.ext (le_antisymm h' g'))⟩

theorem sort_perm {xs ys : List (Hash × Hash)} (h : xs.Perm ys) : xs.insertionSort pairLe = ys.insertionSort pairLe := by
  have h1 := (List.perm_insertionSort pairLe xs).trans (h.trans (List.perm_insertionSort pairLe ys).symm)
  exact h1.eq_of_pairwise' (List.pairwise_insertionSort pairLe xs) (List.pairwise_insertionSort pairLe ys)

theorem pairBytes_inj {xs ys : List (Hash × Hash)} (h : xs.flatMap pairBytes = ys.flatMap pairBytes) : xs = ys := by
  induction xs generalizing ys with
  | nil =>
    cases ys with
    | nil => rfl
    | cons b bs =>
      have := congrArg List.length h
      simp [pairBytes, b.1.2, b.2.2] at this; omega
  | cons a as ih =>
    cases ys with
    | nil =>
      have := congrArg List.length h
      simp [pairBytes, a.1.2, a.2.2] at this
    | cons b bs =>
      simp only [List.flatMap_cons, pairBytes] at h
      have h1 := List.append_inj h (by simp [a.1.2, a.2.2, b.1.2, b.2.2])
      have h2 := List.append_inj h1.1 (by rw [a.1.2, b.1.2])
      rw [ih h1.2, Prod.ext (Subtype.ext h2.1) (Subtype.ext h2.2)]

theorem perm_map_align {α β : Type} {f : α → β} {l1 l2 : List α} (h : (l1.map f).Perm (l2.map f)) :
    ∃ l2', l2'.Perm l2 ∧ List.Forall₂ (fun x y => f x = f y) l1 l2' := by
  induction l1 generalizing l2 with
  | nil =>
    have : l2 = [] := by simpa using h.symm.eq_nil
    subst this
    exact ⟨[], .refl _, .nil⟩
  | cons x xs ih =>
    have hm : f x ∈ l2.map f := h.mem_iff.1 (by simp)
    obtain ⟨y, hy, he⟩ := List.mem_map.1 hm
    obtain ⟨a, b, rfl⟩ := List.append_of_mem hy
    have hp : (a ++ y :: b).Perm (y :: (a ++ b)) := List.perm_middle
    have h2 : ((x :: xs).map f).Perm ((y :: (a ++ b)).map f) := h.trans (hp.map f)
    simp only [List.map_cons, he] at h2
    obtain ⟨l', h3, h4⟩ := ih (l2 := a ++ b) (by simpa using h2.cons_inv)
    exact ⟨y :: l', (h3.cons y).trans hp.symm, .cons he.symm h4⟩

theorem rih_perm {m1 m2 : List (Bytes × RValue)} (h : m1.Perm m2) : rih m1 = rih m2 := by
  simp only [rih]
  rw [sort_perm (h.map _)]

theorem rih_inj_same {m1 m2 : List (Bytes × RValue)} (h : rih m1 = rih m2) :
    (∃ m2', m2'.Perm m2 ∧ List.Forall₂ (fun a b => a.1 = b.1 ∧ RValue.Same a.2 b.2) m1 m2') ∨
      CollisionIn (rihHashed m1) (rihHashed m2) := by
  by_cases hb : ((m1.map (fun e => (sha e.1, e.2.hash))).insertionSort pairLe).flatMap pairBytes =
      ((m2.map (fun e => (sha e.1, e.2.hash))).insertionSort pairLe).flatMap pairBytes
  · have hs := pairBytes_inj hb
    have hp : (m1.map (fun e => (sha e.1, e.2.hash))).Perm (m2.map (fun e => (sha e.1, e.2.hash))) :=
      (List.perm_insertionSort pairLe _).symm.trans (hs ▸ List.perm_insertionSort pairLe _)
    obtain ⟨m2', h1, h2⟩ := perm_map_align hp
    have : List.Forall₂ (fun a b => a.1 = b.1 ∧ RValue.Same a.2 b.2) m1 m2' ∨
        ∃ a ∈ m1, ∃ b ∈ m2', CollisionIn (a.1 :: a.2.hashedIn) (b.1 :: b.2.hashedIn) := by
      clear h1 hp hs hb h
      induction h2 with
      | nil => exact .inl .nil
      | @cons a b as bs hab h2 ih =>
        simp only [Prod.mk.injEq] at hab
        rcases ih with g | ⟨x, hx, y, hy, k⟩
        · by_cases hk : a.1 = b.1
          · rcases RValue.hash_inj _ _ hab.2 with hv | hv
            · exact .inl (.cons ⟨hk, hv⟩ g)
            · exact .inr ⟨a, by simp, b, by simp, hv.mono (fun x hx => by simp [hx]) (fun x hx => by simp [hx])⟩
          · exact .inr ⟨a, by simp, b, by simp, _, by simp, _, by simp, hk, hab.1⟩
        · exact .inr ⟨x, by simp [hx], y, by simp [hy], k⟩
    rcases this with g | ⟨x, hx, y, hy, k⟩
    · exact .inl ⟨m2', h1, g⟩
    · right
      refine k.mono (fun z hz => ?_) (fun z hz => ?_)
      · simp only [rihHashed, List.mem_cons, List.mem_flatMap]
        exact .inr ⟨x, hx, by simpa using hz⟩
      · simp only [rihHashed, List.mem_cons, List.mem_flatMap]
        exact .inr ⟨y, h1.mem_iff.1 hy, by simpa using hz⟩
  · right
    exact ⟨_, by simp [rihHashed], _, by simp [rihHashed], hb, h⟩

theorem rih_inj {m1 m2 : List (Bytes × RValue)} (h : rih m1 = rih m2) :
    (∃ m2', m2'.Perm m2 ∧ List.Forall₂ (fun a b => a.1 = b.1 ∧ a.2.raw = b.2.raw) m1 m2') ∨
      CollisionIn (rihHashed m1) (rihHashed m2) := by
  by_cases hb : ((m1.map (fun e => (sha e.1, e.2.hash))).insertionSort pairLe).flatMap pairBytes =
      ((m2.map (fun e => (sha e.1, e.2.hash))).insertionSort pairLe).flatMap pairBytes
  · have hs := pairBytes_inj hb
    have hp : (m1.map (fun e => (sha e.1, e.2.hash))).Perm (m2.map (fun e => (sha e.1, e.2.hash))) :=
      (List.perm_insertionSort pairLe _).symm.trans (hs ▸ List.perm_insertionSort pairLe _)
    obtain ⟨m2', h1, h2⟩ := perm_map_align hp
    by_cases hall : List.Forall₂ (fun a b : Bytes × RValue => a.1 = b.1 ∧ a.2.raw = b.2.raw) m1 m2'
    · exact .inl ⟨m2', h1, hall⟩
    · right
      have : ∃ a ∈ m1, ∃ b ∈ m2', sha a.1 = sha b.1 ∧ a.2.hash = b.2.hash ∧ ¬ (a.1 = b.1 ∧ a.2.raw = b.2.raw) := by
        clear h1 hp hs hb h
        induction h2 with
        | nil => exact absurd .nil hall
        | @cons a b as bs hab h2 ih =>
          simp only [Prod.mk.injEq] at hab
          by_cases hh : a.1 = b.1 ∧ a.2.raw = b.2.raw
          · obtain ⟨x, hx, y, hy, k⟩ := ih (fun hf => hall (.cons hh hf))
            exact ⟨x, by simp [hx], y, by simp [hy], k⟩
          · exact ⟨a, by simp, b, by simp, hab.1, hab.2, hh⟩
      obtain ⟨a, ha, b, hb', k1, k2, k3⟩ := this
      have hbm := h1.mem_iff.1 hb'
      by_cases hk : a.1 = b.1
      · have hv : a.2.raw ≠ b.2.raw := fun e => k3 ⟨hk, e⟩
        rw [RValue.hash_raw, RValue.hash_raw] at k2
        refine ⟨a.2.raw, ?_, b.2.raw, ?_, hv, k2⟩
        · simp only [rihHashed, List.mem_cons, List.mem_flatMap]
          exact .inr ⟨a, ha, .inr a.2.raw_mem⟩
        · simp only [rihHashed, List.mem_cons, List.mem_flatMap]
          exact .inr ⟨b, hbm, .inr b.2.raw_mem⟩
      · refine ⟨a.1, ?_, b.1, ?_, hk, k1⟩
        · simp only [rihHashed, List.mem_cons, List.mem_flatMap]
          exact .inr ⟨a, ha, .inl rfl⟩
        · simp only [rihHashed, List.mem_cons, List.mem_flatMap]
          exact .inr ⟨b, hbm, .inl rfl⟩
  · right
    exact ⟨_, by simp [rihHashed], _, by simp [rihHashed], hb, h⟩

end
end Verif
