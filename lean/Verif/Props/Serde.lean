import Verif.Spec.Serde
import Verif.Props.Cbor
import Verif.Spec.HashTree

set_option linter.unusedSimpArgs false
set_option linter.unusedSectionVars false

/-!
# Property C54: the serde representation of trees and certificates
-/

namespace Verif.Props
open Verif

theorem mapM_deU8 (xs : List Sd) (b : Bytes) : xs.mapM deU8 = some b ↔ xs = b.map (fun x => .u64 x.toNat) := by
  induction xs generalizing b with
  | nil => cases b <;> simp
  | cons x xs ih =>
    have hx : ∀ y, deU8 x = some y ↔ x = .u64 y.toNat := by
      intro y
      cases x with
      | u64 n =>
        simp only [deU8]
        constructor
        · intro h
          split at h
          · next hn =>
            simp only [Option.some.injEq] at h
            subst h
            simp [Nat.mod_eq_of_lt hn]
          · cases h
        · intro h
          simp only [Sd.u64.injEq] at h
          subst h
          rw [if_pos y.toNat_lt]
          simp
      | _ => simp [deU8]
    rw [List.mapM_cons]
    simp only [Option.bind_eq_bind, Option.pure_def]
    cases b with
    | nil => simp [Option.bind_eq_some_iff]
    | cons y b =>
      simp only [List.map_cons, List.cons.injEq, ← hx, ← ih, Option.bind_eq_some_iff, Option.some.injEq]
      constructor
      · rintro ⟨a, h1, l, h2, h3, h4⟩
        subst h3; subst h4
        exact ⟨h1, h2⟩
      · rintro ⟨h1, h2⟩
        exact ⟨y, h1, b, h2, rfl, rfl⟩

/-- **C54**, byte strings. -/
theorem deBytes_iff (s : SdStorage) (d : Sd) (b : Bytes) : deBytes s d = some b ↔ IsBytes s d b := by
  cases d with
  | u64 n => simp only [deBytes]; exact ⟨nofun, nofun⟩
  | other => simp only [deBytes]; exact ⟨nofun, nofun⟩
  | map kvs => simp only [deBytes]; exact ⟨nofun, nofun⟩
  | bytes bo c =>
    simp only [deBytes]
    constructor
    · intro h
      split at h
      · next hc =>
        cases h
        rcases hc with rfl | rfl
        · exact .ownedBytes
        · exact .bytes
      · cases h
    · intro h
      cases h <;> simp
  | str bo c =>
    simp only [deBytes]
    constructor
    · intro h
      split at h
      · next hc =>
        cases h
        rcases hc with rfl | rfl
        · exact .ownedText
        · exact .text
      · cases h
    · intro h
      cases h <;> simp
  | seq xs =>
    simp only [deBytes]
    constructor
    · intro h
      split at h
      · next hc =>
        subst hc
        rw [mapM_deU8] at h
        subst h
        exact .numbers
      · cases h
    · intro h
      cases h
      rw [if_pos rfl, mapM_deU8]

/-- **C54**, trees: `Deserialize` accepts exactly the documented grammar, nothing more, and returns the tree it spells. -/
theorem C54_tree (s : SdStorage) (d : Sd) (t : HashTree) : deTree s d = some t ↔ IsTree s d t := by
  constructor
  · intro h
    fun_induction deTree s d generalizing t with
    | case1 => cases h; exact .empty
    | case2 l r ihl ihr =>
      simp only [Option.bind_eq_bind, Option.bind_eq_some_iff] at h
      obtain ⟨a, ha, b, hb, h⟩ := h
      cases h
      exact .fork (ihl _ ha) (ihr _ hb)
    | case3 l t ih =>
      simp only [Option.bind_eq_bind, Option.bind_eq_some_iff] at h
      obtain ⟨a, ha, b, hb, h⟩ := h
      cases h
      exact .labeled ((deBytes_iff _ _ _).1 ha) (ih _ hb)
    | case4 b =>
      simp only [Option.bind_eq_bind, Option.bind_eq_some_iff] at h
      obtain ⟨a, ha, h⟩ := h
      cases h
      exact .leaf ((deBytes_iff _ _ _).1 ha)
    | case5 b =>
      simp only [Option.bind_eq_bind, Option.bind_eq_some_iff] at h
      obtain ⟨a, ha, h⟩ := h
      split at h
      · cases h
        exact .pruned ((deBytes_iff _ _ _).1 ha)
      · cases h
    | case6 => cases h
  · intro h
    induction h with
    | empty => rfl
    | fork _ _ ih1 ih2 => rw [deTree, ih1, ih2]; rfl
    | labeled hb _ ih => rw [deTree, ih, (deBytes_iff _ _ _).2 hb]; rfl
    | leaf hb => rw [deTree, (deBytes_iff _ _ _).2 hb]; rfl
    | @pruned d h hb =>
      rw [deTree, (deBytes_iff _ _ _).2 hb]
      simp [h.2]

theorem IsKey.iff {names : List Bytes} (hn : names.Nodup) (d : Sd) (i : Nat) : deField names d = some i ↔ IsKey names d i := by
  have idx : ∀ b, (if names.idxOf b < names.length then some (names.idxOf b) else none) = some i ↔
      ∃ h : i < names.length, b = names[i] := by
    intro b
    constructor
    · intro h
      split at h
      · next hl =>
        cases h
        exact ⟨hl, (List.getElem_idxOf hl).symm⟩
      · cases h
    · rintro ⟨h, rfl⟩
      have : names.idxOf names[i] = i := hn.idxOf_getElem i h
      rw [this, if_pos h]
  cases d with
  | u64 n =>
    simp only [deField]
    constructor
    · intro h
      split at h
      · cases h; exact .number (by assumption)
      · cases h
    · intro h
      cases h with
      | number h => rw [if_pos h]
  | str bo b =>
    simp only [deField]
    rw [idx]
    constructor
    · rintro ⟨h, rfl⟩
      exact .text h
    · intro h
      cases h with
      | text h => exact ⟨h, rfl⟩
  | bytes bo b =>
    simp only [deField]
    rw [idx]
    constructor
    · rintro ⟨h, rfl⟩
      exact .bytes h
    · intro h
      cases h with
      | bytes h => exact ⟨h, rfl⟩
  | _ => simp only [deField]; exact ⟨nofun, nofun⟩

/-- What the loop over the entries of a map collects. -/
theorem visitMap_iff {names : List Bytes} (hn : names.Nodup) (kvs : List (Sd × Sd)) (got m : Nat → Option Sd) :
    visitMap names kvs got = some m ↔ IsRecord names kvs ∧ (∀ i v, FieldIs names kvs i v → got i = none) ∧
      ∀ i v, m i = some v ↔ got i = some v ∨ FieldIs names kvs i v := by
  induction kvs generalizing got with
  | nil =>
    simp only [visitMap, Option.some.injEq, IsRecord, FieldIs, List.not_mem_nil, false_and, exists_false, or_false,
      List.Pairwise.nil, and_true, false_imp_iff, imp_true_iff, true_and]
    constructor
    · rintro rfl; simp
    · intro h
      funext i
      exact Option.ext (fun v => ((h i v).symm))
  | cons e rest ih =>
    obtain ⟨k, v⟩ := e
    simp only [visitMap, Option.bind_eq_bind, Option.bind_eq_some_iff]
    have hrec : IsRecord names ((k, v) :: rest) ↔ (∃ i, IsKey names k i) ∧ (∀ e ∈ rest, ∀ i, IsKey names k i → ¬ IsKey names e.1 i) ∧
        IsRecord names rest := by
      simp only [IsRecord, List.forall_mem_cons, List.pairwise_cons]
      tauto
    have hfield : ∀ i w, FieldIs names ((k, v) :: rest) i w ↔ (IsKey names k i ∧ v = w) ∨ FieldIs names rest i w := by
      intro i w
      simp [FieldIs]
    have huniq : ∀ {i j}, IsKey names k i → IsKey names k j → i = j := by
      intro i j h1 h2
      rw [← IsKey.iff hn] at h1 h2
      rw [h1] at h2
      exact Option.some.inj h2
    constructor
    · rintro ⟨i, hi, h⟩
      rw [IsKey.iff hn] at hi
      split at h
      · cases h
      next hg =>
      have hg : got i = none := by simpa using hg
      rw [ih] at h
      obtain ⟨h1, h2, h3⟩ := h
      have hne : ∀ w, ¬ FieldIs names rest i w := fun w hw => by simpa using h2 i w hw
      refine ⟨hrec.2 ⟨⟨i, hi⟩, ?_, h1⟩, ?_, ?_⟩
      · intro e he j hj hj'
        have := huniq hi hj
        subst this
        exact hne e.2 ⟨e, he, hj', rfl⟩
      · intro j w hw
        rw [hfield] at hw
        rcases hw with ⟨hj, -⟩ | hw
        · rw [← huniq hi hj]; exact hg
        · have := h2 j w hw
          split at this
          · cases this
          · exact this
      · intro j w
        rw [h3, hfield]
        by_cases hj : j = i
        · subst hj
          simp only [if_true, hg, Option.some.injEq, hi, true_and]
          simp
        · simp only [hj, if_false]
          constructor
          · rintro (h | h)
            · exact .inl h
            · exact .inr (.inr h)
          · rintro (h | ⟨h, -⟩ | h)
            · exact .inl h
            · exact absurd (huniq h hi) hj
            · exact .inr h
    · rintro ⟨h1, h2, h3⟩
      obtain ⟨⟨i, hi⟩, hdis, hr⟩ := hrec.1 h1
      refine ⟨i, (IsKey.iff hn _ _).2 hi, ?_⟩
      have hg : got i = none := h2 i v ((hfield _ _).2 (.inl ⟨hi, rfl⟩))
      rw [if_neg (by simp [hg]), ih]
      refine ⟨hr, ?_, ?_⟩
      · intro j w hw
        have hj : j ≠ i := by
          rintro rfl
          obtain ⟨e, he, hk, -⟩ := hw
          exact hdis e he j hi hk
        rw [if_neg hj]
        exact h2 j w ((hfield _ _).2 (.inr hw))
      · intro j w
        rw [h3, hfield]
        by_cases hj : j = i
        · subst hj
          simp only [if_true, hg, Option.some.injEq, hi, true_and]
          simp
        · simp only [hj, if_false]
          constructor
          · rintro (h | ⟨h, -⟩ | h)
            · exact .inl h
            · exact absurd (huniq h hi) hj
            · exact .inr h
          · rintro (h | h)
            · exact .inl h
            · exact .inr (.inr h)

theorem visitMap_fields {names : List Bytes} (hn : names.Nodup) (kvs : List (Sd × Sd)) (m : Nat → Option Sd) :
    visitMap names kvs (fun _ => none) = some m ↔ IsRecord names kvs ∧ ∀ i v, m i = some v ↔ FieldIs names kvs i v := by
  rw [visitMap_iff hn]
  simp


theorem delegationFields_nodup : delegationFields.Nodup := by decide
theorem certificateFields_nodup : certificateFields.Nodup := by decide

theorem record_unique {names : List Bytes} {kvs : List (Sd × Sd)}
    (h : kvs.Pairwise (fun a b => ∀ i, IsKey names a.1 i → ¬ IsKey names b.1 i)) {a b : Sd × Sd} (ha : a ∈ kvs) (hb : b ∈ kvs)
    {i : Nat} (ka : IsKey names a.1 i) (kb : IsKey names b.1 i) : a = b := by
  induction kvs with
  | nil => simp at ha
  | cons e rest ih =>
    rw [List.pairwise_cons] at h
    rcases List.mem_cons.1 ha with e1 | h1 <;> rcases List.mem_cons.1 hb with e2 | h2
    · rw [e1, e2]
    · subst e1; exact absurd kb (h.1 b h2 i ka)
    · subst e2; exact absurd ka (h.1 a h1 i kb)
    · exact ih h.2 h1 h2

/-- Reading a field of a record. -/
theorem visitMap_some {names : List Bytes} (hn : names.Nodup) {kvs : List (Sd × Sd)} (h : IsRecord names kvs) :
    ∃ m, visitMap names kvs (fun _ => none) = some m ∧ ∀ i v, m i = some v ↔ FieldIs names kvs i v := by
  classical
  let m : Nat → Option Sd := fun i => if h : ∃ v, FieldIs names kvs i v then some h.choose else none
  have uniq : ∀ {i v w}, FieldIs names kvs i v → FieldIs names kvs i w → v = w := by
    rintro i _ _ ⟨a, ha, ka, rfl⟩ ⟨b, hb, kb, rfl⟩
    rw [record_unique h.2 ha hb ka kb]
  have hm : ∀ i v, m i = some v ↔ FieldIs names kvs i v := by
    intro i v
    simp only [m]
    split
    · next hex =>
      rw [Option.some.injEq]
      exact ⟨fun e => e ▸ hex.choose_spec, fun e => uniq hex.choose_spec e⟩
    · next hex => exact ⟨nofun, fun e => absurd ⟨v, e⟩ hex⟩
  exact ⟨m, (visitMap_fields hn kvs m).2 ⟨h, hm⟩, hm⟩

/-- **C54**, delegations. -/
theorem C54_delegation (strict : Bool) (s : SdStorage) (d : Sd) (x : Delegation) :
    deDelegation strict s d = some x ↔ IsDelegation strict s d x := by
  constructor
  · intro h
    match d with
    | .seq (a :: b :: rest) =>
      simp only [deDelegation, Option.bind_eq_bind, Option.bind_eq_some_iff] at h
      obtain ⟨a', ha, b', hb, h⟩ := h
      split at h
      · cases h
      · next hs =>
        cases h
        exact .seq ((deBytes_iff _ _ _).1 ha) ((deBytes_iff _ _ _).1 hb) (fun e => by simpa [e] using hs)
    | .map kvs =>
      simp only [deDelegation, Option.bind_eq_bind, Option.bind_eq_some_iff] at h
      obtain ⟨m, hm, a, ha, a', ha', b, hb, b', hb', h⟩ := h
      cases h
      obtain ⟨h1, h2⟩ := (visitMap_fields delegationFields_nodup kvs m).1 hm
      exact .map h1 ((h2 _ _).1 ha) ((h2 _ _).1 hb) ((deBytes_iff _ _ _).1 ha') ((deBytes_iff _ _ _).1 hb')
    | .u64 _ => cases h
    | .bytes _ _ => cases h
    | .str _ _ => cases h
    | .other => cases h
    | .seq [] => cases h
    | .seq [_] => cases h
  · intro h
    cases h with
    | seq ha hb hs =>
      simp only [deDelegation, (deBytes_iff _ _ _).2 ha, (deBytes_iff _ _ _).2 hb, Option.bind_eq_bind, Option.bind_some]
      rw [if_neg (fun h => h.2 (hs h.1))]
    | map hr h0 h1 ha hb =>
      obtain ⟨m, h2, h3⟩ := visitMap_some delegationFields_nodup hr
      change visitMap [str "subnet_id", str "certificate"] _ _ = _ at h2
      simp only [deDelegation, h2, (h3 _ _).2 h0, (h3 _ _).2 h1, (deBytes_iff _ _ _).2 ha, (deBytes_iff _ _ _).2 hb,
        Option.bind_eq_bind, Option.bind_some]

/-- **C54**, certificates: `Deserialize` accepts exactly the documented forms: as a map, fields in any order, none missing
(except the delegation), none twice, none unknown. -/
theorem C54_certificate (strict : Bool) (s : SdStorage) (d : Sd) (c : Certificate) :
    deCertificate strict s d = some c ↔ IsCertificate strict s d c := by
  constructor
  · intro h
    match d with
    | .seq [a, b] =>
      simp only [deCertificate, Option.bind_eq_bind, Option.bind_eq_some_iff] at h
      obtain ⟨a', ha, b', hb, h⟩ := h
      cases h
      exact .seq2 ((C54_tree _ _ _).1 ha) ((deBytes_iff _ _ _).1 hb) rfl
    | .seq (a :: b :: x :: rest) =>
      simp only [deCertificate, Option.bind_eq_bind, Option.bind_eq_some_iff] at h
      obtain ⟨a', ha, b', hb, d', hd, h⟩ := h
      split at h
      · cases h
      · next hs =>
        cases h
        exact .seq3 ((C54_tree _ _ _).1 ha) ((deBytes_iff _ _ _).1 hb) ((C54_delegation _ _ _ _).1 hd) rfl
          (fun e => by simpa [e] using hs)
    | .map kvs =>
      simp only [deCertificate, Option.bind_eq_bind, Option.bind_eq_some_iff] at h
      obtain ⟨m, hm, dl, hdl, a, ha, a', ha', b, hb, b', hb', h⟩ := h
      cases h
      obtain ⟨h1, h2⟩ := (visitMap_fields certificateFields_nodup kvs m).1 hm
      have h0 := (h2 _ _).1 ha
      have h1' := (h2 _ _).1 hb
      have ht := (C54_tree _ _ _).1 ha'
      have hs := (deBytes_iff _ _ _).1 hb'
      cases e : m 2 with
      | none =>
        rw [e] at hdl
        cases hdl
        exact .map2 h1 h0 h1' (fun x hx => by rw [(h2 _ _).2 hx] at e; cases e) ht hs rfl
      | some d =>
        rw [e] at hdl
        simp only [Option.elim_some, Option.map_eq_some_iff] at hdl
        obtain ⟨y, hy, rfl⟩ := hdl
        exact .map3 h1 h0 h1' ((h2 _ _).1 e) ht hs ((C54_delegation _ _ _ _).1 hy) rfl
    | .u64 _ => cases h
    | .bytes _ _ => cases h
    | .str _ _ => cases h
    | .other => cases h
    | .seq [] => cases h
    | .seq [_] => cases h
  · intro h
    obtain ⟨ct, cs, cd⟩ := c
    cases h with
    | seq2 ha hb hd =>
      subst hd
      simp only [deCertificate, (C54_tree _ _ _).2 ha, (deBytes_iff _ _ _).2 hb, Option.bind_eq_bind, Option.bind_some]
    | seq3 ha hb hx hd hs =>
      subst hd
      simp only [deCertificate, (C54_tree _ _ _).2 ha, (deBytes_iff _ _ _).2 hb, (C54_delegation _ _ _ _).2 hx,
        Option.bind_eq_bind, Option.bind_some]
      rw [if_neg (fun h => h.2 (hs h.1))]
    | map2 hr h0 h1 h2 ha hb hd =>
      subst hd
      obtain ⟨m, g2, g3⟩ := visitMap_some certificateFields_nodup hr
      change visitMap [str "tree", str "signature", str "delegation"] _ _ = _ at g2
      have : m 2 = none := by
        cases e : m 2 with
        | none => rfl
        | some x => exact absurd ((g3 _ _).1 e) (h2 x)
      simp only [deCertificate, g2, this, (g3 _ _).2 h0, (g3 _ _).2 h1, (C54_tree _ _ _).2 ha, (deBytes_iff _ _ _).2 hb,
        Option.elim_none, Option.bind_eq_bind, Option.bind_some]
    | map3 hr h0 h1 h2 ha hb hx hd =>
      subst hd
      obtain ⟨m, g2, g3⟩ := visitMap_some certificateFields_nodup hr
      change visitMap [str "tree", str "signature", str "delegation"] _ _ = _ at g2
      simp only [deCertificate, g2, (g3 _ _).2 h2, (g3 _ _).2 h0, (g3 _ _).2 h1, (C54_tree _ _ _).2 ha,
        (deBytes_iff _ _ _).2 hb, (C54_delegation _ _ _ _).2 hx, Option.bind_eq_bind, Option.bind_some, Option.map_some, Option.elim_some]

/-! ## Round trip -/

theorem isTree_lent (s : SdStorage) (t : HashTree) : IsTree s (serTree t).lent t := by
  induction t with
  | empty => exact .empty
  | fork l r ihl ihr => exact .fork ihl ihr
  | labeled l t ih => exact .labeled .bytes ih
  | leaf b => exact .leaf .bytes
  | pruned h => exact .pruned .bytes

/-- **C54.** What `Serialize` writes, `Deserialize` reads back, for owned, borrowed and copy-on-write storage, when the
format lends strings (as serde_cbor does reading a slice). -/
theorem C54_roundtrip (strict : Bool) (s : SdStorage) :
    (∀ t, deTree s (serTree t).lent = some t) ∧
    (∀ d, deDelegation strict s (serDelegation d).lent = some d) ∧
    (∀ c, deCertificate strict s (serCertificate c).lent = some c) := by
  have hd : ∀ d, deDelegation strict s (serDelegation d).lent = some d := by
    intro d
    cases s <;> rfl
  refine ⟨fun t => (C54_tree _ _ _).2 (isTree_lent s t), hd, fun c => ?_⟩
  obtain ⟨t, sg, d⟩ := c
  cases d with
  | none =>
    have e : deCertificate strict s (serCertificate ⟨t, sg, none⟩).lent =
        (deTree s (serTree t).lent).bind (fun tree => some (Certificate.mk tree sg none)) := by
      cases s <;> rfl
    rw [e, (C54_tree _ _ _).2 (isTree_lent s t)]
    rfl
  | some d =>
    have e : deCertificate strict s (serCertificate ⟨t, sg, some d⟩).lent =
        (deTree s (serTree t).lent).bind (fun tree => some (Certificate.mk tree sg (some d))) := by
      cases s <;> rfl
    rw [e, (C54_tree _ _ _).2 (isTree_lent s t)]
    rfl

/-! ## serde_cbor's output is what ic-cbor reads -/

/-- **C54.** The CBOR encoding whose reading by `from_cbor` is the subject of C36 and C37 is what serde_cbor writes for
these `Serialize` implementations. -/
theorem C54_cbor : (∀ t, encTree t = (serTree t).cbor) ∧ (∀ d, encDelegation d = (serDelegation d).cbor) ∧
    (∀ c, encCertificate c = (serCertificate c).cbor) := by
  have ht : ∀ t, encTree t = (serTree t).cbor := by
    intro t
    induction t with
    | empty => rfl
    | fork l r ihl ihr => simp [encTree, serTree, Sd.cbor, Sd.cborSeq, ihl, ihr]
    | labeled l t ih => simp [encTree, serTree, Sd.cbor, Sd.cborSeq, ih]
    | leaf b => simp [encTree, serTree, Sd.cbor, Sd.cborSeq]
    | pruned h => simp [encTree, serTree, Sd.cbor, Sd.cborSeq]
  have hd : ∀ d, encDelegation d = (serDelegation d).cbor := by
    intro d
    simp [encDelegation, serDelegation, Sd.cbor, Sd.cborMap, Sd.cborPair]
  refine ⟨ht, hd, fun c => ?_⟩
  obtain ⟨t, sg, d⟩ := c
  cases d <;> simp [encCertificate, serCertificate, Sd.cbor, Sd.cborMap, Sd.cborPair, ht, hd]

/-- **C54**, both readers: a tree written by serde_cbor is read back by ic-cbor, and by serde, as the same tree. -/
theorem C54_readers_agree (m : Machine) (s : SdStorage) (t : HashTree) (hm : 32 < m.usize) (hf : t.Fits m)
    (hs : t.height + 3 ≤ m.stack) :
    treeFromCbor m (serTree t).cbor = some (.ok t) ∧ deTree s (serTree t).lent = some t := by
  refine ⟨?_, (C54_tree _ _ _).2 (isTree_lent s t)⟩
  rw [← C54_cbor.1 t]
  exact (C36_tree_roundtrip m t hm hf hs).1

/-! ### Values both readers see -/

mutual
/-- A CBOR value as serde_cbor hands it to a visitor. ic-cbor does not keep apart byte strings and text; they are handed
on as lent byte strings (for the visitors here it makes no difference). -/
def toSd : CborValue → Sd
  | .unsigned n => .u64 n.val
  | .signed _ _ => .other
  | .bytes b => .bytes true b
  | .tag .empty => .u64 0
  | .tag .fork => .u64 1
  | .tag .labelled => .u64 2
  | .tag .leaf => .u64 3
  | .tag .pruned => .u64 4
  | .array vs => .seq (toSdSeq vs)
  | .map kvs => .map (toSdMap kvs)
def toSdSeq : List CborValue → List Sd
  | [] => []
  | v :: vs => toSd v :: toSdSeq vs
def toSdMap : List (Bytes × CborValue) → List (Sd × Sd)
  | [] => []
  | e :: es => toSdPair e :: toSdMap es
def toSdPair : Bytes × CborValue → Sd × Sd
  | (k, v) => (.bytes true k, toSd v)
end

/-- Numbers up to four are written in the short form (ic-cbor takes only those for node kinds). -/
inductive ShortTags : CborValue → Prop
  | unsigned {n} : 4 < n.val → ShortTags (.unsigned n)
  | signed {w n} : ShortTags (.signed w n)
  | bytes {b} : ShortTags (.bytes b)
  | tag {t} : ShortTags (.tag t)
  | array {vs} : (∀ v ∈ vs, ShortTags v) → ShortTags (.array vs)
  | map {kvs} : ShortTags (.map kvs)

theorem toSd_seq {v : CborValue} {xs : List Sd} (h : toSd v = .seq xs) : ∃ vs, v = .array vs ∧ toSdSeq vs = xs := by
  cases v with
  | array vs => rw [toSd] at h; exact ⟨vs, rfl, by simpa using h⟩
  | tag t => cases t <;> simp [toSd] at h
  | _ => simp [toSd] at h

theorem toSd_tag {v : CborValue} (hv : ShortTags v) {n : Nat} (hn : n ≤ 4) (h : toSd v = .u64 n) :
    v = .tag (match n with | 0 => .empty | 1 => .fork | 2 => .labelled | 3 => .leaf | _ => .pruned) := by
  cases hv with
  | unsigned hu => simp [toSd] at h; omega
  | @tag t =>
    cases t <;> simp [toSd] at h <;> subst h <;> rfl
  | _ => simp [toSd] at h

theorem toSd_bytes {v : CborValue} {b : Bytes} (h : IsBytes .slice (toSd v) b) : v = .bytes b := by
  cases v with
  | bytes c => rw [toSd] at h; cases h; rfl
  | tag t => cases t <;> rw [toSd] at h <;> cases h
  | unsigned n => rw [toSd] at h; cases h
  | signed w n => rw [toSd] at h; cases h
  | array vs => rw [toSd] at h; cases h
  | map kvs => rw [toSd] at h; cases h

theorem toSdSeq_cons {vs : List CborValue} {x : Sd} {xs : List Sd} (h : toSdSeq vs = x :: xs) :
    ∃ v vs', vs = v :: vs' ∧ toSd v = x ∧ toSdSeq vs' = xs := by
  cases vs with
  | nil => simp [toSdSeq] at h
  | cons v vs => rw [toSdSeq] at h; injection h with h1 h2; exact ⟨v, vs, rfl, h1, h2⟩

theorem toSdSeq_nil {vs : List CborValue} (h : toSdSeq vs = []) : vs = [] := by
  cases vs with
  | nil => rfl
  | cons v vs => simp [toSdSeq] at h

theorem cbor_of_serde {d : Sd} {t : HashTree} (h : IsTree .slice d t) : ∀ v, toSd v = d → ShortTags v → cborToTree v = .ok t := by
  induction h with
  | empty =>
    intro v hv hs
    obtain ⟨vs, rfl, h1⟩ := toSd_seq hv
    obtain ⟨a, vs, rfl, h2, h3⟩ := toSdSeq_cons h1
    cases hs with | array hs =>
    rw [toSd_tag (hs a (by simp)) (by decide) h2]
    simp only [cborToTree]
  | fork _ _ ih1 ih2 =>
    intro v hv hs
    obtain ⟨vs, rfl, h1⟩ := toSd_seq hv
    obtain ⟨a, vs, rfl, h2, h3⟩ := toSdSeq_cons h1
    obtain ⟨l, vs, rfl, h4, h5⟩ := toSdSeq_cons h3
    obtain ⟨r, vs, rfl, h6, h7⟩ := toSdSeq_cons h5
    cases hs with | array hs =>
    rw [toSd_tag (hs a (by simp)) (by decide) h2]
    simp only [cborToTree, ih1 l h4 (hs l (by simp)), ih2 r h6 (hs r (by simp))]
  | labeled hb _ ih =>
    intro v hv hs
    obtain ⟨vs, rfl, h1⟩ := toSd_seq hv
    obtain ⟨a, vs, rfl, h2, h3⟩ := toSdSeq_cons h1
    obtain ⟨l, vs, rfl, h4, h5⟩ := toSdSeq_cons h3
    obtain ⟨r, vs, rfl, h6, h7⟩ := toSdSeq_cons h5
    cases hs with | array hs =>
    rw [toSd_tag (hs a (by simp)) (by decide) h2, toSd_bytes (v := l) (by rw [h4]; exact hb)]
    simp only [cborToTree, ih r h6 (hs r (by simp))]
  | leaf hb =>
    intro v hv hs
    obtain ⟨vs, rfl, h1⟩ := toSd_seq hv
    obtain ⟨a, vs, rfl, h2, h3⟩ := toSdSeq_cons h1
    obtain ⟨l, vs, rfl, h4, h5⟩ := toSdSeq_cons h3
    cases hs with | array hs =>
    rw [toSd_tag (hs a (by simp)) (by decide) h2, toSd_bytes (v := l) (by rw [h4]; exact hb)]
    simp only [cborToTree]
  | @pruned d h hb =>
    intro v hv hs
    obtain ⟨vs, rfl, h1⟩ := toSd_seq hv
    obtain ⟨a, vs, rfl, h2, h3⟩ := toSdSeq_cons h1
    obtain ⟨l, vs, rfl, h4, h5⟩ := toSdSeq_cons h3
    cases hs with | array hs =>
    rw [toSd_tag (hs a (by simp)) (by decide) h2, toSd_bytes (v := l) (by rw [h4]; exact hb)]
    simp [cborToTree, h.2]

/-- **C54**, the two readers: a CBOR value that serde (with borrowed storage) accepts as a tree, ic-cbor reads as the same
tree, provided small numbers are in the short form. -/
theorem C54_ic_cbor_follows (v : CborValue) (hv : ShortTags v) (t : HashTree) (h : deTree .slice (toSd v) = some t) :
    cborToTree v = .ok t := cbor_of_serde ((C54_tree _ _ _).1 h) v rfl hv

/-- **C54**, counterexample to the converse: ic-cbor accepts any further elements in a node, which serde rejects, so a
tree has many encodings for ic-cbor. -/
theorem C54_counterexample_extra (v : CborValue) :
    cborToTree (.array [.tag .empty, v]) = .ok .empty ∧ ∀ s, deTree s (toSd (.array [.tag .empty, v])) = none := by
  constructor
  · simp only [cborToTree]
  · intro s
    simp [toSd, toSdSeq, deTree]

/-! ## Where it fails -/

/-- **C54**, counterexample: no tree with a pruned node can be read from a format that cannot lend strings out of its
input (a reader instead of a slice, or JSON), whatever the storage: serialising it and reading it back fails. -/
theorem C54_counterexample_pruned (s : SdStorage) (h : Hash) : deTree s (serTree (.pruned h)) = none := rfl

/-- Without pruned nodes, owned storage can be read from every format. -/
theorem C54_owned_without_pruned (t : HashTree) (h : HashTree.Full t) : deTree .vec (serTree t) = some t := by
  rw [C54_tree]
  induction t with
  | empty => exact .empty
  | fork l r ihl ihr => exact .fork (ihl h.1) (ihr h.2)
  | labeled l t ih => exact .labeled .ownedBytes (ih h)
  | leaf b => exact .leaf .ownedBytes
  | pruned _ => exact h.elim

theorem hexUpper_length (b : Bytes) : (hexUpper b).length = 2 * b.length := by
  induction b with
  | nil => rfl
  | cons x b ih => simp only [hexUpper, List.flatMap_cons, List.length_append] at ih ⊢; rw [ih]; simp; omega

/-- **C54**, labels: written and read back in a binary format they are the same; in a human-readable format they are
written in hexadecimal and read as they stand, so every label but the empty one comes back changed. -/
theorem C54_counterexample_label (b : Bytes) :
    deLabel .vec (serLabel false b) = some b ∧ (deLabel .vec (serLabel true b) = some b ↔ b = []) := by
  refine ⟨rfl, ?_⟩
  constructor
  · intro h
    have e : hexUpper b = b := by simpa [deLabel, serLabel, deBytes] using h
    have := hexUpper_length b
    rw [e] at this
    exact List.eq_nil_of_length_eq_zero (by omega)
  · rintro rfl; rfl

/-! ## Concrete cases -/

/-- A certificate with a delegation, its fields in another order, given by name, by number and as bytes. -/
example : deCertificate true .vec (.map [(.u64 2, .map [(.str false (str "certificate"), .bytes false [7]),
      (.str false (str "subnet_id"), .seq [.u64 1, .u64 2])]),
    (.bytes false (str "signature"), .str false (str "x")), (.str false (str "tree"), .seq [.u64 3, .bytes false [9]])]) =
    some ⟨.leaf [9], str "x", some ⟨[1, 2], [7]⟩⟩ := rfl

/-- A field twice, a missing field, an unknown field. -/
example : deDelegation true .vec (.map [(.u64 0, .bytes false []), (.str false (str "subnet_id"), .bytes false [])]) = none ∧
    deDelegation true .vec (.map [(.u64 0, .bytes false [])]) = none ∧
    deDelegation true .vec (.map [(.u64 0, .bytes false []), (.u64 1, .bytes false []), (.u64 2, .bytes false [])]) = none :=
  ⟨rfl, rfl, rfl⟩

example : ShortTags (.array [.tag .fork, .array [.tag .empty], .array [.tag .leaf, .bytes [1]]]) ∧
    deTree .slice (toSd (.array [.tag .fork, .array [.tag .empty], .array [.tag .leaf, .bytes [1]]])) = some (.fork .empty (.leaf [1])) := by
  refine ⟨?_, rfl⟩
  refine .array (fun v hv => ?_)
  simp only [List.mem_cons, List.not_mem_nil, or_false] at hv
  rcases hv with rfl | rfl | rfl
  · exact .tag
  · exact .array (by simp; exact .tag)
  · exact .array (by simp; exact ⟨.tag, .bytes⟩)

end Verif.Props
