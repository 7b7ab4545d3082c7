import Verif.Spec.JsVerify
import Verif.Props.HashTree
import Verif.Props.RbTree
import Verif.Model.Leb
import Verif.Lemmas.Cbor
import Verif.Props.Cbor
import Mathlib.Tactic.Ring

set_option linter.unusedSimpArgs false
set_option linter.unusedSectionVars false

/-!
# Properties C58 (`certificate-verification-js`) and C59 (the certified counter)
-/

namespace Verif.Props
open Verif HashTree

/-! ### agent-js lookups -/

theorem jsFindLabel_append (l : Bytes) (a b : List HashTree) :
    jsFindLabel l (a ++ b) = (jsFindLabel l a).or (jsFindLabel l b) := by
  induction a with
  | nil => simp [jsFindLabel]
  | cons x a ih =>
    cases x with
    | labeled k t =>
      simp only [List.cons_append, jsFindLabel]
      split
      · simp
      · exact ih
    | _ => simp only [List.cons_append, jsFindLabel]; exact ih

theorem jsFind_hasNode {l : Bytes} {t s : HashTree} (h : jsFindLabel l (jsFlatten t) = some s) {p : List Bytes} {n : HashTree}
    (hn : HasNode s p n) : HasNode t (l :: p) n := by
  induction t with
  | empty => simp [jsFlatten, jsFindLabel] at h
  | leaf b => simp [jsFlatten, jsFindLabel] at h
  | pruned d => simp [jsFlatten, jsFindLabel] at h
  | labeled k t _ =>
    simp only [jsFlatten, jsFindLabel] at h
    split at h
    · next e => cases h; subst e; exact .down hn
    · cases h
  | fork a b iha ihb =>
    rw [jsFlatten, jsFindLabel_append] at h
    cases ha : jsFindLabel l (jsFlatten a) with
    | some s' => rw [ha] at h; simp at h; subst h; exact .left (iha ha)
    | none => rw [ha] at h; simp at h; exact .right (ihb h)

theorem jsLookup_hasNode {p : List Bytes} {t n : HashTree} (h : jsLookup p t = some n) : HasNode t p n := by
  induction p generalizing t with
  | nil => simp [jsLookup] at h; subst h; exact .here _
  | cons l p ih =>
    simp only [jsLookup] at h
    cases hl : jsFindLabel l (jsFlatten t) with
    | none => rw [hl] at h; cases h
    | some s => rw [hl] at h; exact jsFind_hasNode hl (ih h)

theorem jsFind_none {l : Bytes} {t : HashTree} (h : l ∉ t.labels) : jsFindLabel l (jsFlatten t) = none := by
  induction t with
  | empty => rfl
  | leaf b => rfl
  | pruned d => rfl
  | labeled k t _ =>
    simp only [HashTree.labels, List.mem_singleton] at h
    simp [jsFlatten, jsFindLabel, h]
  | fork a b iha ihb =>
    simp only [HashTree.labels, List.mem_append, not_or] at h
    rw [jsFlatten, jsFindLabel_append, iha h.1, ihb h.2]; rfl

theorem Prunes.labels_sub [SHA] {w T : HashTree} (h : Prunes w T) : ∀ x ∈ w.labels, x ∈ T.labels := by
  induction h with
  | prune t => intro x hx; simp [HashTree.labels] at hx
  | empty => simp
  | leaf b => simp
  | labeled _ _ => simp [HashTree.labels]
  | fork _ _ ih1 ih2 =>
    intro x hx
    simp only [HashTree.labels, List.mem_append] at hx ⊢
    rcases hx with hx | hx
    · exact .inl (ih1 x hx)
    · exact .inr (ih2 x hx)

theorem jsLookup_of_hasNode [SHA] {w T : HashTree} {b : Bool} (hp : Prunes w T) (hT : WF b T) {p : List Bytes} {n : HashTree}
    (h : HasNode w p n) : jsLookup p w = some n := by
  induction h generalizing T b with
  | here t => rfl
  | left h ih =>
    cases hp with
    | fork hp1 hp2 =>
      have := ih hp1 hT.1
      rw [jsLookup] at this ⊢
      rw [jsFlatten, jsFindLabel_append]
      cases hl : jsFindLabel _ (jsFlatten _) with
      | none => rw [hl] at this; cases this
      | some s => rw [hl] at this; simpa using this
  | @right l r s p n h ih =>
    cases hp with
    | fork hp1 hp2 =>
      have := ih hp2 hT.2.1
      rw [jsLookup] at this ⊢
      rw [jsFlatten, jsFindLabel_append, jsFind_none]
      · simpa using this
      · intro hs
        exact absurd (hT.2.2 s (Prunes.labels_sub hp1 s hs) s (Prunes.labels_sub hp2 s h.mem_labels)) (lt_irrefl _)
  | down h ih =>
    cases hp with
    | labeled hp => simp only [jsLookup, jsFlatten, jsFindLabel, if_true]; exact ih hp hT

/-- The buffer found is a leaf of the tree. -/
theorem jsLookupBuffer_hasLeaf {p : List Bytes} {t : HashTree} {v : Bytes} (h : jsLookupBuffer p t = some v) : HasLeaf t p v := by
  unfold jsLookupBuffer at h
  split at h
  · next b hb => cases h; exact jsLookup_hasNode hb
  · cases h

theorem HasNode.of_prunes [SHA] {w T : HashTree} (hp : Prunes w T) {p : List Bytes} {n : HashTree} (h : HasNode w p n) :
    ∃ n', HasNode T p n' ∧ Prunes n n' := by
  induction h generalizing T with
  | here t => exact ⟨T, .here _, hp⟩
  | left h ih =>
    cases hp with
    | fork hp1 hp2 => obtain ⟨n', a, b⟩ := ih hp1; exact ⟨n', .left a, b⟩
  | right h ih =>
    cases hp with
    | fork hp1 hp2 => obtain ⟨n', a, b⟩ := ih hp2; exact ⟨n', .right a, b⟩
  | down h ih =>
    cases hp with
    | labeled hp => obtain ⟨n', a, b⟩ := ih hp; exact ⟨n', .down a, b⟩

theorem jsValidateTime_ok (c : HashTree) (off now : Int) : jsValidateTime c off now = .ok () ↔
    ∃ time ns, jsLookupBuffer [str "time"] c = some time ∧ jsLebDecode time = some ns ∧
      now - off ≤ (ns / 1000000 : Nat) ∧ ((ns / 1000000 : Nat) : Int) ≤ now + off := by
  unfold jsValidateTime
  cases h1 : jsLookupBuffer [str "time"] c with
  | none => simp
  | some time =>
    cases h2 : jsLebDecode time with
    | none => simp [h2]
    | some ns =>
      simp only [Option.bind_some, h2]
      by_cases a : ((ns / 1000000 : Nat) : Int) - off > now
      · rw [if_pos a]
        simp only [reduceCtorEq, Option.some.injEq, false_iff]
        rintro ⟨_, _, rfl, e, h3, h4⟩
        rw [h2] at e; cases e; omega
      · rw [if_neg a]
        by_cases b : ((ns / 1000000 : Nat) : Int) + off < now
        · rw [if_pos b]
          simp only [reduceCtorEq, Option.some.injEq, false_iff]
          rintro ⟨_, _, rfl, e, h3, h4⟩
          rw [h2] at e; cases e; omega
        · rw [if_neg b]
          simp only [true_iff]
          exact ⟨time, ns, rfl, h2, by omega, by omega⟩

section
variable [SHA] [AgentLib]

omit [AgentLib] in
theorem jsValidateTree_ok (t c : HashTree) (cid : Bytes) : jsValidateTree t c cid = .ok () ↔
    jsLookupBuffer [str "canister", cid, str "certified_data"] c = some t.digest.1 := by
  unfold jsValidateTree
  cases jsLookupBuffer [str "canister", cid, str "certified_data"] c with
  | none => simp
  | some d => by_cases e : d = t.digest.1 <;> simp [e]

/-- **C58** `verifyCertification` returns a tree exactly if the certificate is valid, the tree is the one encoded, the time in
the certificate, in whole milliseconds, is at most the offset before or after now, and the certificate gives as certified
data of the canister the digest of the tree. -/
theorem C58_accepts_iff (cid cert enc root : Bytes) (off now : Int) (tree : HashTree) :
    verifyCertification cid cert enc root off now = .ok tree ↔
      ∃ c time ns, AgentLib.create cert cid root = some c ∧ AgentLib.decodeTree enc = some tree ∧
        jsLookupBuffer [str "time"] c = some time ∧ jsLebDecode time = some ns ∧
        now - off ≤ (ns / 1000000 : Nat) ∧ ((ns / 1000000 : Nat) : Int) ≤ now + off ∧
        jsLookupBuffer [str "canister", cid, str "certified_data"] c = some tree.digest.1 := by
  unfold verifyCertification
  cases hc : AgentLib.create cert cid root with
  | none => simp
  | some c =>
    cases ht : AgentLib.decodeTree enc with
    | none => simp
    | some t =>
      have key : (do jsValidateTime c off now; jsValidateTree t c cid; return t : Except JsError HashTree) = .ok tree ↔
          jsValidateTime c off now = .ok () ∧ jsValidateTree t c cid = .ok () ∧ t = tree := by
        cases jsValidateTime c off now with
        | error e => constructor
                     · intro h; cases h
                     · rintro ⟨h, _⟩; cases h
        | ok u =>
          cases jsValidateTree t c cid with
          | error e => constructor
                       · intro h; cases h
                       · rintro ⟨_, h, _⟩; cases h
          | ok u => exact ⟨fun h => ⟨rfl, rfl, by cases h; rfl⟩, fun h => by rw [h.2.2]; rfl⟩
      refine key.trans ?_
      rw [jsValidateTime_ok, jsValidateTree_ok]
      constructor
      · rintro ⟨⟨time, ns, a1, a2, a3, a4⟩, b, rfl⟩
        exact ⟨c, time, ns, rfl, rfl, a1, a2, a3, a4, b⟩
      · rintro ⟨c', time, ns, h1, h2, a1, a2, a3, a4, b⟩
        cases h1; cases h2
        exact ⟨⟨time, ns, a1, a2, a3, a4⟩, b, rfl⟩

/-- **C58** Against a genuine certificate, whatever is found in the returned tree is in the tree whose digest the canister
certified, or a collision is exhibited. -/
theorem C58_data (cid cert enc root : Bytes) (off now : Int) (tree T c : HashTree) (hT : T.WellFormed)
    (h : verifyCertification cid cert enc root off now = .ok tree) (hc : AgentLib.create cert cid root = some c)
    (hd : jsLookupBuffer [str "canister", cid, str "certified_data"] c = some T.digest.1)
    (p : List Bytes) (v : Bytes) (hv : jsLookupBuffer p tree = some v) :
    HasLeaf T p v ∨ CollisionIn tree.hashed T.hashed := by
  obtain ⟨c', _, _, e1, _, _, _, _, _, e7⟩ := (C58_accepts_iff ..).1 h
  rw [hc] at e1; cases e1
  rw [hd] at e7
  have hdig : tree.digest = T.digest := Subtype.ext (Option.some.inj e7).symm
  rcases digest_eq_prunes hT.full hdig with hp | hcoll
  · left
    obtain ⟨n', a, b⟩ := HasNode.of_prunes hp (jsLookupBuffer_hasLeaf hv)
    cases b
    exact a
  · exact .inr hcoll

omit [AgentLib] in
theorem lookupLabel_of_hasNode {w T : HashTree} {b : Bool} (hp : Prunes w T) (hT : WF b T) {x : Bytes} {m : HashTree}
    (h : HasNode w [x] m) : w.lookupLabel x = .found m := by
  induction w generalizing T b with
  | empty => cases h
  | leaf _ => cases h
  | pruned _ => cases h
  | labeled l t _ =>
    cases h with
    | down h => cases h; simp [lookupLabel, cmpB_eq.2 rfl]
  | fork l r ihl ihr =>
    cases hp with
    | fork hp1 hp2 =>
      obtain ⟨w1, w2, hs⟩ := hT
      rw [lookupLabel]
      cases h with
      | left h => rw [ihl hp1 w1 h]
      | right h =>
        rw [ihr hp2 w2 h]
        have ok := lookupLabel_ok w1 hp1 x
        have hx := Prunes.labels_sub hp2 x h.mem_labels
        obtain ⟨k, hk⟩ := labels_ne_nil w1
        cases e : l.lookupLabel x with
        | greater => rfl
        | unknown => rfl
        | less =>
          rw [e] at ok
          exact absurd (ok k hk) (lt_asymm (hs k hk x hx))
        | absent =>
          rw [e] at ok
          obtain ⟨_, _, b, hb, hbx⟩ := ok
          exact absurd hbx (lt_asymm (hs b hb x hx))
        | found n =>
          have := (Prunes.labels_sub hp1) x (lookupLabel_found e).mem_labels
          exact absurd (hs x this x hx) (lt_irrefl _)

omit [AgentLib] in
theorem lookupSubtree_of_hasNode {w T : HashTree} {b : Bool} (hp : Prunes w T) (hT : WF b T) {p : List Bytes} {n : HashTree}
    (h : HasNode w p n) : w.lookupSubtree p = .found n := by
  induction p generalizing w T b with
  | nil => cases h; rfl
  | cons x p ih =>
    obtain ⟨m, h1, h2⟩ := HasNode.split (p := [x]) (q := p) h
    rw [lookupSubtree, lookupLabel_of_hasNode hp hT h1]
    obtain ⟨n', a, c⟩ := HasNode.of_prunes hp h1
    exact ih c (a.wf hT) h2

omit [AgentLib] in
/-- **C58** The lookups of the JavaScript library and of the Rust crate find the same data on every pruning of a well-formed
tree, in particular on every witness and every genuine certificate. -/
theorem C58_lookups_agree (w T : HashTree) (hT : T.WellFormed) (hp : Prunes w T) (p : List Bytes) (v : Bytes) :
    jsLookupBuffer p w = some v ↔ w.lookupPath p = .found v := by
  rw [C04_found_iff]
  constructor
  · intro h; exact lookupSubtree_of_hasNode hp hT (jsLookupBuffer_hasLeaf h)
  · intro h
    unfold jsLookupBuffer
    rw [jsLookup_of_hasNode hp hT (lookupSubtree_found h)]

omit [SHA] [AgentLib] in
theorem jsLeb_of_lebRead (shift : Nat) (b : Bytes) (n : Nat) (h : lebReadFrom shift b = some n) :
    ∃ m, jsLebDecode b = some m ∧ n = m * 2 ^ shift := by
  induction b generalizing shift n with
  | nil => simp [lebReadFrom] at h
  | cons x b ih =>
    rw [lebReadFrom] at h
    split at h
    · cases h
    · rw [jsLebDecode]
      split at h
      · next hx =>
        cases h
        have : x.toNat < 128 := by rw [UInt8.lt_iff_toNat_lt] at hx; exact hx
        have hx' : x < 0x80 := hx
        rw [if_pos hx', Nat.mod_eq_of_lt this]
        exact ⟨_, rfl, rfl⟩
      · next hx =>
        have hx' : ¬ x < 0x80 := hx
        rw [if_neg hx']
        rw [Option.map_eq_some_iff] at h
        obtain ⟨k, h1, h2⟩ := h
        obtain ⟨m, h3, h4⟩ := ih _ _ h1
        refine ⟨_, by rw [h3]; rfl, ?_⟩
        rw [← h2, h4, pow_add, show (2 : Nat) ^ 7 = 0x80 by decide]
        ring

omit [SHA] [AgentLib] in
/-- **C58** Every time the Rust crate can read, the JavaScript library reads as the same number. -/
theorem C58_time (b : Bytes) (n : Nat) (h : lebRead b = some n) : jsLebDecode b = some n := by
  obtain ⟨m, h1, h2⟩ := jsLeb_of_lebRead 0 b n h
  simpa [h2] using h1

end

/-! ### The counter -/

section
variable [SHA]

/-- the tree of a canister whose counter was incremented: `count` is the one entry -/
def counterRb (n : UInt32) : Rb Bytes := (Rb.newNode (str "count") (sha (beU32 n)).1).setColor .black

theorem insert_nil (n : UInt32) : (Rb.nil : Rb Bytes).insert (str "count") (sha (beU32 n)).1 = some (counterRb n) := rfl

theorem insert_counterRb (n m : UInt32) : (counterRb m).insert (str "count") (sha (beU32 n)).1 = some (counterRb n) := by
  simp [counterRb, Rb.newNode, Rb.setColor, Rb.insert, Rb.insertGo, cmpB_eq.2 rfl, Rb.mk, Rb.balance, Rb.isRed, Rb.left, Rb.right,
    Rb.computeHash, Rb.dataHash]

theorem witness_nil : (Rb.nil : Rb Bytes).witness (str "count") = some .empty := rfl

theorem witness_counterRb (n : UInt32) :
    (counterRb n).witness (str "count") = some (.labeled (str "count") (.leaf (sha (beU32 n)).1)) := by
  simp [counterRb, Rb.newNode, Rb.setColor, Rb.witness, Rb.nestedWitness, Rb.lookupWitness, cmpB_eq.2 rfl, Rb.threeWayFork,
    Rb.childHashTree, AsHashTree.asHashTree]

theorem rootHash_counterRb (n : UInt32) :
    (counterRb n).rootHashRb = (HashTree.labeled (str "count") (.leaf (sha (beU32 n)).1)).digest := rfl

structure CounterInv (checks : Bool) (evs : List CounterEvent) (s : Counter) : Prop where
  count : s.count = counterValue checks (incsAtEnd evs)
  fresh : incsAtEnd evs = 0 → s.tree = .nil
  tree : incsAtEnd evs ≠ 0 → s.tree = counterRb s.count
  last : incsAtEnd evs ≠ 0 → incsAtLastInc evs = some (incsAtEnd evs)
  never : incsAtLastInc evs = none → s.certifiedData = []
  data : ∀ n, incsAtLastInc evs = some n → s.certifiedData = (counterRb (counterValue checks n)).rootHashRb.1

omit [SHA]
theorem incsAtEnd_inc (evs : List CounterEvent) : incsAtEnd (evs ++ [.inc]) = incsAtEnd evs + 1 := by
  simp [incsAtEnd]
theorem incsAtEnd_upgrade (evs : List CounterEvent) : incsAtEnd (evs ++ [.upgrade]) = 0 := by
  simp [incsAtEnd]
theorem incsAtLastInc_inc (evs : List CounterEvent) : incsAtLastInc (evs ++ [.inc]) = some (incsAtEnd evs + 1) := by
  simp [incsAtLastInc, incsAtEnd]
theorem incsAtLastInc_upgrade (evs : List CounterEvent) : incsAtLastInc (evs ++ [.upgrade]) = incsAtLastInc evs := by
  simp [incsAtLastInc]

theorem counterValue_succ (checks : Bool) (n : Nat) (h : (checks && counterValue checks n == 0xFFFFFFFF) = false) :
    counterValue checks n + 1 = counterValue checks (n + 1) := by
  cases checks with
  | false =>
    simp only [counterValue, Bool.false_eq_true, if_false]
    rw [UInt32.ofNat_add]; rfl
  | true =>
    simp only [counterValue, if_true, Bool.true_and] at h ⊢
    have hn : n < 0xFFFFFFFF := by
      by_contra hc
      rw [Nat.min_eq_right (by omega)] at h
      exact absurd h (by decide)
    rw [Nat.min_eq_left (by omega), Nat.min_eq_left (by omega), UInt32.ofNat_add]; rfl

theorem counterValue_stuck (checks : Bool) (n : Nat) (h : (checks && counterValue checks n == 0xFFFFFFFF) = true) :
    n ≠ 0 ∧ counterValue checks (n + 1) = counterValue checks n := by
  cases checks with
  | false => cases h
  | true =>
    simp only [counterValue, if_true, Bool.true_and, beq_iff_eq] at h ⊢
    have hn : ¬ n < 0xFFFFFFFF := by
      intro hc
      rw [Nat.min_eq_left (by omega)] at h
      have := congrArg UInt32.toNat h
      rw [UInt32.toNat_ofNat', Nat.mod_eq_of_lt (by omega)] at this
      change n = 0xFFFFFFFF at this
      omega
    exact ⟨by omega, by rw [Nat.min_eq_right (by omega), Nat.min_eq_right (by omega)]⟩

theorem beU32_inj {a b : UInt32} (h : beU32 a = beU32 b) : a = b := by
  have := congrArg beNat h
  unfold beU32 at this
  rw [beNat_beBytes, beNat_beBytes] at this
  · exact UInt32.toNat_inj.1 this
  · exact b.toNat_lt
  · exact a.toNat_lt

end

section
variable [SHA]

theorem counter_inv (checks : Bool) (evs : List CounterEvent) : ∃ s, counterRun checks evs = some s ∧ CounterInv checks evs s := by
  induction evs using List.reverseRecOn with
  | nil =>
    refine ⟨.installed, rfl, ?_, fun _ => rfl, fun h => absurd rfl h, fun h => absurd rfl h, fun _ => rfl, fun n h => ?_⟩
    · cases checks <;> rfl
    · cases h
  | append_singleton evs e ih =>
    obtain ⟨s, hs, inv⟩ := ih
    have hrun : counterRun checks (evs ++ [e]) = (match e with | .inc => s.inc checks | .upgrade => some s.upgrade) := by
      simp only [counterRun, List.foldlM_append] at hs ⊢
      rw [hs]; cases e <;> simp
    cases e with
    | upgrade =>
      refine ⟨s.upgrade, hrun, ?_, fun _ => rfl, fun h => absurd (incsAtEnd_upgrade evs) h, fun h => absurd (incsAtEnd_upgrade evs) h, ?_, ?_⟩
      · rw [incsAtEnd_upgrade]; cases checks <;> rfl
      · rw [incsAtLastInc_upgrade]; exact inv.never
      · rw [incsAtLastInc_upgrade]; exact inv.data
    | inc =>
      cases hc : checks && s.count == 0xFFFFFFFF with
      | true =>
        refine ⟨s, hrun.trans (by simp only [Counter.inc, hc, if_true]), ?_⟩
        rw [inv.count] at hc
        obtain ⟨h1, h2⟩ := counterValue_stuck _ _ hc
        refine ⟨?_, ?_, fun _ => inv.tree h1, fun _ => ?_, ?_, ?_⟩
        · rw [incsAtEnd_inc, h2]; exact inv.count
        · rw [incsAtEnd_inc]; intro h; cases h
        · rw [incsAtEnd_inc, incsAtLastInc_inc]
        · rw [incsAtLastInc_inc]; intro h; cases h
        · rw [incsAtLastInc_inc]; intro n h; cases h
          rw [h2]
          exact inv.data _ (inv.last h1)
      | false =>
        have hins : s.tree.insert (str "count") (sha (beU32 (s.count + 1))).1 = some (counterRb (s.count + 1)) := by
          by_cases h0 : incsAtEnd evs = 0
          · rw [inv.fresh h0]; exact insert_nil _
          · rw [inv.tree h0]; exact insert_counterRb _ _
        have hval : s.count + 1 = counterValue checks (incsAtEnd evs + 1) := by
          rw [inv.count] at hc ⊢; exact counterValue_succ _ _ hc
        refine ⟨⟨s.count + 1, counterRb (s.count + 1), (counterRb (s.count + 1)).rootHashRb.1⟩,
          hrun.trans (by simp [Counter.inc, hc, hins]), ?_⟩
        refine ⟨?_, ?_, fun _ => rfl, fun _ => ?_, ?_, ?_⟩
        · rw [incsAtEnd_inc]; exact hval
        · rw [incsAtEnd_inc]; intro h; cases h
        · rw [incsAtEnd_inc, incsAtLastInc_inc]
        · rw [incsAtLastInc_inc]; intro h; cases h
        · rw [incsAtLastInc_inc]; intro n h; cases h
          rw [hval]

variable [AgentLib]

/-- A certificate the subnet can hand out now for the canister: valid, with the certified data, and recent. -/
structure CurrentCert (cid cert root : Bytes) (data : Bytes) (now : Int) (c : HashTree) : Prop where
  valid : AgentLib.create cert cid root = some c
  data : jsLookupBuffer [str "canister", cid, str "certified_data"] c = some data
  recent : ∃ time ns, jsLookupBuffer [str "time"] c = some time ∧ jsLebDecode time = some ns ∧
    now - 50000 ≤ (ns / 1000000 : Nat) ∧ ((ns / 1000000 : Nat) : Int) ≤ now + 50000

/-- **C59** After any history, the answer of `get_count` with a current certificate is displayed exactly if the counter was
incremented since the last upgrade (or the installation), and then the number displayed is the number of these increments
(modulo 2^32, or at most 2^32-1 with overflow checks). -/
theorem C59_shows (checks : Bool) (evs : List CounterEvent) :
    ∃ s a, counterRun checks evs = some s ∧ s.get = some a ∧
      ∀ (cid cert root : Bytes) (now : Int) (c : HashTree),
      (∀ w, s.tree.witness (str "count") = some w → AgentLib.decodeTree a.2 = some w) →
      CurrentCert cid cert root s.certifiedData now c → counterShow cid cert root now a =
        if incsAtEnd evs = 0 then none else some (counterValue checks (incsAtEnd evs)) := by
  obtain ⟨s, hs, inv⟩ := counter_inv checks evs
  by_cases h0 : incsAtEnd evs = 0
  · have hg : s.get = some (s.count, selfDescribe ++ encTree .empty) := by
      unfold Counter.get; rw [inv.fresh h0, witness_nil]; rfl
    refine ⟨s, _, hs, hg, fun cid cert root now c hdec _ => ?_⟩
    rw [if_pos h0]
    unfold counterShow
    split
    · rfl
    · next tree ht =>
      obtain ⟨_, _, _, _, h2, _⟩ := (C58_accepts_iff ..).1 ht
      rw [hdec .empty (by rw [inv.fresh h0, witness_nil])] at h2; cases h2
      rfl
  · have hd := inv.data _ (inv.last h0)
    rw [← inv.count, rootHash_counterRb] at hd
    generalize hw : HashTree.labeled (str "count") (.leaf (sha (beU32 s.count)).1) = w at hd
    have hg : s.get = some (s.count, selfDescribe ++ encTree w) := by
      unfold Counter.get; rw [inv.tree h0, witness_counterRb, hw]; rfl
    refine ⟨s, _, hs, hg, fun cid cert root now c hdec hc => ?_⟩
    rw [if_neg h0]
    obtain ⟨time, ns, r1, r2, r3, r4⟩ := hc.recent
    have hv : verifyCertification cid cert (selfDescribe ++ encTree w) root 50000 now = .ok w :=
      (C58_accepts_iff ..).2 ⟨c, time, ns, hc.valid, hdec w (by rw [inv.tree h0, witness_counterRb, hw]), r1, r2, r3, r4, by rw [hc.data, hd]⟩
    have hl : jsLookupBuffer [str "count"] w = some (sha (beU32 s.count)).1 := by
      subst hw
      simp [jsLookupBuffer, jsLookup, jsFlatten, jsFindLabel]
    unfold counterShow
    simp only [hv, hl, if_true]
    rw [inv.count]

/-- **C59** With a current certificate, no answer of anyone - whatever count and whatever tree - makes the frontend display
another number than the one certified at the last increment, unless it exhibits a collision of SHA-256; if the counter
was never incremented, nothing is displayed. -/
theorem C59_only (checks : Bool) (evs : List CounterEvent) (s : Counter) (hs : counterRun checks evs = some s)
    (cid cert root : Bytes) (now : Int) (c : HashTree) (hc : CurrentCert cid cert root s.certifiedData now c)
    (a : UInt32 × Bytes) (k : UInt32) (h : counterShow cid cert root now a = some k) :
    ∃ n tree, incsAtLastInc evs = some n ∧ AgentLib.decodeTree a.2 = some tree ∧
      (k = counterValue checks n ∨ CollisionIn [beU32 k] [beU32 (counterValue checks n)] ∨
        CollisionIn tree.hashed
          (HashTree.labeled (str "count") (.leaf (sha (beU32 (counterValue checks n))).1)).hashed) := by
  obtain ⟨s', hs', inv⟩ := counter_inv checks evs
  rw [hs] at hs'; cases hs'
  unfold counterShow at h
  split at h
  · cases h
  · next tree ht =>
    obtain ⟨c', _, _, e1, e2, _, _, _, _, e7⟩ := (C58_accepts_iff ..).1 ht
    rw [hc.valid] at e1; cases e1
    cases hn : incsAtLastInc evs with
    | none =>
      have := inv.never hn
      rw [hc.data, this] at e7
      have h32 := tree.digest.2
      rw [← Option.some.inj e7] at h32
      exact absurd h32 (by decide)
    | some n =>
      refine ⟨n, tree, rfl, e2, ?_⟩
      split at h
      · cases h
      · next hh hl =>
        split at h
        · next hk =>
          cases h
          have hd := inv.data _ hn
          rw [rootHash_counterRb] at hd
          rcases C58_data cid cert a.2 root 50000 now tree
            (HashTree.labeled (str "count") (.leaf (sha (beU32 (counterValue checks n))).1)) c (by trivial) ht hc.valid
            (by rw [hc.data, hd]) _ _ hl with hf | hcoll
          · have : hh = (sha (beU32 (counterValue checks n))).1 := by
              cases hf with
              | down hf => cases hf; rfl
            by_cases e : a.1 = counterValue checks n
            · exact .inl e
            · refine .inr (.inl ⟨beU32 a.1, by simp, beU32 (counterValue checks n), by simp, fun e' => e ?_, Subtype.ext (hk.trans this)⟩)
              exact beU32_inj e'
          · exact .inr (.inr hcoll)
        · cases h

end

/-! ### A concrete case -/

section
attribute [local instance] toySHA

/-- A library that accepts every well-encoded tree as a certificate. -/
@[instance_reducible] def toyAgent : AgentLib :=
  ⟨fun cert _ _ => match treeFromCbor exMachine cert with | some (.ok t) => some t | _ => none,
   fun b => match treeFromCbor exMachine b with | some (.ok t) => some t | _ => none⟩
attribute [local instance] toyAgent

def exCounterEvents : List CounterEvent := [.inc, .upgrade, .inc, .inc, .inc]

def exCounterState : Counter :=
  ⟨3, counterRb 3, (counterRb 3).rootHashRb.1⟩

def exCounterTree : HashTree :=
  .fork (.labeled (str "canister") (.labeled [1, 2] (.labeled (str "certified_data") (.leaf exCounterState.certifiedData))))
    (.labeled (str "time") (.leaf [0x80, 0x80, 0xc1, 0xa4, 0x03]))

example : counterRun true exCounterEvents = some exCounterState := by rfl

def exCounterCert : Bytes := selfDescribe ++ encTree exCounterTree

theorem exCounter_current : CurrentCert [1, 2] exCounterCert [] exCounterState.certifiedData 800 exCounterTree := by
  refine ⟨by decide +kernel, by decide +kernel, [0x80, 0x80, 0xc1, 0xa4, 0x03], 881868800, by decide +kernel, by decide +kernel, by decide, by decide⟩

example : (exCounterState.get.bind (counterShow [1, 2] exCounterCert [] 800)) = some 3 := by decide +kernel
/-- 50 seconds after the millisecond of the certificate the answer is still accepted, one millisecond later not. -/
example : (exCounterState.get.bind (counterShow [1, 2] exCounterCert [] 50881)) = some 3 := by decide +kernel
example : (exCounterState.get.bind (counterShow [1, 2] exCounterCert [] 50882)) = none := by decide +kernel
/-- A wrong count is not displayed. -/
example : (exCounterState.get.bind (fun a => counterShow [1, 2] exCounterCert [] 800 (4, a.2))) = none := by decide +kernel
/-- After an upgrade the canister's answer is refused, although the old one is still displayed. -/
example : (exCounterState.upgrade.get.bind (counterShow [1, 2] exCounterCert [] 800)) = none := by decide +kernel
example : exCounterState.upgrade.certifiedData = exCounterState.certifiedData := rfl

end

end Verif.Props
