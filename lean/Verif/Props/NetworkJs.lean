import Verif.Props.Network
import Verif.Props.JsVerify

/-!
# C79: freshness in JavaScript and of the certified counter
-/

namespace Verif

/-- `Certificate.create` of agent-js lets no forgery pass: what it returns has the root hash of a state tree that was signed by the root
subnet or by one in charge of the canister. -/
def Network.AgentGenuine [SHA] [AgentLib] (net : Network) (cert canisterId rootKey : Bytes) : Prop :=
  ∀ c, AgentLib.create cert canisterId rootKey = some c →
    ∃ key S, (key = rootKey ∨ net.inCharge key) ∧ net.signed key S ∧ S.digest = c.digest

/-- Subnets write times as LEB128 numbers of 64 bits. -/
def Network.ReadableTimes (net : Network) : Prop :=
  ∀ key S v, net.signed key S → S.HasLeaf [str "time"] v → ∃ t, lebRead v = some t

/-- A time in nanoseconds whose millisecond is at most `offset` milliseconds away from `now`. -/
def InWindowMs (t : Nat) (now offset : Int) : Prop :=
  now - offset ≤ ((t / 1000000 : Nat) : Int) ∧ ((t / 1000000 : Nat) : Int) ≤ now + offset

end Verif

namespace Verif.Props
open Verif HashTree

section
variable [SHA] [AgentLib]

/-- **C79** in JavaScript: what `verifyCertification` accepts has a root hash that was the certified data of the canister at a time in the
window around `Date.now()`. -/
theorem C79_js {net : Network} {m : Machine} {cid cert enc root : Bytes} {off now : Int} {tree : HashTree}
    (hn : net.Honest m cid root) (ht : net.ReadableTimes) (hg : net.AgentGenuine cert cid root)
    (h : verifyCertification cid cert enc root off now = .ok tree) :
    (∃ t, InWindowMs t now off ∧ net.data t = tree.digest.1) ∨
    ∃ c key S, AgentLib.create cert cid root = some c ∧ net.signed key S ∧ S.digest = c.digest ∧ CollisionIn c.hashed S.hashed := by
  obtain ⟨c, time, ns, e1, -, e3, e4, e5, e6, e7⟩ := (C58_accepts_iff ..).1 h
  obtain ⟨key, S, hk, hs, hd⟩ := hg c e1
  rcases digest_eq_prunes (hn.complete key S hs).full hd.symm with hp | hc
  · have leaf : ∀ {p v}, jsLookupBuffer p c = some v → S.HasLeaf p v := by
      intro p v hl
      obtain ⟨n', a, b⟩ := HasNode.of_prunes hp (jsLookupBuffer_hasLeaf hl)
      cases b
      exact a
    obtain ⟨t, h1⟩ := ht key S time hs (leaf e3)
    have := C58_time time t h1
    rw [e4] at this
    cases this
    exact .inl ⟨ns, ⟨e5, e6⟩, (hn.truthful key S time ns _ hk hs (leaf e3) h1 (leaf e7)).symm⟩
  · exact .inr ⟨c, key, S, e1, hs, hd, hc⟩

/-- **C79** for the certified counter: let `hist t` be what happened to the canister until time `t`. Whatever answer the frontend gets, from
whomever: the number it displays is the one that the counter had at its last increment before some time in the last 50 seconds
(or the next 50). -/
theorem C79_counter {net : Network} {m : Machine} {cid cert root : Bytes} {now : Int} {checks : Bool} {hist : Nat → List CounterEvent}
    (hn : net.Honest m cid root) (ht : net.ReadableTimes) (hg : net.AgentGenuine cert cid root)
    (hh : ∀ t, ∃ s, counterRun checks (hist t) = some s ∧ net.data t = s.certifiedData)
    (a : UInt32 × Bytes) (k : UInt32) (h : counterShow cid cert root now a = some k) :
    (∃ t n, InWindowMs t now 50000 ∧ incsAtLastInc (hist t) = some n ∧ k = counterValue checks n) ∨
    (∃ c key S, AgentLib.create cert cid root = some c ∧ net.signed key S ∧ S.digest = c.digest ∧ CollisionIn c.hashed S.hashed) ∨
    ∃ t n tree, InWindowMs t now 50000 ∧ incsAtLastInc (hist t) = some n ∧ AgentLib.decodeTree a.2 = some tree ∧
      (CollisionIn [beU32 k] [beU32 (counterValue checks n)] ∨
        CollisionIn tree.hashed (HashTree.labeled (str "count") (.leaf (sha (beU32 (counterValue checks n))).1)).hashed) := by
  unfold counterShow at h
  split at h
  · cases h
  · next tree hv =>
    rcases C79_js hn ht hg hv with ⟨t, hw, hdata⟩ | hc
    swap
    · exact .inr (.inl hc)
    obtain ⟨s, hs, hsd⟩ := hh t
    obtain ⟨s', hs', inv⟩ := counter_inv checks (hist t)
    rw [hs] at hs'; cases hs'
    obtain ⟨c, _, _, e1, e2, _, _, _, _, e7⟩ := (C58_accepts_iff ..).1 hv
    cases hl : incsAtLastInc (hist t) with
    | none =>
      have h32 := tree.digest.2
      rw [← hdata, hsd, inv.never hl] at h32
      exact absurd h32 (by decide)
    | some n =>
      have hd := inv.data _ hl
      rw [rootHash_counterRb, ← hsd, hdata] at hd
      split at h
      · cases h
      · next hh' hlk =>
        split at h
        · next hk =>
          cases h
          rcases C58_data cid cert a.2 root 50000 now tree
            (HashTree.labeled (str "count") (.leaf (sha (beU32 (counterValue checks n))).1)) c (by trivial) hv e1
            (by rw [e7, hd]) _ _ hlk with hf | hcoll
          · have : hh' = (sha (beU32 (counterValue checks n))).1 := by
              cases hf with
              | down hf => cases hf; rfl
            by_cases e : a.1 = counterValue checks n
            · exact .inl ⟨t, n, hw, hl, e⟩
            · refine .inr (.inr ⟨t, n, tree, hw, hl, e2, .inl ⟨beU32 a.1, by simp, beU32 (counterValue checks n), by simp, fun e' => e ?_,
                Subtype.ext (hk.trans this)⟩⟩)
              exact beU32_inj e'
          · exact .inr (.inr ⟨t, n, tree, hw, hl, e2, .inr hcoll⟩)
        · cases h

end

/-! ### A concrete case -/

section
attribute [local instance] toySHA toyAgent

/-- The counter is incremented three times before nanosecond 881868800, and then upgraded. -/
def exCounterHist (t : Nat) : List CounterEvent :=
  if t < 100 then [] else if t ≤ 881868800 then exCounterEvents else exCounterEvents ++ [.upgrade]

def exCounterData (t : Nat) : Bytes := match counterRun true (exCounterHist t) with | some s => s.certifiedData | none => []

def exCounterNet : Network :=
  { signed := fun key S => key = [] ∧ S = exCounterTree, inCharge := fun _ => False, data := exCounterData }

theorem exCounterNet_hist (t : Nat) : ∃ s, counterRun true (exCounterHist t) = some s ∧ exCounterNet.data t = s.certifiedData := by
  obtain ⟨s, hs, -⟩ := counter_inv true (exCounterHist t)
  exact ⟨s, hs, by show exCounterData t = _; unfold exCounterData; rw [hs]⟩

theorem exCounterNet_honest : exCounterNet.Honest exMachine [1, 2] [] := by
  have htime : ∀ v, exCounterTree.HasLeaf [str "time"] v → v = [0x80, 0x80, 0xc1, 0xa4, 0x03] := by
    intro v h
    unfold exCounterTree at h
    rcases h with _ | h | h
    · rcases h
    · rcases h with _ | _ | _ | h
      cases h
      rfl
  refine ⟨?_, ?_, ?_⟩
  · rintro key S ⟨-, rfl⟩
    unfold WellFormed exCounterTree; simp only [WF, HashTree.labels]; decide
  · rintro S subnet rc ranges lo hi key ⟨-, rfl⟩ h
    exfalso
    unfold exCounterTree at h
    rcases h with _ | h | h
    · rcases h
    · rcases h
  · rintro key S v t d - ⟨-, rfl⟩ ht hv h
    rw [htime v ht] at hv
    have : lebRead [0x80, 0x80, 0xc1, 0xa4, 0x03] = some 881868800 := by decide +kernel
    rw [this] at hv
    cases hv
    unfold exCounterTree at h
    rcases h with _ | h | h
    · rcases h with _ | _ | _ | h
      rcases h with _ | _ | _ | h
      rcases h with _ | _ | _ | h
      cases h
      decide +kernel
    · rcases h

theorem exCounterNet_times : exCounterNet.ReadableTimes := by
  rintro key S v ⟨-, rfl⟩ h
  unfold exCounterTree at h
  rcases h with _ | h | h
  · rcases h
  · rcases h with _ | _ | _ | h
    cases h
    exact ⟨881868800, by decide +kernel⟩

theorem exCounterNet_genuine : exCounterNet.AgentGenuine exCounterCert [1, 2] [] := by
  intro c hc
  rw [exCounter_current.valid] at hc
  cases hc
  exact ⟨[], exCounterTree, .inl rfl, ⟨rfl, rfl⟩, rfl⟩

/-- All hypotheses are met: the answer of the counter is displayed, and was true at a time in the window. -/
example : ∃ a, exCounterState.get = some a ∧ counterShow [1, 2] exCounterCert [] 800 a = some 3 ∧
    ((∃ t n, InWindowMs t 800 50000 ∧ incsAtLastInc (exCounterHist t) = some n ∧ 3 = counterValue true n) ∨
    (∃ c key S, AgentLib.create exCounterCert [1, 2] [] = some c ∧ exCounterNet.signed key S ∧ S.digest = c.digest ∧ CollisionIn c.hashed S.hashed) ∨
    ∃ t n tree, InWindowMs t 800 50000 ∧ incsAtLastInc (exCounterHist t) = some n ∧ AgentLib.decodeTree a.2 = some tree ∧
      (CollisionIn [beU32 3] [beU32 (counterValue true n)] ∨
        CollisionIn tree.hashed (HashTree.labeled (str "count") (.leaf (sha (beU32 (counterValue true n))).1)).hashed)) := by
  have h : ∃ a, exCounterState.get = some a ∧ counterShow [1, 2] exCounterCert [] 800 a = some 3 := by
    have : exCounterState.get.bind (counterShow [1, 2] exCounterCert [] 800) = some 3 := by decide +kernel
    exact Option.bind_eq_some_iff.1 this
  obtain ⟨a, h1, h2⟩ := h
  exact ⟨a, h1, h2, C79_counter exCounterNet_honest exCounterNet_times exCounterNet_genuine exCounterNet_hist a 3 h2⟩

end
end Verif.Props
