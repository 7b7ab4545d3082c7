import Verif.Spec.Errors
import Verif.Lemmas.Verify
import Verif.Lemmas.Header
import Verif.Props.CertVerify
import Verif.Props.Verify
import Verif.Props.Complete

set_option linter.unusedSimpArgs false
set_option linter.unusedSectionVars false

/-!
# C71 and C72: errors report facts, and the only reasons not to return
-/

namespace Verif

/-- How a call fails: with an error, or (`none`) without returning. -/
def Out.FailsWith {ε α : Type} (x : Out ε α) (f : Option ε) : Prop :=
  match x, f with
  | .err e, some e' => e = e'
  | .crash, none => True
  | _, _ => False

namespace Out

theorem failsWith_err {ε α : Type} {x : Out ε α} {e : ε} : x = .err e ↔ x.FailsWith (some e) := by
  cases x <;> simp [FailsWith]

theorem failsWith_crash {ε α : Type} {x : Out ε α} : x = .crash ↔ x.FailsWith none := by
  cases x <;> simp [FailsWith]

theorem failsWith_bind {ε α β : Type} {x : Out ε α} {f : α → Out ε β} {o : Option ε} :
    (x >>= f).FailsWith o ↔ x.FailsWith o ∨ ∃ a, x = .ok a ∧ (f a).FailsWith o := by
  show (Out.bind x f).FailsWith o ↔ _
  cases x <;> cases o <;> simp [Out.bind, FailsWith]

@[simp] theorem not_failsWith_ok {ε α : Type} {a : α} {o : Option ε} : ¬ (Out.ok a : Out ε α).FailsWith o := by
  cases o <;> simp [FailsWith]

@[simp] theorem err_failsWith {ε α : Type} {e : ε} {o : Option ε} : (Out.err e : Out ε α).FailsWith o ↔ o = some e := by
  cases o <;> simp [FailsWith, eq_comm]

@[simp] theorem crash_failsWith {ε α : Type} {o : Option ε} : (Out.crash : Out ε α).FailsWith o ↔ o = none := by
  cases o <;> simp [FailsWith]

theorem failsWith_ofRun {ε ε' α : Type} {conv : ε' → ε} {x : Option (Except ε' α)} {o : Option ε} :
    (ofRun conv x).FailsWith o ↔ (x = none ∧ o = none) ∨ ∃ e, x = some (.error e) ∧ o = some (conv e) := by
  rcases x with _ | _ | _ <;> simp [ofRun]

theorem failsWith_ofExcept {ε ε' α : Type} {conv : ε' → ε} {x : Except ε' α} {o : Option ε} :
    (ofExcept conv x).FailsWith o ↔ ∃ e, x = .error e ∧ o = some (conv e) := by
  rcases x with _ | _ <;> simp [ofExcept]

theorem failsWith_ofOption {ε α : Type} {e : ε} {x : Option α} {o : Option ε} :
    (ofOption e x).FailsWith o ↔ x = none ∧ o = some e := by
  rcases x with _ | _ <;> simp [ofOption]

end Out
end Verif

namespace Verif.Props
open Verif HashTree PathShape

/-! ## The certificate -/

section
variable [SHA] [Bls]

/-- The fact behind a failure of `Certificate::verify`. -/
def CertFails (m : Machine) (checks : Bool) (c : Certificate) (canisterId rootKey : Bytes) (now off : Nat) :
    Option CvError → Prop
  | some e => CertFault m checks c canisterId rootKey now off e
  | none => CertAborts m checks c canisterId rootKey now off

theorem time_fails {m : Machine} {checks : Bool} {c : Certificate} {id rootKey : Bytes} {now off : Nat}
    {o : Option CvError} (h : (verifyTime checks c.tree now off).FailsWith o) :
    CertFails m checks c id rootKey now off o := by
  unfold verifyTime at h
  split at h
  · rename_i v hv
    split at h
    · rename_i hl
      simp at h; subst h
      exact ⟨v, hv, hl⟩
    · rename_i t ht
      split at h
      · rename_i ha
        simp at h; subst h
        unfold addU128 at ha
        split at ha
        · simp at ha
        · split at ha
          · rename_i h1 h2
            exact .clock h2 (.inl (by omega))
          · simp at ha
      · rename_i mx ha
        split at h
        · rename_i hs
          simp at h; subst h
          unfold subU128 at hs
          split at hs
          · simp at hs
          · split at hs
            · rename_i h1 h2
              exact .clock h2 (.inr (by omega))
            · simp at hs
        · rename_i mn hs
          split at h
          · rename_i hgt
            simp at h; subst h
            refine ⟨v, t, hv, ht, ?_⟩
            unfold addU128 at ha
            split at ha
            · simp at ha; left; omega
            · split at ha
              · simp at ha
              · rename_i h1 h2
                right; exact ⟨by simpa using h2, by omega⟩
          · split at h
            · rename_i hlt
              simp at h; subst h
              refine ⟨v, t, hv, ht, ?_⟩
              unfold subU128 at hs
              split at hs
              · simp at hs; left; omega
              · split at hs
                · simp at hs
                · rename_i h1 h2
                  right; exact ⟨by simpa using h2, by omega⟩
            · simp at h
  · rename_i hn
    simp at h; subst h
    intro v hv
    exact hn v hv

omit [SHA] [Bls] in
/-- **C39** If the window lies within `u128`, the time check has these outcomes and no others. -/
theorem C39_outcomes (checks : Bool) (c : Certificate) (now off : Nat) (h1 : off ≤ now) (h2 : now + off < 2 ^ 128) :
    ((∀ v, ¬ Shows c.tree [str "time"] v) ∧ verifyTime checks c.tree now off = .err .missingTime) ∨
    ∃ v, Shows c.tree [str "time"] v ∧
      ((lebRead v = none ∧ verifyTime checks c.tree now off = .err .timeDecoding) ∨
       ∃ t, lebRead v = some t ∧
        ((now + off < t ∧ verifyTime checks c.tree now off = .err .timeFuture) ∨
         (t + off < now ∧ verifyTime checks c.tree now off = .err .timePast) ∨
         (InWindow t now off ∧ verifyTime checks c.tree now off = .ok ()))) := by
  have ha : addU128 checks now off = some (now + off) := by unfold addU128; rw [if_pos h2]
  have hs : subU128 checks now off = some (now - off) := by simp [subU128, h1]
  unfold verifyTime Shows
  cases hl : c.tree.lookupPath [str "time"] with
  | found v =>
    right
    refine ⟨v, rfl, ?_⟩
    cases ht : lebRead v with
    | none => exact .inl ⟨rfl, by simp only [ht]⟩
    | some t =>
      right
      refine ⟨t, rfl, ?_⟩
      simp only [ht, ha, hs]
      by_cases g1 : now + off < t
      · exact .inl ⟨g1, by rw [if_pos g1]⟩
      · by_cases g2 : t + off < now
        · exact .inr (.inl ⟨g2, by rw [if_neg g1, if_pos (by omega)]⟩)
        · exact .inr (.inr ⟨⟨by omega, by omega⟩, by rw [if_neg g1, if_neg (by omega)]⟩)
  | _ => left; exact ⟨by simp, rfl⟩

theorem extractDer_ok {der pk : Bytes} (h : extractDer der = .ok pk) : IsDerKey der pk := by
  unfold extractDer at h
  split at h
  · simp at h
  · rename_i h1
    split at h
    · simp at h
    · rename_i h2
      simp at h
      push Not at h1 h2
      subst h
      refine ⟨?_, ?_⟩
      · conv_lhs => rw [← List.take_append_drop derPrefix.length der, h2]
      · rw [List.length_drop, h1]; rfl

theorem signature_fails {m : Machine} {checks : Bool} {c x : Certificate} {id rootKey der : Bytes} {now off : Nat}
    {o : Option CvError} (hx : Checked m id rootKey c x der) (h : (verifyCertSignature x der).FailsWith o) :
    CertFails m checks c id rootKey now off o := by
  unfold verifyCertSignature at h
  rw [Out.failsWith_bind] at h
  rcases h with h | ⟨pk, hpk, h⟩
  · rw [Out.failsWith_ofExcept] at h
    obtain ⟨e, he, rfl⟩ := h
    unfold extractDer at he
    split at he
    · rename_i h1
      simp at he; subst he
      exact ⟨x, der, hx, h1⟩
    · rename_i h1
      push Not at h1
      split at he
      · rename_i h2
        simp at he; subst he
        refine ⟨x, der, hx, h1, fun hp => h2 ?_⟩
        obtain ⟨r, rfl⟩ := hp
        simp
      · simp at he
  · have hk := extractDer_ok (Out.ofExcept_ok.1 hpk)
    unfold verifySignature at h
    split at h
    · rename_i hb
      simp at h; subst h
      exact .bls hx hk hb
    · simp at h
    · rename_i hb
      simp at h; subst h
      exact ⟨x, der, pk, hx, hk, hb⟩

theorem signed_ok {x : Certificate} {der : Bytes} {u : Unit} (h : verifyCertSignature x der = .ok u) : SignedBy x der := by
  unfold verifyCertSignature at h
  rw [Out.bind_ok] at h
  obtain ⟨pk, h1, h2⟩ := h
  refine ⟨pk, extractDer_ok (Out.ofExcept_ok.1 h1), ?_⟩
  unfold verifySignature at h2
  split at h2
  · simp at h2
  · rename_i hb; exact hb
  · simp at h2

/-- What `verify_delegation` returns is a key that the delegation vouches for. -/
theorem delegation_ok {m : Machine} {d : Delegation} {id rootKey key : Bytes}
    (h : verifyDelegation m d id rootKey = .ok key) : Delegates m d id rootKey key := by
  unfold verifyDelegation at h
  rw [Out.bind_ok] at h
  obtain ⟨cert, h1, h⟩ := h
  have h1 := Out.ofRun_ok.1 h1
  split at h
  · simp at h
  · rename_i hd
    rw [Out.bind_ok] at h
    obtain ⟨_, h2, h⟩ := h
    split at h
    · rename_i cr hcr
      split at h
      · simp at h
      · rename_i i hi
        have : i = id := by
          unfold principalFromSlice at hi
          split at hi <;> simp at hi
          exact hi.symm
        subst this
        rw [Out.bind_ok] at h
        obtain ⟨ranges, h3, h⟩ := h
        split at h
        · rename_i hw
          obtain ⟨lo, hi, g1, g2, g3⟩ := (C41_ranges _ _).1 hw
          split at h
          · rename_i k hk
            simp at h; subst h
            exact ⟨cert, ranges, cr, lo, hi, h1, by simpa using hd, signed_ok h2, lookupPath_found_hasLeaf hcr,
              Out.ofRun_ok.1 h3, g1, g2, g3, lookupPath_found_hasLeaf hk⟩
          · simp at h
        · simp at h
    · simp at h

theorem delegation_fails {m : Machine} {checks : Bool} {c : Certificate} {d : Delegation} {id rootKey : Bytes}
    {now off : Nat} {o : Option CvError} (hd : c.delegation = some d)
    (h : (verifyDelegation m d id rootKey).FailsWith o) : CertFails m checks c id rootKey now off o := by
  unfold verifyDelegation at h
  rw [Out.failsWith_bind] at h
  rcases h with h | ⟨inner, hi, h⟩
  · rw [Out.failsWith_ofRun] at h
    rcases h with ⟨h, rfl⟩ | ⟨e, h, rfl⟩
    · exact .certificate hd h
    · exact .inl ⟨d, hd, h⟩
  · have hin : Inner m c inner d.subnetId := ⟨d, hd, rfl, Out.ofRun_ok.1 hi⟩
    split at h
    · rename_i hs
      simp at h; subst h
      exact ⟨inner, _, hin, hs⟩
    · rw [Out.failsWith_bind] at h
      rcases h with h | ⟨_, hsig, h⟩
      · exact signature_fails (.inner hin) h
      · have hsig := signed_ok hsig
        split at h
        · rename_i cr hcr
          split at h
          · rename_i hp
            simp at h; subst h
            refine .principal (by simp [hd]) ?_
            unfold principalFromSlice at hp
            split at hp
            · simp at hp
            · omega
          · rename_i i hp
            have : i = id := by
              unfold principalFromSlice at hp
              split at hp <;> simp at hp
              exact hp.symm
            subst this
            rw [Out.failsWith_bind] at h
            rcases h with h | ⟨ranges, hr, h⟩
            · rw [Out.failsWith_ofRun] at h
              rcases h with ⟨h, rfl⟩ | ⟨e, h, rfl⟩
              · exact .ranges hin hcr h
              · exact .inr ⟨inner, _, cr, hin, hcr, h⟩
            · split at h
              · split at h
                · simp at h
                · rename_i hk
                  simp at h; subst h
                  exact ⟨inner, _, hin, hsig, fun v hv => hk v hv⟩
              · rename_i hw
                simp at h; subst h
                refine ⟨inner, _, cr, ranges, hin, hsig, hcr, Out.ofRun_ok.1 hr, fun lo hi hm hle => hw ?_⟩
                exact (C41_ranges _ _).2 ⟨lo, hi, hm, hle⟩
        · rename_i hcr
          simp at h; subst h
          exact ⟨inner, _, hin, hsig, fun v hv => hcr v hv⟩

theorem cert_fails {m : Machine} {checks : Bool} {c : Certificate} {id rootKey : Bytes} {now off : Nat}
    {o : Option CvError} (h : (certVerify m checks c id rootKey now off).FailsWith o) :
    CertFails m checks c id rootKey now off o := by
  unfold certVerify at h
  rw [Out.failsWith_bind] at h
  rcases h with h | ⟨_, _, h⟩
  · exact time_fails h
  · rw [Out.failsWith_bind] at h
    rcases h with h | ⟨key, hk, h⟩
    · split at h
      · rename_i d hd; exact delegation_fails hd h
      · simp at h
    · split at hk
      · rename_i d hd
        exact signature_fails (.delegated hd (delegation_ok hk)) h
      · rename_i hd
        simp at hk; subst hk
        exact signature_fails (.direct hd) h

/-- **C71** An error of `Certificate::verify` reports a fact about the certificate. -/
theorem C71_certificate (m : Machine) (checks : Bool) (c : Certificate) (canisterId rootKey : Bytes) (now off : Nat)
    (e : CvError) (h : certVerify m checks c canisterId rootKey now off = .err e) :
    CertFault m checks c canisterId rootKey now off e :=
  cert_fails (Out.failsWith_err.1 h)

/-- **C72** The only reasons for `Certificate::verify` not to return. -/
theorem C72_certificate (m : Machine) (checks : Bool) (c : Certificate) (canisterId rootKey : Bytes) (now off : Nat)
    (h : certVerify m checks c canisterId rootKey now off = .crash) :
    CertAborts m checks c canisterId rootKey now off :=
  cert_fails (o := none) (Out.failsWith_crash.1 h)

end

/-! ## The header -/

/-- The decoder for one of the fields not yet decoded fails in this way. -/
def OpenFails (m : Machine) (acc : HeaderAcc) (val : List Char → Option (List Char)) (o : Option RvError) : Prop :=
  (acc.certificate = none ∧ ∃ v, val "certificate".toList = some v ∧ (decodeCertificate m v).FailsWith o) ∨
  (acc.tree = none ∧ ∃ v, val "tree".toList = some v ∧ (decodeTree m v).FailsWith o) ∨
  (acc.version = none ∧ ∃ v, val "version".toList = some v ∧ (decodeVersion v).FailsWith o) ∨
  (acc.exprPath = none ∧ ∃ v, val "expr_path".toList = some v ∧ (decodeExprPath m v).FailsWith o)

theorem setOnce_fails {α : Type} {old : Option α} {d : Out RvError α} {o : Option RvError} :
    (setOnce old d).FailsWith o ↔ old = none ∧ d.FailsWith o := by
  cases old with
  | some x => simp [setOnce]
  | none => simp [setOnce, Out.failsWith_bind]

theorem setOnce_isSome {α : Type} {old new : Option α} {d : Out RvError α} (h : setOnce old d = .ok new) : new ≠ none := by
  rcases setOnce_ok.1 h with ⟨x, _, rfl⟩ | ⟨_, x, _, rfl⟩ <;> simp

theorem firstVal_cons_eq {f : List Char × List Char} {fs : List (List Char × List Char)} {name : List Char}
    (h : f.1 = name) : firstVal (f :: fs) name = some f.2 := by simp [firstVal, h]

theorem firstVal_cons_ne {f : List Char × List Char} {fs : List (List Char × List Char)} {name : List Char}
    (h : f.1 ≠ name) : firstVal (f :: fs) name = firstVal fs name := by simp [firstVal, List.find?_cons, h]

theorem headerLoop_fails (m : Machine) {o : Option RvError} : ∀ (fs : List (List Char × List Char)) (acc : HeaderAcc),
    (headerLoop m acc fs).FailsWith o → OpenFails m acc (firstVal fs) o
  | [], acc, h => by simp [headerLoop] at h
  | f :: fs, acc, h => by
    rw [headerLoop, Out.failsWith_bind] at h
    rcases h with h | ⟨acc', h1, h2⟩
    · unfold headerStep at h
      split at h
      · rename_i hn
        rw [Out.failsWith_bind] at h
        rcases h with h | ⟨x, _, h⟩
        · rw [setOnce_fails] at h
          exact .inl ⟨h.1, f.2, firstVal_cons_eq hn, h.2⟩
        · simp at h
      · split at h
        · rename_i hn
          rw [Out.failsWith_bind] at h
          rcases h with h | ⟨x, _, h⟩
          · rw [setOnce_fails] at h
            exact .inr (.inl ⟨h.1, f.2, firstVal_cons_eq hn, h.2⟩)
          · simp at h
        · split at h
          · rename_i hn
            rw [Out.failsWith_bind] at h
            rcases h with h | ⟨x, _, h⟩
            · rw [setOnce_fails] at h
              exact .inr (.inr (.inl ⟨h.1, f.2, firstVal_cons_eq hn, h.2⟩))
            · simp at h
          · split at h
            · rename_i hn
              rw [Out.failsWith_bind] at h
              rcases h with h | ⟨x, _, h⟩
              · rw [setOnce_fails] at h
                exact .inr (.inr (.inr ⟨h.1, f.2, firstVal_cons_eq hn, h.2⟩))
              · simp at h
            · simp at h
    · have ih := headerLoop_fails m fs acc' h2
      unfold headerStep at h1
      split at h1
      · rename_i hn
        rw [Out.bind_ok] at h1
        obtain ⟨x, hx, h1⟩ := h1
        simp at h1; subst h1
        rcases ih with ih | ih | ih | ih
        · exact absurd ih.1 (setOnce_isSome hx)
        · exact .inr (.inl ⟨ih.1, by rw [firstVal_cons_ne (by rw [hn]; decide)]; exact ih.2⟩)
        · exact .inr (.inr (.inl ⟨ih.1, by rw [firstVal_cons_ne (by rw [hn]; decide)]; exact ih.2⟩))
        · exact .inr (.inr (.inr ⟨ih.1, by rw [firstVal_cons_ne (by rw [hn]; decide)]; exact ih.2⟩))
      · rename_i n1
        split at h1
        · rename_i hn
          rw [Out.bind_ok] at h1
          obtain ⟨x, hx, h1⟩ := h1
          simp at h1; subst h1
          rcases ih with ih | ih | ih | ih
          · exact .inl ⟨ih.1, by rw [firstVal_cons_ne (by rw [hn]; decide)]; exact ih.2⟩
          · exact absurd ih.1 (setOnce_isSome hx)
          · exact .inr (.inr (.inl ⟨ih.1, by rw [firstVal_cons_ne (by rw [hn]; decide)]; exact ih.2⟩))
          · exact .inr (.inr (.inr ⟨ih.1, by rw [firstVal_cons_ne (by rw [hn]; decide)]; exact ih.2⟩))
        · rename_i n2
          split at h1
          · rename_i hn
            rw [Out.bind_ok] at h1
            obtain ⟨x, hx, h1⟩ := h1
            simp at h1; subst h1
            rcases ih with ih | ih | ih | ih
            · exact .inl ⟨ih.1, by rw [firstVal_cons_ne (by rw [hn]; decide)]; exact ih.2⟩
            · exact .inr (.inl ⟨ih.1, by rw [firstVal_cons_ne (by rw [hn]; decide)]; exact ih.2⟩)
            · exact absurd ih.1 (setOnce_isSome hx)
            · exact .inr (.inr (.inr ⟨ih.1, by rw [firstVal_cons_ne (by rw [hn]; decide)]; exact ih.2⟩))
          · rename_i n3
            split at h1
            · rename_i hn
              rw [Out.bind_ok] at h1
              obtain ⟨x, hx, h1⟩ := h1
              simp at h1; subst h1
              rcases ih with ih | ih | ih | ih
              · exact .inl ⟨ih.1, by rw [firstVal_cons_ne (by rw [hn]; decide)]; exact ih.2⟩
              · exact .inr (.inl ⟨ih.1, by rw [firstVal_cons_ne (by rw [hn]; decide)]; exact ih.2⟩)
              · exact .inr (.inr (.inl ⟨ih.1, by rw [firstVal_cons_ne (by rw [hn]; decide)]; exact ih.2⟩))
              · exact absurd ih.1 (setOnce_isSome hx)
            · rename_i n4
              simp at h1; subst h1
              unfold OpenFails
              rw [firstVal_cons_ne n1, firstVal_cons_ne n2, firstVal_cons_ne n3, firstVal_cons_ne n4]
              exact ih

/-- The fields of the header as the loop sees them. -/
theorem headerLoop_noField {m : Machine} {s : List Char} {acc : HeaderAcc}
    (h : headerLoop m {} ((s.splitOn ',').filterMap headerField) = .ok acc) :
    (acc.certificate = none → NoField s "certificate".toList) ∧ (acc.tree = none → NoField s "tree".toList) ∧
    (acc.exprPath = none → NoField s "expr_path".toList) := by
  obtain ⟨h1, h2, h3, h4⟩ := (headerLoop_ok m _ _ _).1 h
  refine ⟨fun hn => ?_, fun hn => ?_, fun hn => ?_⟩ <;> rw [← firstVal_none_iff]
  · rw [hn] at h1
    cases hf : firstVal ((s.splitOn ',').filterMap headerField) "certificate".toList with
    | none => rfl
    | some v => rw [hf] at h1; simp [Slot] at h1
  · rw [hn] at h2
    cases hf : firstVal ((s.splitOn ',').filterMap headerField) "tree".toList with
    | none => rfl
    | some v => rw [hf] at h2; simp [Slot] at h2
  · rw [hn] at h4
    cases hf : firstVal ((s.splitOn ',').filterMap headerField) "expr_path".toList with
    | none => rfl
    | some v => rw [hf] at h4; simp [Slot] at h4

section
variable [SHA] [UriLib] [Bls] [Inflate]

/-- The fact behind a failure of `verify_request_response_pair`. -/
def PairFails (env : Env) (req : HttpRequest) (res : HttpResponse) (minV : Nat) : Option RvError → Prop
  | some e => Fault env req res minV e
  | none => Aborts env res

theorem header_fails {env : Env} {req : HttpRequest} {res : HttpResponse} {minV : Nat} {text : Bytes}
    {o : Option RvError} (ht : LastHeader res.headers (str "IC-Certificate") text)
    (h : (headerFrom env.machine ((chars text).getD [])).FailsWith o) : PairFails env req res minV o := by
  have field : ∀ {name : String} {v : List Char},
      firstVal ((((chars text).getD []).splitOn ',').filterMap headerField) name.toList = some v → HeaderField res name v :=
    fun hf => ⟨text, ht, firstVal_some_iff.1 hf⟩
  unfold headerFrom at h
  rw [Out.failsWith_bind] at h
  rcases h with h | ⟨acc, hacc, h⟩
  · have b64 : ∀ {v : List Char}, (decodeBase64 v).FailsWith o → b64Decode v = none ∧ o = some .base64 := by
      intro v hv
      unfold decodeBase64 at hv
      rwa [Out.failsWith_ofOption] at hv
    have b64ok : ∀ {v : List Char} {b : Bytes}, decodeBase64 v = .ok b → b64Decode v = some b := by
      intro v b hv
      unfold decodeBase64 at hv
      rwa [Out.ofOption_ok] at hv
    replace h := headerLoop_fails _ _ _ h
    rcases h with ⟨_, v, hv, h⟩ | ⟨_, v, hv, h⟩ | ⟨_, v, hv, h⟩ | ⟨_, v, hv, h⟩
    · unfold decodeCertificate at h
      rw [Out.failsWith_bind] at h
      rcases h with h | ⟨b, hb, h⟩
      · obtain ⟨h1, rfl⟩ := b64 h
        exact ⟨_, v, .inl rfl, field hv, h1⟩
      · rw [Out.failsWith_ofRun] at h
        rcases h with ⟨h, rfl⟩ | ⟨e, h, rfl⟩
        · exact .header (b64ok hb) (.inl ⟨field hv, h⟩)
        · exact ⟨v, b, b64ok hb, .inl ⟨field hv, h⟩⟩
    · unfold decodeTree at h
      rw [Out.failsWith_bind] at h
      rcases h with h | ⟨b, hb, h⟩
      · obtain ⟨h1, rfl⟩ := b64 h
        exact ⟨_, v, .inr (.inl rfl), field hv, h1⟩
      · rw [Out.failsWith_ofRun] at h
        rcases h with ⟨h, rfl⟩ | ⟨e, h, rfl⟩
        · exact .header (b64ok hb) (.inr (.inl ⟨field hv, h⟩))
        · exact ⟨v, b, b64ok hb, .inr (.inl ⟨field hv, h⟩)⟩
    · unfold decodeVersion at h
      rw [Out.failsWith_ofOption] at h
      obtain ⟨h, rfl⟩ := h
      exact ⟨v, field hv, h⟩
    · unfold decodeExprPath at h
      rw [Out.failsWith_bind] at h
      rcases h with h | ⟨b, hb, h⟩
      · obtain ⟨h1, rfl⟩ := b64 h
        exact ⟨_, v, .inr (.inr rfl), field hv, h1⟩
      · rw [Out.failsWith_ofRun] at h
        rcases h with ⟨h, rfl⟩ | ⟨e, h, rfl⟩
        · exact .header (b64ok hb) (.inr (.inr ⟨field hv, h⟩))
        · exact ⟨v, b, b64ok hb, .inr (.inr ⟨field hv, h⟩)⟩
  · obtain ⟨n1, n2, _⟩ := headerLoop_noField hacc
    rw [Out.failsWith_bind] at h
    rcases h with h | ⟨_, _, h⟩
    · rw [Out.failsWith_ofOption] at h
      obtain ⟨h, rfl⟩ := h
      exact ⟨text, ht, n1 h⟩
    · rw [Out.failsWith_bind] at h
      rcases h with h | ⟨_, _, h⟩
      · rw [Out.failsWith_ofOption] at h
        obtain ⟨h, rfl⟩ := h
        exact ⟨text, ht, n2 h⟩
      · simp at h

theorem header_noPath {m : Machine} {s : List Char} {hdr : CertHeader} (h : headerFrom m s = .ok hdr)
    (hn : hdr.exprPath = none) : NoField s "expr_path".toList := by
  unfold headerFrom at h
  rw [Out.bind_ok] at h
  obtain ⟨acc, hacc, h⟩ := h
  rw [Out.bind_ok] at h
  obtain ⟨_, _, h⟩ := h
  rw [Out.bind_ok] at h
  obtain ⟨_, _, h⟩ := h
  simp at h; subst h
  exact (headerLoop_noField hacc).2.2 hn

theorem verifyCert_fails {env : Env} {req : HttpRequest} {res : HttpResponse} {minV : Nat} {hdr : CertHeader}
    {o : Option RvError} (hh : CarriesHeader env.machine res hdr) (h : (env.verifyCert hdr.certificate).FailsWith o) :
    PairFails env req res minV o := by
  unfold Env.verifyCert at h
  split at h
  · simp at h
  · rename_i e he
    simp at h; subst h
    exact ⟨hdr, hh, C71_certificate _ _ _ _ _ _ _ _ he⟩
  · rename_i he
    simp at h; subst h
    exact .certificate hh (C72_certificate _ _ _ _ _ _ _ he)

theorem validateBody_true {t : HashTree} {path : Bytes} {b : Hash} : validateBody t path b = true ↔ V1Shows t path b.1 := by
  unfold validateBody V1Shows Shows
  generalize t.lookupPath [str "http_assets", path] = r1
  generalize t.lookupPath [str "http_assets", str "/index.html"] = r2
  have h2 : ∀ v : Bytes, (b.1 == v) = true ↔ v = b.1 := fun v => by rw [beq_iff_eq]; exact eq_comm
  cases r1 <;> cases r2 <;> simp only [h2, reduceCtorEq, LookupResult.found.injEq, false_or, or_false, not_false_eq_true, implies_true, true_and, and_true, forall_eq', not_true_eq_false, false_and, and_false, Bool.false_eq_true] <;> simp

theorem valid_of_cons {a b : List Bytes} {x : Bytes} (hx : x ≠ []) (h : isWildcardValid (x :: a) (x :: b) = true) :
    isWildcardValid a b = true := by
  unfold isWildcardValid at h ⊢
  have e : List.isPrefixOf (x :: a) (x :: b) = List.isPrefixOf a b := by simp [List.isPrefixOf]
  rw [e] at h
  split
  · rfl
  · rename_i hn
    rw [if_neg hn] at h
    split at h
    · rename_i hl
      have ha : a ≠ [] := by rintro rfl; simp at hl; exact hx hl
      rw [List.getLast?_cons_of_ne_nil ha] at hl
      rw [List.dropLast_cons_of_ne_nil ha] at h
      rw [if_pos hl]
      simpa [List.isPrefixOf] using h
    · simp at h

theorem v1_fails {env : Env} {req : HttpRequest} {res : HttpResponse} {minV : Nat} {hdr : CertHeader}
    {o : Option RvError} (hh : CarriesHeader env.machine res hdr) (hv : hdr.version = 1)
    (h : (v1Verification env req res hdr.tree hdr.certificate (headerGet res.headers (str "content-encoding"))).FailsWith o) :
    PairFails env req res minV o := by
  unfold v1Verification at h
  rw [Out.failsWith_bind] at h
  rcases h with h | ⟨_, _, h⟩
  · exact verifyCert_fails hh h
  rw [Out.failsWith_bind] at h
  rcases h with h | ⟨path, hp, h⟩
  · rw [Out.failsWith_ofExcept] at h
    obtain ⟨e, h, rfl⟩ := h
    exact h
  have hp := Out.ofExcept_ok.1 hp
  rw [Out.failsWith_bind] at h
  rcases h with h | ⟨decoded, hd, h⟩
  · unfold decodeBody at h
    split at h
    · rename_i he
      rw [Out.failsWith_ofOption] at h
      obtain ⟨h, rfl⟩ := h
      exact ⟨hdr, hh, hv, .inl ⟨headerGet_some.1 he, h⟩⟩
    · split at h
      · rename_i he
        rw [Out.failsWith_ofOption] at h
        obtain ⟨h, rfl⟩ := h
        exact ⟨hdr, hh, hv, .inr ⟨headerGet_some.1 he, h⟩⟩
      · simp at h
  split at h
  · rename_i ht
    simp at h; subst h
    exact ⟨hdr, hh, fun hs => ht (validateTree_true.2 hs)⟩
  · simp only at h
    have key : ∀ b : Bool, (if ¬ b = true then (Out.err RvError.invalidBody : Out RvError VerificationInfo)
        else .ok { response := some { statusCode := none, headers := [], body := res.body }, version := 1 }).FailsWith o →
        b = false ∧ o = some .invalidBody := by
      intro b hb
      cases b <;> simp at hb ⊢
      exact hb
    obtain ⟨h, rfl⟩ := key _ h
    refine ⟨hdr, path, hh, hv, hp, decoded, hd, fun hs => ?_, fun ⟨v, hv⟩ hs => ?_⟩
    · rw [validateBody_true.2 hs] at h
      simp at h
    · rw [headerGet_some.2 hv, validateBody_true.2 hs] at h
      simp at h

/-- What an error of `validate_expr_path` says. -/
theorem exprPath_fails {p : List Bytes} {path : Bytes} {t : HashTree} {o : Option RvError}
    (h : (validateExprPath p path t).FailsWith o) :
    (o = some .unexpectedPrefix ∧ ¬ [str "http_expr"] <+: p) ∨
    (o = some .unexpectedSuffix ∧ ¬ [str "<$>"] <:+ p ∧ ¬ [str "<*>"] <:+ p) ∨
    (o = some .exactNotFound ∧ p = str "http_expr" :: (ofPath path).labels ++ [str "<$>"] ∧ ¬ ShowsNode t p) ∨
    (o = some .exactMismatch ∧ [str "<$>"] <:+ p ∧ p ≠ str "http_expr" :: (ofPath path).labels ++ [str "<$>"]) ∨
    (o = some .exactMightExist ∧ [str "<*>"] <:+ p ∧
      ¬ ShowsAbsent t (str "http_expr" :: (ofPath path).labels ++ [str "<$>"])) ∨
    (o = some .wildcardMismatch ∧ [str "<*>"] <:+ p ∧
      ∀ w : PathShape, w.Proper → p = str "http_expr" :: w.labels ++ [str "<*>"] → ¬ w.segs <+: (ofPath path).segs) ∨
    (o = some .moreSpecificMightExist ∧ [str "<*>"] <:+ p ∧
      (PlainEndPath path → ∀ w : PathShape, w.Proper → p = str "http_expr" :: w.labels ++ [str "<*>"] →
        ∃ v, Matches v (ofPath path) ∧ (MoreSpecific v w ∨ (w = ⟨(ofPath path).segs, true⟩ ∧ v = ofPath path)) ∧
          ¬ ShowsAbsent t (str "http_expr" :: v.labels ++ [str "<*>"]))) ∨
    (o = some .wildcardNotFound ∧ [str "<*>"] <:+ p ∧ ¬ ShowsNode t p) := by
  have hq := ofPath_proper path
  have suf : ∀ x : Bytes, [x] <:+ p ↔ p.getLast? = some x := by
    intro x
    rw [List.getLast?_eq_some_iff]
    constructor
    · rintro ⟨a, rfl⟩; exact ⟨a, rfl⟩
    · rintro ⟨a, rfl⟩; exact ⟨a, rfl⟩
  have nod : existsIn t p = false → ¬ ShowsNode t p := by
    intro he hs
    rw [existsIn_true.2 hs] at he
    simp at he
  unfold validateExprPath at h
  split at h
  · rename_i h1
    simp at h; subst h
    left
    refine ⟨rfl, ?_⟩
    rintro ⟨r, rfl⟩
    exact h1 rfl
  · rename_i h1
    push Not at h1
    right
    split at h
    · rename_i h2
      simp at h; subst h
      left
      refine ⟨rfl, fun hx => h2 (.inl ((suf _).1 hx)), fun hx => h2 (.inr ((suf _).1 hx))⟩
    · rename_i h2
      push Not at h2
      right
      rw [pathParts_eq] at h
      simp only at h
      split at h
      · rename_i h3
        split at h
        · simp at h
        · rename_i h4
          simp at h; subst h
          exact .inl ⟨rfl, h3, nod (by simpa using h4)⟩
      · rename_i h3
        right
        split at h
        · rename_i h4
          simp at h; subst h
          exact .inl ⟨rfl, (suf _).2 h4, h3⟩
        · rename_i h4
          right
          have h5 : p.getLast? = some wildTerm := by
            by_contra h6
            exact absurd h2 (by tauto)
          have hsuf : [str "<*>"] <:+ p := (suf _).2 h5
          split at h
          · rename_i h6
            simp at h; subst h
            refine .inl ⟨rfl, hsuf, fun hab => ?_⟩
            have := mightExist_false.2 hab
            rw [show str "http_expr" = pathPrefix from rfl, show str "<$>" = exactTerm from rfl, h6] at this
            simp at this
          · right
            split at h
            · rename_i h7
              simp at h; subst h
              refine .inl ⟨rfl, hsuf, ?_⟩
              rintro w hw rfl hpre
              apply h7
              rw [List.dropLast_concat]
              exact valid_cons ((valid_iff hw).2 hpre)
            · rename_i h7
              push Not at h7
              right
              split at h
              · rename_i hn
                obtain ⟨ws, hws⟩ := moreSpecific_total (pathPrefix :: (ofPath path).labels) p
                rw [hn] at hws
                simp at hws
              · rename_i ws hws
                split at h
                · rename_i h8
                  simp at h; subst h
                  refine .inl ⟨rfl, hsuf, ?_⟩
                  rintro hend w hw rfl
                  obtain ⟨x, hx, hx'⟩ := List.any_eq_true.1 h8
                  have hnot : t.lookupSubtree (pathPrefix :: x) ≠ .absent := by
                    intro ha
                    rw [mightExist_false.2 ha] at hx'
                    simp at hx'
                  have hQ := strip_prefixed hq hend
                  have hR := strip_prefixed_wild hw
                  have he : str "http_expr" :: w.labels ++ [str "<*>"] = pathPrefix :: w.wildLabels := by
                    simp [wildLabels, pathPrefix, wildTerm]
                  have hpre := valid_of_cons (x := str "http_expr") (by decide) (by rw [List.dropLast_concat] at h7; exact h7)
                  rw [valid_iff hw] at hpre
                  rw [he, enum_eq hq hw hQ hR, if_pos hpre] at hws
                  simp only [Option.some.injEq] at hws
                  split at hws
                  · rename_i hl
                    subst hws
                    simp at hx
                    refine ⟨ofPath path, ⟨List.prefix_refl _, fun h _ => h⟩, .inr ⟨?_, rfl⟩, ?_⟩
                    · ext1
                      · exact hl.2.1
                      · exact hl.1
                    · intro ha
                      apply hnot
                      rw [hx]
                      simpa [ShowsAbsent, wildLabels, pathPrefix, wildTerm] using ha
                  · rename_i hl
                    have hm : Matches w (ofPath path) := by
                      refine ⟨hpre, fun h1 h2 => ?_⟩
                      by_contra h3
                      exact hl ⟨h1, h2, by simpa using h3⟩
                    subst hws
                    obtain ⟨v, g1, g2, rfl⟩ := (mem_enum hm).1 hx
                    refine ⟨v, g1, .inl g2, fun ha => hnot ?_⟩
                    simpa [ShowsAbsent, wildLabels, pathPrefix, wildTerm] using ha
                · right
                  split at h
                  · simp at h
                  · rename_i h9
                    simp at h; subst h
                    exact ⟨rfl, hsuf, nod (by simpa using h9)⟩

theorem v2_fails {env : Env} {req : HttpRequest} {res : HttpResponse} {minV : Nat} {hdr : CertHeader} {p : List Bytes}
    {expr : Bytes} {cel : CelExpr} {o : Option RvError} (hc : Claims env.machine res hdr p expr cel)
    (h : (v2Verification env req res hdr.tree hdr.certificate p (sha expr) cel).FailsWith o) :
    PairFails env req res minV o := by
  unfold v2Verification at h
  rw [Out.failsWith_bind] at h
  rcases h with h | ⟨path, hp, h⟩
  · rw [Out.failsWith_ofExcept] at h
    obtain ⟨e, h, rfl⟩ := h
    exact h
  have hp := Out.ofExcept_ok.1 hp
  rw [Out.failsWith_bind] at h
  rcases h with h | ⟨_, _, h⟩
  · exact verifyCert_fails hc.header h
  split at h
  · rename_i ht
    simp at h; subst h
    exact ⟨hdr, hc.header, fun hs => ht (validateTree_true.2 hs)⟩
  rw [Out.failsWith_bind] at h
  rcases h with h | ⟨_, _, h⟩
  · replace h := exprPath_fails h
    rcases h with ⟨rfl, h⟩ | ⟨rfl, h⟩ | ⟨rfl, h⟩ | ⟨rfl, h⟩ | ⟨rfl, h⟩ | ⟨rfl, h⟩ | ⟨rfl, h⟩ | ⟨rfl, h⟩
    · exact ⟨hdr, p, expr, cel, hc, h⟩
    · exact ⟨hdr, p, expr, cel, hc, h⟩
    · exact ⟨hdr, p, expr, cel, path, hc, hp, h⟩
    · exact ⟨hdr, p, expr, cel, path, hc, hp, h⟩
    · exact ⟨hdr, p, expr, cel, path, hc, hp, h⟩
    · exact ⟨hdr, p, expr, cel, path, hc, hp, h⟩
    · exact ⟨hdr, p, expr, cel, path, hc, hp, h⟩
    · exact ⟨hdr, p, expr, cel, path, hc, hp, h⟩
  · have hfin : ∀ {qh : Option Hash} {rc : RespCert}, RespPart cel rc → RequestLabel req cel (reqLabel cel qh) →
        (v2Verification.finish res hdr.tree p (sha expr) cel qh rc).FailsWith o → PairFails env req res minV o := by
      intro qh rc hrc hl hf
      unfold v2Verification.finish at hf
      have e : (sha ((responseHeadersHash res.status.toUInt64 (filterResponseHeaders res rc)).1 ++ (sha res.body).1)) =
          responseHash res rc none := rfl
      simp only [e] at hf
      split at hf
      · rw [filterResp_certificate] at hf
        obtain ⟨text, ht, _⟩ := hc.header
        rw [show certHeaderName = str "IC-Certificate" from rfl, headerGet_some.2 ht] at hf
        simp at hf
      · rename_i hv
        simp at hf; subst hf
        exact ⟨hdr, p, expr, cel, rc, _, hc, hrc, hl, fun hx => hv (validateHashes_true.2 hx)⟩
    cases cel with
    | skip =>
      simp only at h
      split at h
      · simp at h
      · rename_i hn
        simp at h; subst h
        refine ⟨hdr, p, expr, _, hc, rfl, ?_⟩
        rintro ⟨n, hs⟩
        rw [validateExprHash_some.2 hs] at hn
        simp at hn
    | responseOnly rc => exact hfin (qh := none) (rc := rc) rfl rfl h
    | full qc rc =>
      simp only at h
      rw [Out.failsWith_bind] at h
      rcases h with h | ⟨qh, hqh, h⟩
      · exfalso
        rw [Out.failsWith_ofExcept] at h
        obtain ⟨e, h, _⟩ := h
        unfold requestHash HttpRequest.getQuery at h
        unfold HttpRequest.getPath at hp
        cases hu : UriLib.parse req.url with
        | none => simp [hu] at hp
        | some x => simp [hu] at h
      · exact hfin (qh := some qh) (rc := rc) rfl ⟨qh, Out.ofExcept_ok.1 hqh, rfl⟩ h

theorem pair_fails {env : Env} {req : HttpRequest} {res : HttpResponse} {minV : Nat} {o : Option RvError}
    (h : (verifyPair env req res minV).FailsWith o) : PairFails env req res minV o := by
  unfold verifyPair at h
  split at h
  · rename_i hg
    simp at h; subst h
    exact .inl (headerGet_none.1 hg)
  · rename_i text hg
    have ht : LastHeader res.headers (str "IC-Certificate") text := headerGet_some.1 hg
    rw [Out.failsWith_bind] at h
    rcases h with h | ⟨hdr, hh, h⟩
    · exact header_fails ht h
    · have hcar : CarriesHeader env.machine res hdr := ⟨text, ht, hh⟩
      split at h
      · rename_i hv
        simp at h; subst h
        exact ⟨hdr, hcar, hv⟩
      · rename_i hmin
        split at h
        · rename_i hv; exact v1_fails hcar hv h
        · rename_i hv1
          split at h
          · rename_i hv
            split at h
            · rename_i hx
              simp at h; subst h
              exact .inr ⟨hdr, hcar, hv, headerGet_none.1 hx⟩
            · rename_i expr hx
              have hx : LastHeader res.headers (str "IC-CertificateExpression") expr := headerGet_some.1 hx
              split at h
              · rename_i hn
                simp at h; subst h
                exact ⟨hdr, hcar, hv, text, ht, header_noPath hh hn⟩
              · rename_i p hpth
                rw [Out.failsWith_bind] at h
                rcases h with h | ⟨cel, hcel, h⟩
                · rw [Out.failsWith_ofRun] at h
                  rcases h with ⟨h, rfl⟩ | ⟨e, h, rfl⟩
                  · obtain ⟨text, rfl, hd⟩ := (C78_stack _ _).1.1 h
                    exact .expression hcar hv hx hd
                  · exact ⟨hdr, expr, hcar, hv, hx, parseCelOn_some h⟩
                · exact v2_fails ⟨hcar, hv, hpth, hx, Out.ofRun_ok.1 hcel⟩ h
          · rename_i hv2
            simp at h; subst h
            exact ⟨hdr, hcar, by omega, hv1, hv2⟩

/-- **C71** Every error of `verify_request_response_pair` reports a fact about the request, the response and the
certificate: the table `Fault`. -/
theorem C71_errors (env : Env) (req : HttpRequest) (res : HttpResponse) (minV : Nat) (e : RvError)
    (h : verifyPair env req res minV = .err e) : Fault env req res minV e :=
  pair_fails (Out.failsWith_err.1 h)

/-- **C72** The only reasons for `verify_request_response_pair` not to return. -/
theorem C72_aborts (env : Env) (req : HttpRequest) (res : HttpResponse) (minV : Nat)
    (h : verifyPair env req res minV = .crash) : Aborts env res :=
  pair_fails (req := req) (minV := minV) (o := none) (Out.failsWith_crash.1 h)

/-- **C72** A version 2 response whose expression is nested deeper than the stack allows brings the verifier down, whatever its
certificate is: the expression is read before the certificate is looked at. -/
theorem C72_expression (env : Env) (req : HttpRequest) (res : HttpResponse) (minV : Nat) (hdr : CertHeader) (p : List Bytes)
    (text : List Char) (hh : CarriesHeader env.machine res hdr) (hm : minV ≤ 2) (hv : hdr.version = 2) (hp : hdr.exprPath = some p)
    (hx : LastHeader res.headers (str "IC-CertificateExpression") (utf8 text))
    (hd : CelGrammar.Deep env.machine.celStack text) : verifyPair env req res minV = .crash := by
  obtain ⟨t, h1, h2⟩ := hh
  have e1 : headerGet res.headers certHeaderName = some t := headerGet_some.2 h1
  have e2 : headerGet res.headers certExprHeaderName = some (utf8 text) := headerGet_some.2 hx
  have e3 : parseCelOn env.machine.celStack (utf8 text) = none := (C78_stack _ _).1.2 ⟨text, rfl, hd⟩
  have : ¬ 2 < minV := by omega
  unfold verifyPair
  simp only [e1, h2, e2]
  simp [bind, Out.bind, this, Out.ofRun, hv, hp, e3]

end
end Verif.Props
