import Verif.Props.Complete
import Verif.Spec.Stability

set_option linter.unusedSimpArgs false
set_option linter.unusedSectionVars false

/-!
# Property C73: what a verdict depends on
-/

namespace Verif.Props
open Verif HashTree PathShape
variable [SHA] [UriLib] [Bls] [Inflate]

theorem sameHeader_get {a b : HttpResponse} {name : Bytes} (h : SameHeader a b name) :
    headerGet a.headers name = headerGet b.headers name := by
  cases e : headerGet a.headers name with
  | some v => rw [headerGet_some.2 ((h v).1 (headerGet_some.1 e))]
  | none =>
    cases e' : headerGet b.headers name with
    | none => rfl
    | some v => rw [headerGet_some.2 ((h v).2 (headerGet_some.1 e'))] at e; simp at e

theorem Out.Alike.refl {ε : Type} (x : Out ε VerificationInfo) : x.Alike x := by
  cases x with
  | ok a =>
    refine ⟨rfl, ?_⟩
    cases a.response with
    | none => trivial
    | some r => exact ⟨rfl, rfl, List.Perm.refl _⟩
  | err e => exact rfl
  | crash => trivial

theorem Out.Alike.bind {ε α : Type} (x : Out ε α) {f g : α → Out ε VerificationInfo}
    (h : ∀ a, x = .ok a → (f a).Alike (g a)) : (x >>= f).Alike (x >>= g) := by
  cases x with
  | ok a => exact h a rfl
  | err e => exact rfl
  | crash => trivial

theorem finish_alike {res res' : HttpResponse} {rc : RespCert} (hr : SameResponse rc res res')
    (hc : headerGet res.headers certHeaderName = headerGet res'.headers certHeaderName) (tree : HashTree) (e : List Bytes)
    (eh : Hash) (cel : CelExpr) (qh : Option Hash) :
    (v2Verification.finish res tree e eh cel qh rc).Alike (v2Verification.finish res' tree e eh cel qh rc) := by
  have h1 : responseHash res rc none = responseHash res' rc none := C30_ignores_uncertified hr.1 hr.2.1 hr.2.2
  have h0 : ∀ r : HttpResponse, (sha ((responseHeadersHash r.status.toUInt64 (filterResponseHeaders r rc)).1 ++
      (sha r.body).1)) = responseHash r rc none := fun _ => rfl
  unfold v2Verification.finish
  simp only [h0, h1, filterResp_certificate, hc, filterRespHeaders_eq]
  split
  · cases headerGet res'.headers certHeaderName with
    | none => exact rfl
    | some v => exact ⟨rfl, by rw [hr.1], hr.2.1, hr.2.2.append_right _⟩
  · exact rfl

/-- **C73.** The verdict on a response of version 2 depends only on its certificate header, its expression header, the
path of the request, and the parts of request and response the claimed expression covers; the verdict on a response of
version 1 on the certificate header, the path of the request, the body and the content encoding. Whatever else is
changed, reordered, added or removed, the verifier ends in the same way: it returns the same content, or the same
error, or does not return. -/
theorem C73_nothing_else {env : Env} {req req' : HttpRequest} {res res' : HttpResponse} {minV : Nat}
    (hcert : SameHeader res res' (str "IC-Certificate")) (hpath : req.getPath = req'.getPath)
    (h2 : ∀ hdr, CarriesHeader env.machine res hdr → hdr.version = 2 →
      SameHeader res res' (str "IC-CertificateExpression") ∧
      ∀ e expr cel p, Claims env.machine res hdr e expr cel → req.getPath = .ok p → SameCertified cel req req' res res')
    (h1 : ∀ hdr, CarriesHeader env.machine res hdr → hdr.version = 1 →
      SameHeader res res' (str "Content-Encoding") ∧ res.body = res'.body) :
    (verifyPair env req res minV).Alike (verifyPair env req' res' minV) := by
  have hc : headerGet res.headers certHeaderName = headerGet res'.headers certHeaderName := sameHeader_get hcert
  unfold verifyPair
  rw [← hc]
  cases e1 : headerGet res.headers certHeaderName with
  | none => exact rfl
  | some text =>
    refine Out.Alike.bind _ (fun hdr e2 => ?_)
    have hcar : CarriesHeader env.machine res hdr := ⟨text, headerGet_some.1 e1, e2⟩
    by_cases hv : hdr.version < minV
    · simp only [hv, if_true]; exact rfl
    simp only [hv, if_false]
    by_cases hv1 : hdr.version = 1
    · simp only [hv1, if_true]
      obtain ⟨g1, g2⟩ := h1 hdr hcar hv1
      have g3 : headerGet res.headers (str "content-encoding") = headerGet res'.headers (str "content-encoding") := by
        apply sameHeader_get
        intro v
        have e : ∀ r : HttpResponse, LastHeader r.headers (str "content-encoding") v ↔ LastHeader r.headers (str "Content-Encoding") v := by
          intro r
          unfold LastHeader SameName
          rw [show lower (str "content-encoding") = lower (str "Content-Encoding") by decide]
        rw [e, e]; exact g1 v
      unfold v1Verification
      rw [g3, g2, hpath]
      exact Out.Alike.refl _
    simp only [hv1, if_false]
    by_cases hv2 : hdr.version = 2
    · simp only [hv2, if_true]
      obtain ⟨g1, g2⟩ := h2 hdr hcar hv2
      have g3 : headerGet res.headers certExprHeaderName = headerGet res'.headers certExprHeaderName := sameHeader_get g1
      rw [← g3]
      cases e3 : headerGet res.headers certExprHeaderName with
      | none => exact rfl
      | some expr =>
        cases e4 : hdr.exprPath with
        | none => exact rfl
        | some e =>
          refine Out.Alike.bind _ (fun cel e5 => ?_)
          rw [Out.ofRun_ok] at e5
          unfold v2Verification
          rw [← hpath]
          refine Out.Alike.bind _ (fun p e6 => ?_)
          rw [Out.ofExcept_ok] at e6
          have hs := g2 e expr cel p ⟨hcar, hv2, e4, headerGet_some.1 e3, e5⟩ e6
          refine Out.Alike.bind _ (fun _ _ => ?_)
          split
          · exact rfl
          refine Out.Alike.bind _ (fun _ _ => ?_)
          cases cel with
          | skip => exact Out.Alike.refl _
          | responseOnly rc => exact finish_alike hs hc _ _ _ _ _
          | full qc rc =>
            simp only
            rw [← sameRequest_hash hs.1]
            exact Out.Alike.bind _ (fun _ _ => finish_alike hs.2 hc _ _ _ _ _)
    · simp only [hv2, if_false]; exact rfl

/-- **C73.** The requested minimum version only decides whether the version of the header is accepted: if it is, the
verdict is the one without a minimum. -/
theorem C73_minimum {env : Env} {req : HttpRequest} {res : HttpResponse} {minV : Nat} :
    (∀ hdr, CarriesHeader env.machine res hdr → minV ≤ hdr.version →
      verifyPair env req res minV = verifyPair env req res 0) ∧
    (∀ info, verifyPair env req res 0 = .ok info →
      (verifyPair env req res minV = .ok info ↔ minV ≤ info.version)) := by
  have h1 : ∀ hdr, CarriesHeader env.machine res hdr → minV ≤ hdr.version →
      verifyPair env req res minV = verifyPair env req res 0 := by
    rintro hdr ⟨t, h1, h2⟩ h3
    have h1' : headerGet res.headers certHeaderName = some t := headerGet_some.2 h1
    unfold verifyPair
    simp only [h1', h2, Out.ok_bind]
    have k : ¬ hdr.version < minV := by omega
    simp only [k, Nat.not_lt_zero, if_false]
  refine ⟨h1, fun info h => ?_⟩
  obtain ⟨hdr, g1, g2, -⟩ := C26_version h
  constructor
  · intro h'
    obtain ⟨-, -, -, h3, -⟩ := C26_version h'
    exact h3
  · intro h'
    rw [h1 hdr g1 (by omega), h]

omit [UriLib] [Inflate] in
theorem certVerify_time {m : Machine} {checks : Bool} {c : Certificate} {id key v : Bytes} {t now off : Nat}
    (hl : c.tree.lookupPath [str "time"] = .found v) (ht : lebRead v = some t) (h1 : off ≤ now)
    (h2 : now + off < 2 ^ 128) (hw : InWindow t now off) :
    certVerify m checks c id key now off =
      ((match c.delegation with
        | some d => verifyDelegation m d id key
        | none => .ok key) >>= fun derKey => verifyCertSignature c derKey) := by
  unfold certVerify
  rw [(C39_window_exact_partial checks c now off t v hl ht h1 h2).2 hw]
  rfl

/-- **C73.** Of the clock and the allowed offset only matters whether the time of the certificate is in the window: at
any two moments at which it is, the verifier ends in exactly the same way. -/
theorem C73_time {env env' : Env} {req : HttpRequest} {res : HttpResponse} {minV : Nat} (he : env.SameButTime env')
    (hr : env.TimeInRange) (hr' : env'.TimeInRange)
    (hw : ∀ hdr, CarriesHeader env.machine res hdr → ∃ v t, hdr.certificate.tree.lookupPath [str "time"] = .found v ∧
      lebRead v = some t ∧ InWindow t env.now env.offset ∧ InWindow t env'.now env'.offset) :
    verifyPair env req res minV = verifyPair env' req res minV := by
  obtain ⟨m, checks, id, now, off, key⟩ := env
  obtain ⟨m', checks', id', now', off', key'⟩ := env'
  obtain ⟨rfl, rfl, rfl, rfl⟩ := he
  simp only [Env.TimeInRange] at hr hr' hw
  unfold verifyPair
  cases e1 : headerGet res.headers certHeaderName with
  | none => rfl
  | some text =>
    simp only
    cases e2 : headerFrom m ((chars text).getD []) with
    | err e => rfl
    | crash => rfl
    | ok hdr =>
      simp only [Out.ok_bind]
      obtain ⟨v, t, a1, a2, a3, a4⟩ := hw hdr ⟨text, headerGet_some.1 e1, e2⟩
      have hv : (Env.mk m checks id now off key).verifyCert hdr.certificate =
          (Env.mk m checks id now' off' key).verifyCert hdr.certificate := by
        unfold Env.verifyCert
        simp only [certVerify_time a1 a2 hr.1 hr.2 a3, certVerify_time a1 a2 hr'.1 hr'.2 a4]
      unfold v1Verification v2Verification
      simp only [hv]

/-- **C73.** A response that verified once verifies again, with the same result, exactly as long as the time of its
certificate is in the window. -/
theorem C73_lifetime {env env' : Env} {req : HttpRequest} {res : HttpResponse} {minV : Nat} {info : VerificationInfo}
    (he : env.SameButTime env') (hr : env.TimeInRange) (hr' : env'.TimeInRange)
    (h : verifyPair env req res minV = .ok info) :
    ∃ hdr t, CarriesHeader env.machine res hdr ∧ CertTime hdr.certificate t ∧
      (InWindow t env'.now env'.offset → verifyPair env' req res minV = .ok info) ∧
      (¬ InWindow t env'.now env'.offset → ∀ info', verifyPair env' req res minV ≠ .ok info') := by
  have key : ∀ {ev : Env} {info : VerificationInfo}, verifyPair ev req res minV = .ok info → ∃ hdr, CarriesHeader ev.machine res hdr ∧
      certVerify ev.machine ev.checks hdr.certificate ev.canisterId ev.rootKey ev.now ev.offset = .ok () := by
    intro ev info h
    obtain ⟨hdr, g1, -, g2⟩ := verifyPair_ok.1 h
    refine ⟨hdr, g1, ?_⟩
    rcases g2 with ⟨-, g2⟩ | ⟨-, _, _, _, -, -, -, g2⟩
    · obtain ⟨_, g3, _⟩ := v1_ok.1 g2
      first
        | exact verifyCert_ok.1 g3
        | (obtain ⟨_, _, _, _, _⟩ := v1_ok.1 g2; exact verifyCert_ok.1 (by assumption))
    · obtain ⟨_, _, g3, _⟩ := v2_ok.1 g2
      exact verifyCert_ok.1 g3
  obtain ⟨hdr, g1, g2⟩ := key h
  have hbase : ∀ {ev : Env}, ev.TimeInRange → certVerify ev.machine ev.checks hdr.certificate ev.canisterId ev.rootKey ev.now ev.offset = .ok () →
      ∃ v t, hdr.certificate.tree.lookupPath [str "time"] = .found v ∧ lebRead v = some t ∧ InWindow t ev.now ev.offset := by
    intro ev hre g
    have gt : verifyTime ev.checks hdr.certificate.tree ev.now ev.offset = .ok () := by
      unfold certVerify at g
      rw [Out.bind_ok] at g
      obtain ⟨⟨⟩, g, -⟩ := g
      exact g
    have gt' := gt
    unfold verifyTime at gt'
    split at gt'
    · rename_i v hl
      split at gt'
      · simp at gt'
      · rename_i t ht
        exact ⟨v, t, hl, ht, (C39_window_exact_partial _ _ _ _ _ _ hl ht hre.1 hre.2).1 gt⟩
    · simp at gt'
  obtain ⟨v, t, a1, a2, a3⟩ := hbase hr g2
  refine ⟨hdr, t, g1, ⟨v, lookupPath_found_hasLeaf a1, a2⟩, ?_, ?_⟩
  · intro hw
    rw [← h]
    symm
    apply C73_time he hr hr'
    intro hdr' hc
    rw [carriesHeader_unique hc g1]
    exact ⟨v, t, a1, a2, a3, hw⟩
  · intro hw info' h'
    obtain ⟨hdr', g1', g2'⟩ := key h'
    have : hdr' = hdr := carriesHeader_unique (by rw [he.1]; exact g1') g1
    subst this
    obtain ⟨v', t', b1, b2, b3⟩ := hbase hr' g2'
    rw [a1] at b1
    cases b1
    rw [a2] at b2
    cases b2
    exact hw b3

end Verif.Props
