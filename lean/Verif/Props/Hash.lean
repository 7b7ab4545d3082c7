import Verif.Lemmas.Http
import Verif.Lemmas.HttpPath
import Verif.Spec.Toy

set_option linter.unusedSimpArgs false
set_option linter.unusedSectionVars false

/-!
# Properties C29–C31: request, response and representation-independent hashes
-/

namespace Verif.Props
open Verif
variable [SHA]

/-- **C31.** The hash does not depend on the order of the entries. -/
theorem C31_perm {m1 m2 : List (Bytes × RValue)} (h : m1.Perm m2) : rih m1 = rih m2 := rih_perm h

/-- **C31.** Nor on anything the encoding identifies (for instance text and the same bytes). -/
theorem C31_same {m1 m2 : List (Bytes × RValue)}
    (h : List.Forall₂ (fun a b => a.1 = b.1 ∧ RValue.Same a.2 b.2) m1 m2) : rih m1 = rih m2 := by
  have : m1.map (fun e => (sha e.1, e.2.hash)) = m2.map (fun e => (sha e.1, e.2.hash)) := by
    induction h with
    | nil => rfl
    | cons h1 _ ih => simp [h1.1, h1.2.hash_eq, ih]
  simp only [rih, this]

/-- **C31.** Equal hashes mean equal maps: up to order the same keys with the same values (as far as the encoding
distinguishes values), or two different strings hashed on the way collide. Duplicate keys count. -/
theorem C31_binding {m1 m2 : List (Bytes × RValue)} (h : rih m1 = rih m2) :
    (∃ m2', m2'.Perm m2 ∧ List.Forall₂ (fun a b => a.1 = b.1 ∧ RValue.Same a.2 b.2) m1 m2') ∨
      CollisionIn (rihHashed m1) (rihHashed m2) := rih_inj_same h

/-- **C31.** Numbers are distinguished from each other: identified numbers are equal. -/
theorem C31_numbers {n m : UInt64} (h : RValue.Same (.number n) (.number m)) : n = m := by
  cases h with
  | flat _ h => exact lebU64_inj h

/-- **C31.** So are strings. -/
theorem C31_strings {a b : Bytes} (h : RValue.Same (.string a) (.string b)) : a = b := by
  cases h with
  | flat _ h => exact h

variable [UriLib]

/-- **C29.** The request hash is a function of the certified parts: two requests with the same method, body,
certified query parameters (both or neither having a query string) and the same certified headers up to order have
the same hash, whatever their other headers and parameters. -/
theorem C29_ignores_uncertified {r1 r2 : HttpRequest} {c : ReqCert} {q1 q2 : Option Bytes}
    (h1 : r1.getQuery = .ok q1) (h2 : r2.getQuery = .ok q2) (hm : r1.method = r2.method) (hb : r1.body = r2.body)
    (hh : (certifiedReqHeaders c r1.headers).Perm (certifiedReqHeaders c r2.headers))
    (hq : q1.map (certifiedParams c) = q2.map (certifiedParams c)) :
    requestHash r1 c = requestHash r2 c ∧ ∃ h, requestHash r1 c = .ok h := by
  unfold requestHash
  rw [h1, h2]
  simp only [Except.ok.injEq]
  refine ⟨?_, _, rfl⟩
  rw [hb]
  have hp : (requestMap r1 c q1).Perm (requestMap r2 c q2) := by
    unfold requestMap
    rw [hm, filteredReqHeaders_eq, filteredReqHeaders_eq]
    refine ((hh.map _).append_right _).append ?_
    cases q1 <;> cases q2 <;> simp at hq ⊢
    rw [filteredQuery_eq, filteredQuery_eq, hq]
  rw [rih_perm hp]

/-- **C29.** Reordering headers does not change the hash. -/
theorem C29_header_order {r : HttpRequest} {c : ReqCert} {hs : List Header} (h : hs.Perm r.headers) :
    requestHash { r with headers := hs } c = requestHash r c := by
  unfold requestHash HttpRequest.getQuery
  simp only
  cases UriLib.parse r.url with
  | none => rfl
  | some x =>
    simp only [Except.ok.injEq]
    have hp : (requestMap { r with headers := hs } c x.2).Perm (requestMap r c x.2) := by
      unfold requestMap
      simp only
      refine List.Perm.append_right _ (List.Perm.append_right _ ?_)
      exact h.filterMap _
    rw [rih_perm hp]

/-- **C29.** Hashing fails only for a URL that does not parse. -/
theorem C29_error (r : HttpRequest) (c : ReqCert) :
    (∃ e, requestHash r c = .error e) ↔ UriLib.parse r.url = none := by
  unfold requestHash HttpRequest.getQuery
  cases UriLib.parse r.url with
  | none => simp
  | some x => simp

theorem perm_single_tag {l1 l2 : List (Bytes × Bytes)} {k v1 v2 : Bytes}
    (h : (l1 ++ [(k, v1)]).Perm (l2 ++ [(k, v2)])) (h1 : ∀ e ∈ l1, e.1 ≠ k) : v1 = v2 ∧ l1.Perm l2 := by
  have hf := (perm_split h (fun n => n = k)).1
  have hf1 : (l1 ++ [(k, v1)]).filter (fun e => e.1 = k) = [(k, v1)] := by
    rw [List.filter_append]
    have : l1.filter (fun e => e.1 = k) = [] := by
      rw [List.filter_eq_nil_iff]
      intro a ha; simp [h1 a ha]
    rw [this]; simp
  rw [hf1] at hf
  have hmem : (k, v2) ∈ (l2 ++ [(k, v2)]).filter (fun e => e.1 = k) := by simp
  have := hf.mem_iff.2 hmem
  simp at this
  subst this
  refine ⟨rfl, ?_⟩
  have := h
  exact (List.perm_append_right_iff _).1 this

/-- **C29.** The request hash binds the certified parts: equal hashes mean the same method, the same certified
headers up to order, the same body, the same presence of a query string and the same certified parameters joined
by `&`; or two different strings hashed on the way collide. The certification must not list the two
pseudo-header names `:ic-cert-method`, `:ic-cert-query` (they are not valid HTTP header names; `C29_pseudo_clash`
shows the confusion otherwise). -/
theorem C29_binding {r1 r2 : HttpRequest} {c : ReqCert} {q1 q2 : Option Bytes} {h : Hash}
    (e1 : r1.getQuery = .ok q1) (e2 : r2.getQuery = .ok q2)
    (hc : ∀ n ∈ c.headers, ¬ SameName n (str ":ic-cert-method") ∧ ¬ SameName n (str ":ic-cert-query"))
    (h1 : requestHash r1 c = .ok h) (h2 : requestHash r2 c = .ok h) :
    (r1.method = r2.method ∧ r1.body = r2.body ∧
      (certifiedReqHeaders c r1.headers).Perm (certifiedReqHeaders c r2.headers) ∧
      q1.map (fun q => [0x26].intercalate (certifiedParams c q)) =
        q2.map (fun q => [0x26].intercalate (certifiedParams c q))) ∨
    CollisionIn (requestHashed r1 c q1) (requestHashed r2 c q2) := by
  unfold requestHash at h1 h2
  rw [e1] at h1; rw [e2] at h2
  simp only [Except.ok.injEq] at h1 h2
  have heq := h1.trans h2.symm
  rcases sha_pair_inj heq with ⟨ha, hb⟩ | ⟨hne, hcol⟩
  · by_cases hbody : r1.body = r2.body
    · rcases rih_inj_raw ha with hp | hcol
      · left
        have nopseudo : ∀ r : HttpRequest, ∀ e ∈ certifiedReqHeaders c r.headers,
            e.1 ≠ str ":ic-cert-method" ∧ e.1 ≠ str ":ic-cert-query" := by
          intro r e he
          unfold certifiedReqHeaders at he
          obtain ⟨y, hy, rfl⟩ := List.mem_map.1 he
          have hy2 := of_decide_eq_true (List.mem_filter.1 hy).2
          obtain ⟨n, hn, hs⟩ := hy2
          have := hc n hn
          constructor
          · intro h; apply this.1; unfold SameName at hs ⊢; simp only at h; rw [hs, h]; decide
          · intro h; apply this.2; unfold SameName at hs ⊢; simp only at h; rw [hs, h]; decide
        have raws : ∀ (r : HttpRequest) q, ((certifiedReqHeaders c r.headers ++
              (match q with
                | some q => [(str ":ic-cert-query", [0x26].intercalate (certifiedParams c q))]
                | none => [])) ++ [(str ":ic-cert-method", r.method)]).Perm
            ((requestMap r c q).map (fun e => (e.1, e.2.raw))) := by
          intro r q
          unfold requestMap
          rw [filteredReqHeaders_eq]
          have hid : ((certifiedReqHeaders c r.headers).map (fun h => (h.1, RValue.string h.2))).map
              (fun e => (e.1, e.2.raw)) = certifiedReqHeaders c r.headers := by
            rw [List.map_map]
            exact List.map_id _
          cases q with
          | none =>
            simp only [List.map_append, hid, List.append_nil]
            exact .refl _
          | some q =>
            simp only [List.map_append, hid, List.append_assoc, filteredQuery_eq]
            exact List.Perm.append_left _ (List.Perm.swap _ _ _)
        have hp' := ((raws r1 q1).trans hp).trans (raws r2 q2).symm
        have hne : str ":ic-cert-query" ≠ str ":ic-cert-method" := by decide
        have hm := perm_single_tag hp' (by
          intro e he
          rcases List.mem_append.1 he with he | he
          · exact (nopseudo r1 e he).1
          · cases q1 with
            | none => simp at he
            | some q => simp at he; subst he; exact hne)
        refine ⟨hm.1, hbody, ?_⟩
        have hp2 := hm.2
        cases q1 with
        | none =>
          cases q2 with
          | none => simpa using hp2
          | some q2 =>
            simp only [List.append_nil] at hp2
            have := hp2.mem_iff.2 (List.mem_append_right _ (List.mem_singleton.2 rfl))
            exact absurd rfl (nopseudo r1 _ this).2
        | some q1 =>
          cases q2 with
          | none =>
            simp only [List.append_nil] at hp2
            have := hp2.mem_iff.1 (List.mem_append_right _ (List.mem_singleton.2 rfl))
            exact absurd rfl (nopseudo r2 _ this).2
          | some q2 =>
            have := perm_single_tag hp2 (fun e he => (nopseudo r1 e he).2)
            exact ⟨this.2, by simp [this.1]⟩
      · exact .inr (hcol.mono (fun x hx => by simp [requestHashed, hx]) (fun x hx => by simp [requestHashed, hx]))
    · right
      exact ⟨r1.body, by simp [requestHashed], r2.body, by simp [requestHashed], hbody, hb⟩
  · right
    exact ⟨_, by simp [requestHashed], _, by simp [requestHashed], hne, hcol⟩

/-- **C29**, closer reading of the query part: if both certified parameter lists are non-empty, their equality
as joined strings is equality of the lists, in order. -/
theorem C29_query_binding {c : ReqCert} {q1 q2 : Bytes} (h1 : certifiedParams c q1 ≠ []) (h2 : certifiedParams c q2 ≠ [])
    (h : [0x26].intercalate (certifiedParams c q1) = [0x26].intercalate (certifiedParams c q2)) :
    certifiedParams c q1 = certifiedParams c q2 := by
  have key : ∀ q, certifiedParams c q ≠ [] →
      ([0x26].intercalate (certifiedParams c q)).splitOn (0x26 : UInt8) = certifiedParams c q := by
    intro q hq
    refine List.splitOn_intercalate _ (fun l hl => ?_) hq
    exact not_mem_of_mem_splitOn (List.mem_filter.1 hl).1
  rw [← key q1 h1, ← key q2 h2, h]

/-- **C30.** The response hash is a function of status, body and the certified headers up to order. -/
theorem C30_ignores_uncertified {r1 r2 : HttpResponse} {c : RespCert} {bh : Option Hash}
    (hs : r1.status = r2.status) (hb : r1.body = r2.body)
    (hh : (certifiedRespHeaders c r1.headers).Perm (certifiedRespHeaders c r2.headers)) :
    responseHash r1 c bh = responseHash r2 c bh := by
  unfold responseHash responseHeadersHash responseMap
  rw [filterRespHeaders_eq, filterRespHeaders_eq, hs, hb]
  rw [rih_perm ((hh.map _).append_right _)]

/-- **C30.** In particular header order, the IC-Certificate header and headers not selected by the certification
are irrelevant: dropping one changes nothing. -/
theorem C30_drop_uncertified {r : HttpResponse} {c : RespCert} {bh : Option Hash} {l1 l2 : List Header} {h : Header}
    (hr : r.headers = l1 ++ h :: l2) (hn : SameName h.1 (str "ic-certificate") ∨ ¬ c.Certifies h.1) :
    responseHash { r with headers := l1 ++ l2 } c bh = responseHash r c bh := by
  refine C30_ignores_uncertified rfl rfl ?_
  simp only [hr]
  have hn' : ¬ c.Certifies h.1 := by
    rcases hn with h1 | h1
    · exact fun h2 => h2.1 h1
    · exact h1
  unfold certifiedRespHeaders
  simp [List.filter_cons, hn']

/-- **C30.** The response hash binds the certified parts: equal hashes mean the same body, the same status and the
same certified headers up to order, or two different strings hashed on the way collide. The one response must not
itself carry a header called `:ic-cert-status` (not a valid HTTP header name). -/
theorem C30_binding {r1 r2 : HttpResponse} {c : RespCert} (h : responseHash r1 c none = responseHash r2 c none)
    (hp : ∀ x ∈ r1.headers, ¬ SameName x.1 (str ":ic-cert-status")) :
    (r1.status = r2.status ∧ r1.body = r2.body ∧
      (certifiedRespHeaders c r1.headers).Perm (certifiedRespHeaders c r2.headers)) ∨
    CollisionIn (responseHashed r1 c) (responseHashed r2 c) := by
  unfold responseHash at h
  simp only [Option.getD_none] at h
  rcases sha_pair_inj h with ⟨ha, hb⟩ | ⟨hne, hcol⟩
  · by_cases hbody : r1.body = r2.body
    · rcases rih_inj_raw ha with hpm | hcol
      · left
        have raws : ∀ r : HttpResponse, (responseMap r.status.toUInt64 (filterResponseHeaders r c)).map
            (fun e => (e.1, e.2.raw)) = certifiedRespHeaders c r.headers ++ [(statusPseudo, lebU64 r.status.toUInt64)] := by
          intro r
          unfold responseMap
          rw [filterRespHeaders_eq]
          simp only [List.map_append, List.map_map]
          congr 1
          exact List.map_id _
        rw [raws, raws] at hpm
        have := perm_single_tag hpm (by
          intro e he
          unfold certifiedRespHeaders at he
          obtain ⟨y, hy, rfl⟩ := List.mem_map.1 he
          intro hk
          apply hp y (List.mem_filter.1 hy).1
          unfold SameName
          simp only at hk
          rw [hk]; decide)
        refine ⟨?_, hbody, this.2⟩
        have h64 := lebU64_inj this.1
        have := congrArg UInt64.toNat h64
        simp at this
        exact UInt16.toNat_inj.1 this
      · exact .inr (hcol.mono (fun x hx => by simp [responseHashed, hx]) (fun x hx => by simp [responseHashed, hx]))
    · right
      exact ⟨r1.body, by simp [responseHashed], r2.body, by simp [responseHashed], hbody, hb⟩
  · right
    exact ⟨_, by simp [responseHashed], _, by simp [responseHashed], hne, hcol⟩

/-- **C30.** Supplying the body hash in advance gives the same result as letting it be computed. -/
theorem C30_body_hash_override (r : HttpResponse) (c : RespCert) :
    responseHash r c (some (sha r.body)) = responseHash r c none := rfl

/-! ### Concrete instances -/

section examples

@[instance_reducible] def toyUri : UriLib := ⟨fun u => some (u.takeWhile (· ≠ 0x3F), (u.splitOn 0x3F)[1]?), some⟩

def exReq : HttpRequest := ⟨str "GET", str "/a?x=1&Y=2&z=3", [(str "Host", str "h"), (str "Accept", str "*")], str "b"⟩
def exReq' : HttpRequest := ⟨str "GET", str "/a?y=9&Y=2&X=1", [(str "Other", str "o"), (str "HOST", str "h")], str "b"⟩
def exRc : ReqCert := ⟨[str "host"], [str "X"]⟩

example : letI := toyUri; exReq.getQuery = .ok (some (str "x=1&Y=2&z=3")) := by rfl
example : certifiedReqHeaders exRc exReq.headers = [(str "host", str "h")] ∧
    certifiedReqHeaders exRc exReq'.headers = [(str "host", str "h")] := by decide
example : certifiedParams exRc (str "x=1&Y=2&z=3") = [str "x=1"] := by decide
example : ∀ n ∈ exRc.headers, ¬ SameName n (str ":ic-cert-method") ∧ ¬ SameName n (str ":ic-cert-query") := by decide

def exResp : HttpResponse := ⟨200, [(str "IC-Certificate", str "c"), (str "X", str "1"), (str "Etag", str "e")], str "body"⟩
example : certifiedRespHeaders (.headerExclusions [str "etag"]) exResp.headers = [(str "x", str "1")] := by decide
example : ∀ x ∈ exResp.headers, ¬ SameName x.1 (str ":ic-cert-status") := by decide

/-- Listing a pseudo-header name as a certified header lets a header stand in for the query string. -/
theorem C29_pseudo_clash : letI := toyUri;
    requestHash ⟨str "GET", str "/a", [(str ":ic-cert-query", str "x=1")], []⟩ ⟨[str ":ic-cert-query"], [str "x"]⟩ =
    requestHash ⟨str "GET", str "/a?x=1", [], []⟩ ⟨[str ":ic-cert-query"], [str "x"]⟩ := by
  simp only [requestHash, HttpRequest.getQuery, UriLib.parse]
  refine congrArg Except.ok (congrArg sha (congrArg₂ _ (congrArg Subtype.val (rih_perm ?_)) rfl))
  exact List.Perm.swap _ _ _

end examples
end Verif.Props
