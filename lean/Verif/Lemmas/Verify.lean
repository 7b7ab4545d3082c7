import Verif.Spec.Verify
import Verif.Lemmas.Http
import Verif.Lemmas.HttpPath
import Verif.Lemmas.Lookup
import Verif.Lemmas.CertTree
import Verif.Props.HashTree
import Verif.Props.CertVerify

set_option linter.unusedSimpArgs false
set_option linter.unusedSectionVars false

namespace Verif
open HashTree PathShape

theorem headerGet_foldl (name : Bytes) (hs : List Header) (acc : Option Bytes) (v : Bytes) :
    hs.foldl (fun acc h => if lower h.1 == lower name then some h.2 else acc) acc = some v ↔
      LastHeader hs name v ∨ (NoHeader hs name ∧ acc = some v) := by
  induction hs generalizing acc with
  | nil => simp [LastHeader, NoHeader]
  | cons h hs ih =>
    rw [List.foldl_cons, ih]
    by_cases hn : SameName h.1 name
    · have : (lower h.1 == lower name) = true := by simpa [SameName] using hn
      rw [if_pos this]
      constructor
      · rintro (⟨pre, n, post, rfl, h2, h3⟩ | ⟨h1, h2⟩)
        · exact .inl ⟨h :: pre, n, post, rfl, h2, h3⟩
        · simp at h2
          exact .inl ⟨[], h.1, hs, by simp [← h2], hn, h1⟩
      · rintro (⟨pre, n, post, h1, h2, h3⟩ | ⟨h1, h2⟩)
        · cases pre with
          | nil =>
            simp at h1
            obtain ⟨rfl, rfl⟩ := h1
            exact .inr ⟨h3, rfl⟩
          | cons x pre =>
            simp at h1
            exact .inl ⟨pre, n, post, h1.2, h2, h3⟩
        · exact absurd hn (h1 h (by simp))
    · have : ¬ (lower h.1 == lower name) = true := by simpa [SameName] using hn
      rw [if_neg this]
      constructor
      · rintro (⟨pre, n, post, rfl, h2, h3⟩ | ⟨h1, h2⟩)
        · exact .inl ⟨h :: pre, n, post, rfl, h2, h3⟩
        · refine .inr ⟨?_, h2⟩
          intro x hx
          rcases List.mem_cons.1 hx with rfl | hx
          · exact hn
          · exact h1 x hx
      · rintro (⟨pre, n, post, h1, h2, h3⟩ | ⟨h1, h2⟩)
        · cases pre with
          | nil =>
            simp at h1
            obtain ⟨rfl, rfl⟩ := h1
            exact absurd h2 hn
          | cons x pre =>
            simp at h1
            exact .inl ⟨pre, n, post, h1.2, h2, h3⟩
        · exact .inr ⟨fun x hx => h1 x (by simp [hx]), h2⟩

theorem headerGet_some {hs : List Header} {name v : Bytes} : headerGet hs name = some v ↔ LastHeader hs name v := by
  unfold headerGet
  rw [headerGet_foldl]
  simp

theorem headerGet_none {hs : List Header} {name : Bytes} : headerGet hs name = none ↔ NoHeader hs name := by
  constructor
  · intro h x hx hn
    have : ∀ v, ¬ LastHeader hs name v := by
      intro v hv; rw [headerGet_some.2 hv] at h; simp at h
    clear h
    induction hs with
    | nil => simp at hx
    | cons y hs ih =>
      by_cases hno : NoHeader hs name
      · rcases List.mem_cons.1 hx with rfl | hx
        · exact this x.2 ⟨[], x.1, hs, rfl, hn, hno⟩
        · exact hno x hx hn
      · simp only [NoHeader] at hno
        push Not at hno
        obtain ⟨z, hz, hz'⟩ := hno
        -- some header below has the name; there is a last one
        have hex : ∃ v, headerGet hs name = some v := by
          cases hg : headerGet hs name with
          | some v => exact ⟨v, rfl⟩
          | none =>
            exfalso
            have key : ∀ (l : List Header) (acc : Option Bytes), (acc.isSome ∨ ∃ z ∈ l, SameName z.1 name) →
                (l.foldl (fun acc h => if lower h.1 == lower name then some h.2 else acc) acc).isSome := by
              intro l
              induction l with
              | nil => intro acc h; simpa using h
              | cons a l ihl =>
                intro acc h
                rw [List.foldl_cons]
                apply ihl
                rcases h with h | ⟨z, hz, hz'⟩
                · left; split <;> simp [h]
                · rcases List.mem_cons.1 hz with rfl | hz
                  · left
                    have : (lower z.1 == lower name) = true := by simpa [SameName] using hz'
                    simp [this]
                  · right; exact ⟨z, hz, hz'⟩
            have := key hs none (.inr ⟨z, hz, hz'⟩)
            unfold headerGet at hg
            rw [hg] at this
            simp at this
        obtain ⟨v, hv⟩ := hex
        obtain ⟨pre, n, post, h1, h2, h3⟩ := headerGet_some.1 hv
        exact this v ⟨y :: pre, n, post, by simp [h1], h2, h3⟩
  · intro h
    cases hg : headerGet hs name with
    | none => rfl
    | some v =>
      obtain ⟨pre, n, post, rfl, h2, _⟩ := headerGet_some.1 hg
      exact absurd h2 (h (n, v) (by simp))

theorem LastHeader.unique {hs : List Header} {name v v' : Bytes} (h : LastHeader hs name v) (h' : LastHeader hs name v') :
    v = v' := by
  have := headerGet_some.2 h
  rw [headerGet_some.2 h'] at this
  simpa using this.symm

theorem filterResp_certificate (r : HttpResponse) (c : RespCert) :
    (filterResponseHeaders r c).certificate = headerGet r.headers certHeaderName := rfl

section
variable [SHA]

theorem mightExist_false {t : HashTree} {p : List Bytes} : mightExist t p = false ↔ t.lookupSubtree p = .absent := by
  unfold mightExist
  cases t.lookupSubtree p <;> simp

theorem existsIn_true {t : HashTree} {p : List Bytes} : existsIn t p = true ↔ ∃ n, t.lookupSubtree p = .found n := by
  unfold existsIn
  cases t.lookupSubtree p <;> simp

theorem validateTree_true {id : Bytes} {c : Certificate} {t : HashTree} : validateTree id c t = true ↔
    c.tree.lookupPath [str "canister", id, str "certified_data"] = .found t.digest.1 := by
  unfold validateTree
  cases c.tree.lookupPath [str "canister", id, str "certified_data"] <;> simp

theorem validateExprHash_some {p : List Bytes} {h : Hash} {t n : HashTree} :
    validateExprHash p h t = some n ↔ t.lookupSubtree (p ++ [h.1]) = .found n := by
  unfold validateExprHash
  cases t.lookupSubtree (p ++ [h.1]) <;> simp

/-- The label of the request hash in the tree. -/
def reqLabel (cel : CelExpr) (qh : Option Hash) : Bytes :=
  match cel, qh with
  | .full _ _, some h => h.1
  | _, _ => []

theorem validateHashes_true {e r : Hash} {q : Option Hash} {p : List Bytes} {t : HashTree} {cel : CelExpr} :
    validateHashes e q r p t cel = true ↔
      t.lookupSubtree (p ++ [e.1, reqLabel cel q, r.1]) = .found (.leaf []) := by
  have happ : p ++ [e.1, reqLabel cel q, r.1] = (p ++ [e.1]) ++ [reqLabel cel q, r.1] := by simp
  rw [happ, HashTree.lookupSubtree_append]
  unfold validateHashes validateExprHash
  cases h : t.lookupSubtree (p ++ [e.1]) with
  | absent => simp
  | unknown => simp
  | found n =>
    simp only
    show (match n.lookupSubtree [reqLabel cel q, r.1] with
      | .found r => r == HashTree.leaf []
      | _ => false) = true ↔ _
    cases n.lookupSubtree [reqLabel cel q, r.1] <;> simp

/-- `validate_expr_path`, all conditions for success. -/
theorem validateExprPath_ok {e : List Bytes} {p : Bytes} {t : HashTree} :
    validateExprPath e p t = .ok () ↔
      (e = pathPrefix :: pathParts p ++ [exactTerm] ∧ ∃ n, t.lookupSubtree e = .found n) ∨
      (e ≠ pathPrefix :: pathParts p ++ [exactTerm] ∧ e.head? = some pathPrefix ∧ e.getLast? = some wildTerm ∧
        t.lookupSubtree (pathPrefix :: pathParts p ++ [exactTerm]) = .absent ∧
        isWildcardValid e.dropLast (pathPrefix :: pathParts p) = true ∧
        (∃ ws, moreSpecificWildcards (pathPrefix :: pathParts p) e = some ws ∧
          ∀ w ∈ ws, t.lookupSubtree (pathPrefix :: w) = .absent) ∧
        ∃ n, t.lookupSubtree e = .found n) := by
  unfold validateExprPath
  simp only
  split
  · rename_i h1
    simp only [reduceCtorEq, false_iff]
    rintro (⟨rfl, _⟩ | ⟨_, h2, _⟩)
    · simp at h1
    · exact h1 h2
  · rename_i h1
    push Not at h1
    split
    · rename_i h2
      simp only [reduceCtorEq, false_iff]
      rintro (⟨rfl, _⟩ | ⟨_, _, h3, _⟩)
      · exact h2 (.inl (by rw [List.getLast?_append]; rfl))
      · exact h2 (.inr h3)
    · rename_i h2
      push Not at h2
      by_cases h3 : e = pathPrefix :: pathParts p ++ [exactTerm]
      · rw [if_pos h3]
        simp only [ne_eq, h3, not_true_eq_false, false_and, or_false, true_and]
        rw [← existsIn_true]
        split
        · rename_i h4; simpa using h4
        · rename_i h4; simpa using h4
      · rw [if_neg h3]
        simp only [h3, false_and, false_or, ne_eq, not_false_eq_true, true_and]
        split
        · rename_i h4
          simp only [reduceCtorEq, false_iff]
          rintro ⟨_, h5, _⟩
          rw [h4] at h5
          exact absurd h5 (by decide)
        · rename_i h4
          have h5 : e.getLast? = some wildTerm := by
            by_contra h6; exact h6 (by by_contra; exact absurd (h2) (by tauto))
          simp only [h1, h5, true_and]
          split
          · rename_i h6
            simp only [reduceCtorEq, false_iff]
            rintro ⟨h7, _⟩
            rw [mightExist_false.2 h7] at h6
            simp at h6
          · rename_i h6
            rw [Bool.not_eq_true, mightExist_false] at h6
            split
            · rename_i h7
              simp only [reduceCtorEq, false_iff]
              rintro ⟨_, h8, _⟩
              exact h7 h8
            · rename_i h7
              push Not at h7
              obtain ⟨ws, hws⟩ := moreSpecific_total (pathPrefix :: pathParts p) e
              simp only [hws]
              split
              · rename_i h8
                simp only [reduceCtorEq, false_iff]
                rintro ⟨_, _, ⟨ws', h9, h10⟩, _⟩
                simp at h9
                subst h9
                obtain ⟨w, hw, hw'⟩ := List.any_eq_true.1 h8
                rw [mightExist_false.2 (h10 w hw)] at hw'
                simp at hw'
              · rename_i h8
                have h9 : ∀ w ∈ ws, t.lookupSubtree (pathPrefix :: w) = .absent := by
                  intro w hw
                  by_contra h10
                  apply h8
                  rw [List.any_eq_true]
                  refine ⟨w, hw, ?_⟩
                  by_contra h11
                  exact h10 (mightExist_false.1 (by simpa using h11))
                split
                · rename_i h10
                  simp only [true_iff]
                  exact ⟨h6, h7, ⟨ws, rfl, h9⟩, existsIn_true.1 h10⟩
                · rename_i h10
                  simp only [reduceCtorEq, false_iff]
                  rintro ⟨_, _, _, h11⟩
                  exact h10 (existsIn_true.2 h11)

variable [UriLib] [Bls] [Inflate]

theorem verifyCert_ok {env : Env} {c : Certificate} {u : Unit} : env.verifyCert c = .ok u ↔
    certVerify env.machine env.checks c env.canisterId env.rootKey env.now env.offset = .ok () := by
  unfold Env.verifyCert
  cases certVerify env.machine env.checks c env.canisterId env.rootKey env.now env.offset <;> simp

/-- `v1_verification`, all conditions for success. -/
theorem v1_ok {env : Env} {req : HttpRequest} {res : HttpResponse} {tree : HashTree} {c : Certificate}
    {enc : Option Bytes} {info : VerificationInfo} :
    v1Verification env req res tree c enc = .ok info ↔
      ∃ path decoded, env.verifyCert c = .ok () ∧ req.getPath = .ok path ∧ decodeBody res.body enc = .ok decoded ∧
        validateTree env.canisterId c tree = true ∧
        (validateBody tree path (sha decoded) = true ∨ (enc.isSome ∧ validateBody tree path (sha res.body) = true)) ∧
        info = { response := some { statusCode := none, headers := [], body := res.body }, version := 1 } := by
  unfold v1Verification
  simp only [Out.bind_ok, Out.ofExcept_ok]
  constructor
  · rintro ⟨⟨⟩, h1, path, h2, dec, h3, h4⟩
    refine ⟨path, dec, h1, h2, h3, ?_⟩
    split at h4
    · simp at h4
    · rename_i h5
      push Not at h5
      split at h4
      · rename_i h7
        split at h4
        · simp at h4
        · rename_i h6
          simp only [Out.ok.injEq] at h4
          exact ⟨h5, .inr ⟨h7.1, by simpa using h6⟩, h4.symm⟩
      · split at h4
        · simp at h4
        · rename_i h6
          simp only [Out.ok.injEq] at h4
          exact ⟨h5, .inl (by simpa using h6), h4.symm⟩
  · rintro ⟨path, dec, h1, h2, h3, h4, h5, rfl⟩
    refine ⟨(), h1, path, h2, dec, h3, ?_⟩
    rw [if_neg (by simpa using h4)]
    rw [if_neg]
    push Not
    rcases h5 with h5 | ⟨h5, h6⟩
    · simp [h5]
    · split
      · exact h6
      · rename_i h7; simp only [h5, true_and, not_not] at h7; exact h7

/-- `v2_verification`, all conditions for success. -/
theorem v2_ok {env : Env} {req : HttpRequest} {res : HttpResponse} {tree : HashTree} {c : Certificate}
    {e : List Bytes} {eh : Hash} {cel : CelExpr} {info : VerificationInfo} :
    v2Verification env req res tree c e eh cel = .ok info ↔
      ∃ path, req.getPath = .ok path ∧ env.verifyCert c = .ok () ∧ validateTree env.canisterId c tree = true ∧
        validateExprPath e path tree = .ok () ∧
        match cel with
        | .skip => (∃ n, tree.lookupSubtree (e ++ [eh.1]) = .found n) ∧ info = { response := none, version := 2 }
        | .responseOnly rc =>
          tree.lookupSubtree (e ++ [eh.1, [], (responseHash res rc none).1]) = .found (.leaf []) ∧
          ∃ v, headerGet res.headers certHeaderName = some v ∧
            info = { response := some { statusCode := some res.status,
                                        headers := (filterResponseHeaders res rc).headers ++ [(certHeaderName, v)],
                                        body := res.body }, version := 2 }
        | .full qc rc =>
          (∃ qh, requestHash req qc = .ok qh ∧
            tree.lookupSubtree (e ++ [eh.1, qh.1, (responseHash res rc none).1]) = .found (.leaf [])) ∧
          ∃ v, headerGet res.headers certHeaderName = some v ∧
            info = { response := some { statusCode := some res.status,
                                        headers := (filterResponseHeaders res rc).headers ++ [(certHeaderName, v)],
                                        body := res.body }, version := 2 } := by
  have hfin : ∀ (qh : Option Hash) (rc : RespCert), v2Verification.finish res tree e eh cel qh rc = .ok info ↔
      tree.lookupSubtree (e ++ [eh.1, reqLabel cel qh, (responseHash res rc none).1]) = .found (.leaf []) ∧
      ∃ v, headerGet res.headers certHeaderName = some v ∧
        info = { response := some { statusCode := some res.status,
                                    headers := (filterResponseHeaders res rc).headers ++ [(certHeaderName, v)],
                                    body := res.body }, version := 2 } := by
    intro qh rc
    unfold v2Verification.finish
    have : (sha ((responseHeadersHash res.status.toUInt64 (filterResponseHeaders res rc)).1 ++ (sha res.body).1)) =
        responseHash res rc none := rfl
    simp only [this]
    rw [← validateHashes_true]
    split
    · rename_i h
      simp only [h, true_and]
      rw [filterResp_certificate]
      cases headerGet res.headers certHeaderName with
      | none => simp
      | some v => simp [eq_comm]
    · rename_i h
      simp [h]
  unfold v2Verification
  simp only [Out.bind_ok, Out.ofExcept_ok]
  constructor
  · rintro ⟨path, h1, ⟨⟩, h2, h3⟩
    refine ⟨path, h1, h2, ?_⟩
    split at h3
    · simp at h3
    · rename_i h4
      push Not at h4
      rw [Out.bind_ok] at h3
      obtain ⟨⟨⟩, h5, h6⟩ := h3
      refine ⟨h4, h5, ?_⟩
      cases cel with
      | skip =>
        simp only at h6
        split at h6
        · rename_i h7
          rw [Option.isSome_iff_exists] at h7
          obtain ⟨n, hn⟩ := h7
          simp at h6
          exact ⟨⟨n, validateExprHash_some.1 hn⟩, h6.symm⟩
        · simp at h6
      | responseOnly rc =>
        simp only at h6
        exact (hfin _ _).1 h6
      | full qc rc =>
        simp only [Out.bind_ok, Out.ofExcept_ok] at h6
        obtain ⟨qh, h7, h8⟩ := h6
        obtain ⟨h9, h10⟩ := (hfin _ _).1 h8
        exact ⟨⟨qh, h7, h9⟩, h10⟩
  · rintro ⟨path, h1, h2, h3, h4, h5⟩
    refine ⟨path, h1, (), h2, ?_⟩
    rw [if_neg (by simpa using h3), Out.bind_ok]
    refine ⟨(), h4, ?_⟩
    cases cel with
    | skip =>
      obtain ⟨⟨n, hn⟩, rfl⟩ := h5
      simp [validateExprHash_some.2 hn]
    | responseOnly rc => exact (hfin _ _).2 h5
    | full qc rc =>
      obtain ⟨⟨qh, h6, h7⟩, h8⟩ := h5
      simp only [Out.bind_ok, Out.ofExcept_ok]
      exact ⟨qh, h6, (hfin _ _).2 ⟨h7, h8⟩⟩

/-- `verify_request_response_pair`, all conditions for success. -/
theorem verifyPair_ok {env : Env} {req : HttpRequest} {res : HttpResponse} {minV : Nat} {info : VerificationInfo} :
    verifyPair env req res minV = .ok info ↔
      ∃ h, CarriesHeader env.machine res h ∧ minV ≤ h.version ∧
        ((h.version = 1 ∧ v1Verification env req res h.tree h.certificate (headerGet res.headers (str "content-encoding")) = .ok info) ∨
         (h.version = 2 ∧ ∃ expr e cel, LastHeader res.headers (str "IC-CertificateExpression") expr ∧
            h.exprPath = some e ∧ parseCelOn env.machine.celStack expr = some (.ok cel) ∧
            v2Verification env req res h.tree h.certificate e (sha expr) cel = .ok info)) := by
  unfold verifyPair CarriesHeader
  cases hg : headerGet res.headers certHeaderName with
  | none =>
    simp only [reduceCtorEq, false_iff]
    rintro ⟨h, ⟨text, h1, _⟩, _⟩
    have := headerGet_some.2 h1
    rw [show str "IC-Certificate" = certHeaderName from rfl, hg] at this
    simp at this
  | some text =>
    simp only [Out.bind_ok]
    have hl : LastHeader res.headers (str "IC-Certificate") text := headerGet_some.1 hg
    constructor
    · rintro ⟨h, h1, h2⟩
      refine ⟨h, ⟨text, hl, h1⟩, ?_⟩
      split at h2
      · simp at h2
      · rename_i h3
        refine ⟨by omega, ?_⟩
        split at h2
        · rename_i h4; exact .inl ⟨h4, h2⟩
        · split at h2
          · rename_i h5
            refine .inr ⟨h5, ?_⟩
            split at h2
            · simp at h2
            · rename_i expr hexpr
              split at h2
              · simp at h2
              · rename_i e he
                rw [Out.bind_ok] at h2
                obtain ⟨cel, h6, h7⟩ := h2
                exact ⟨expr, e, cel, headerGet_some.1 hexpr, he, Out.ofRun_ok.1 h6, h7⟩
          · simp at h2
    · rintro ⟨h, ⟨text', h1, h2⟩, h3, h4⟩
      have := h1.unique hl
      subst this
      refine ⟨h, h2, ?_⟩
      rw [if_neg (by omega)]
      rcases h4 with ⟨h4, h5⟩ | ⟨h4, expr, e, cel, h5, h6, h7, h8⟩
      · rw [if_pos h4]; exact h5
      · rw [if_neg (by omega), if_pos h4]
        have h5' : headerGet res.headers certExprHeaderName = some expr := headerGet_some.2 h5
        simp only [h5', h6, Out.bind_ok, Out.ofRun_ok]
        exact ⟨cel, h7, h8⟩

end
end Verif
