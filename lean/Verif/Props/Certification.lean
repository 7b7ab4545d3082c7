import Verif.Model.Certification
import Verif.Spec.Http
import Verif.Spec.Cel
import Verif.Props.Cel
import Verif.Props.CertTree
import Verif.Props.Hash

set_option linter.unusedSectionVars false
set_option linter.unusedSimpArgs false

/-!
# Property C44 and the proviso of C20: certifications made through the interface
-/

namespace Verif

/-- The values of the response's IC-CertificateExpression headers, in order. -/
def exprHeaderValues (r : HttpResponse) : List Bytes :=
  (r.headers.filter (fun h => SameName h.1 (str "IC-CertificateExpression"))).map Prod.snd

end Verif

namespace Verif.Props
open Verif

theorem exprLoop_spec (cel : Bytes) : ∀ (hs : List Header) (found : Bool) (b : Bool),
    validateExprHeaderLoop cel hs found = .ok b ↔
      ((hs.filter (fun h => SameName h.1 (str "IC-CertificateExpression"))).map Prod.snd = [] ∧ b = found) ∨
      (found = false ∧ b = true ∧
        (hs.filter (fun h => SameName h.1 (str "IC-CertificateExpression"))).map Prod.snd = [cel])
  | [], found, b => by simp [validateExprHeaderLoop, eq_comm]
  | (name, value) :: hs, found, b => by
    have ih := exprLoop_spec cel hs
    unfold validateExprHeaderLoop
    by_cases hn : SameName name (str "IC-CertificateExpression")
    · have hn' : (lower name == lower certExprHeaderName) = true := by simpa [SameName, certExprHeaderName] using hn
      rw [if_pos hn', List.filter_cons_of_pos (by simpa using hn)]
      by_cases hv : value = cel
      · subst hv
        simp only [beq_self_eq_true, if_true]
        cases found with
        | true => simp
        | false =>
          rw [if_neg (by decide), ih]
          simp [and_comm]
      · have : (value == cel) = false := by simpa using hv
        simp [this, hv]
    · have hn' : (lower name == lower certExprHeaderName) = false := by simpa [SameName, certExprHeaderName] using hn
      rw [List.filter_cons_of_neg (by simpa using hn)]
      simp [hn', ih]

theorem validateExprHeader_ok {r : HttpResponse} {cel : Bytes} :
    validateExprHeader r cel = .ok () ↔ exprHeaderValues r = [cel] := by
  unfold validateExprHeader exprHeaderValues
  constructor
  · intro h
    obtain ⟨b, hb, h⟩ := bind_ok.1 h
    cases b with
    | false => simp at h
    | true =>
      rcases (exprLoop_spec _ _ _ _).1 hb with ⟨_, h⟩ | ⟨_, _, h⟩
      · simp at h
      · exact h
  · intro h
    rw [bind_ok]
    exact ⟨true, (exprLoop_spec _ _ _ _).2 (.inr ⟨rfl, rfl, h⟩), rfl⟩

variable [SHA] [UriLib]

/-- **C44.** A response-only certification can be made exactly when the response has one IC-CertificateExpression
header (compared ignoring case) and its value is the text of the definition being certified; it then consists of the
hash of that text and the response hash. -/
theorem C44_response_only (c : RespCert) (r : HttpResponse) (bodyHash : Option Hash) (cert : HttpCert) :
    HttpCert.mkResponseOnly c r bodyHash = .ok cert ↔
      exprHeaderValues r = [(CelExpr.responseOnly c).toBytes] ∧
      cert = .responseOnly (sha (CelExpr.responseOnly c).toBytes) (responseHash r c bodyHash) := by
  unfold HttpCert.mkResponseOnly
  rw [bind_ok]
  simp only [pure_ok]
  constructor
  · rintro ⟨⟨⟩, h1, h2⟩; exact ⟨validateExprHeader_ok.1 h1, h2.symm⟩
  · rintro ⟨h1, h2⟩; exact ⟨(), validateExprHeader_ok.2 h1, h2.symm⟩

/-- **C44.** Likewise for a full certification, which moreover needs a request whose URL parses. -/
theorem C44_full (q : ReqCert) (c : RespCert) (req : HttpRequest) (r : HttpResponse) (bodyHash : Option Hash)
    (cert : HttpCert) :
    HttpCert.mkFull q c req r bodyHash = .ok cert ↔
      exprHeaderValues r = [(CelExpr.full q c).toBytes] ∧ ∃ rh, requestHash req q = .ok rh ∧
      cert = .full (sha (CelExpr.full q c).toBytes) rh (responseHash r c bodyHash) := by
  unfold HttpCert.mkFull
  rw [bind_ok]
  simp only [bind_ok, pure_ok]
  constructor
  · rintro ⟨⟨⟩, h1, rh, h2, h3⟩; exact ⟨validateExprHeader_ok.1 h1, rh, h2, h3.symm⟩
  · rintro ⟨h1, rh, h2, h3⟩; exact ⟨(), validateExprHeader_ok.2 h1, rh, h2, h3.symm⟩

/-- **C44.** What goes wrong is reported: no header, a header with another text (the first such one, if it comes
before a repetition of the right one), or the right header twice. -/
theorem C44_errors (r : HttpResponse) (cel : Bytes) (e : HttpError) (h : validateExprHeader r cel = .error e) :
    (e = .expressionHeaderMissing cel ∧ exprHeaderValues r = []) ∨
    (∃ v pre post, e = .expressionHeaderMismatch cel v ∧ v ≠ cel ∧ exprHeaderValues r = pre ++ v :: post ∧
      (pre = [] ∨ pre = [cel])) ∨
    (∃ post, e = .multipleExpressionHeaders cel ∧ exprHeaderValues r = cel :: cel :: post) := by
  have key : ∀ (hs : List Header) (found : Bool),
      let vs := (hs.filter (fun h => SameName h.1 (str "IC-CertificateExpression"))).map Prod.snd
      validateExprHeaderLoop cel hs found = .error e →
      (∃ v pre post, e = .expressionHeaderMismatch cel v ∧ v ≠ cel ∧ vs = pre ++ v :: post ∧
        (pre = [] ∨ (found = false ∧ pre = [cel]))) ∨
      (∃ post, e = .multipleExpressionHeaders cel ∧
        (if found then vs = cel :: post else vs = cel :: cel :: post)) := by
    intro hs
    induction hs with
    | nil => intro found; simp [validateExprHeaderLoop]
    | cons x hs ih =>
      obtain ⟨name, value⟩ := x
      intro found
      simp only
      unfold validateExprHeaderLoop
      by_cases hn : SameName name (str "IC-CertificateExpression")
      · have hn' : (lower name == lower certExprHeaderName) = true := by
          simpa [SameName, certExprHeaderName] using hn
        rw [if_pos hn', List.filter_cons_of_pos (by simpa using hn)]
        by_cases hv : value = cel
        · subst hv
          simp only [beq_self_eq_true, if_true]
          cases found with
          | true =>
            simp only [if_true, Except.error.injEq]
            rintro rfl
            exact .inr ⟨_, rfl, rfl⟩
          | false =>
            rw [if_neg (by decide)]
            intro h
            rcases ih true h with ⟨v, pre, post, h1, h2, h3, h4⟩ | ⟨post, h1, h2⟩
            · left
              rcases h4 with rfl | ⟨h4, _⟩
              · exact ⟨v, [value], post, h1, h2, by simp only [List.map_cons, h3]; simp, .inr ⟨rfl, rfl⟩⟩
              · simp at h4
            · right
              simp only [if_true] at h2
              exact ⟨post, h1, by simp [h2]⟩
        · have hv' : (value == cel) = false := by simpa using hv
          simp only [hv', Bool.false_eq_true, if_false, Except.error.injEq]
          rintro rfl
          exact .inl ⟨value, [], _, rfl, hv, rfl, .inl rfl⟩
      · have hn' : (lower name == lower certExprHeaderName) = false := by
          simpa [SameName, certExprHeaderName] using hn
        rw [List.filter_cons_of_neg (by simpa using hn)]
        simp only [hn', Bool.false_eq_true, if_false]
        exact ih found
  unfold validateExprHeader at h
  cases hl : validateExprHeaderLoop cel r.headers false with
  | error e' =>
    simp [hl, bind, Except.bind] at h
    subst h
    rcases key r.headers false hl with ⟨v, pre, post, h1, h2, h3, h4⟩ | ⟨post, h1, h2⟩
    · refine .inr (.inl ⟨v, pre, post, h1, h2, h3, ?_⟩)
      rcases h4 with h4 | ⟨_, h4⟩
      · exact .inl h4
      · exact .inr h4
    · exact .inr (.inr ⟨post, h1, by simpa [exprHeaderValues] using h2⟩)
  | ok b =>
    simp only [hl, bind, Except.bind] at h
    cases b with
    | true => simp [pure, Except.pure] at h
    | false =>
      simp at h
      subst h
      rcases (exprLoop_spec _ _ _ _).1 hl with ⟨h, _⟩ | ⟨_, h, _⟩
      · exact .inl ⟨rfl, h⟩
      · simp at h

/-- The certification was made by one of the three constructors, for the definition `x`. -/
inductive MadeFor : HttpCert → CelExpr → Prop
  | skip : MadeFor .mkSkip .skip
  | responseOnly {c r bh cert} : HttpCert.mkResponseOnly c r bh = .ok cert → MadeFor cert (.responseOnly c)
  | full {q c req r bh cert} : HttpCert.mkFull q c req r bh = .ok cert → MadeFor cert (.full q c)

theorem MadeFor.celHash {cert : HttpCert} {x : CelExpr} (h : MadeFor cert x) : cert.celHash = sha x.toBytes := by
  cases h with
  | skip => rfl
  | responseOnly h => rw [C44_response_only] at h; rw [h.2]; rfl
  | full h => rw [C44_full] at h; obtain ⟨_, rh, _, rfl⟩ := h; rfl

theorem MadeFor.isSkip {cert : HttpCert} {x : CelExpr} (h : MadeFor cert x) : cert.isSkip = true ↔ x = .skip := by
  cases h with
  | skip => simp [HttpCert.mkSkip, HttpCert.isSkip]
  | responseOnly h => rw [C44_response_only] at h; rw [h.2]; simp [HttpCert.isSkip]
  | full h => rw [C44_full] at h; obtain ⟨_, rh, _, rfl⟩ := h; simp [HttpCert.isSkip]

theorem toBytes_skip_ne {x : CelExpr} (h : x ≠ .skip) : x.toBytes ≠ CelExpr.skip.toBytes := by
  have key : ∀ (x y : Bytes), str "default_certification(ValidationArgs{" ++ str "certification:Certification{" ++ x ≠
      str "default_certification(ValidationArgs{" ++ str "no_certification:Empty{}" ++ y := by
    intro x y h
    have := congrArg (fun l => l[37]?) h
    have e1 : (str "default_certification(ValidationArgs{" ++ str "certification:Certification{" ++ x)[37]? =
        some 0x63 := rfl
    have e2 : (str "default_certification(ValidationArgs{" ++ str "no_certification:Empty{}" ++ y)[37]? =
        some 0x6E := rfl
    simp only [e1, e2] at this
    exact absurd this (by decide)
  cases x with
  | skip => exact absurd rfl h
  | responseOnly c =>
    unfold CelExpr.toBytes
    simp only [List.append_assoc]
    simpa only [List.append_assoc] using key (str "no_request_certification:Empty{}," ++ (celResponse c ++ (str "}" ++ str "})"))) (str "})")
  | full q c =>
    unfold CelExpr.toBytes
    simp only [List.append_assoc]
    simpa only [List.append_assoc] using key (celRequest q ++ (celResponse c ++ (str "}" ++ str "})"))) (str "})")

/-- **C20**, proviso discharged. Two certifications made through the interface, one skipping and one not, have
different expression hashes, or the texts of their expressions are two different strings with the same hash. -/
theorem C20_api_no_clash {c c' : HttpCert} {x x' : CelExpr} (h : MadeFor c x) (h' : MadeFor c' x')
    (he : c.celHash = c'.celHash) : c.isSkip = c'.isSkip ∨ CollisionIn [x.toBytes] [x'.toBytes] := by
  by_cases hs : c.isSkip = c'.isSkip
  · exact .inl hs
  right
  rw [h.celHash, h'.celHash] at he
  refine ⟨_, List.mem_singleton.2 rfl, _, List.mem_singleton.2 rfl, ?_, he⟩
  have h1 := h.isSkip
  have h2 := h'.isSkip
  by_cases hx : x = .skip
  · subst hx
    have : x' ≠ .skip := by
      intro e; exact hs (by rw [h1.2 rfl, h2.2 e])
    exact (toBytes_skip_ne this).symm
  · by_cases hx' : x' = .skip
    · subst hx'; exact toBytes_skip_ne hx
    · exfalso; apply hs
      cases hc : c.isSkip <;> cases hc' : c'.isSkip <;> simp_all

/-- **C20** for certifications made through the interface: after any history of insert / delete / clear the
certified tree holds exactly the entries inserted and not removed since, unless the expression text that skips
certification has the same hash as another one in the history. (`kind f` is the definition that the entry `f` of the history was made for.) -/
theorem C20_entries_api (ops : List CtOp) (e : CertEntry) (x : CelExpr) (hx : MadeFor e.cert x)
    (kind : CertEntry → CelExpr) (hapart : ∀ o ∈ ops, ∀ f, o.entry? = some f → ¬ f.Imitates e ∧ ¬ e.Imitates f)
    (hmade : ∀ o ∈ ops, ∀ f, o.entry? = some f → MadeFor f.cert (kind f)) :
    (∃ t, ctRun ops = some t ∧ t.rootHash = t.full.digest ∧
      (HashTree.HasLeaf t.full (str "http_expr" :: e.toTreePath) [] ↔ ctSpec ops e.toTreePath) ∧
      (ctSpec ops e.toTreePath ∨ ¬ ∃ n, HashTree.HasNode t.full (str "http_expr" :: e.toTreePath) n)) ∨
    ∃ o ∈ ops, ∃ f, o.entry? = some f ∧ (kind f = .skip ↔ x ≠ .skip) ∧ CollisionIn [(kind f).toBytes] [x.toBytes] := by
  by_cases hcol : ∃ o ∈ ops, ∃ f, o.entry? = some f ∧ (kind f = .skip ↔ x ≠ .skip) ∧ CollisionIn [(kind f).toBytes] [x.toBytes]
  · exact .inr hcol
  left
  obtain ⟨t, h1, h2, h3, h4⟩ := C20_entries ops e hapart (by
    intro o ho f hf hh
    by_contra hs
    rcases C20_api_no_clash (hmade o ho f hf) hx hh with h | h
    · exact hs h
    · refine hcol ⟨o, ho, f, hf, ?_, h⟩
      have h1 := (hmade o ho f hf).isSkip
      have h2 := hx.isSkip
      rw [← h1, ne_eq, ← h2]
      cases hc : f.cert.isSkip <;> cases hc' : e.cert.isSkip <;> simp_all)
  exact ⟨t, h1, h2, h4⟩

/-- The same for URLs without a segment `<$>` or `<*>`. -/
theorem entries_api_clean (ops : List CtOp) (e : CertEntry) (x : CelExpr) (hx : MadeFor e.cert x) (he : e.path.Clean)
    (kind : CertEntry → CelExpr) (hclean : ∀ o ∈ ops, ∀ f, o.entry? = some f → f.path.Clean)
    (hmade : ∀ o ∈ ops, ∀ f, o.entry? = some f → MadeFor f.cert (kind f)) :
    (∃ t, ctRun ops = some t ∧ t.rootHash = t.full.digest ∧
      (HashTree.HasLeaf t.full (str "http_expr" :: e.toTreePath) [] ↔ ctSpec ops e.toTreePath) ∧
      (ctSpec ops e.toTreePath ∨ ¬ ∃ n, HashTree.HasNode t.full (str "http_expr" :: e.toTreePath) n)) ∨
    ∃ o ∈ ops, ∃ f, o.entry? = some f ∧ (kind f = .skip ↔ x ≠ .skip) ∧ CollisionIn [(kind f).toBytes] [x.toBytes] :=
  C20_entries_api ops e x hx kind
    (fun o ho f hf => ⟨CertEntry.not_imitates (hclean o ho f hf) e, CertEntry.not_imitates he f⟩) hmade

/-! ### The hypotheses are met -/
section examples
def exCert : RespCert := .certifiedHeaders [str "ETag"]
def exCertified : HttpResponse :=
  { status := 200, headers := [(str "ETag", str "1"), (str "ic-certificateExpression", (CelExpr.responseOnly exCert).toBytes)],
    body := str "hi" }

/-- A response that can be certified, and its certification. -/
example : letI := toySHA; HttpCert.mkResponseOnly exCert exCertified none =
    .ok (.responseOnly (sha (CelExpr.responseOnly exCert).toBytes) (responseHash exCertified exCert none)) := by
  let _ := toySHA
  let _ := toyUri
  exact (C44_response_only _ _ _ _).2 ⟨rfl, rfl⟩

/-- The same response cannot be certified under another definition. -/
example : validateExprHeader exCertified (CelExpr.responseOnly (.headerExclusions [])).toBytes ≠ .ok () := by
  intro h
  have := validateExprHeader_ok.1 h
  have e : exprHeaderValues exCertified = [(CelExpr.responseOnly exCert).toBytes] := rfl
  rw [e] at this
  have h2 := C32_injective (e := .responseOnly exCert) (e' := .responseOnly (.headerExclusions [])) (by decide)
    (by decide) (by simpa using this)
  simp [exCert] at h2
end examples
end Verif.Props
