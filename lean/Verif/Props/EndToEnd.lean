import Verif.Spec.EndToEnd
import Verif.Props.Verify

set_option linter.unusedSimpArgs false
set_option linter.unusedSectionVars false

/-!
# C23, C27 end to end: from what was accepted back to what the canister certified
-/

namespace Verif.Props
open Verif HashTree PathShape

section
variable [SHA] [UriLib]

theorem madeOf_madeFor {cert : HttpCert} {x : CelExpr} {q : HttpRequest} {r : HttpResponse} (h : MadeOf cert x q r) :
    MadeFor cert x := by
  cases h with
  | skip => exact .skip
  | responseOnly h _ => exact .responseOnly h
  | full h _ => exact .full h

theorem responseHash_override {r : HttpResponse} {c : RespCert} {bh : Option Hash} (h : ∀ x, bh = some x → x = sha r.body) :
    responseHash r c bh = responseHash r c none := by
  cases bh with
  | none => rfl
  | some x => rw [h x rfl]; exact C30_body_hash_override r c

/-- The shape of a made certification. -/
theorem madeOf_iff {cert : HttpCert} {x : CelExpr} {q : HttpRequest} {r : HttpResponse} (h : MadeOf cert x q r) :
    match x with
    | .skip => cert = .skip (sha CelExpr.skip.toBytes)
    | .responseOnly c => exprHeaderValues r = [(CelExpr.responseOnly c).toBytes] ∧
        cert = .responseOnly (sha (CelExpr.responseOnly c).toBytes) (responseHash r c none)
    | .full d c => exprHeaderValues r = [(CelExpr.full d c).toBytes] ∧ ∃ qh, requestHash q d = .ok qh ∧
        cert = .full (sha (CelExpr.full d c).toBytes) qh (responseHash r c none) := by
  cases h with
  | skip => rfl
  | responseOnly h hb =>
    rw [C44_response_only, responseHash_override hb] at h; exact h
  | full h hb =>
    rw [C44_full, responseHash_override hb] at h; exact h

theorem hash_len (h : Hash) : h.1.length = 32 := h.2

/-- Same expression hash, both expressions parse: same definition, or the two texts collide. -/
theorem expr_agree {expr : Bytes} {cel x : CelExpr} (hp : parseCel expr = .ok cel) (hn : ∀ n ∈ x.names, CarriedName n)
    (h : sha x.toBytes = sha expr) : x = cel ∨ CollisionIn [x.toBytes] [expr] := by
  by_cases he : x.toBytes = expr
  · left
    have := (C32_roundtrip x).2 hn
    rw [he, hp] at this
    simpa using this.symm
  · exact .inr ⟨_, List.mem_singleton.2 rfl, _, List.mem_singleton.2 rfl, he, h⟩

theorem requestHash_query {q : HttpRequest} {d : ReqCert} {h : Hash} (hq : requestHash q d = .ok h) :
    ∃ p, q.getQuery = .ok p := by
  unfold requestHash at hq
  split at hq
  · simp at hq
  · exact ⟨_, by assumption⟩

omit [SHA] [UriLib] in
theorem toExprPath_cons (p : HttpPath) : p.toExprPath = str "http_expr" :: p.toTreePath := by
  cases p <;> rfl

variable [Bls] [Inflate]

/-- The expression path of an accepted response: `http_expr` first, a terminator last. -/
theorem accepted_shape {e : List Bytes} {p : Bytes} {t : HashTree} (h : validateExprPath e p t = .ok ()) :
    ∃ L u, (u = exactTerm ∨ u = wildTerm) ∧ e = str "http_expr" :: (L ++ [u]) := by
  rcases validateExprPath_ok.1 h with ⟨rfl, _⟩ | ⟨_, h1, h2, _⟩
  · exact ⟨pathParts p, exactTerm, .inl rfl, rfl⟩
  · cases e with
    | nil => simp at h1
    | cons a e =>
      simp at h1
      subst h1
      have : e ≠ [] := by rintro rfl; simp at h2; exact absurd h2 (by decide)
      rw [List.getLast?_cons_of_ne_nil this] at h2
      exact ⟨e.dropLast, wildTerm, .inr rfl, by rw [List.dropLast_append_getLast? _ h2]; rfl⟩

omit [SHA] [UriLib] [Bls] [Inflate] in
theorem term_len {u : Bytes} (h : u = exactTerm ∨ u = wildTerm) : u.length = 3 := by
  rcases h with rfl | rfl <;> rfl

omit [SHA] [UriLib] [Bls] [Inflate] in
/-- An entry whose tree path ends in three given labels, the second of which is no terminator. -/
theorem entry_tail {f : CertEntry} {L : List Bytes} {a b c : Bytes} (h : f.toTreePath = L ++ [a, b, c])
    (hb : b.length = 0 ∨ b.length = 32) : L = f.path.toTreePath ∧ f.cert.toTreePath = [a, b, c] := by
  obtain ⟨t, ht, h1, h2⟩ := entryPath_eq f
  have h3 : f.toTreePath = f.path.toTreePath ++ f.cert.toTreePath := rfl
  have key : f.cert.toTreePath.length = 3 → L = f.path.toTreePath ∧ f.cert.toTreePath = [a, b, c] := by
    intro hl
    rw [h3] at h
    have := List.append_inj' h (by simp [hl])
    exact ⟨this.1.symm, this.2⟩
  cases hc : f.cert with
  | skip x =>
    exfalso
    rw [h2, hc] at h
    have : ((ofPath f.path.url).labels ++ [t, x.1]) = (L ++ [a]) ++ [b, c] := by simpa [HttpCert.toTreePath] using h
    have := (List.append_inj' this rfl).2
    simp at this
    have hl := term_len ht
    rw [this.1] at hl
    omega
  | responseOnly x y => rw [← hc]; exact key (by rw [hc]; rfl)
  | full x y z => rw [← hc]; exact key (by rw [hc]; rfl)

/-- **C23**, end to end. Let the certified tree be the one the canister built with the interface, from certifications
made with the interface. If a version 2 response (whose expression asks for certification) is accepted, then an entry
is currently certified at the claimed expression path, and the request and response it was made from (`origin` records
the origins of all entries) agree with the received ones in all certified parts; it was made for the same definition.
Otherwise a collision is exhibited. -/
theorem C23_end_to_end {env : Env} {req : HttpRequest} {res : HttpResponse} {minV : Nat} {info : VerificationInfo}
    {hdr : CertHeader} {e : List Bytes} {expr : Bytes} {cel : CelExpr} (hc : Claims env.machine res hdr e expr cel)
    (h : verifyPair env req res minV = .ok info) (hcel : cel ≠ .skip)
    {ops : List CtOp} {t : CertTree} (ht : ctRun ops = some t) {S : HashTree}
    (hC : Certifies hdr.certificate env.canisterId S t.full)
    (origin : CertEntry → Origin) (made : ∀ f, CtOp.insert f ∈ ops → (origin f).Made f.cert ∧
      (∀ n ∈ (origin f).cel.names, CarriedName n) ∧ (origin f).cel.NoPseudo ∧ (origin f).response.NoPseudo) :
    (∃ f, CtOp.insert f ∈ ops ∧ ctSpec ops f.toTreePath ∧ f.path.toExprPath = e ∧ (origin f).cel = cel ∧
      SameCertified cel (origin f).request req (origin f).response res) ∨
    CollisionIn hdr.certificate.tree.hashed S.hashed ∨ CollisionIn hdr.tree.hashed t.full.hashed ∨
    ∃ f, CtOp.insert f ∈ ops ∧ ctSpec ops f.toTreePath ∧ f.path.toExprPath = e ∧
      (CollisionIn [(origin f).cel.toBytes] [expr] ∨
      CollisionIn (certHashed (origin f).cel (origin f).request (origin f).response) (certHashed cel req res)) := by
  rcases (C23_sound hc h).2 S t.full hC with hv | hcol | hcol
  rotate_left
  · exact .inr (.inl hcol)
  · exact .inr (.inr (.inl hcol))
  obtain ⟨_, _, _, _, hpath, _⟩ := v2_ok.1 (claims_v2 hc h)
  obtain ⟨L, u, hu, rfl⟩ := accepted_shape hpath
  -- the certified leaf and its entry
  obtain ⟨b, rc, hb, hleaf⟩ : ∃ (b : Bytes) (rc : RespCert),
      ((cel = .responseOnly rc ∧ b = []) ∨ ∃ qc qh, cel = .full qc rc ∧ requestHash req qc = .ok qh ∧ b = qh.1) ∧
      t.full.HasLeaf (str "http_expr" :: ((L ++ [u]) ++ [(sha expr).1, b, (responseHash res rc none).1])) [] := by
    cases cel with
    | skip => exact absurd rfl hcel
    | responseOnly rc => exact ⟨[], rc, .inl ⟨rfl, rfl⟩, by simpa [Vouches] using hv⟩
    | full qc rc =>
      obtain ⟨qh, h1, h2⟩ := hv
      exact ⟨qh.1, rc, .inr ⟨qc, qh, rfl, h1, rfl⟩, by simpa using h2⟩
  obtain ⟨f, f1, f2, f3, f4⟩ := ct_node_entry ht (by simp) hleaf
  have f5 := f4 _ rfl
  have hbl : b.length = 0 ∨ b.length = 32 := by
    rcases hb with ⟨_, rfl⟩ | ⟨_, qh, _, _, rfl⟩
    · exact .inl rfl
    · exact .inr (hash_len qh)
  obtain ⟨g1, g2⟩ := entry_tail f5 hbl
  have hfe : f.path.toExprPath = str "http_expr" :: (L ++ [u]) := by rw [toExprPath_cons, g1]
  obtain ⟨m1, m2, m3, m4⟩ := made f f1
  unfold Origin.Made at m1
  generalize ho : origin f = o at m1 m2 m3 m4
  obtain ⟨x, q, r⟩ := o
  simp only at m1 m2 m3 m4
  have m5 := madeOf_iff m1
  have hce : f.cert.celHash = sha expr := by
    apply Subtype.ext
    cases hfc : f.cert <;> rw [hfc] at g2 <;> simp [HttpCert.toTreePath] at g2 <;> exact g2.1
  rw [(madeOf_madeFor m1).celHash] at hce
  rcases expr_agree (parseCelOn_some hc.parsed) m2 hce with rfl | hcol
  swap
  · exact .inr (.inr (.inr ⟨f, f1, f2, hfe, .inl (by rw [ho]; exact hcol)⟩))
  rcases hb with ⟨rfl, rfl⟩ | ⟨qc, qh, rfl, hqh, rfl⟩
  · simp only at m5
    rw [m5.2] at g2
    simp [HttpCert.toTreePath] at g2
    rcases C30_binding (Subtype.ext g2.2) m4 with hs | hcol
    · exact .inl ⟨f, f1, f2, hfe, by rw [ho], by rw [ho]; exact hs⟩
    · exact .inr (.inr (.inr ⟨f, f1, f2, hfe, .inr (by rw [ho]; exact hcol)⟩))
  · simp only at m5
    obtain ⟨_, qh', k1, k2⟩ := m5
    rw [k2] at g2
    simp [HttpCert.toTreePath] at g2
    have hqq : qh' = qh := Subtype.ext g2.2.1
    subst hqq
    obtain ⟨p1, hp1⟩ := requestHash_query k1
    obtain ⟨p2, hp2⟩ := requestHash_query hqh
    rcases C30_binding (Subtype.ext g2.2.2) m4 with hs | hcol
    swap
    · refine .inr (.inr (.inr ⟨f, f1, f2, hfe, .inr ?_⟩))
      rw [ho]
      refine hcol.mono ?_ ?_ <;>
        · intro y hy; simp only [certHashed, List.mem_append]; exact .inl hy
    rcases C29_binding hp1 hp2 m3 k1 hqh with hs' | hcol
    · exact .inl ⟨f, f1, f2, hfe, by rw [ho], by
        rw [ho]; exact ⟨⟨hs'.1, hs'.2.1, hs'.2.2.1, p1, p2, hp1, hp2, hs'.2.2.2⟩, hs⟩⟩
    · refine .inr (.inr (.inr ⟨f, f1, f2, hfe, .inr ?_⟩))
      rw [ho]
      refine hcol.mono ?_ ?_ <;>
        · intro y hy; simp only [certHashed, List.mem_append, hp1, hp2]; exact .inr hy

omit [SHA] [UriLib] [Bls] [Inflate] in
/-- A list with a single terminator is cut there. -/
theorem cut_single {X C L D : List Bytes} {t u : Bytes} {S : Bytes → Prop} (hu : S u) (hX : ∀ x ∈ X, ¬ S x)
    (hC : ∀ x ∈ C, ¬ S x) (h : L ++ u :: D <+: X ++ t :: C) : L = X ∧ u = t ∧ D <+: C := by
  induction L generalizing X with
  | nil =>
    cases X with
    | nil => simpa using h
    | cons b X => simp at h; exact absurd hu (by rw [h.1]; exact hX b (by simp))
  | cons a L ih =>
    cases X with
    | nil =>
      simp at h
      exact absurd hu (hC u (h.2.subset (by simp)))
    | cons b X =>
      simp at h
      obtain ⟨h1, h2⟩ := h
      obtain ⟨h3, h4⟩ := ih (fun x hx => hX x (by simp [hx])) h2
      exact ⟨by rw [h1, h3], h4⟩

/-- **C27**, end to end. If a response that claims to need no certification is accepted, the canister has currently
certified, at the claimed expression path, that no certification is needed there (proviso: no URL path it certified has a segment
`<$>` or `<*>` followed by the bytes of the hash of the claimed expression; `C27_counterexample_hidden` shows the need).
Otherwise a collision is exhibited. -/
theorem C27_end_to_end {env : Env} {req : HttpRequest} {res : HttpResponse} {minV : Nat} {info : VerificationInfo}
    {hdr : CertHeader} {e : List Bytes} {expr : Bytes} (hc : Claims env.machine res hdr e expr .skip)
    (h : verifyPair env req res minV = .ok info)
    {ops : List CtOp} {t : CertTree} (ht : ctRun ops = some t) {S : HashTree}
    (hC : Certifies hdr.certificate env.canisterId S t.full)
    (kind : CertEntry → CelExpr) (made : ∀ f, CtOp.insert f ∈ ops → ¬ f.path.Hides (sha expr) ∧ MadeFor f.cert (kind f) ∧
      ∀ n ∈ (kind f).names, CarriedName n) :
    (∃ f, CtOp.insert f ∈ ops ∧ ctSpec ops f.toTreePath ∧ f.path.toExprPath = e ∧ kind f = .skip ∧ f.cert = .mkSkip) ∨
    CollisionIn hdr.certificate.tree.hashed S.hashed ∨ CollisionIn hdr.tree.hashed t.full.hashed ∨
    ∃ f, CtOp.insert f ∈ ops ∧ ctSpec ops f.toTreePath ∧ f.path.toExprPath = e ∧ CollisionIn [(kind f).toBytes] [expr] := by
  rcases (C23_sound hc h).2 S t.full hC with ⟨n, hn⟩ | hcol | hcol
  rotate_left
  · exact .inr (.inl hcol)
  · exact .inr (.inr (.inl hcol))
  obtain ⟨_, _, _, _, hpath, _⟩ := v2_ok.1 (claims_v2 hc h)
  obtain ⟨L, u, hu, rfl⟩ := accepted_shape hpath
  obtain ⟨f, f1, f2, f3, _⟩ := ct_node_entry ht (p := L ++ [u] ++ [(sha expr).1]) (by simp) (by simpa using hn)
  obtain ⟨hcl, m1, m2⟩ := made f f1
  generalize hk : kind f = x at m1 m2
  obtain ⟨k1, hce⟩ := entry_cut hu hcl (by simpa using f3)
  have hfe : f.path.toExprPath = str "http_expr" :: (L ++ [u]) := by rw [toExprPath_cons, k1]
  rw [m1.celHash] at hce
  rcases expr_agree (parseCelOn_some hc.parsed) m2 hce with rfl | hcol
  · refine .inl ⟨f, f1, f2, hfe, hk, ?_⟩
    generalize f.cert = fc at m1
    cases m1
    rfl
  · exact .inr (.inr (.inr ⟨f, f1, f2, hfe, by rw [hk]; exact hcol⟩))

end
end Verif.Props
