import Verif.Props.EndToEnd
import Verif.Lemmas.Utf8
import Verif.Props.HttpPath
import Verif.Props.CelGrammar

set_option linter.unusedSimpArgs false
set_option linter.unusedSectionVars false

/-!
# C22: honest responses verify
-/

namespace Verif.Props
open Verif HashTree PathShape NTree

theorem lower_lower (b : Bytes) : lower (lower b) = lower b := by
  unfold lower
  rw [List.map_map]
  congr 1
  funext x
  have : ∀ n, n < 256 → lowerByte (lowerByte (UInt8.ofNat n)) = lowerByte (UInt8.ofNat n) := by decide +kernel
  have h := this x.toNat x.toNat_lt
  simpa using h

theorem valid_cons {a b : List Bytes} {x : Bytes} (h : isWildcardValid a b = true) :
    isWildcardValid (x :: a) (x :: b) = true := by
  unfold isWildcardValid at h ⊢
  have e : List.isPrefixOf (x :: a) (x :: b) = List.isPrefixOf a b := by simp [List.isPrefixOf]
  rw [e]
  split
  · rfl
  · rename_i hn
    rw [if_neg hn] at h
    split at h
    · rename_i hl
      have ha : a ≠ [] := by rintro rfl; simp at hl
      rw [List.getLast?_cons_of_ne_nil ha, if_pos hl, List.dropLast_cons_of_ne_nil ha]
      simpa [List.isPrefixOf] using h
    · simp at h

theorem splitOn_size (a : UInt8) (p : Bytes) : ((p.splitOn a).map List.length).sum ≤ p.length := by
  induction p with
  | nil => simp
  | cons x xs ih =>
    rw [List.splitOn_cons_eq_if_modifyHead]
    split
    · simp; omega
    · cases hs : xs.splitOn a with
      | nil => simp
      | cons y ys => rw [hs] at ih; simp at ih ⊢; omega

theorem segments_size (p : Bytes) : (pathSegments p).length ≤ p.length ∧ ∀ s ∈ pathSegments p, s.length ≤ p.length := by
  have h := splitOn_size slashByte p
  constructor
  · refine le_trans ?_ h
    unfold pathSegments
    generalize p.splitOn slashByte = l
    induction l with
    | nil => simp
    | cons a l ih =>
      cases a with
      | nil => simpa using ih
      | cons x a => simp at ih ⊢; omega
  · intro s hs
    have hm := (List.mem_filter.1 hs).1
    refine le_trans ?_ h
    clear hs h
    generalize p.splitOn slashByte = l at hm
    induction l with
    | nil => simp at hm
    | cons a l ih =>
      simp at hm ⊢
      rcases hm with rfl | hm
      · omega
      · have := ih hm; omega

/-- The expression path of a certification path: its strings and their sizes. -/
theorem exprPath_ok {m : Machine} {p : HttpPath} (h : (chars p.url).isSome) (hf : m.Fits (p.url.length + 9)) :
    m.Fits p.toExprPath.length ∧ ∀ s ∈ p.toExprPath, (chars s).isSome ∧ m.Fits s.length := by
  have key : ∀ (u t : Bytes), (t = exactTerm ∨ t = wildTerm) → (chars u).isSome → m.Fits (u.length + 9) →
      m.Fits (pathPrefix :: (pathParts u ++ [t])).length ∧
      ∀ s ∈ pathPrefix :: (pathParts u ++ [t]), (chars s).isSome ∧ m.Fits s.length := by
    intro u t ht hu hfu
    obtain ⟨h1, h2⟩ := segments_size u
    have mono : ∀ n, n ≤ u.length + 9 → m.Fits n := fun n hn => ⟨lt_of_le_of_lt hn hfu.1, lt_of_le_of_lt hn hfu.2⟩
    constructor
    · apply mono
      unfold pathParts
      split <;> simp <;> omega
    · intro s hs
      have hterm : ∀ t, (t = exactTerm ∨ t = wildTerm) → (chars t).isSome ∧ t.length = 3 := by
        rintro t (rfl | rfl)
        · exact ⟨chars_str (by decide), rfl⟩
        · exact ⟨chars_str (by decide), rfl⟩
      simp only [List.mem_cons, List.mem_append, List.not_mem_nil, or_false, pathParts] at hs
      rcases hs with rfl | (hs | hs) | rfl
      · exact ⟨chars_str (by decide), mono _ (by show 9 ≤ _; omega)⟩
      · exact ⟨segments_chars hu hs, mono _ (by have := h2 s hs; omega)⟩
      · split at hs
        · simp at hs; subst hs
          exact ⟨by rw [show ([] : Bytes) = utf8 [] from rfl, chars_utf8]; rfl, mono _ (by simp)⟩
        · simp at hs
      · obtain ⟨k1, k2⟩ := hterm s ht
        exact ⟨k1, mono _ (by omega)⟩
  rw [toExprPath_cons]
  cases p with
  | exact p => exact key p exactTerm (.inl rfl) h hf
  | wildcard p => exact key p wildTerm (.inr rfl) h hf

section
variable [SHA] [UriLib]

theorem prunes_fits {m : Machine} {w t : HashTree} (h : Prunes w t) (ht : t.Fits m) : w.Fits m := by
  induction h with
  | prune t => trivial
  | empty => trivial
  | leaf b => exact ht
  | labeled _ ih => exact ⟨ht.1, ih ht.2⟩
  | fork _ _ ih1 ih2 => exact ⟨ih1 ht.1, ih2 ht.2⟩

theorem prunes_height {w t : HashTree} (h : Prunes w t) : w.height ≤ t.height := by
  induction h with
  | prune t => simp [height]
  | empty => exact le_refl _
  | leaf b => exact le_refl _
  | labeled _ ih => simpa [height] using ih
  | fork _ _ ih1 ih2 => simp only [height]; omega

theorem sameRequest_hash {d : ReqCert} {a b : HttpRequest} (h : SameRequest d a b) : requestHash a d = requestHash b d := by
  obtain ⟨hm, hb, hh, p, q, hp, hq, he⟩ := h
  unfold requestHash
  rw [hp, hq]
  simp only [Except.ok.injEq]
  rw [hb]
  have hpm : (requestMap a d p).Perm (requestMap b d q) := by
    unfold requestMap
    rw [hm, filteredReqHeaders_eq, filteredReqHeaders_eq]
    refine ((hh.map _).append_right _).append ?_
    cases p <;> cases q <;> simp at he ⊢
    rw [filteredQuery_eq, filteredQuery_eq, he]
  rw [rih_perm hpm]

theorem exprValues_perm {c : RespCert} {a b : HttpResponse}
    (h : (certifiedRespHeaders c a.headers).Perm (certifiedRespHeaders c b.headers)) :
    (exprHeaderValues a).Perm (exprHeaderValues b) := by
  have key : ∀ hs : List Header, ((certifiedRespHeaders c hs).filter
      (fun h => SameName h.1 (str "IC-CertificateExpression"))).map Prod.snd =
      (hs.filter (fun h => SameName h.1 (str "IC-CertificateExpression"))).map Prod.snd := by
    intro hs
    unfold certifiedRespHeaders
    induction hs with
    | nil => rfl
    | cons x hs ih =>
      have hl : ∀ n : Bytes, SameName (lower n) (str "IC-CertificateExpression") ↔ SameName n (str "IC-CertificateExpression") := by
        intro n; unfold SameName; rw [lower_lower]
      by_cases hx : SameName x.1 (str "IC-CertificateExpression")
      · have hc : c.Certifies x.1 := by
          have e0 : lower (str "IC-CertificateExpression") = lower (str "ic-certificateexpression") := by decide
          have hx' : SameName x.1 (str "ic-certificateexpression") := Eq.trans hx e0
          refine ⟨?_, .inl hx'⟩
          intro h2
          have : lower (str "ic-certificateexpression") = lower (str "ic-certificate") := hx'.symm.trans h2
          exact absurd this (by decide)
        rw [List.filter_cons_of_pos (by simpa using hc), List.filter_cons_of_pos (by simpa using hx), List.map_cons,
          List.filter_cons_of_pos (by simpa using (hl _).2 hx), List.map_cons, List.map_cons, ih]
      · by_cases hc : c.Certifies x.1
        · rw [List.filter_cons_of_pos (by simpa using hc), List.map_cons,
            List.filter_cons_of_neg (by simpa using fun h => hx ((hl _).1 h)), ih,
            List.filter_cons_of_neg (by simpa using hx)]
        · rw [List.filter_cons_of_neg (by simpa using hc), ih, List.filter_cons_of_neg (by simpa using hx)]
  have := (h.filter (fun h => SameName h.1 (str "IC-CertificateExpression"))).map Prod.snd
  rw [key, key] at this
  exact this

theorem lastHeader_of_values {r : HttpResponse} {v : Bytes} (h : exprHeaderValues r = [v]) :
    LastHeader r.headers (str "IC-CertificateExpression") v := by
  unfold exprHeaderValues at h
  generalize r.headers = hs at h
  induction hs with
  | nil => simp at h
  | cons x hs ih =>
    by_cases hx : SameName x.1 (str "IC-CertificateExpression")
    · rw [List.filter_cons_of_pos (by simpa using hx)] at h
      simp only [List.map_cons, List.cons.injEq, List.map_eq_nil_iff] at h
      refine ⟨[], x.1, hs, by simp [← h.1], hx, ?_⟩
      intro y hy hn
      have : y ∈ hs.filter (fun h => SameName h.1 (str "IC-CertificateExpression")) := by
        simp [hy, hn]
      rw [h.2] at this
      simp at this
    · rw [List.filter_cons_of_neg (by simpa using hx)] at h
      obtain ⟨pre, n, post, h1, h2, h3⟩ := ih h
      exact ⟨x :: pre, n, post, by simp [h1], h2, h3⟩

theorem lastHeader_append {hs : List Header} {n v : Bytes} {x : Header} (h : LastHeader hs n v) (hx : ¬ SameName x.1 n) :
    LastHeader (hs ++ [x]) n v := by
  obtain ⟨pre, m, post, h1, h2, h3⟩ := h
  refine ⟨pre, m, post ++ [x], by simp [h1], h2, ?_⟩
  intro y hy
  simp at hy
  rcases hy with hy | rfl
  · exact h3 y hy
  · exact hx

omit [UriLib] in
/-- No node where no certified entry has its path. -/
theorem no_node {ops : List CtOp} {t : CertTree} (ht : ctRun ops = some t)
    (hclean : ∀ g, CtOp.insert g ∈ ops → g.path.Clean) {L : List Bytes} {u : Bytes} (hu : u = exactTerm ∨ u = wildTerm)
    (hno : ∀ g, CtOp.insert g ∈ ops → ctSpec ops g.toTreePath → g.path.toTreePath ≠ L ++ [u]) :
    ¬ ∃ n, t.full.HasNode (str "http_expr" :: L ++ [u]) n := by
  rintro ⟨n, hn⟩
  obtain ⟨g, g1, g2, g3, _⟩ := ct_node_entry ht (p := L ++ [u]) (by simp) (by simpa using hn)
  refine hno g g1 g2 ?_
  obtain ⟨w, hw, k1, k2⟩ := entryPath_eq g
  rw [k2] at g3
  have hterm : ∀ y ∈ g.cert.toTreePath, ¬ (y = exactTerm ∨ y = wildTerm) := by
    intro y hy hterm
    have hl := term_len hterm
    have : y.length = 0 ∨ y.length = 32 := by
      cases hfc : g.cert with
      | skip a => rw [hfc] at hy; simp [HttpCert.toTreePath] at hy; rw [hy]; exact .inr a.2
      | responseOnly a b =>
        rw [hfc] at hy; simp [HttpCert.toTreePath] at hy
        rcases hy with rfl | rfl | rfl
        · exact .inr a.2
        · exact .inl rfl
        · exact .inr b.2
      | full a b c =>
        rw [hfc] at hy; simp [HttpCert.toTreePath] at hy
        rcases hy with rfl | rfl | rfl
        · exact .inr a.2
        · exact .inr b.2
        · exact .inr c.2
    omega
  obtain ⟨e1, e2, _⟩ := cut_single (D := []) (S := fun x => x = exactTerm ∨ x = wildTerm) hu (clean_labels (hclean g g1)) hterm g3
  rw [k1, e1, e2]

variable [Bls] [Inflate]

theorem reveals_found {w T n : HashTree} {p : List Bytes} (h : Reveals w T p) (hn : HasNode T p n) :
    w.lookupSubtree p = .found n := h.1 n hn

theorem found_prefix {w n : HashTree} {p q : List Bytes} (h : w.lookupSubtree (p ++ q) = .found n) :
    ∃ m, w.lookupSubtree p = .found m := by
  rw [lookupSubtree_append] at h
  split at h
  · exact ⟨_, by assumption⟩
  · cases h
  · cases h

/-- As C22 below, with what the response claims. -/
theorem complete_core_apart {env : Env} {ops : List CtOp} {f : CertEntry} {x : CelExpr} {q req : HttpRequest}
    {r res : HttpResponse} {path dataCert : Bytes} {c : Certificate} {minV : Nat}
    -- the canister's side: a history of calls, after which the entry is certified and right for the request
    (kind : CertEntry → CelExpr) (hops : ∀ o ∈ ops, ∀ g, o.entry? = some g → MadeFor g.cert (kind g))
    (hapart : ∀ o ∈ ops, ∀ g, o.entry? = some g → ¬ g.Imitates f ∧ ¬ f.Imitates g) (hspec : ctSpec ops f.toTreePath)
    (hmade : MadeOf f.cert x q r) (hnames : ∀ n ∈ x.names, CarriedName n)
    (hresp : Responds ops path f.path)
    -- the request and the response served agree with the certified ones
    (hpath : req.getPath = .ok path) (hsame : SameCertified x q req r res)
    (hexpr : x = .skip → LastHeader res.headers (str "IC-CertificateExpression") x.toBytes)
    -- the certificate is valid and certifies the root hash of the tree
    (hcert : certificateFromCbor env.machine dataCert = some (.ok c))
    (hver : certVerify env.machine env.checks c env.canisterId env.rootKey env.now env.offset = .ok ())
    (hroot : ∀ t, ctRun ops = some t →
      c.tree.lookupPath [str "canister", env.canisterId, str "certified_data"] = .found t.rootHash.1)
    -- sizes
    (hm : 32 < env.machine.usize) (hurl : (chars f.path.url).isSome ∧ env.machine.Fits (f.path.url.length + 9))
    (hfit : ∀ t, ctRun ops = some t → t.full.Fits env.machine ∧ t.full.height + 3 ≤ env.machine.stack)
    (hmin : minV ≤ 2)
    -- the provisos
    (hwild : ∀ p, f.path = .wildcard p → (∀ g, CtOp.insert g ∈ ops → g.path.Clean) ∧
      (pathSegments path).head? ≠ some (str "http_expr") ∧ PlainEndPath path) :
    (∃ t w info, ctRun ops = some t ∧ t.witness f path = some (.ok w) ∧
      verifyPair env req (addV2CertificateHeader dataCert res w f.path.toExprPath) minV = .ok info ∧
      Claims env.machine (addV2CertificateHeader dataCert res w f.path.toExprPath)
        { certificate := c, tree := w, version := 2, exprPath := some f.path.toExprPath } f.path.toExprPath x.toBytes x ∧
      info.version = 2 ∧
      match x with
      | .skip => info.response = none
      | .responseOnly rc | .full _ rc => info.response = some
          { statusCode := some res.status, body := res.body,
            headers := certifiedRespHeaders rc res.headers ++
              [(str "IC-Certificate", utf8 (v2HeaderText dataCert w f.path.toExprPath))] }) ∨
    ∃ o ∈ ops, ∃ g, o.entry? = some g ∧ (kind g = .skip ↔ x ≠ .skip) ∧ CollisionIn [(kind g).toBytes] [x.toBytes] := by
  rcases C20_entries_api ops f x (madeOf_madeFor hmade) kind hapart hops with ⟨t, ht, hrt, hleaf, _⟩ | hcol
  swap
  · exact .inr hcol
  left
  have hleaf := hleaf.2 hspec
  have hT : t.full.WellFormed := by
    obtain ⟨-, hv⟩ := ctRun_valid ht
    exact wf_tree hv
  -- the witness
  obtain ⟨w, hw, hdig, hpr, hrev, hrest⟩ : ∃ w, t.witness f path = some (.ok w) ∧ w.digest = t.rootHash ∧ Prunes w t.full ∧
      Reveals w t.full (str "http_expr" :: f.toTreePath) ∧
      ∀ p, f.path = .wildcard p → Reveals w t.full (str "http_expr" :: (ofPath path).labels ++ [str "<$>"]) ∧
        ∀ v, Matches v (ofPath path) → MoreSpecific v (ofPath p) →
          Reveals w t.full (str "http_expr" :: v.labels ++ [str "<*>"]) := by
    obtain ⟨fp, fc⟩ := f
    cases fp with
    | exact p =>
      obtain ⟨w, h1, h2, h3, h4⟩ := C21_exact_witness ht p fc path
      exact ⟨w, h1, h2, h3, h4, by simp⟩
    | wildcard p =>
      obtain ⟨-, hstart, -⟩ := hwild p rfl
      obtain ⟨w, h1, h2, h3, h4, h5⟩ := C21_wildcard_settles_url_partial ht p fc path hresp.1 hstart
      have hlen : (pathParts p).length ≤ (pathParts path).length := by
        by_contra hlt
        obtain ⟨err, he⟩ := (C21_wildcard_error ht p fc path).2 (by omega)
        rw [h1] at he; simp at he
      obtain ⟨w', ws, k1, k2, k3, _⟩ := C21_wildcard_witness ht p fc path hlen
      have hww : w = w' := by rw [h1] at k1; simpa using k1
      subst hww
      refine ⟨w, h1, h2, k3, h4, ?_⟩
      intro p' hp'
      simp at hp'
      subst hp'
      exact ⟨h3, h5⟩
  have hfound := reveals_found hrev hleaf
  have hexp : f.path.toExprPath ++ f.cert.toTreePath = str "http_expr" :: f.toTreePath := by
    rw [toExprPath_cons]; rfl
  rw [← hexp] at hfound
  obtain ⟨m0, hm0⟩ := found_prefix hfound
  -- the path
  have hvp : validateExprPath f.path.toExprPath path w = .ok () := by
    obtain ⟨fp, fc⟩ := f
    cases fp with
    | exact p =>
      refine validateExprPath_ok.2 (.inl ⟨?_, m0, hm0⟩)
      have : ofPath p = ofPath path := hresp
      show pathPrefix :: (pathParts p) ++ [exactTerm] = _
      rw [pathParts_eq, pathParts_eq, this]
    | wildcard p =>
      obtain ⟨hclean, -, hend⟩ := hwild p rfl
      obtain ⟨hr1, hr2⟩ := hrest p rfl
      obtain ⟨hm1, hm2⟩ := hresp
      have he : (HttpPath.wildcard p).toExprPath = pathPrefix :: (ofPath p).wildLabels := rfl
      refine validateExprPath_ok.2 (.inr ⟨?_, rfl, ?_, ?_, ?_, ?_, m0, hm0⟩)
      · intro h
        have := congrArg List.getLast? h
        have e1 : (HttpPath.wildcard p).toExprPath.getLast? = some wildTerm := by
          rw [he]; unfold wildLabels; rw [← List.cons_append, List.getLast?_append]; rfl
        simp only [e1] at this
        rw [List.getLast?_append] at this
        simp at this
        exact absurd this.symm exactTerm_ne
      · rw [he]; unfold wildLabels; rw [← List.cons_append, List.getLast?_append]; rfl
      · rw [pathParts_eq]
        refine hr1.2 (no_node ht hclean (.inl rfl) ?_)
        intro g g1 g2 g3
        have := hm2 g g1 g2
        obtain ⟨gp, gc⟩ := g
        cases gp with
        | exact a =>
          simp only at this g3
          apply this
          rw [toTreePath_exact] at g3
          exact labels_inj (ofPath_proper a) (ofPath_proper path) (List.append_inj' g3 rfl).1
        | wildcard v =>
          simp only [toTreePath_wild] at g3
          have := (List.append_inj' g3 rfl).2
          simp at this
          exact absurd this.symm exactTerm_ne
      · have hd : (HttpPath.wildcard p).toExprPath.dropLast = pathPrefix :: (ofPath p).labels := by
          rw [he]; unfold wildLabels; rw [← List.cons_append, List.dropLast_concat]
        rw [hd, pathParts_eq]
        exact valid_cons ((valid_iff (ofPath_proper p)).2 hm1.1)
      · obtain ⟨ws, e1, e2⟩ := C19_exact_verifier_partial hm1 hend
        refine ⟨ws, e1, fun pth hp => ?_⟩
        obtain ⟨v, v1, v2, rfl⟩ := (e2 pth).1 hp
        have hrv := hr2 v v1 v2
        refine hrv.2 (no_node ht hclean (.inr rfl) ?_)
        intro g g1 g2 g3
        have := hm2 g g1 g2
        obtain ⟨gp, gc⟩ := g
        cases gp with
        | exact a =>
          simp only [toTreePath_exact] at g3
          have := (List.append_inj' g3 rfl).2
          simp at this
          exact absurd this exactTerm_ne
        | wildcard a =>
          simp only at this g3
          apply this
          rw [toTreePath_wild] at g3
          have hav : ofPath a = v := by
            refine labels_inj (ofPath_proper a) ?_ (List.append_inj' g3 rfl).1
            obtain ⟨i, hi, rfl⟩ := matches_iff.1 v1
            exact at_proper (ofPath_proper path) i
          rw [hav]
          exact ⟨v1, v2⟩
  -- the header
  obtain ⟨hfit1, hfit2⟩ := hfit t ht
  obtain ⟨hs1, hs2⟩ := exprPath_ok hurl.1 hurl.2
  have hhdr := C34_roundtrip env.machine dataCert c w f.path.toExprPath hm hcert (prunes_fits hpr hfit1)
    (le_trans (Nat.add_le_add_right (prunes_height hpr) 3) hfit2) hs1 hs2
  have hhs : (addV2CertificateHeader dataCert res w f.path.toExprPath).headers =
      res.headers ++ [(certHeaderName, utf8 (v2HeaderText dataCert w f.path.toExprPath))] := rfl
  have hlast : LastHeader (addV2CertificateHeader dataCert res w f.path.toExprPath).headers (str "IC-Certificate")
      (utf8 (v2HeaderText dataCert w f.path.toExprPath)) :=
    ⟨res.headers, certHeaderName, [], hhs, (show SameName certHeaderName (str "IC-Certificate") by decide), by simp⟩
  have hcarry : CarriesHeader env.machine (addV2CertificateHeader dataCert res w f.path.toExprPath)
      { certificate := c, tree := w, version := 2, exprPath := some f.path.toExprPath } :=
    ⟨_, hlast, by rw [chars_utf8]; exact hhdr⟩
  have hm5 := madeOf_iff hmade
  -- the expression header
  have hexprLast : LastHeader (addV2CertificateHeader dataCert res w f.path.toExprPath).headers
      (str "IC-CertificateExpression") x.toBytes := by
    rw [hhs]
    refine lastHeader_append ?_ (show ¬ SameName certHeaderName (str "IC-CertificateExpression") by decide)
    cases x with
    | skip => exact hexpr rfl
    | responseOnly rc =>
      have := exprValues_perm hsame.2.2
      rw [hm5.1] at this
      exact lastHeader_of_values (List.perm_singleton.1 this.symm)
    | full d rc =>
      have := exprValues_perm hsame.2.2.2
      rw [hm5.1] at this
      exact lastHeader_of_values (List.perm_singleton.1 this.symm)
  have hcrt : ∀ rc : RespCert, certifiedRespHeaders rc (addV2CertificateHeader dataCert res w f.path.toExprPath).headers =
      certifiedRespHeaders rc res.headers := by
    intro rc
    rw [hhs]
    unfold certifiedRespHeaders
    rw [List.filter_append]
    have : ¬ rc.Certifies certHeaderName := fun h => h.1 (by decide)
    simp [this]
  have hrh : ∀ rc : RespCert, SameResponse rc r res →
      responseHash (addV2CertificateHeader dataCert res w f.path.toExprPath) rc none = responseHash r rc none := by
    intro rc hs
    refine C30_ignores_uncertified hs.1.symm hs.2.1.symm ?_
    rw [hcrt]
    exact hs.2.2.symm
  have hvt : validateTree env.canisterId c w = true := by
    rw [validateTree_true, hroot t ht, hdig]
  have fin : ∀ info, v2Verification env req (addV2CertificateHeader dataCert res w f.path.toExprPath) w c
      f.path.toExprPath (sha x.toBytes) x = .ok info →
      verifyPair env req (addV2CertificateHeader dataCert res w f.path.toExprPath) minV = .ok info := by
    intro info hi
    exact verifyPair_ok.2 ⟨_, hcarry, hmin, .inr ⟨rfl, _, _, x, hexprLast, rfl, C78_written _ x hnames, hi⟩⟩
  have hclaims : Claims env.machine (addV2CertificateHeader dataCert res w f.path.toExprPath)
      { certificate := c, tree := w, version := 2, exprPath := some f.path.toExprPath } f.path.toExprPath x.toBytes x :=
    ⟨hcarry, rfl, rfl, hexprLast, C78_written _ x hnames⟩
  cases x with
  | skip =>
    refine ⟨t, w, { response := none, version := 2 }, ht, hw, fin _ ?_, hclaims, rfl, rfl⟩
    refine v2_ok.2 ⟨path, hpath, verifyCert_ok.2 hver, hvt, hvp, ⟨.leaf [], ?_⟩, rfl⟩
    simp only at hm5
    rw [hm5] at hfound
    exact hfound
  | responseOnly rc =>
    refine ⟨t, w, _, ht, hw, fin _ (v2_ok.2 ⟨path, hpath, verifyCert_ok.2 hver, hvt, hvp, ?_, _, headerGet_some.2 hlast, rfl⟩), hclaims, rfl, ?_⟩
    · rw [hrh rc hsame]
      rw [hm5.2] at hfound
      exact hfound
    · simp only [filterRespHeaders_eq, hcrt]
      rfl
  | full d rc =>
    obtain ⟨_, qh, k1, k2⟩ := hm5
    refine ⟨t, w, _, ht, hw, fin _ (v2_ok.2 ⟨path, hpath, verifyCert_ok.2 hver, hvt, hvp, ⟨qh, ?_, ?_⟩, _, headerGet_some.2 hlast, rfl⟩), hclaims, rfl, ?_⟩
    · rw [← k1]; exact (sameRequest_hash hsame.1).symm
    · rw [hrh rc hsame.2]
      rw [k2] at hfound
      exact hfound
    · simp only [filterRespHeaders_eq, hcrt]
      rfl

theorem complete_core {env : Env} {ops : List CtOp} {f : CertEntry} {x : CelExpr} {q req : HttpRequest}
    {r res : HttpResponse} {path dataCert : Bytes} {c : Certificate} {minV : Nat}
    -- the canister's side: a history of calls, after which the entry is certified and right for the request
    (kind : CertEntry → CelExpr) (hops : ∀ o ∈ ops, ∀ g, o.entry? = some g → g.path.Clean ∧ MadeFor g.cert (kind g))
    (hf : f.path.Clean) (hspec : ctSpec ops f.toTreePath)
    (hmade : MadeOf f.cert x q r) (hnames : ∀ n ∈ x.names, CarriedName n)
    (hresp : Responds ops path f.path)
    -- the request and the response served agree with the certified ones
    (hpath : req.getPath = .ok path) (hsame : SameCertified x q req r res)
    (hexpr : x = .skip → LastHeader res.headers (str "IC-CertificateExpression") x.toBytes)
    -- the certificate is valid and certifies the root hash of the tree
    (hcert : certificateFromCbor env.machine dataCert = some (.ok c))
    (hver : certVerify env.machine env.checks c env.canisterId env.rootKey env.now env.offset = .ok ())
    (hroot : ∀ t, ctRun ops = some t →
      c.tree.lookupPath [str "canister", env.canisterId, str "certified_data"] = .found t.rootHash.1)
    -- sizes
    (hm : 32 < env.machine.usize) (hurl : (chars f.path.url).isSome ∧ env.machine.Fits (f.path.url.length + 9))
    (hfit : ∀ t, ctRun ops = some t → t.full.Fits env.machine ∧ t.full.height + 3 ≤ env.machine.stack)
    (hmin : minV ≤ 2)
    -- the provisos
    (hstart : (pathSegments path).head? ≠ some (str "http_expr")) (hend : PlainEndPath path) :
    (∃ t w info, ctRun ops = some t ∧ t.witness f path = some (.ok w) ∧
      verifyPair env req (addV2CertificateHeader dataCert res w f.path.toExprPath) minV = .ok info ∧
      Claims env.machine (addV2CertificateHeader dataCert res w f.path.toExprPath)
        { certificate := c, tree := w, version := 2, exprPath := some f.path.toExprPath } f.path.toExprPath x.toBytes x ∧
      info.version = 2 ∧
      match x with
      | .skip => info.response = none
      | .responseOnly rc | .full _ rc => info.response = some
          { statusCode := some res.status, body := res.body,
            headers := certifiedRespHeaders rc res.headers ++
              [(str "IC-Certificate", utf8 (v2HeaderText dataCert w f.path.toExprPath))] }) ∨
    ∃ o ∈ ops, ∃ g, o.entry? = some g ∧ (kind g = .skip ↔ x ≠ .skip) ∧ CollisionIn [(kind g).toBytes] [x.toBytes] :=
  complete_core_apart kind (fun o ho g hg => (hops o ho g hg).2)
    (fun o ho g hg => ⟨CertEntry.not_imitates (hops o ho g hg).1 f, CertEntry.not_imitates hf g⟩) hspec hmade hnames hresp hpath hsame
    hexpr hcert hver hroot hm hurl hfit hmin (fun _ _ => ⟨fun g hg => (hops _ hg g rfl).1, hstart, hend⟩)

/-- The same without URLs that have a segment `<$>` or `<*>`. -/
theorem complete_clean {env : Env} {ops : List CtOp} {f : CertEntry} {x : CelExpr} {q req : HttpRequest}
    {r res : HttpResponse} {path dataCert : Bytes} {c : Certificate} {minV : Nat}
    -- the canister's side: a history of calls, after which the entry is certified and right for the request
    (kind : CertEntry → CelExpr) (hops : ∀ o ∈ ops, ∀ g, o.entry? = some g → g.path.Clean ∧ MadeFor g.cert (kind g))
    (hf : f.path.Clean) (hspec : ctSpec ops f.toTreePath)
    (hmade : MadeOf f.cert x q r) (hnames : ∀ n ∈ x.names, CarriedName n)
    (hresp : Responds ops path f.path)
    -- the request and the response served agree with the certified ones
    (hpath : req.getPath = .ok path) (hsame : SameCertified x q req r res)
    (hexpr : x = .skip → LastHeader res.headers (str "IC-CertificateExpression") x.toBytes)
    -- the certificate is valid and certifies the root hash of the tree
    (hcert : certificateFromCbor env.machine dataCert = some (.ok c))
    (hver : certVerify env.machine env.checks c env.canisterId env.rootKey env.now env.offset = .ok ())
    (hroot : ∀ t, ctRun ops = some t →
      c.tree.lookupPath [str "canister", env.canisterId, str "certified_data"] = .found t.rootHash.1)
    -- sizes
    (hm : 32 < env.machine.usize) (hurl : (chars f.path.url).isSome ∧ env.machine.Fits (f.path.url.length + 9))
    (hfit : ∀ t, ctRun ops = some t → t.full.Fits env.machine ∧ t.full.height + 3 ≤ env.machine.stack)
    (hmin : minV ≤ 2)
    -- the provisos
    (hstart : (pathSegments path).head? ≠ some (str "http_expr")) (hend : PlainEndPath path) :
    (∃ t w info, ctRun ops = some t ∧ t.witness f path = some (.ok w) ∧
      verifyPair env req (addV2CertificateHeader dataCert res w f.path.toExprPath) minV = .ok info ∧
      info.version = 2 ∧
      match x with
      | .skip => info.response = none
      | .responseOnly rc | .full _ rc => info.response = some
          { statusCode := some res.status, body := res.body,
            headers := certifiedRespHeaders rc res.headers ++
              [(str "IC-Certificate", utf8 (v2HeaderText dataCert w f.path.toExprPath))] }) ∨
    ∃ o ∈ ops, ∃ g, o.entry? = some g ∧ (kind g = .skip ↔ x ≠ .skip) ∧ CollisionIn [(kind g).toBytes] [x.toBytes] := by
  rcases complete_core kind hops hf hspec hmade hnames hresp hpath hsame hexpr hcert hver hroot hm hurl hfit hmin hstart hend
    with ⟨t, w, info, h1, h2, h3, -, h4⟩ | h
  · exact .inl ⟨t, w, info, h1, h2, h3, h4⟩
  · exact .inr h

/-- **C22** (part). Suppose that, after some history of calls on the certification tree, an entry is certified that was
made for a request and a response, and is the right one for a request path (`Responds`). A request with that path and
a response that agree with those in all certified parts are served, the response with the header generated from the
witness and a certificate that is valid (C40) and carries the tree's root hash. Then verification succeeds and returns
the certified content.

Provisos: names in the definition that CEL can carry (see C32); sizes that fit the machine; no URL imitates the tree path of
the entry (C20). If the entry is at a wildcard path: no URL has a segment `<$>` or `<*>`, and the request's first segment is
not `http_expr`. Without the provisos on segments the property is false of the code: see `C22_counterexample_first`,
`C22_counterexample_last` and `C22_counterexample_between`. -/
theorem C22_complete_partial {env : Env} {ops : List CtOp} {f : CertEntry} {x : CelExpr} {q req : HttpRequest}
    {r res : HttpResponse} {path dataCert : Bytes} {c : Certificate} {minV : Nat}
    -- the canister's side: a history of calls, after which the entry is certified and right for the request
    (kind : CertEntry → CelExpr) (hops : ∀ o ∈ ops, ∀ g, o.entry? = some g → MadeFor g.cert (kind g))
    (hapart : ∀ o ∈ ops, ∀ g, o.entry? = some g → ¬ g.Imitates f ∧ ¬ f.Imitates g) (hspec : ctSpec ops f.toTreePath)
    (hmade : MadeOf f.cert x q r) (hnames : ∀ n ∈ x.names, CarriedName n)
    (hresp : Responds ops path f.path)
    -- the request and the response served agree with the certified ones
    (hpath : req.getPath = .ok path) (hsame : SameCertified x q req r res)
    (hexpr : x = .skip → LastHeader res.headers (str "IC-CertificateExpression") x.toBytes)
    -- the certificate is valid and certifies the root hash of the tree
    (hcert : certificateFromCbor env.machine dataCert = some (.ok c))
    (hver : certVerify env.machine env.checks c env.canisterId env.rootKey env.now env.offset = .ok ())
    (hroot : ∀ t, ctRun ops = some t →
      c.tree.lookupPath [str "canister", env.canisterId, str "certified_data"] = .found t.rootHash.1)
    -- sizes
    (hm : 32 < env.machine.usize) (hurl : (chars f.path.url).isSome ∧ env.machine.Fits (f.path.url.length + 9))
    (hfit : ∀ t, ctRun ops = some t → t.full.Fits env.machine ∧ t.full.height + 3 ≤ env.machine.stack)
    (hmin : minV ≤ 2)
    -- the provisos
    (hwild : ∀ p, f.path = .wildcard p → (∀ g, CtOp.insert g ∈ ops → g.path.Clean) ∧
      (pathSegments path).head? ≠ some (str "http_expr") ∧ PlainEndPath path) :
    (∃ t w info, ctRun ops = some t ∧ t.witness f path = some (.ok w) ∧
      verifyPair env req (addV2CertificateHeader dataCert res w f.path.toExprPath) minV = .ok info ∧
      info.version = 2 ∧
      match x with
      | .skip => info.response = none
      | .responseOnly rc | .full _ rc => info.response = some
          { statusCode := some res.status, body := res.body,
            headers := certifiedRespHeaders rc res.headers ++
              [(str "IC-Certificate", utf8 (v2HeaderText dataCert w f.path.toExprPath))] }) ∨
    ∃ o ∈ ops, ∃ g, o.entry? = some g ∧ (kind g = .skip ↔ x ≠ .skip) ∧ CollisionIn [(kind g).toBytes] [x.toBytes] := by
  rcases complete_core_apart kind hops hapart hspec hmade hnames hresp hpath hsame hexpr hcert hver hroot hm hurl hfit hmin hwild
    with ⟨t, w, info, h1, h2, h3, -, h4⟩ | h
  · exact .inl ⟨t, w, info, h1, h2, h3, h4⟩
  · exact .inr h

/-- **C22** for entries at exact paths: no proviso on the segments of URLs, other than that none imitates the tree path of the
entry. -/
theorem C22_exact {env : Env} {ops : List CtOp} {f : CertEntry} {p : Bytes} {x : CelExpr} {q req : HttpRequest}
    {r res : HttpResponse} {path dataCert : Bytes} {c : Certificate} {minV : Nat}
    -- the canister's side: a history of calls, after which the entry is certified and right for the request
    (kind : CertEntry → CelExpr) (hops : ∀ o ∈ ops, ∀ g, o.entry? = some g → MadeFor g.cert (kind g))
    (hapart : ∀ o ∈ ops, ∀ g, o.entry? = some g → ¬ g.Imitates f ∧ ¬ f.Imitates g) (hspec : ctSpec ops f.toTreePath)
    (hmade : MadeOf f.cert x q r) (hnames : ∀ n ∈ x.names, CarriedName n)
    (hresp : Responds ops path f.path)
    -- the request and the response served agree with the certified ones
    (hpath : req.getPath = .ok path) (hsame : SameCertified x q req r res)
    (hexpr : x = .skip → LastHeader res.headers (str "IC-CertificateExpression") x.toBytes)
    -- the certificate is valid and certifies the root hash of the tree
    (hcert : certificateFromCbor env.machine dataCert = some (.ok c))
    (hver : certVerify env.machine env.checks c env.canisterId env.rootKey env.now env.offset = .ok ())
    (hroot : ∀ t, ctRun ops = some t →
      c.tree.lookupPath [str "canister", env.canisterId, str "certified_data"] = .found t.rootHash.1)
    -- sizes
    (hm : 32 < env.machine.usize) (hurl : (chars f.path.url).isSome ∧ env.machine.Fits (f.path.url.length + 9))
    (hfit : ∀ t, ctRun ops = some t → t.full.Fits env.machine ∧ t.full.height + 3 ≤ env.machine.stack)
    (hmin : minV ≤ 2)
    (hexact : f.path = .exact p) :
    (∃ t w info, ctRun ops = some t ∧ t.witness f path = some (.ok w) ∧
      verifyPair env req (addV2CertificateHeader dataCert res w f.path.toExprPath) minV = .ok info ∧
      info.version = 2 ∧
      match x with
      | .skip => info.response = none
      | .responseOnly rc | .full _ rc => info.response = some
          { statusCode := some res.status, body := res.body,
            headers := certifiedRespHeaders rc res.headers ++
              [(str "IC-Certificate", utf8 (v2HeaderText dataCert w f.path.toExprPath))] }) ∨
    ∃ o ∈ ops, ∃ g, o.entry? = some g ∧ (kind g = .skip ↔ x ≠ .skip) ∧ CollisionIn [(kind g).toBytes] [x.toBytes] :=
  C22_complete_partial kind hops hapart hspec hmade hnames hresp hpath hsame hexpr hcert hver hroot hm hurl hfit hmin
    (fun p' h => by rw [hexact] at h; exact absurd h (by simp))

end

/-! ## Counterexamples -/

/-- Entries made with the interface: the wildcard `/`, and exact paths in a directory called `http_expr`. -/
def exPrefixOps : List CtOp :=
  [.insert ⟨.wildcard (str "/"), .responseOnly h1 h0⟩, .insert ⟨.exact (str "/http_expr/b"), .responseOnly h1 h0⟩,
   .insert ⟨.exact (str "/http_expr/c"), .responseOnly h1 h0⟩, .insert ⟨.exact (str "/http_expr/n"), .responseOnly h1 h0⟩,
   .insert ⟨.exact (str "/http_expr/z"), .responseOnly h1 h0⟩]

/-- The claim of C22 is false for a URL whose first segment is `http_expr`: the only matching entry is the wildcard
`/`, but the witness made for it does not show that the more specific wildcards in the directory are absent, and the
verifier rejects. -/
theorem C22_counterexample_first : letI := toySHA; ∃ t w, ctRun exPrefixOps = some t ∧
    t.witness ⟨.wildcard (str "/"), .responseOnly h1 h0⟩ (str "/http_expr/m") = some (.ok w) ∧
    Responds exPrefixOps (str "/http_expr/m") (.wildcard (str "/")) ∧
    validateExprPath (HttpPath.wildcard (str "/")).toExprPath (str "/http_expr/m") w = .err .moreSpecificMightExist := by
  let _ := toySHA
  refine ⟨_, _, rfl, rfl, ⟨⟨by decide, by decide⟩, ?_⟩, rfl⟩
  intro g hg _
  simp only [exPrefixOps, List.mem_cons, CtOp.insert.injEq, List.not_mem_nil, or_false] at hg
  rcases hg with rfl | rfl | rfl | rfl | rfl
  · rintro ⟨_, h⟩
    simp only [moreSpecific_iff] at h
    omega
  all_goals decide

/-- The claim of C22 is false for a URL whose last segment is `<*>`: with the wildcards `/a` and `/a/` certified, the
latter is the right one for `/a/<*>`, but the verifier strips the last segment and then takes `/a` to be more
specific. -/
theorem C22_counterexample_last : letI := toySHA; ∃ t w, ctRun exTwoWild = some t ∧
    t.witness ⟨.wildcard (str "/a/"), .responseOnly h1 h1⟩ (str "/a/<*>") = some (.ok w) ∧
    Responds exTwoWild (str "/a/<*>") (.wildcard (str "/a/")) ∧
    validateExprPath (HttpPath.wildcard (str "/a/")).toExprPath (str "/a/<*>") w = .err .moreSpecificMightExist := by
  let _ := toySHA
  refine ⟨_, _, rfl, rfl, ⟨⟨by decide, by decide⟩, ?_⟩, rfl⟩
  intro g hg _
  simp only [exTwoWild, List.mem_cons, CtOp.insert.injEq, List.not_mem_nil, or_false] at hg
  rcases hg with rfl | rfl
  · rintro ⟨_, h⟩
    simp only [moreSpecific_iff] at h
    exact absurd h (by decide)
  · rintro ⟨_, h⟩
    simp only [moreSpecific_iff] at h
    omega

/-- Entries made with the interface: the wildcard `/a`, and an exact path in a directory called `/a/<$>`. -/
def exBetweenOps : List CtOp :=
  [.insert ⟨.wildcard (str "/a"), .responseOnly h1 h0⟩, .insert ⟨.exact (str "/a/<$>/b"), .responseOnly h1 h0⟩]

/-- The claim of C22 is false if a URL has a segment `<$>` in the middle: with `/a/<$>/b` certified, the wildcard `/a` is the
only entry for the request path `/a`, but the verifier takes the directory for an entry at the exact path `/a`. -/
theorem C22_counterexample_between : letI := toySHA; ∃ t w, ctRun exBetweenOps = some t ∧
    t.witness ⟨.wildcard (str "/a"), .responseOnly h1 h0⟩ (str "/a") = some (.ok w) ∧
    Responds exBetweenOps (str "/a") (.wildcard (str "/a")) ∧
    validateExprPath (HttpPath.wildcard (str "/a")).toExprPath (str "/a") w = .err .exactMightExist := by
  let _ := toySHA
  refine ⟨_, _, rfl, rfl, ⟨⟨by decide, by decide⟩, ?_⟩, rfl⟩
  intro g hg _
  simp only [exBetweenOps, List.mem_cons, CtOp.insert.injEq, List.not_mem_nil, or_false] at hg
  rcases hg with rfl | rfl
  · rintro ⟨_, h⟩
    simp only [moreSpecific_iff] at h
    omega
  · decide

/-! ## A concrete case that meets all hypotheses -/
section examples

instance (m : Machine) (n : Nat) : Decidable (m.Fits n) := by unfold Machine.Fits; infer_instance

def decFits (m : Machine) : (t : HashTree) → Decidable (t.Fits m)
  | .empty => .isTrue trivial
  | .leaf b => inferInstanceAs (Decidable (m.Fits b.length))
  | .pruned _ => .isTrue trivial
  | .labeled l t => @instDecidableAnd _ _ (inferInstanceAs (Decidable (m.Fits l.length))) (decFits m t)
  | .fork l r => @instDecidableAnd _ _ (decFits m l) (decFits m r)

instance (m : Machine) (t : HashTree) : Decidable (t.Fits m) := decFits m t

@[instance_reducible] def toyInflate : Inflate := ⟨some, some⟩

/-- The canister's entries: the response of `Props.Certification` for all paths under `/a`, and a skip for `/b`. -/
def exServeOps [SHA] : List CtOp :=
  [.insert ⟨.wildcard (str "/a"), .responseOnly (sha (CelExpr.responseOnly exCert).toBytes) (responseHash exCertified exCert none)⟩,
   .insert ⟨.exact (str "/b"), .mkSkip⟩]

def exServed : CertEntry :=
  let _ := toySHA
  ⟨.wildcard (str "/a"), .responseOnly (sha (CelExpr.responseOnly exCert).toBytes) (responseHash exCertified exCert none)⟩

/-- A certificate, made at time 100, that carries the root hash. -/
def exStateCert (root : Bytes) : Certificate :=
  { tree := .fork (.labeled (str "canister") (.labeled [5] (.labeled (str "certified_data") (.leaf root))))
      (.labeled (str "time") (.leaf (lebU64 100))),
    signature := List.replicate 96 1, delegation := none }

def exEnv : Env := ⟨exMachine, true, [5], 110, 10, exRootKey⟩

/-- Served with a further, uncertified header. -/
def exServedResponse : HttpResponse := { exCertified with headers := (str "Date", str "now") :: exCertified.headers }

def exGet : HttpRequest := ⟨str "GET", str "/a/x?y=1", [], []⟩

def exRoot : Bytes :=
  let _ := toySHA
  match ctRun exServeOps with
  | some t => t.rootHash.1
  | none => []

theorem exCert_verifies (root : Bytes) : letI := toySHA; letI := toyBls;
    certVerify exMachine true (exStateCert root) [5] exRootKey 110 10 = .ok () := by
  let _ := toySHA
  let _ := toyBls
  exact C40_accepts exMachine true (exStateCert root) [5] exRootKey 110 10 100 (lebU64 100) rfl (by decide) (by decide)
    (by decide) ⟨by decide, by decide⟩ (by decide) (.inl ⟨rfl, ⟨_, ⟨rfl, by simp⟩, congrArg some (beq_self_eq_true _)⟩⟩)

/-- What the entries of the history were made for. -/
def exKind (e : CertEntry) : CelExpr := if e.cert.isSkip then .skip else .responseOnly exCert

/-- All hypotheses of C22 hold together, so that its conclusion holds of this case. -/
example : letI := toySHA; letI := toyUri; letI := toyBls; letI := toyInflate;
    (∃ t w info, ctRun exServeOps = some t ∧ t.witness exServed (str "/a/x") = some (.ok w) ∧
      verifyPair exEnv exGet (addV2CertificateHeader (encCertificate (exStateCert exRoot)) exServedResponse w
        exServed.path.toExprPath) 2 = .ok info ∧ info.version = 2 ∧
      info.response = some
        { statusCode := some 200, body := str "hi",
          headers := [(str "etag", str "1"), (str "ic-certificateexpression", (CelExpr.responseOnly exCert).toBytes),
          (str "IC-Certificate", utf8 (v2HeaderText (encCertificate (exStateCert exRoot)) w exServed.path.toExprPath))] }) ∨
    ∃ o ∈ exServeOps, ∃ g, o.entry? = some g ∧ (exKind g = .skip ↔ CelExpr.responseOnly exCert ≠ .skip) ∧
      CollisionIn [(exKind g).toBytes] [(CelExpr.responseOnly exCert).toBytes] := by
  let _ := toySHA
  let _ := toyUri
  let _ := toyBls
  let _ := toyInflate
  have hmade : MadeOf exServed.cert (.responseOnly exCert) exGet exCertified :=
    .responseOnly (bh := none) ((C44_response_only _ _ _ _).2 ⟨rfl, rfl⟩) (by simp)
  have hall : ∀ o ∈ exServeOps, ∀ g, o.entry? = some g → g.path.Clean ∧ MadeFor g.cert (exKind g) := by
    intro o ho g hg
    simp only [exServeOps, List.mem_cons, List.not_mem_nil, or_false] at ho
    rcases ho with rfl | rfl <;> simp only [CtOp.entry?, Option.some.injEq] at hg <;> subst hg
    · exact ⟨⟨by decide, by decide⟩, madeOf_madeFor hmade⟩
    · exact ⟨⟨by decide, by decide⟩, .skip⟩
  refine C22_complete_partial (env := exEnv) (ops := exServeOps) (f := exServed) (x := .responseOnly exCert) (q := exGet)
    (r := exCertified) (c := exStateCert exRoot) exKind (fun o ho g hg => (hall o ho g hg).2)
    (fun o ho g hg => ⟨CertEntry.not_imitates (hall o ho g hg).1 _, CertEntry.not_imitates ⟨by decide, by decide⟩ g⟩) ?_ hmade ?_ ?_ rfl
    ?_ ?_ ?_ (exCert_verifies _) ?_ ?_ ?_ ?_ (by decide)
    (fun _ _ => ⟨fun g hg => (hall _ hg g rfl).1, by decide, .inr ⟨by decide, by decide⟩⟩)
  · exact .inr (.inl rfl)
  · intro n hn
    simp [CelExpr.names, exCert] at hn
    subst hn
    exact plain_carried (by decide)
  · refine ⟨⟨by decide, by decide⟩, ?_⟩
    intro g hg _
    simp only [exServeOps, List.mem_cons, CtOp.insert.injEq, List.not_mem_nil, or_false] at hg
    rcases hg with rfl | rfl
    · rintro ⟨_, h⟩
      simp only [moreSpecific_iff] at h
      omega
    · decide
  · exact ⟨rfl, rfl, List.Perm.refl _⟩
  · intro h; simp at h
  · refine (C37_certificate_roundtrip exMachine (exStateCert exRoot) (by decide) (by decide) ?_ ?_ ?_ (by decide)).1
    · decide +kernel
    · decide
    · intro d hd; simp [exStateCert] at hd
  · intro t ht
    have : (match ctRun exServeOps with | some t => t.rootHash.1 | none => []) = t.rootHash.1 := by rw [ht]
    have e : exRoot = t.rootHash.1 := this
    rw [← e]
    rfl
  · decide
  · exact ⟨chars_str (by decide), by decide⟩
  · intro t ht
    have : (match ctRun exServeOps with
      | some t => decide (t.full.Fits exMachine ∧ t.full.height + 3 ≤ exMachine.stack)
      | none => true) = true := by decide +kernel
    rw [ht] at this
    exact of_decide_eq_true this


/-- An exact path with a segment `<$>` in it, and a wildcard above it. -/
def exMarkOps [SHA] : List CtOp :=
  [.insert ⟨.exact (str "/a/<$>/b"), .responseOnly (sha (CelExpr.responseOnly exCert).toBytes) (responseHash exCertified exCert none)⟩,
   .insert ⟨.wildcard (str "/a"), .mkSkip⟩]

def exMarked : CertEntry :=
  let _ := toySHA
  ⟨.exact (str "/a/<$>/b"), .responseOnly (sha (CelExpr.responseOnly exCert).toBytes) (responseHash exCertified exCert none)⟩

def exMarkRoot : Bytes :=
  let _ := toySHA
  match ctRun exMarkOps with
  | some t => t.rootHash.1
  | none => []

def exMarkGet : HttpRequest := ⟨str "GET", str "/a/<$>/b", [], []⟩

/-- All hypotheses of `C22_exact` hold together for an entry whose URL has a segment `<$>`. -/
example : letI := toySHA; letI := toyUri; letI := toyBls; letI := toyInflate;
    (∃ t w info, ctRun exMarkOps = some t ∧ t.witness exMarked (str "/a/<$>/b") = some (.ok w) ∧
      verifyPair exEnv exMarkGet (addV2CertificateHeader (encCertificate (exStateCert exMarkRoot)) exServedResponse w
        exMarked.path.toExprPath) 2 = .ok info ∧ info.version = 2 ∧
      info.response = some
        { statusCode := some 200, body := str "hi",
          headers := [(str "etag", str "1"), (str "ic-certificateexpression", (CelExpr.responseOnly exCert).toBytes),
          (str "IC-Certificate", utf8 (v2HeaderText (encCertificate (exStateCert exMarkRoot)) w exMarked.path.toExprPath))] }) ∨
    ∃ o ∈ exMarkOps, ∃ g, o.entry? = some g ∧ (exKind g = .skip ↔ CelExpr.responseOnly exCert ≠ .skip) ∧
      CollisionIn [(exKind g).toBytes] [(CelExpr.responseOnly exCert).toBytes] := by
  let _ := toySHA
  let _ := toyUri
  let _ := toyBls
  let _ := toyInflate
  have hmade : MadeOf exMarked.cert (.responseOnly exCert) exMarkGet exCertified :=
    .responseOnly (bh := none) ((C44_response_only _ _ _ _).2 ⟨rfl, rfl⟩) (by simp)
  have hno : ∀ g e : CertEntry, e.cert.celHash.1 ∉ pathSegments g.path.url → ¬ g.Imitates e := by
    rintro g e h ⟨pre, m, post, -, hs⟩
    exact h (by rw [hs]; simp)
  have hall : ∀ o ∈ exMarkOps, ∀ g, o.entry? = some g → MadeFor g.cert (exKind g) ∧ ¬ g.Imitates exMarked ∧ ¬ exMarked.Imitates g := by
    intro o ho g hg
    simp only [exMarkOps, List.mem_cons, List.not_mem_nil, or_false] at ho
    rcases ho with rfl | rfl <;> simp only [CtOp.entry?, Option.some.injEq] at hg <;> subst hg
    · exact ⟨madeOf_madeFor hmade, hno _ _ (by decide +kernel), hno _ _ (by decide +kernel)⟩
    · exact ⟨.skip, hno _ _ (by decide +kernel), hno _ _ (by decide +kernel)⟩
  refine C22_exact (env := exEnv) (ops := exMarkOps) (f := exMarked) (x := .responseOnly exCert) (q := exMarkGet)
    (r := exCertified) (c := exStateCert exMarkRoot) exKind (fun o ho g hg => (hall o ho g hg).1)
    (fun o ho g hg => (hall o ho g hg).2) ?_ hmade ?_ ?_ rfl
    ?_ ?_ ?_ (exCert_verifies _) ?_ ?_ ?_ ?_ (by decide) rfl
  · exact .inr (.inl rfl)
  · intro n hn
    simp [CelExpr.names, exCert] at hn
    subst hn
    exact plain_carried (by decide)
  · exact rfl
  · exact ⟨rfl, rfl, List.Perm.refl _⟩
  · intro h; simp at h
  · refine (C37_certificate_roundtrip exMachine (exStateCert exMarkRoot) (by decide) (by decide) ?_ ?_ ?_ (by decide)).1
    · decide +kernel
    · decide
    · intro d hd; simp [exStateCert] at hd
  · intro t ht
    have : (match ctRun exMarkOps with | some t => t.rootHash.1 | none => []) = t.rootHash.1 := by rw [ht]
    have e : exMarkRoot = t.rootHash.1 := this
    rw [← e]
    rfl
  · decide
  · exact ⟨chars_str (by decide), by decide⟩
  · intro t ht
    have : (match ctRun exMarkOps with
      | some t => decide (t.full.Fits exMachine ∧ t.full.height + 3 ≤ exMachine.stack)
      | none => true) = true := by decide +kernel
    rw [ht] at this
    exact of_decide_eq_true this

end examples
end Verif.Props
