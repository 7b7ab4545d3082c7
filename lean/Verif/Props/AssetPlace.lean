import Verif.Props.Asset

set_option linter.unusedSimpArgs false
set_option linter.unusedSectionVars false

/-!
# Property C45: what was certified is served
-/

namespace Verif.Props
open Verif HashTree

section
variable [SHA] [UriLib] [GlobLib]

/-- The place a change is about. -/
def effectAt (fallback : Bool) (k : RequestKey) : Effect → Prop
  | .putResponse k' _ => fallback = false ∧ k' = k
  | .removeResponse k' => fallback = false ∧ k' = k
  | .clearResponses => fallback = false
  | .putFallback k' _ => fallback = true ∧ k' = k
  | .removeFallback k' => fallback = true ∧ k' = k
  | .clearFallbacks => fallback = true
  | _ => False

omit [SHA] [UriLib] [GlobLib] in
theorem foldl_untouched (es : List Effect) (m : RespMap) (k : RequestKey) :
    ((∀ e ∈ es, ¬ effectAt false k e) → es.foldl Effect.onResponses m k = m k) ∧
    ((∀ e ∈ es, ¬ effectAt true k e) → es.foldl Effect.onFallbacks m k = m k) := by
  induction es generalizing m with
  | nil => exact ⟨fun _ => rfl, fun _ => rfl⟩
  | cons e es ih =>
    constructor
    · intro h
      rw [List.foldl_cons, (ih _).1 (fun e he => h e (by simp [he]))]
      have := h e (by simp)
      cases e <;> simp only [effectAt, true_and, false_and, not_true, not_false_eq_true, Bool.false_eq_true,
        Bool.true_eq_false, reduceCtorEq] at this <;> simp only [Effect.onResponses, mapSet] <;>
        first | rfl | exact if_neg (fun hc => this hc.symm)
    · intro h
      rw [List.foldl_cons, (ih _).2 (fun e he => h e (by simp [he]))]
      have := h e (by simp)
      cases e <;> simp only [effectAt, true_and, false_and, not_true, not_false_eq_true, Bool.false_eq_true,
        Bool.true_eq_false, reduceCtorEq] at this <;> simp only [Effect.onFallbacks, mapSet] <;>
        first | rfl | exact if_neg (fun hc => this hc.symm)

theorem touches_of_effect {c : RouterCall} (hc : c.Faithful) {fallback : Bool} {k : RequestKey} {e : Effect}
    (he : e ∈ c.effects.1) (hk : effectAt fallback k e) : c.Touches fallback k := by
  cases c with
  | certify assets values configs =>
    simp only [RouterCall.effects] at he
    rw [certifyAssets_items, Effects.mem_need] at he
    obtain ⟨cs, h1, h2⟩ := he
    obtain ⟨i, hi, h3⟩ := Effects.mem_each h2
    refine ⟨i, (mem_callItems h1 hc i).1 hi, ?_⟩
    rw [put_list] at h3
    split at h3
    · rcases List.mem_cons.1 h3 with rfl | h3
      · exact absurd hk (by simp [effectAt])
      · rw [List.mem_singleton] at h3
        subst h3
        cases hf : i.isFallback <;> simp [hf, effectAt] at hk <;> simp [hk]
    · simp at h3
  | delete assets values configs =>
    simp only [RouterCall.effects] at he
    rw [deleteAssets_items, Effects.mem_need] at he
    obtain ⟨cs, h1, h2⟩ := he
    obtain ⟨i, hi, h3⟩ := Effects.mem_each h2
    obtain ⟨a1, a2⟩ := (mem_callItems' h1 hc i).1 hi
    unfold Item.withdraw at h3
    rw [Effects.mem_need] at h3
    obtain ⟨x, h4, h5⟩ := h3
    rcases List.mem_cons.1 h5 with rfl | h5
    · exact absurd hk (by simp [effectAt])
    · rcases List.mem_cons.1 h5 with rfl | h5
      · refine ⟨i, a1, ?_⟩
        cases hf : i.isFallback <;> simp [hf, effectAt] at hk <;> simp [hk]
      · cases i with
        | whole u p =>
          simp only [List.mem_map] at h5
          obtain ⟨j, j1, rfl⟩ := h5
          obtain ⟨b1, n, rfl, b2⟩ := mem_chunkItems.1 j1
          simp only [effectAt] at hk
          cases a1 with
          | whole c1 c2 c3 c4 => exact ⟨_, .chunk c1 c2 c3 c4 b1 b2, hk.1.symm, hk.2⟩
        | chunk => simp at h5
        | fallback => simp at h5
        | redirect => simp at h5
  | deleteAll => trivial
  | shared o =>
    simp only [RouterCall.effects, List.mem_singleton] at he
    subst he
    cases o <;> simp [CtOp.effect, effectAt] at hk

/-- **C45.** Calls, successful or not, change nothing at the places they are not about. -/
theorem C45_frame {calls later : List RouterCall} {r r' : Router} (hr : routerRun calls = some r)
    (hr' : routerRun (calls ++ later) = some r') (hl : ∀ c ∈ later, c.Faithful) (k : RequestKey) :
    ((∀ c ∈ later, ¬ c.Touches false k) → r'.responses k = r.responses k) ∧
    ((∀ c ∈ later, ¬ c.Touches true k) → r'.fallbacks k = r.fallbacks k) := by
  obtain ⟨-, a2, a3⟩ := routerRun_iff.1 hr
  obtain ⟨-, b2, b3⟩ := routerRun_iff.1 hr'
  rw [effectsOf_append, List.foldl_append, ← a2] at b2
  rw [effectsOf_append, List.foldl_append, ← a3] at b3
  rw [b2, b3]
  constructor
  · intro h
    refine (foldl_untouched _ _ k).1 fun e he hk => ?_
    obtain ⟨c, c1, c2⟩ := List.mem_flatMap.1 he
    exact h c c1 (touches_of_effect (hl c c1) c2 hk)
  · intro h
    refine (foldl_untouched _ _ k).2 fun e he hk => ?_
    obtain ⟨c, c1, c2⟩ := List.mem_flatMap.1 he
    exact h c c1 (touches_of_effect (hl c c1) c2 hk)

/-- **C45.** A successfully certified item is held at its place, until a call about that place. -/
theorem C45_stays {before later : List RouterCall} {assets values : List Asset} {configs : List AssetConfig} {r : Router}
    (hv : IsValues assets values) (hok : (RouterCall.certify assets values configs).Succeeds)
    (hl : ∀ c ∈ later, c.Faithful) (hr : routerRun (before ++ .certify assets values configs :: later) = some r)
    {i : Item} (hi : Sole assets configs i) (hq : ∀ c ∈ later, ¬ c.Touches i.isFallback i.key) :
    ∃ x, i.Answer x ∧ (if i.isFallback then r.fallbacks i.key else r.responses i.key) = some x := by
  obtain ⟨r0, h0⟩ := routerRun_some before
  obtain ⟨r1, h1⟩ := routerRun_some (before ++ [.certify assets values configs])
  obtain ⟨c1, c2⟩ := C45_certify hv hok h0 h1 i.key
  have hr' : routerRun ((before ++ [.certify assets values configs]) ++ later) = some r := by
    rw [List.append_assoc]; exact hr
  obtain ⟨f1, f2⟩ := C45_frame h1 hr' hl i.key
  cases hf : i.isFallback with
  | false =>
    rw [hf] at hq
    simp only [Bool.false_eq_true, if_false]
    rw [f1 hq]
    rcases c1 with ⟨j, x, a, b, c, d, e⟩ | ⟨a, -⟩
    · have := hi.2 j a (b.trans hf.symm) c
      subst this
      exact ⟨x, d, e⟩
    · exact absurd rfl (a i hi.1 hf)
  | true =>
    rw [hf] at hq
    simp only [if_true]
    rw [f2 hq]
    rcases c2 with ⟨j, x, a, b, c, d, e⟩ | ⟨a, -⟩
    · have := hi.2 j a (b.trans hf.symm) c
      subst this
      exact ⟨x, d, e⟩
    · exact absurd rfl (a i hi.1 hf)

section
variable [UnstableSort]

theorem chooses_of_prefers {r : Router} {path : Bytes} {accepts : AssetEncoding → Prop} {range : Option Nat}
    {e : Option AssetEncoding} {x : CertifiedResponse} (hp : Prefers r path accepts range e)
    (hx : r.held path range e = some x) : Chooses accepts (r.held path range) x := by
  cases e with
  | none => exact .plain hp hx
  | some e => exact .encoded hp.1 hx hp.2

theorem serve_chosen {calls : List RouterCall} {r : Router} (hr : routerRun calls = some r) (m : Machine)
    (dataCert : Bytes) {req : HttpRequest} {path : Bytes} {range : Option Nat}
    (hutf : ∀ h ∈ req.headers, (chars h.2).isSome) (hpath : req.getPath = .ok path) (hrange : AsksFrom m req range)
    {x : CertifiedResponse} (hx : Answers r path (Accepts req) range x) :
    ∃ w, r.serveAsset m dataCert req = some (.ok (addV2CertificateHeader dataCert x.response w x.entry.path.toExprPath)) ∧
      w.digest = r.rootHash ∧ Reveals w r.tree.full (str "http_expr" :: x.entry.toTreePath) := by
  rcases C45_serve hr m dataCert hutf hpath hrange with ⟨y, w, h1, h2, h3, h4, h5, h6⟩ | ⟨h1, -⟩
  · have := h2 x hx
    subst this
    exact ⟨w, h3, h5, h6⟩
  · exact absurd hx (h1 x)

/-- **C45.** A successfully certified asset or redirect is served at its URL: with status, content and headers as
announced, plus the certificate header; a large asset is represented by its first chunk. This holds as long as no
call is about the URL, and when the request does not ask for an encoding that is preferred and available. -/
theorem C45_place {before later : List RouterCall} {assets values : List Asset} {configs : List AssetConfig} {r : Router}
    (hv : IsValues assets values) (hok : (RouterCall.certify assets values configs).Succeeds)
    (hl : ∀ c ∈ later, c.Faithful) (hr : routerRun (before ++ .certify assets values configs :: later) = some r)
    (m : Machine) (dataCert : Bytes) {req : HttpRequest} (hutf : ∀ h ∈ req.headers, (chars h.2).isSome)
    (hrange : ∀ h ∈ req.headers, ¬ SameName h.1 (str "range")) :
    (∀ url p, req.getPath = .ok url → Sole assets configs (.whole url p) →
      (∀ c ∈ later, ¬ c.Touches false (Item.whole url p).key) → p.content.length ≤ 2000000 →
      Prefers r url (Accepts req) none p.encoding →
      ∃ w, w.digest = r.rootHash ∧ r.serveAsset m dataCert req = some (.ok
        (addV2CertificateHeader dataCert (Item.whole url p).response w (HttpPath.exact url).toExprPath))) ∧
    (∀ url p, req.getPath = .ok url → Sole assets configs (.whole url p) → Sole assets configs (.chunk url p 0) →
      (∀ c ∈ later, ¬ c.Touches false (Item.whole url p).key ∧ ¬ c.Touches false (Item.chunk url p 0).key) →
      2000000 < p.content.length → Prefers r url (Accepts req) none p.encoding →
      ∃ w, w.digest = r.rootHash ∧ r.serveAsset m dataCert req = some (.ok
        (addV2CertificateHeader dataCert (Item.chunk url p 0).response w (HttpPath.exact url).toExprPath))) ∧
    (∀ src dst kind, req.getPath = .ok src → Sole assets configs (.redirect src dst kind) →
      (∀ c ∈ later, ¬ c.Touches false (Item.redirect src dst kind).key) →
      Prefers r src (Accepts req) none none →
      ∃ w, w.digest = r.rootHash ∧ r.serveAsset m dataCert req = some (.ok
        (addV2CertificateHeader dataCert (Item.redirect src dst kind).response w (HttpPath.exact src).toExprPath))) := by
  refine ⟨?_, ?_, ?_⟩
  · intro url p hpath hs hq hlen hpref
    obtain ⟨x, hx, hh⟩ := C45_stays hv hok hl hr hs hq
    simp only [Item.isFallback, Bool.false_eq_true, if_false] at hh
    have hheld : r.held url none p.encoding = some x := by
      unfold Router.held
      simp only [Item.key] at hh
      rw [hh]
      simp only
      rw [if_neg]
      rw [hx.response]
      exact Nat.not_lt.2 hlen
    obtain ⟨w, w1, w2, -⟩ := serve_chosen hr m dataCert hutf hpath (.noHeader hrange) (.exact (chooses_of_prefers hpref hheld))
    refine ⟨w, w2, ?_⟩
    rw [w1, hx.response, hx.path]; rfl
  · intro url p hpath hs hs0 hq hlen hpref
    obtain ⟨x, hx, hh⟩ := C45_stays hv hok hl hr hs (fun c hc => (hq c hc).1)
    obtain ⟨x0, hx0, hh0⟩ := C45_stays hv hok hl hr hs0 (fun c hc => (hq c hc).2)
    simp only [Item.isFallback, Bool.false_eq_true, if_false] at hh hh0
    have hheld : r.held url none p.encoding = some x0 := by
      unfold Router.held
      simp only [Item.key] at hh hh0
      rw [hh]
      simp only
      rw [if_pos]
      · rw [← hh0]
      · rw [hx.response]; exact hlen
    obtain ⟨w, w1, w2, -⟩ := serve_chosen hr m dataCert hutf hpath (.noHeader hrange) (.exact (chooses_of_prefers hpref hheld))
    refine ⟨w, w2, ?_⟩
    rw [w1, hx0.response, hx0.path]; rfl
  · intro src dst kind hpath hs hq hpref
    obtain ⟨x, hx, hh⟩ := C45_stays hv hok hl hr hs hq
    simp only [Item.isFallback, Bool.false_eq_true, if_false] at hh
    have hheld : r.held src none none = some x := by
      unfold Router.held
      simp only [Item.key] at hh
      simp only [Option.map_none]
      rw [hh]
      simp only
      rw [if_neg]
      rw [hx.response]
      simp [Item.response, Item.body]
    obtain ⟨w, w1, w2, -⟩ := serve_chosen hr m dataCert hutf hpath (.noHeader hrange)
      (.exact (chooses_of_prefers (e := none) hpref hheld))
    refine ⟨w, w2, ?_⟩
    rw [w1, hx.response, hx.path]; rfl

/-- **C45.** A successfully certified fallback is served for every path in its scope for which nothing else is held and
which no longer scope with a fallback contains. -/
theorem C45_place_fallback {before later : List RouterCall} {assets values : List Asset} {configs : List AssetConfig}
    {r : Router} (hv : IsValues assets values) (hok : (RouterCall.certify assets values configs).Succeeds)
    (hl : ∀ c ∈ later, c.Faithful) (hr : routerRun (before ++ .certify assets values configs :: later) = some r)
    (m : Machine) (dataCert : Bytes) {req : HttpRequest} (hutf : ∀ h ∈ req.headers, (chars h.2).isSome)
    {range : Option Nat} (hrange : AsksFrom m req range) {path scope : Bytes} (hpath : req.getPath = .ok path)
    {status : Option UInt16} {url : Bytes} {c : Bytes} {ct : Option Bytes} {hs : List Header}
    (hsole : Sole assets configs (.fallback scope status url ⟨c, none, ct, hs⟩))
    (hq : ∀ d ∈ later, ¬ d.Touches true (Item.fallback scope status url ⟨c, none, ct, hs⟩).key)
    (hencl : Encloses scope path)
    (hno : ∀ e, r.held path range e = none)
    (henc : ∀ e, Accepts req e → r.heldFallback scope (some e) = none)
    (hlong : ∀ s, Encloses s path → scope.length < s.length → ∀ e, r.heldFallback s e = none) :
    ∃ w, w.digest = r.rootHash ∧ r.serveAsset m dataCert req = some (.ok
      (addV2CertificateHeader dataCert (Item.fallback scope status url ⟨c, none, ct, hs⟩).response w
        (HttpPath.wildcard scope).toExprPath)) := by
  obtain ⟨x, hx, hh⟩ := C45_stays hv hok hl hr hsole hq
  simp only [Item.isFallback, if_true] at hh
  have hnone : ∀ {av : Option AssetEncoding → Option CertifiedResponse}, (∀ e, av e = none) →
      ∀ y, ¬ Chooses (Accepts req) av y := by
    intro av h y hy
    cases hy with
    | encoded _ h2 _ => rw [h] at h2; cases h2
    | plain _ h2 => rw [h] at h2; cases h2
  have hans : Answers r path (Accepts req) range x := by
    refine .fallback (hnone hno) hencl (.plain henc ?_) (fun s s1 s2 => hnone (hlong s s1 s2))
    unfold Router.heldFallback
    exact hh
  obtain ⟨w, w1, w2, -⟩ := serve_chosen hr m dataCert hutf hpath hrange hans
  refine ⟨w, w2, ?_⟩
  rw [w1, hx.response, hx.path]; rfl

end
end
end Verif.Props
