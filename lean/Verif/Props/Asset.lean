import Verif.Lemmas.Range
import Verif.Spec.Toy
import Verif.Props.Hash

set_option linter.unusedSimpArgs false
set_option linter.unusedSectionVars false

/-!
# Properties C45, C47: the asset router
-/

namespace Verif.Props
open Verif HashTree

section
variable [SHA] [UriLib] [GlobLib]

/-! ## What certifying does -/

theorem normalizeAll_ok {configs : List AssetConfig} : (∃ cs, normalizeAll configs = .ok cs) ↔
    ∀ p ct hs en, AssetConfig.pattern p ct hs en ∈ configs → (GlobLib.compile p).isSome := by
  induction configs with
  | nil => simp [normalizeAll]
  | cons c configs ih =>
    constructor
    · rintro ⟨cs, h⟩ p ct hs en hm
      simp only [normalizeAll] at h
      split at h
      · cases h
      · rename_i n hn
        split at h
        · cases h
        · rename_i ns hns
          rcases List.mem_cons.1 hm with rfl | hm
          · simp only [AssetConfig.normalize] at hn
            split at hn
            · cases hn
            · rename_i f hf; rw [hf]; rfl
          · exact ih.1 ⟨ns, hns⟩ p ct hs en hm
    · intro h
      obtain ⟨ns, hns⟩ := ih.2 (fun p ct hs en hm => h p ct hs en (by simp [hm]))
      have : ∃ n, c.normalize = .ok n := by
        cases c with
        | file => exact ⟨_, rfl⟩
        | redirect => exact ⟨_, rfl⟩
        | pattern p ct hs en =>
          obtain ⟨f, hf⟩ := Option.isSome_iff_exists.1 (h p ct hs en (by simp))
          exact ⟨.pattern f ct hs en, by simp only [AssetConfig.normalize, hf]⟩
      obtain ⟨n, hn⟩ := this
      exact ⟨n :: ns, by simp only [normalizeAll, hn, hns]⟩

/-- **C45.** `certify_assets` succeeds exactly when all patterns are well formed, all URLs to be certified parse, and
no configured header is the expression header, which the router adds itself. -/
theorem C45_certify_succeeds {assets values : List Asset} {configs : List AssetConfig} (hv : IsValues assets values) :
    (RouterCall.certify assets values configs).Succeeds ↔
      (∀ p ct hs en, AssetConfig.pattern p ct hs en ∈ configs → (GlobLib.compile p).isSome) ∧
      ∀ i, Announces assets configs i → (UriLib.parse i.url).isSome ∧
        ∀ h ∈ i.headers, ¬ SameName h.1 (str "IC-CertificateExpression") := by
  unfold RouterCall.Succeeds RouterCall.effects
  simp only
  rw [certifyAssets_items, Effects.need_ok, ← normalizeAll_ok]
  constructor
  · rintro ⟨cs, h1, h2⟩
    refine ⟨⟨cs, h1⟩, fun i hi => ?_⟩
    have := Effects.each_ok.1 h2 i ((mem_callItems h1 hv i).2 hi)
    rw [put_ok, Item.prepare_isOk] at this
    exact ⟨this.2, this.1⟩
  · rintro ⟨⟨cs, h1⟩, h2⟩
    refine ⟨cs, h1, Effects.each_ok.2 fun i hi => ?_⟩
    rw [put_ok, Item.prepare_isOk]
    have := h2 i ((mem_callItems h1 hv i).1 hi)
    exact ⟨this.2, this.1⟩

/-- What a successful certification does, in terms of items. -/
theorem certify_list {assets values : List Asset} {configs : List AssetConfig} (hv : IsValues assets values)
    (hok : (RouterCall.certify assets values configs).Succeeds) : ∃ items : List Item,
      (∀ i, i ∈ items ↔ Announces assets configs i) ∧ (∀ i ∈ items, ∃ x, i.prepare = .ok x) ∧
      (RouterCall.certify assets values configs).effects.1 = items.flatMap (fun i => i.put.1) := by
  unfold RouterCall.Succeeds RouterCall.effects at *
  simp only at *
  rw [certifyAssets_items] at hok ⊢
  obtain ⟨cs, h1, h2⟩ := Effects.need_ok.1 hok
  rw [Effects.each_ok] at h2
  have hall : ∀ i ∈ callItems pageItems assets values cs, ∃ x, i.prepare = .ok x :=
    fun i hi => (put_ok i).1 (h2 i hi)
  refine ⟨_, mem_callItems h1 hv, hall, ?_⟩
  rw [h1]
  exact each_put_list hall

/-- **C45.** After a successful `certify_assets` the router holds, for every announced item, the response of an item
announced for the same URL (or scope), encoding and range; everything else is unchanged. -/
theorem C45_certify {calls : List RouterCall} {assets values : List Asset} {configs : List AssetConfig} {r r' : Router}
    (hv : IsValues assets values) (hok : (RouterCall.certify assets values configs).Succeeds)
    (hr : routerRun calls = some r) (hr' : routerRun (calls ++ [.certify assets values configs]) = some r')
    (k : RequestKey) :
    ((∃ i x, Announces assets configs i ∧ i.isFallback = false ∧ i.key = k ∧ i.Answer x ∧ r'.responses k = some x) ∨
      ((∀ i, Announces assets configs i → i.isFallback = false → i.key ≠ k) ∧ r'.responses k = r.responses k)) ∧
    ((∃ i x, Announces assets configs i ∧ i.isFallback = true ∧ i.key = k ∧ i.Answer x ∧ r'.fallbacks k = some x) ∨
      ((∀ i, Announces assets configs i → i.isFallback = true → i.key ≠ k) ∧ r'.fallbacks k = r.fallbacks k)) := by
  obtain ⟨items, h1, h2, h3⟩ := certify_list hv hok
  obtain ⟨-, a2, a3⟩ := routerRun_iff.1 hr
  obtain ⟨-, b2, b3⟩ := routerRun_iff.1 hr'
  have he : effectsOf (calls ++ [.certify assets values configs]) = effectsOf calls ++ items.flatMap (fun i => i.put.1) := by
    rw [effectsOf_append, ← h3]
    simp [effectsOf]
  rw [he, List.foldl_append, ← a2] at b2
  rw [he, List.foldl_append, ← a3] at b3
  constructor
  · rw [b2]
    rcases foldl_puts items r.responses h2 k with ⟨pre, i, post, x, c1, c2, c3, c4, c5, c6⟩ | ⟨c1, c2⟩
    · exact .inl ⟨i, x, (h1 i).1 (by rw [c1]; simp), c2, c3, Item.prepare_ok.1 c4, c5⟩
    · exact .inr ⟨fun i hi => c1 i ((h1 i).2 hi), c2⟩
  · rw [b3]
    rcases foldl_putsF items r.fallbacks h2 k with ⟨pre, i, post, x, c1, c2, c3, c4, c5, c6⟩ | ⟨c1, c2⟩
    · exact .inl ⟨i, x, (h1 i).1 (by rw [c1]; simp), c2, c3, Item.prepare_ok.1 c4, c5⟩
    · exact .inr ⟨fun i hi => c1 i ((h1 i).2 hi), c2⟩

theorem answer_unique {i : Item} {x y : CertifiedResponse} (hx : i.Answer x) (hy : i.Answer y) : x = y := by
  have a := Item.prepare_ok.2 hx
  rw [Item.prepare_ok.2 hy] at a
  simpa using a.symm

theorem ctSpec_inserts (es : List CertEntry) (s : List Bytes → Prop) (p : List Bytes) :
    (es.map CtOp.insert).foldl CtOp.spec s p ↔ s p ∨ ∃ e ∈ es, p = e.toTreePath := by
  induction es generalizing s with
  | nil => simp
  | cons e es ih =>
    rw [List.map_cons, List.foldl_cons, ih]
    simp only [CtOp.spec, List.mem_cons, exists_eq_or_imp]
    tauto

theorem ctSpec_deletes (es : List CertEntry) (s : List Bytes → Prop) (p : List Bytes) :
    (es.map CtOp.delete).foldl CtOp.spec s p ↔ s p ∧ ∀ e ∈ es, p ≠ e.toTreePath := by
  induction es generalizing s with
  | nil => simp
  | cons e es ih =>
    rw [List.map_cons, List.foldl_cons, ih]
    simp only [CtOp.spec, List.mem_cons, forall_eq_or_imp]
    tauto

/-- **C45.** A successful `certify_assets` certifies the entries of all announced items, and nothing else. -/
theorem C45_certify_tree {calls : List RouterCall} {assets values : List Asset} {configs : List AssetConfig}
    (hv : IsValues assets values) (hok : (RouterCall.certify assets values configs).Succeeds) (p : List Bytes) :
    ctSpec (treeLog (calls ++ [.certify assets values configs])) p ↔ ctSpec (treeLog calls) p ∨
      ∃ i x, Announces assets configs i ∧ i.Answer x ∧ p = x.entry.toTreePath := by
  obtain ⟨items, h1, h2, h3⟩ := certify_list hv hok
  have hl : ∃ es : List CertEntry, treeLog [RouterCall.certify assets values configs] = es.map CtOp.insert ∧
      ∀ e, e ∈ es ↔ ∃ i x, Announces assets configs i ∧ i.Answer x ∧ e = x.entry := by
    have : treeLog [RouterCall.certify assets values configs] =
        (items.flatMap (fun i => i.put.1)).filterMap Effect.treeOp? := by
      unfold treeLog; rw [← h3]; simp
    rw [this]
    have key : ∀ items : List Item, (∀ i ∈ items, ∃ x, i.prepare = .ok x) → ∃ es : List CertEntry,
        (items.flatMap (fun i => i.put.1)).filterMap Effect.treeOp? = es.map CtOp.insert ∧
        ∀ e, e ∈ es ↔ ∃ i x, i ∈ items ∧ i.Answer x ∧ e = x.entry := by
      intro items
      induction items with
      | nil => intro _; exact ⟨[], rfl, by simp⟩
      | cons i items ih =>
        intro h
        obtain ⟨es, e1, e2⟩ := ih (fun j hj => h j (by simp [hj]))
        obtain ⟨x, hx⟩ := h i (by simp)
        refine ⟨x.entry :: es, ?_, ?_⟩
        · rw [List.flatMap_cons, List.filterMap_append, e1, put_list, hx]
          cases i.isFallback <;> rfl
        · intro e
          rw [List.mem_cons, e2]
          constructor
          · rintro (rfl | ⟨j, y, j1, j2, j3⟩)
            · exact ⟨i, x, by simp, Item.prepare_ok.1 hx, rfl⟩
            · exact ⟨j, y, by simp [j1], j2, j3⟩
          · rintro ⟨j, y, j1, j2, j3⟩
            rcases List.mem_cons.1 j1 with rfl | j1
            · left; rw [j3, answer_unique j2 (Item.prepare_ok.1 hx)]
            · exact .inr ⟨j, y, j1, j2, j3⟩
    obtain ⟨es, e1, e2⟩ := key items h2
    refine ⟨es, e1, fun e => (e2 e).trans ?_⟩
    constructor
    · rintro ⟨i, x, a, b, c⟩; exact ⟨i, x, (h1 i).1 a, b, c⟩
    · rintro ⟨i, x, a, b, c⟩; exact ⟨i, x, (h1 i).2 a, b, c⟩
  obtain ⟨es, e1, e2⟩ := hl
  have : ctSpec (treeLog (calls ++ [.certify assets values configs])) p ↔
      (es.map CtOp.insert).foldl CtOp.spec (ctSpec (treeLog calls)) p := by
    unfold ctSpec
    rw [treeLog_append, e1, List.foldl_append]
  rw [this, ctSpec_inserts]
  refine or_congr_right ?_
  constructor
  · rintro ⟨e, he, rfl⟩
    obtain ⟨i, x, a, b, rfl⟩ := (e2 e).1 he
    exact ⟨i, x, a, b, rfl⟩
  · rintro ⟨i, x, a, b, rfl⟩
    exact ⟨_, (e2 _).2 ⟨i, x, a, b, rfl⟩, rfl⟩

/-- **C45.** Whatever the history (also with failed calls, and with the tree shared), everything the router holds is
the response of some item kept at its place, with a certification made from a GET request of its URL and itself; and
if the response is large, its first chunk is held too. -/
theorem C45_held {calls : List RouterCall} {r : Router} (hr : routerRun calls = some r) (k : RequestKey)
    (x : CertifiedResponse) :
    (r.responses k = some x → ∃ i : Item, i.isFallback = false ∧ i.key = k ∧ i.Answer x ∧
      ∀ u p, i = .whole u p → 2000000 < p.content.length → ∃ y, r.responses (Item.chunk u p 0).key = some y ∧
        (Item.chunk u p 0).Answer y) ∧
    (r.fallbacks k = some x → ∃ i : Item, i.isFallback = true ∧ i.key = k ∧ i.Answer x) :=
  ⟨(router_inv hr).1 k x, (router_inv hr).2 k x⟩

/-! ## Serving -/

section
variable [UnstableSort]

/-- The witness of what answers a request. -/
theorem answer_witness {calls : List RouterCall} {r : Router} (hr : routerRun calls = some r) {path : Bytes}
    {accepts : AssetEncoding → Prop} {range : Option Nat} {x : CertifiedResponse} (h : Answers r path accepts range x) :
    ∃ w, r.tree.witness x.entry path = some (.ok w) ∧ w.digest = r.rootHash ∧
      Reveals w r.tree.full (str "http_expr" :: x.entry.toTreePath) := by
  obtain ⟨hct, -, -⟩ := routerRun_iff.1 hr
  obtain ⟨hm, hf⟩ := router_inv hr
  have hexact : ∀ k, r.responses k = some x → ∃ w, r.tree.witness x.entry path = some (.ok w) ∧ w.digest = r.rootHash ∧
      Reveals w r.tree.full (str "http_expr" :: x.entry.toTreePath) := by
    intro k hk
    obtain ⟨i, i1, i2, i3, i4⟩ := hm k x hk
    have : ∃ u, x.entry.path = .exact u := by
      rw [i3.path]
      cases i with
      | whole u p => exact ⟨u, rfl⟩
      | chunk u p n => exact ⟨u, rfl⟩
      | fallback => simp [Item.isFallback] at i1
      | redirect s d k => exact ⟨s, rfl⟩
    obtain ⟨u, hu⟩ := this
    obtain ⟨w, w1, w2, -, w4⟩ := C21_exact_witness hct u x.entry.cert path
    have he : x.entry = ⟨.exact u, x.entry.cert⟩ := by
      cases hx : x.entry; rw [hx] at hu; simp only at hu; rw [hu]
    rw [he]
    exact ⟨w, w1, w2, w4⟩
  have hheld : ∀ e, r.held path range e = some x → ∃ k, r.responses k = some x := by
    intro e he
    unfold Router.held at he
    split at he
    · split at he
      · exact ⟨_, he⟩
      · rename_i y hy _
        simp only [Option.some.injEq] at he
        exact ⟨_, by rw [hy, he]⟩
    · cases he
  cases h with
  | exact h =>
    cases h with
    | encoded _ h2 _ => obtain ⟨k, hk⟩ := hheld _ h2; exact hexact k hk
    | plain _ h2 => obtain ⟨k, hk⟩ := hheld _ h2; exact hexact k hk
  | @fallback scope _ h1 h2 h3 h4 =>
    have : ∃ e : Option AssetEncoding, r.fallbacks ⟨scope, e.map AssetEncoding.token, none⟩ = some x := by
      cases h3 with
      | @encoded e _ _ h5 _ => exact ⟨some e, h5⟩
      | plain _ h5 => exact ⟨none, h5⟩
    obtain ⟨e, he⟩ := this
    obtain ⟨i, i1, i2, i3⟩ := hf _ x he
    have hp : x.entry.path = .wildcard scope := by
      rw [i3.path]
      cases i with
      | fallback s st u p =>
        simp only [Item.key, RequestKey.mk.injEq] at i2
        rw [Item.certPath, i2.1]
      | whole => simp [Item.isFallback] at i1
      | chunk => simp [Item.isFallback] at i1
      | redirect => simp [Item.isFallback] at i1
    obtain ⟨w, ws, w1, w2, -, -, w5, -⟩ := C21_wildcard_witness hct scope x.entry.cert path (encloses_parts h2)
    have hen : x.entry = ⟨.wildcard scope, x.entry.cert⟩ := by
      cases hx : x.entry; rw [hx] at hp; simp only at hp; rw [hp]
    rw [hen]
    refine ⟨w, w1, w2, ?_⟩
    have := w5 x.entry.cert.toTreePath
    simpa [CertEntry.toTreePath] using this

omit [SHA] [GlobLib] [UnstableSort] [UriLib] in
theorem asksFrom_iff {m : Machine} {req : HttpRequest} {range : Option Nat}
    (hutf : ∀ h ∈ req.headers, (chars h.2).isSome) : rangeBegin m req = .ok range ↔ AsksFrom m req range := by
  have hl : lower (str "range") = str "range" := by decide
  unfold rangeBegin
  cases hf : firstHeader req.headers (str "range") with
  | none =>
    simp only [Except.ok.injEq]
    constructor
    · rintro rfl
      exact .noHeader ((firstHeader_none hl).1 hf)
    · intro h
      cases h with
      | noHeader _ => rfl
      | range h1 _ =>
        rw [← firstHeader_iff hl, hf] at h1
        cases h1
  | some v =>
    have hv := hutf
    obtain ⟨pre, n, post, e1, -, -⟩ := (firstHeader_iff hl).1 hf
    obtain ⟨text, ht⟩ := Option.isSome_iff_exists.1 (hutf (n, v) (by rw [e1]; simp))
    have hvt : v = utf8 text := (utf8_chars ht).symm
    simp only at ht
    simp only [ht, Option.getD_some]
    constructor
    · intro h
      split at h
      · cases h
      · rename_i b e he
        simp only [Except.ok.injEq] at h
        subst h
        exact .range (text := text) (by rw [← firstHeader_iff hl, hf, hvt]) (parseRange_iff.1 he)
    · intro h
      cases h with
      | noHeader h =>
        rw [← firstHeader_none hl, hf] at h
        cases h
      | range h1 h2 =>
        rw [← firstHeader_iff hl, hf] at h1
        simp only [Option.some.injEq] at h1
        have := utf8_inj (hvt.symm.trans h1)
        subst this
        rw [parseRange_iff.2 h2]

/-- **C45.** After any history, a request is answered as follows (without panic). If some response held answers it in
the sense of `Answers`, exactly that response is served, with the header made from a witness whose digest is the
router's root hash and which shows whether the response is certified. Otherwise the error says that no asset
matches. -/
theorem C45_serve {calls : List RouterCall} {r : Router} (hr : routerRun calls = some r) (m : Machine)
    (dataCert : Bytes) {req : HttpRequest} {path : Bytes} {range : Option Nat}
    (hutf : ∀ h ∈ req.headers, (chars h.2).isSome)
    (hpath : req.getPath = .ok path) (hrange : AsksFrom m req range) :
    (∃ x w, Answers r path (Accepts req) range x ∧ (∀ y, Answers r path (Accepts req) range y → y = x) ∧
      r.serveAsset m dataCert req = some (.ok (addV2CertificateHeader dataCert x.response w x.entry.path.toExprPath)) ∧
      r.tree.witness x.entry path = some (.ok w) ∧ w.digest = r.rootHash ∧
      Reveals w r.tree.full (str "http_expr" :: x.entry.toTreePath)) ∨
    ((∀ x, ¬ Answers r path (Accepts req) range x) ∧ r.serveAsset m dataCert req = some (.error (.noAsset path))) := by
  obtain ⟨hm, hf⟩ := router_inv hr
  have key := assetForRequest_iff hm hf (path := path) (range := range) (preferred_sorted req) (accepts_iff req)
  unfold Router.serveAsset
  rw [hpath]
  simp only
  rw [(asksFrom_iff hutf).2 hrange]
  simp only
  cases ha : r.assetForRequest path (preferredEncodings req) range with
  | some x =>
    left
    have hx := (key x).1 ha
    obtain ⟨w, w1, w2, w3⟩ := answer_witness hr hx
    exact ⟨x, w, hx, fun y hy => answers_unique hy hx, by simp only [w1], w1, w2, w3⟩
  | none =>
    right
    refine ⟨fun x hx => ?_, rfl⟩
    rw [← key, ha] at hx
    cases hx

/-- **C45.** The remaining cases: a URL without a path, and a Range header that does not parse, are errors. -/
theorem C45_serve_errors (r : Router) (m : Machine) (dataCert : Bytes) (req : HttpRequest)
    (hutf : ∀ h ∈ req.headers, (chars h.2).isSome) :
    (∀ e, req.getPath = .error e → r.serveAsset m dataCert req = some (.error (.http e))) ∧
    (∀ path, req.getPath = .ok path → (¬ ∃ range, AsksFrom m req range) →
      r.serveAsset m dataCert req = some (.error .request)) := by
  constructor
  · intro e he
    unfold Router.serveAsset
    rw [he]
  · intro path hp hn
    unfold Router.serveAsset
    rw [hp]
    simp only
    cases hb : rangeBegin m req with
    | ok range => exact absurd ⟨range, (asksFrom_iff hutf).1 hb⟩ hn
    | error e =>
      simp only [Option.some.injEq, Except.error.injEq]
      unfold rangeBegin at hb
      split at hb
      · cases hb
      · split at hb
        · simpa using hb.symm
        · cases hb

/-- **C45.** No history of calls makes the router panic, and none makes it panic on a request. -/
theorem C45_total (calls : List RouterCall) :
    ∃ r, routerRun calls = some r ∧ ∀ m dataCert req, (r.serveAsset m dataCert req).isSome := by
  obtain ⟨r, hr⟩ := routerRun_some calls
  refine ⟨r, hr, fun m dc req => ?_⟩
  obtain ⟨hm, hf⟩ := router_inv hr
  unfold Router.serveAsset
  cases hp : req.getPath with
  | error e => rfl
  | ok path =>
    simp only
    cases hb : rangeBegin m req with
    | error e => rfl
    | ok range =>
      simp only
      have key := assetForRequest_iff hm hf (path := path) (range := range) (preferred_sorted req) (accepts_iff req)
      cases ha : r.assetForRequest path (preferredEncodings req) range with
      | none => rfl
      | some x =>
        obtain ⟨w, w1, -⟩ := answer_witness hr ((key x).1 ha)
        simp only [w1]; rfl

end

/-! ## Deleting -/

theorem withdraw_ok (i : Item) : i.withdraw.2 = .ok () ↔ ∃ x, i.prepare = .ok x := by
  unfold Item.withdraw
  rw [Effects.need_ok]
  simp

/-- The places an item occupies, including those of its chunks. -/
def itemKeys : Item → List RequestKey
  | .whole u p => (Item.whole u p).key :: (chunkItems u p).map Item.key
  | i => [i.key]

theorem withdraw_list (i : Item) (x : CertifiedResponse) (h : i.prepare = .ok x) (m : RespMap) (k : RequestKey) :
    i.withdraw.1.foldl Effect.onResponses m k = (if i.isFallback = false ∧ k ∈ itemKeys i then none else m k) ∧
    i.withdraw.1.foldl Effect.onFallbacks m k = (if i.isFallback = true ∧ k = i.key then none else m k) ∧
    i.withdraw.1.filterMap Effect.treeOp? = [.delete x.entry] := by
  have hl : i.withdraw.1 = (.treeDelete x.entry :: (if i.isFallback then .removeFallback i.key else .removeResponse i.key) ::
      (match i with
        | .whole url p => (chunkItems url p).map (fun c => Effect.removeResponse c.key)
        | _ => [])) := by
    unfold Item.withdraw
    rw [h]; rfl
  have hr : ∀ (l : List Item) (m : RespMap), (l.map (fun c => Effect.removeResponse c.key)).foldl Effect.onResponses m k =
      if k ∈ l.map Item.key then none else m k := by
    intro l
    induction l with
    | nil => intro m; simp
    | cons a l ih =>
      intro m
      rw [List.map_cons, List.foldl_cons, ih]
      simp only [Effect.onResponses, mapSet, List.map_cons, List.mem_cons]
      by_cases h1 : k ∈ l.map Item.key <;> by_cases h2 : k = a.key <;> simp [h1, h2]
  have hf : ∀ (l : List Item) (m : RespMap), (l.map (fun c => Effect.removeResponse c.key)).foldl Effect.onFallbacks m = m := by
    intro l
    induction l with
    | nil => intro m; rfl
    | cons a l ih => intro m; exact ih _
  have ht : ∀ (l : List Item), (l.map (fun c => Effect.removeResponse c.key)).filterMap Effect.treeOp? = [] := by
    intro l
    induction l with
    | nil => rfl
    | cons a l ih => exact ih
  rw [hl]
  cases i with
  | whole u p =>
    simp only [Item.isFallback, List.foldl_cons, hr, hf, ht, Effect.onResponses, Effect.onFallbacks, itemKeys, mapSet,
      List.mem_cons, List.filterMap_cons, Effect.treeOp?]
    refine ⟨?_, by simp [hf], by simp⟩
    by_cases h1 : k ∈ (chunkItems u p).map Item.key <;> by_cases h2 : k = (Item.whole u p).key <;>
      simp [Effect.onResponses, mapSet, hr, h1, h2]
  | chunk u p n => simp [Item.isFallback, Effect.onResponses, Effect.onFallbacks, itemKeys, mapSet, Effect.treeOp?]
  | fallback s st u p => simp [Item.isFallback, Effect.onResponses, Effect.onFallbacks, itemKeys, mapSet, Effect.treeOp?]
  | redirect s d kd => simp [Item.isFallback, Effect.onResponses, Effect.onFallbacks, itemKeys, mapSet, Effect.treeOp?]

theorem withdraws (items : List Item) (h : ∀ i ∈ items, ∃ x, i.prepare = .ok x) (k : RequestKey) :
    (∀ m, (items.flatMap (fun i => i.withdraw.1)).foldl Effect.onResponses m k = none ∧
        (∃ i ∈ items, i.isFallback = false ∧ k ∈ itemKeys i) ∨
      (items.flatMap (fun i => i.withdraw.1)).foldl Effect.onResponses m k = m k ∧
        ∀ i ∈ items, i.isFallback = false → k ∉ itemKeys i) ∧
    (∀ m, (items.flatMap (fun i => i.withdraw.1)).foldl Effect.onFallbacks m k = none ∧
        (∃ i ∈ items, i.isFallback = true ∧ k = i.key) ∨
      (items.flatMap (fun i => i.withdraw.1)).foldl Effect.onFallbacks m k = m k ∧
        ∀ i ∈ items, i.isFallback = true → k ≠ i.key) ∧
    ∃ es : List CertEntry, (items.flatMap (fun i => i.withdraw.1)).filterMap Effect.treeOp? = es.map CtOp.delete ∧
      ∀ e, e ∈ es ↔ ∃ i x, i ∈ items ∧ i.Answer x ∧ e = x.entry := by
  induction items with
  | nil => exact ⟨fun m => .inr ⟨rfl, by simp⟩, fun m => .inr ⟨rfl, by simp⟩, [], rfl, by simp⟩
  | cons i items ih =>
    obtain ⟨x, hx⟩ := h i (by simp)
    obtain ⟨ih1, ih2, es, ih3, ih4⟩ := ih (fun j hj => h j (by simp [hj]))
    refine ⟨?_, ?_, x.entry :: es, ?_, ?_⟩
    · intro m
      rw [List.flatMap_cons, List.foldl_append]
      rcases ih1 (i.withdraw.1.foldl Effect.onResponses m) with ⟨a, j, b, c⟩ | ⟨a, b⟩
      · exact .inl ⟨a, j, by simp [b], c⟩
      · rw [a, (withdraw_list i x hx m k).1]
        by_cases hc : i.isFallback = false ∧ k ∈ itemKeys i
        · rw [if_pos hc]; exact .inl ⟨rfl, i, by simp, hc⟩
        · rw [if_neg hc]
          refine .inr ⟨rfl, ?_⟩
          intro j hj hjf hk
          rcases List.mem_cons.1 hj with rfl | hj
          · exact hc ⟨hjf, hk⟩
          · exact b j hj hjf hk
    · intro m
      rw [List.flatMap_cons, List.foldl_append]
      rcases ih2 (i.withdraw.1.foldl Effect.onFallbacks m) with ⟨a, j, b, c⟩ | ⟨a, b⟩
      · exact .inl ⟨a, j, by simp [b], c⟩
      · rw [a, (withdraw_list i x hx m k).2.1]
        by_cases hc : i.isFallback = true ∧ k = i.key
        · rw [if_pos hc]; exact .inl ⟨rfl, i, by simp, hc⟩
        · rw [if_neg hc]
          refine .inr ⟨rfl, ?_⟩
          intro j hj hjf hk
          rcases List.mem_cons.1 hj with rfl | hj
          · exact hc ⟨hjf, hk⟩
          · exact b j hj hjf hk
    · rw [List.flatMap_cons, List.filterMap_append, ih3, (withdraw_list i x hx (fun _ => none) k).2.2]
      rfl
    · intro e
      rw [List.mem_cons, ih4]
      constructor
      · rintro (rfl | ⟨j, y, j1, j2, j3⟩)
        · exact ⟨i, x, by simp, Item.prepare_ok.1 hx, rfl⟩
        · exact ⟨j, y, by simp [j1], j2, j3⟩
      · rintro ⟨j, y, j1, j2, j3⟩
        rcases List.mem_cons.1 j1 with rfl | j1
        · left; rw [j3, answer_unique j2 (Item.prepare_ok.1 hx)]
        · exact .inr ⟨j, y, j1, j2, j3⟩

/-- What a successful deletion does, in terms of items. -/
theorem delete_list {assets values : List Asset} {configs : List AssetConfig} (hv : IsValues assets values)
    (hok : (RouterCall.delete assets values configs).Succeeds) : ∃ items : List Item,
      (∀ i, i ∈ items ↔ Announces assets configs i ∧ i.isChunk = false) ∧ (∀ i ∈ items, ∃ x, i.prepare = .ok x) ∧
      (RouterCall.delete assets values configs).effects.1 = items.flatMap (fun i => i.withdraw.1) := by
  unfold RouterCall.Succeeds RouterCall.effects at *
  simp only at *
  rw [deleteAssets_items] at hok ⊢
  obtain ⟨cs, h1, h2⟩ := Effects.need_ok.1 hok
  rw [Effects.each_ok] at h2
  refine ⟨_, mem_callItems' h1 hv, fun i hi => (withdraw_ok i).1 (h2 i hi), ?_⟩
  rw [h1]
  exact Effects.each_list h2

/-- The places of the announced items are those that deletion empties. -/
theorem keys_announced {assets : List Asset} {configs : List AssetConfig} {k : RequestKey} :
    (∃ i, (Announces assets configs i ∧ i.isChunk = false) ∧ i.isFallback = false ∧ k ∈ itemKeys i) ↔
    ∃ i, Announces assets configs i ∧ i.isFallback = false ∧ i.key = k := by
  constructor
  · rintro ⟨i, ⟨h1, h2⟩, h3, h4⟩
    cases h1 with
    | whole a1 a2 a3 a4 =>
      rcases List.mem_cons.1 h4 with h4 | h4
      · exact ⟨_, .whole a1 a2 a3 a4, rfl, h4.symm⟩
      · obtain ⟨j, j1, j2⟩ := List.mem_map.1 h4
        obtain ⟨b1, n, rfl, b2⟩ := mem_chunkItems.1 j1
        exact ⟨_, .chunk a1 a2 a3 a4 b1 b2, rfl, j2⟩
    | chunk => simp [Item.isChunk] at h2
    | fallback => simp [Item.isFallback] at h3
    | redirect a1 =>
      simp only [itemKeys, List.mem_singleton] at h4
      exact ⟨_, .redirect a1, rfl, h4.symm⟩
  · rintro ⟨i, h1, h2, h3⟩
    cases h1 with
    | whole a1 a2 a3 a4 => exact ⟨_, ⟨.whole a1 a2 a3 a4, rfl⟩, rfl, by simp [itemKeys, h3]⟩
    | chunk a1 a2 a3 a4 b1 b2 =>
      refine ⟨_, ⟨.whole a1 a2 a3 a4, rfl⟩, rfl, ?_⟩
      rw [itemKeys, List.mem_cons, List.mem_map]
      exact .inr ⟨_, mem_chunkItems.2 ⟨b1, _, rfl, b2⟩, h3⟩
    | fallback => simp [Item.isFallback] at h2
    | redirect a1 => exact ⟨_, ⟨.redirect a1, rfl⟩, rfl, by simp [itemKeys, h3]⟩

/-- **C47.** After a successful `delete_assets` the router holds nothing at the places of the announced items (URLs,
aliases, encodings, chunks, fallback scopes, redirects); everything else is unchanged. -/
theorem C47_delete {calls : List RouterCall} {assets values : List Asset} {configs : List AssetConfig} {r r' : Router}
    (hv : IsValues assets values) (hok : (RouterCall.delete assets values configs).Succeeds)
    (hr : routerRun calls = some r) (hr' : routerRun (calls ++ [.delete assets values configs]) = some r')
    (k : RequestKey) :
    ((∃ i, Announces assets configs i ∧ i.isFallback = false ∧ i.key = k) → r'.responses k = none) ∧
    ((∀ i, Announces assets configs i → i.isFallback = false → i.key ≠ k) → r'.responses k = r.responses k) ∧
    ((∃ i, Announces assets configs i ∧ i.isFallback = true ∧ i.key = k) → r'.fallbacks k = none) ∧
    ((∀ i, Announces assets configs i → i.isFallback = true → i.key ≠ k) → r'.fallbacks k = r.fallbacks k) := by
  obtain ⟨items, h1, h2, h3⟩ := delete_list hv hok
  obtain ⟨-, a2, a3⟩ := routerRun_iff.1 hr
  obtain ⟨-, b2, b3⟩ := routerRun_iff.1 hr'
  have he : effectsOf (calls ++ [.delete assets values configs]) = effectsOf calls ++ items.flatMap (fun i => i.withdraw.1) := by
    rw [effectsOf_append, ← h3]
    simp [effectsOf]
  rw [he, List.foldl_append, ← a2] at b2
  rw [he, List.foldl_append, ← a3] at b3
  obtain ⟨w1, w2, -⟩ := withdraws items h2 k
  have e1 : (∃ i ∈ items, i.isFallback = false ∧ k ∈ itemKeys i) ↔
      ∃ i, Announces assets configs i ∧ i.isFallback = false ∧ i.key = k := by
    rw [← keys_announced]
    simp only [h1]
  have e2 : (∃ i ∈ items, i.isFallback = true ∧ k = i.key) ↔
      ∃ i, Announces assets configs i ∧ i.isFallback = true ∧ i.key = k := by
    constructor
    · rintro ⟨i, a, b, c⟩; exact ⟨i, ((h1 i).1 a).1, b, c.symm⟩
    · rintro ⟨i, a, b, c⟩
      refine ⟨i, (h1 i).2 ⟨a, ?_⟩, b, c.symm⟩
      cases i <;> simp_all [Item.isFallback, Item.isChunk]
  rw [b2, b3]
  refine ⟨?_, ?_, ?_, ?_⟩
  · intro h
    rcases w1 r.responses with ⟨a, -⟩ | ⟨-, b⟩
    · exact a
    · obtain ⟨i, i1, i2, i3⟩ := e1.2 h
      exact absurd i3 (b i i1 i2)
  · intro h
    rcases w1 r.responses with ⟨-, b⟩ | ⟨a, -⟩
    · obtain ⟨i, i1, i2, i3⟩ := e1.1 b
      exact absurd i3 (h i i1 i2)
    · exact a
  · intro h
    rcases w2 r.fallbacks with ⟨a, -⟩ | ⟨-, b⟩
    · exact a
    · obtain ⟨i, i1, i2, i3⟩ := e2.2 h
      exact absurd i3 (b i i1 i2)
  · intro h
    rcases w2 r.fallbacks with ⟨-, b⟩ | ⟨a, -⟩
    · obtain ⟨i, i1, i2, i3⟩ := e2.1 b
      exact absurd i3 (h i i1 i2)
    · exact a

/-- **C47** (part). After a successful `delete_assets` the tree no longer certifies the responses of the announced
items, except those for chunks; what else was certified still is. The responses for chunks stay certified: see
`C47_counterexample_chunks`. -/
theorem C47_delete_tree_partial {calls : List RouterCall} {assets values : List Asset} {configs : List AssetConfig}
    (hv : IsValues assets values) (hok : (RouterCall.delete assets values configs).Succeeds) (p : List Bytes) :
    ctSpec (treeLog (calls ++ [.delete assets values configs])) p ↔ ctSpec (treeLog calls) p ∧
      ∀ i x, Announces assets configs i → i.isChunk = false → i.Answer x → p ≠ x.entry.toTreePath := by
  obtain ⟨items, h1, h2, h3⟩ := delete_list hv hok
  obtain ⟨-, -, es, e1, e2⟩ := withdraws items h2 ⟨[], none, none⟩
  have e1' : treeLog [RouterCall.delete assets values configs] = es.map CtOp.delete := by
    rw [← e1]; unfold treeLog; rw [← h3]; simp
  have : ctSpec (treeLog (calls ++ [.delete assets values configs])) p ↔
      (es.map CtOp.delete).foldl CtOp.spec (ctSpec (treeLog calls)) p := by
    unfold ctSpec
    rw [treeLog_append, e1', List.foldl_append]
  rw [this, ctSpec_deletes]
  refine and_congr_right fun _ => ?_
  constructor
  · intro h i x a b c
    exact h _ ((e2 _).2 ⟨i, x, (h1 i).2 ⟨a, b⟩, c, rfl⟩)
  · intro h e he
    obtain ⟨i, x, a, b, rfl⟩ := (e2 e).1 he
    obtain ⟨a1, a2⟩ := (h1 i).1 a
    exact h i x a1 a2 b

/-- **C47.** After `delete_all_assets` the router holds nothing and certifies nothing; its root hash is that of a new
router. -/
theorem C47_delete_all {calls : List RouterCall} {r : Router} (hr : routerRun (calls ++ [.deleteAll]) = some r) :
    r = Router.new ∧ ∀ p, ¬ ctSpec (treeLog (calls ++ [.deleteAll])) p := by
  obtain ⟨a1, a2, a3⟩ := routerRun_iff.1 hr
  have he : effectsOf (calls ++ [.deleteAll]) = effectsOf calls ++ [.clearResponses, .clearFallbacks, .treeClear] := by
    rw [effectsOf_append]; rfl
  have hl : treeLog (calls ++ [.deleteAll]) = treeLog calls ++ [.clear] := by
    rw [treeLog_append]; rfl
  rw [he, List.foldl_append] at a2 a3
  constructor
  · obtain ⟨t, x, y⟩ := r
    simp only at a1 a2 a3
    rw [a2, a3]
    rw [hl] at a1
    unfold ctRun at a1
    rw [List.foldlM_append] at a1
    obtain ⟨t0, ht0⟩ := ctRun_some (treeLog calls)
    have ht0' : List.foldlM (fun t (o : CtOp) => o.run t) CertTree.default (treeLog calls) = some t0 := ht0
    rw [ht0'] at a1
    simp [CtOp.run, CertTree.clear] at a1
    rw [← a1]
    rfl
  · intro p
    rw [hl]
    unfold ctSpec
    rw [List.foldl_append]
    simp [CtOp.spec]

end
end Verif.Props
