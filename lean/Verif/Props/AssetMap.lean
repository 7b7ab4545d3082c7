import Verif.Model.AssetMap
import Verif.Props.AssetRange
import Verif.Props.AssetExamples

/-!
# The asset maps show what is held (C66)
-/
set_option linter.unusedSectionVars false

namespace Verif.Props
open Verif HashTree PathShape

/-! ## Finite tables -/

/-- A table with finitely many entries. -/
def FiniteTable (t : AssetTable) : Prop := ∃ ks : List RequestKey, ∀ k, t k ≠ none → k ∈ ks

theorem finite_set {t : AssetTable} (h : FiniteTable t) (k : RequestKey) (v : Option CertifiedResponse) : FiniteTable (mapSet t k v) := by
  obtain ⟨ks, h⟩ := h
  refine ⟨k :: ks, fun j hj => ?_⟩
  unfold mapSet at hj
  by_cases e : j = k
  · simp [e]
  · rw [if_neg e] at hj; exact List.mem_cons_of_mem _ (h j hj)

theorem finite_none : FiniteTable (fun _ => none) := ⟨[], fun _ h => absurd rfl h⟩

theorem finite_keys {t : AssetTable} (h : FiniteTable t) : ∃ ks : List RequestKey, ks.Nodup ∧ ∀ k, k ∈ ks ↔ t k ≠ none := by
  obtain ⟨ks, h⟩ := h
  refine ⟨(ks.filter (fun k => (t k).isSome)).dedup, List.nodup_dedup _, fun k => ?_⟩
  rw [List.mem_dedup, List.mem_filter, Option.isSome_iff_ne_none]
  exact ⟨fun a => a.2, fun a => ⟨h k a, a⟩⟩

section
variable [SHA] [UriLib] [GlobLib]

theorem run_finite {calls : List RouterCall} {r : Router} (hr : routerRun calls = some r) :
    FiniteTable r.responses ∧ FiniteTable r.fallbacks := by
  obtain ⟨-, h2, h3⟩ := routerRun_iff.1 hr
  rw [h2, h3]
  have a : ∀ (es : List Effect) (t : AssetTable), FiniteTable t → FiniteTable (es.foldl Effect.onResponses t) := by
    intro es
    induction es with
    | nil => exact fun t h => h
    | cons e es ih =>
      intro t h
      refine ih _ ?_
      cases e <;> first | exact finite_set h _ _ | exact finite_none | exact h
  have b : ∀ (es : List Effect) (t : AssetTable), FiniteTable t → FiniteTable (es.foldl Effect.onFallbacks t) := by
    intro es
    induction es with
    | nil => exact fun t h => h
    | cons e es ih =>
      intro t h
      refine ih _ ?_
      cases e <;> first | exact finite_set h _ _ | exact finite_none | exact h
  exact ⟨a _ _ finite_none, b _ _ finite_none⟩

omit [SHA] [UriLib] [GlobLib] in
theorem iterates_mem {t : AssetTable} {l : List AssetMapItem} (h : t.Iterates l) (p : Bytes) (e : Option Bytes) (b : Option Nat)
    (res : HttpResponse) : ((p, e, b), res) ∈ l ↔ ∃ x, t ⟨p, e, b⟩ = some x ∧ x.response = res := by
  obtain ⟨ks, -, h2, rfl⟩ := h
  rw [List.mem_filterMap]
  constructor
  · rintro ⟨⟨p', e', b'⟩, -, hk⟩
    cases hx : t ⟨p', e', b'⟩ with
    | none => rw [hx] at hk; cases hk
    | some x =>
      rw [hx] at hk
      simp only [Option.map_some, Option.some.injEq, Prod.mk.injEq] at hk
      obtain ⟨⟨rfl, rfl, rfl⟩, rfl⟩ := hk
      exact ⟨x, hx, rfl⟩
  · rintro ⟨x, hx, rfl⟩
    exact ⟨⟨p, e, b⟩, (h2 _).2 (by rw [hx]; simp), by rw [hx]; rfl⟩

omit [SHA] [UriLib] [GlobLib] in
theorem iterates_nodup {t : AssetTable} {l : List AssetMapItem} (h : t.Iterates l) : (l.map Prod.fst).Nodup ∧ t.Len l.length := by
  obtain ⟨ks, h1, h2, rfl⟩ := h
  have key : ∀ ks : List RequestKey, (∀ k ∈ ks, t k ≠ none) →
      (ks.filterMap (fun k => (t k).map (fun x => ((k.path, k.encoding, k.rangeBegin), x.response)))).map Prod.fst =
        ks.map (fun k => (k.path, k.encoding, k.rangeBegin)) := by
    intro ks
    induction ks with
    | nil => intro _; rfl
    | cons k ks ih =>
      intro h
      cases hx : t k with
      | none => exact absurd hx (h k (by simp))
      | some x =>
        rw [List.filterMap_cons, hx]
        simp only [Option.map_some, List.map_cons]
        rw [ih (fun j hj => h j (by simp [hj]))]
  have hk := key ks (fun k hk => (h2 k).1 hk)
  constructor
  · rw [hk]
    refine h1.map fun a b hab => ?_
    obtain ⟨a1, a2, a3⟩ := a
    obtain ⟨b1, b2, b3⟩ := b
    simp only [Prod.mk.injEq] at hab
    obtain ⟨rfl, rfl, rfl⟩ := hab
    rfl
  · refine ⟨ks, h1, h2, ?_⟩
    have := congrArg List.length hk
    simpa using this.symm

/-- **C66.** After any history, iterating over either map is possible; every iteration gives the same items, perhaps in another
order, no place twice, and `len` says how many. -/
theorem C66_iter {calls : List RouterCall} {r : Router} (hr : routerRun calls = some r) (t : AssetTable)
    (ht : t = r.responses ∨ t = r.fallbacks) :
    ∃ l, t.Iterates l ∧ (l.map Prod.fst).Nodup ∧ (∀ l', t.Iterates l' → l'.Perm l) ∧ ∀ n, t.Len n ↔ n = l.length := by
  have hf : FiniteTable t := by rcases ht with rfl | rfl; exacts [(run_finite hr).1, (run_finite hr).2]
  obtain ⟨ks, h1, h2⟩ := finite_keys hf
  have hl : t.Iterates (ks.filterMap (fun k => (t k).map (fun x => ((k.path, k.encoding, k.rangeBegin), x.response)))) :=
    ⟨ks, h1, h2, rfl⟩
  refine ⟨_, hl, (iterates_nodup hl).1, ?_, ?_⟩
  · rintro l' ⟨ks', h1', h2', rfl⟩
    exact ((List.perm_ext_iff_of_nodup h1' h1).2 (fun k => by rw [h2, h2'])).filterMap _
  · intro n
    obtain ⟨ks0, a1, a2, a3⟩ := (iterates_nodup hl).2
    constructor
    · rintro ⟨ks', h1', h2', rfl⟩
      rw [← a3]
      exact ((List.perm_ext_iff_of_nodup h1' a1).2 (fun k => by rw [h2', a2])).length_eq
    · rintro rfl
      exact ⟨ks0, a1, a2, a3⟩

/-- **C66.** `get` finds exactly what the iteration shows: every item shown can be found with an encoding, and what is found is
shown. -/
theorem C66_get {calls : List RouterCall} {r : Router} (hr : routerRun calls = some r) (t : AssetTable)
    (ht : t = r.responses ∨ t = r.fallbacks) {l : List AssetMapItem} (hl : t.Iterates l) :
    (∀ path encoding range res, t.get path encoding range = some res ↔ ((path, encoding.map AssetEncoding.token, range), res) ∈ l) ∧
    ∀ path e range res, ((path, e, range), res) ∈ l → ∃ encoding, e = Option.map AssetEncoding.token encoding ∧
      t.get path encoding range = some res := by
  have h1 : ∀ path encoding range res, t.get path encoding range = some res ↔
      ((path, encoding.map AssetEncoding.token, range), res) ∈ l := by
    intro path encoding range res
    rw [iterates_mem hl]
    unfold AssetTable.get assetKey
    rw [Option.map_eq_some_iff]
    rfl
  refine ⟨h1, fun path e range res h => ?_⟩
  obtain ⟨x, hx, rfl⟩ := (iterates_mem hl _ _ _ _).1 h
  have : ∃ i : Item, i.key = ⟨path, e, range⟩ := by
    rcases ht with rfl | rfl
    · obtain ⟨i, -, h, -⟩ := (C45_held hr _ x).1 hx; exact ⟨i, h⟩
    · obtain ⟨i, -, h, -⟩ := (C45_held hr _ x).2 hx; exact ⟨i, h⟩
  obtain ⟨i, hi⟩ := this
  have he : ∃ encoding : Option AssetEncoding, e = encoding.map AssetEncoding.token := by
    cases i <;> simp only [Item.key, RequestKey.mk.injEq] at hi
    · exact ⟨_, hi.2.1.symm⟩
    · exact ⟨_, hi.2.1.symm⟩
    · exact ⟨_, hi.2.1.symm⟩
    · exact ⟨none, hi.2.1.symm⟩
  obtain ⟨encoding, rfl⟩ := he
  exact ⟨encoding, rfl, (h1 _ _ _ _).2 h⟩

/-- **C66.** A successfully certified asset can be looked up until a call about its place: whole, whatever its size, without a range;
its `i`-th chunk with the range `i * 2000000`; a fallback at its scope; a redirect at its source. -/
theorem C66_lookup {before later : List RouterCall} {assets values : List Asset} {configs : List AssetConfig} {r : Router}
    (hv : IsValues assets values) (hok : (RouterCall.certify assets values configs).Succeeds)
    (hl : ∀ c ∈ later, c.Faithful) (hr : routerRun (before ++ .certify assets values configs :: later) = some r)
    {i : Item} (hi : Sole assets configs i) (hq : ∀ c ∈ later, ¬ c.Touches i.isFallback i.key) :
    match i with
    | .whole url p => AssetTable.get r.responses url p.encoding none = some (Item.whole url p).response ∧
        (Item.whole url p).response.body = p.content ∧ (Item.whole url p).response.status = 200
    | .chunk url p n => AssetTable.get r.responses url p.encoding (some (n * 2000000)) = some (Item.chunk url p n).response ∧
        (Item.chunk url p n).response.body = (p.content.drop (n * 2000000)).take 2000000 ∧
        (Item.chunk url p n).response.status = 206
    | .fallback scope status url p => AssetTable.get r.fallbacks scope p.encoding none =
        some (Item.fallback scope status url p).response ∧ (Item.fallback scope status url p).response.body = p.content
    | .redirect src dst kind => AssetTable.get r.responses src none none = some (Item.redirect src dst kind).response := by
  obtain ⟨x, hx, hh⟩ := C45_stays hv hok hl hr hi hq
  have key : ∀ {t : AssetTable} {path e b}, t ⟨path, Option.map AssetEncoding.token e, b⟩ = some x →
      t.get path e b = some i.response := by
    intro t path e b h
    have h : t ⟨path, Option.map AssetEncoding.name e, b⟩ = some x := h
    unfold AssetTable.get assetKey
    rw [h, ← hx.response]; rfl
  cases i with
  | whole url p => exact ⟨key hh, rfl, rfl⟩
  | chunk url p n => exact ⟨key hh, rfl, rfl⟩
  | fallback scope status url p => exact ⟨key hh, rfl⟩
  | redirect src dst kind => exact key (e := none) hh

/-- **C66.** After `delete_all_assets` (or in a new router) followed by a successful certification, the maps have an entry exactly for
the places of the items announced; before it they are empty. -/
theorem C66_exact {calls : List RouterCall} {assets values : List Asset} {configs : List AssetConfig} {r0 r : Router}
    (hv : IsValues assets values) (hok : (RouterCall.certify assets values configs).Succeeds)
    (hcalls : calls = [] ∨ ∃ cs, calls = cs ++ [.deleteAll]) (hr0 : routerRun calls = some r0)
    (hr : routerRun (calls ++ [.certify assets values configs]) = some r) :
    AssetTable.Len r0.responses 0 ∧ AssetTable.Len r0.fallbacks 0 ∧
    (∀ path encoding range, AssetTable.get r.responses path encoding range ≠ none ↔
      ∃ i, Announces assets configs i ∧ i.isFallback = false ∧ i.key = assetKey path encoding range) ∧
    (∀ scope encoding range, AssetTable.get r.fallbacks scope encoding range ≠ none ↔
      ∃ i, Announces assets configs i ∧ i.isFallback = true ∧ i.key = assetKey scope encoding range) := by
  have h0 : r0 = Router.new := by
    rcases hcalls with rfl | ⟨cs, rfl⟩
    · have h : routerRun [] = some Router.new := rfl
      rw [h] at hr0
      simpa using hr0.symm
    · exact (C47_delete_all hr0).1
  subst h0
  refine ⟨⟨[], List.nodup_nil, fun k => by simp [Router.new], rfl⟩, ⟨[], List.nodup_nil, fun k => by simp [Router.new], rfl⟩, ?_, ?_⟩
  · intro path encoding range
    unfold AssetTable.get
    rcases (C45_certify hv hok hr0 hr (assetKey path encoding range)).1 with ⟨i, x, a, b, c, -, e⟩ | ⟨a, e⟩
    · rw [e]; exact ⟨fun _ => ⟨i, a, b, c⟩, fun _ => by simp⟩
    · rw [e]
      exact ⟨fun h => absurd rfl h, fun ⟨i, h1, h2, h3⟩ => absurd h3 (a i h1 h2)⟩
  · intro path encoding range
    unfold AssetTable.get
    rcases (C45_certify hv hok hr0 hr (assetKey path encoding range)).2 with ⟨i, x, a, b, c, -, e⟩ | ⟨a, e⟩
    · rw [e]; exact ⟨fun _ => ⟨i, a, b, c⟩, fun _ => by simp⟩
    · rw [e]
      exact ⟨fun h => absurd rfl h, fun ⟨i, h1, h2, h3⟩ => absurd h3 (a i h1 h2)⟩

/-- **C66.** Certifying smaller content for a URL replaces the whole response but not the chunks of the old, larger content: they are
still held, and a request for them is answered with the old bytes. -/
theorem C66_stale [UnstableSort] {before : List RouterCall} {assets values assets' values' : List Asset}
    {configs configs' : List AssetConfig} {r : Router}
    (hv : IsValues assets values) (hok : (RouterCall.certify assets values configs).Succeeds)
    (hv' : IsValues assets' values') (hok' : (RouterCall.certify assets' values' configs').Succeeds)
    (hr : routerRun (before ++ [.certify assets values configs, .certify assets' values' configs']) = some r)
    {url : Bytes} {p p' : Page} {i : Nat} (hi : Sole assets configs (.chunk url p i))
    (hw : Sole assets' configs' (.whole url p')) (he : p'.encoding = p.encoding)
    (hsmall : ∀ q, Announces assets' configs' (.whole url q) → q.content.length ≤ 2000000) :
    AssetTable.get r.responses url p.encoding none = some (Item.whole url p').response ∧
    AssetTable.get r.responses url p.encoding (some (i * 2000000)) = some (Item.chunk url p i).response ∧
    ∀ (m : Machine) (dataCert : Bytes) (req : HttpRequest), (∀ h ∈ req.headers, (chars h.2).isSome) → req.getPath = .ok url →
      AsksFrom m req (some (i * 2000000)) → Prefers r url (Accepts req) (some (i * 2000000)) p.encoding →
      ∃ res, r.serveAsset m dataCert req = some (.ok res) ∧ res.body = (p.content.drop (i * 2000000)).take 2000000 := by
  have hl : ∀ c ∈ [RouterCall.certify assets' values' configs'], c.Faithful := by
    intro c hc
    rw [List.mem_singleton] at hc
    subst hc
    exact hv'
  have hq : ∀ c ∈ [RouterCall.certify assets' values' configs'], ¬ c.Touches false (Item.chunk url p i).key := by
    intro c hc
    rw [List.mem_singleton] at hc
    subst hc
    rintro ⟨j, hj, -, hk⟩
    cases hj with
    | whole a b c d => simp [Item.key] at hk
    | redirect a => simp [Item.key] at hk
    | fallback a b c d => simp [Item.key] at hk
    | @chunk a s e c u n h1 h2 h3 h4 h5 h6 =>
      simp only [Item.key, RequestKey.mk.injEq] at hk
      obtain ⟨rfl, -, -⟩ := hk
      have := hsmall _ (.whole h1 h2 h3 h4)
      simp only at this
      omega
  refine ⟨?_, (C66_lookup hv hok hl hr hi hq).1, fun m dataCert req hutf hpath hask hpref => ?_⟩
  · have hr' : routerRun ((before ++ [.certify assets values configs]) ++ .certify assets' values' configs' :: []) = some r := by
      rw [List.append_assoc]; exact hr
    rw [← he]
    exact (C66_lookup hv' hok' (by simp) hr' hw (by simp)).1
  · obtain ⟨w, -, h⟩ := C46_serve hv hok hl hr m dataCert hutf hpath hask hi hq hpref
    exact ⟨_, h, rfl⟩

end

/-! ## The hypotheses can be met -/

section
attribute [local instance] toyUri toyGlob mergeSorting
variable [SHA]

/-- Every page announced for `/a.txt` is small if the asset is. -/
theorem exSmall (c : Bytes) (hc : c.length ≤ 2000000) (q : Page) (h : Announces (exAssets c) exConfigs (.whole (str "/a.txt") q)) :
    q.content.length ≤ 2000000 := by
  have h5 : str "/alias" ≠ str "/a.txt" := by decide
  have h1 : str "/a.txt.gz" ≠ str "/a.txt" := by decide
  have hz : (str "zip").length ≤ 2000000 := by decide
  have key : ∀ {u p}, Item.whole (str "/a.txt") q ∈ pageItems u p → u = str "/a.txt" ∧ q = p := by
    intro u p h
    rcases mem_pageItems.1 h with h | ⟨-, n, h, -⟩
    · simp only [Item.whole.injEq] at h; exact ⟨h.1.symm, h.2⟩
    · cases h
  rcases (exAnnounced c _).1 h with h | h | h | h | h | h | h | h
  · exact absurd (key h).1 h1
  · rw [(key h).2]; exact hz
  · cases h
  · exact absurd (key h).1 h5
  · rw [(key h).2]; exact hc
  · cases h
  · exact absurd (key h).1 h5
  · cases h

/-- A large file, then a small one at the same URL: the whole asset is the new one, the second chunk the old one. -/
example (c : Bytes) (hc : 2000000 < c.length) (hello : Bytes) (hh : hello.length ≤ 2000000) : ∃ r,
    routerRun [.certify (exAssets c) (exAssets c).reverse exConfigs,
      .certify (exAssets hello) (exAssets hello).reverse exConfigs] = some r ∧
    (∃ l, AssetTable.Iterates r.responses l) ∧
    AssetTable.get r.responses (str "/a.txt") none none = some (Item.whole (str "/a.txt") (exPage hello none)).response ∧
    AssetTable.get r.responses (str "/a.txt") none (some (1 * 2000000)) =
      some (Item.chunk (str "/a.txt") (exPage c none) 1).response := by
  obtain ⟨r, hr⟩ := routerRun_some [.certify (exAssets c) (exAssets c).reverse exConfigs,
    .certify (exAssets hello) (exAssets hello).reverse exConfigs]
  obtain ⟨l, hl, -⟩ := C66_iter hr _ (.inl rfl)
  have h := C66_stale (before := []) (exValues c) (exCertifies c) (exValues hello) (exCertifies hello) hr
    (exSole c (str "/a.txt") (.inl rfl) (mem_pageItems.2 (.inr ⟨hc, 1, rfl, (Nat.one_mul 2000000).symm ▸ hc⟩)))
    (exSole hello (str "/a.txt") (.inl rfl) (mem_pageItems.2 (.inl rfl))) rfl (exSmall hello hh)
  exact ⟨r, hr, ⟨l, hl⟩, h.1, h.2.1⟩

/-- After `delete_all_assets` the maps hold exactly what is certified next: nothing at the URL `/b.txt`, the alias, the fallback and
the redirect. -/
example (c : Bytes) : ∃ r, routerRun [.certify (exAssets c) (exAssets c).reverse exConfigs, .deleteAll,
      .certify (exAssets c) (exAssets c).reverse exConfigs] = some r ∧
    AssetTable.get r.responses (str "/alias") none none ≠ none ∧
    AssetTable.get r.responses (str "/old") none none ≠ none ∧
    AssetTable.get r.fallbacks (str "/") (some .gzip) none ≠ none := by
  obtain ⟨r0, hr0⟩ := routerRun_some ([.certify (exAssets c) (exAssets c).reverse exConfigs] ++ [.deleteAll])
  obtain ⟨r, hr⟩ := routerRun_some (([.certify (exAssets c) (exAssets c).reverse exConfigs] ++ [.deleteAll]) ++
    [.certify (exAssets c) (exAssets c).reverse exConfigs])
  obtain ⟨-, -, h1, h2⟩ := C66_exact (exValues c) (exCertifies c) (.inr ⟨_, rfl⟩) hr0 hr
  refine ⟨r, hr, (h1 _ _ _).2 ⟨.whole (str "/alias") (exPage c none), ?_, rfl, rfl⟩,
    (h1 _ _ _).2 ⟨.redirect (str "/old") (str "/new") .permanent, ?_, rfl, rfl⟩,
    (h2 _ _ _).2 ⟨.fallback (str "/") (some 404) (str "/a.txt") (exPage (str "zip") (some .gzip)), ?_, rfl, rfl⟩⟩
  all_goals
    rw [exAnnounced]
    simp [mem_pageItems]

end

end Verif.Props
