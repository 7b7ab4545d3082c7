import Verif.Props.AssetSharedExamples
import Verif.Spec.AssetsExample

set_option linter.unusedSimpArgs false
set_option linter.unusedSectionVars false

/-!
# The example canister `assets` (C63)
-/

namespace Verif.Props
open Verif HashTree PathShape

/-! ## Directories -/

mutual
theorem mem_collect (a : Asset) : ∀ d : Dir, a ∈ d.collect ↔ ∃ p c, d.HasFile p c ∧ a = Asset.new p c
  | .mk files dirs => by
    rw [Dir.collect, List.mem_append, List.mem_map, mem_collectAll a dirs]
    constructor
    · rintro (⟨⟨p, c⟩, h, rfl⟩ | ⟨d, hd, p, c, h, rfl⟩)
      · exact ⟨p, c, .here h, rfl⟩
      · exact ⟨p, c, .sub hd h, rfl⟩
    · rintro ⟨p, c, h, rfl⟩
      cases h with
      | here h => exact .inl ⟨(p, c), h, rfl⟩
      | sub hd h => exact .inr ⟨_, hd, p, c, h, rfl⟩

theorem mem_collectAll (a : Asset) : ∀ ds : List Dir, a ∈ Dir.collectAll ds ↔ ∃ d ∈ ds, ∃ p c, d.HasFile p c ∧ a = Asset.new p c
  | [] => by simp [Dir.collectAll]
  | d :: ds => by
    rw [Dir.collectAll, List.mem_append, mem_collect a d, mem_collectAll a ds]
    simp only [List.mem_cons, exists_eq_or_imp]
end

theorem current_iff {l : List Asset} (hu : ∀ a ∈ l, ∀ b ∈ l, a.path = b.path → a = b) {a : Asset} : Current l a ↔ a ∈ l := by
  constructor
  · rintro ⟨pre, post, rfl, -⟩
    simp
  · intro h
    induction l with
    | nil => cases h
    | cons b t ih =>
      by_cases ht : a ∈ t
      · obtain ⟨pre, post, h1, h2⟩ := ih (fun a ha b hb => hu a (List.mem_cons_of_mem _ ha) b (List.mem_cons_of_mem _ hb)) ht
        exact ⟨b :: pre, post, by rw [h1]; rfl, h2⟩
      · rcases List.mem_cons.1 h with rfl | h
        · refine ⟨[], t, rfl, fun c hc he => ht ?_⟩
          rw [hu a (by simp) c (List.mem_cons_of_mem _ hc) he.symm]
          exact hc
        · exact absurd h ht

theorem new_path (p c : Bytes) : (Asset.new p c).path = p ∧ (Asset.new p c).content = c := ⟨rfl, rfl⟩

theorem new_url {p : Bytes} (c : Bytes) (h : NormalPath (slashByte :: p)) : (Asset.new p c).url = slashByte :: p := by
  unfold Asset.new
  simp only [ite_eq_right_iff]
  intro hh
  cases p with
  | nil => cases hh
  | cons x p =>
    simp only [List.head?_cons, Option.some.injEq] at hh
    subst hh
    exact absurd rfl (h.2 [] p)

theorem site_current {d : Dir} {m : Machine} (hd : d.Proper m) {a : Asset} :
    Current d.collect a ↔ ∃ p c, d.HasFile p c ∧ a = Asset.new p c := by
  rw [current_iff, mem_collect]
  intro a ha b hb hab
  obtain ⟨p, c, h1, rfl⟩ := (mem_collect _ _).1 ha
  obtain ⟨p', c', h2, rfl⟩ := (mem_collect _ _).1 hb
  have : p = p' := hab
  subst this
  rw [hd.unique h1 h2]

/-! ## Settings -/

section
variable [GlobLib]

theorem governs_nil {a : Asset} {s : Settings} : Governs [] a s ↔ s = {} := by
  unfold Governs
  constructor
  · rintro (⟨pre, c, post, h, -⟩ | ⟨-, h⟩)
    · exact absurd h (by simp)
    · exact h
  · exact fun h => .inr ⟨by simp, h⟩

theorem governs_cons {c : AssetConfig} {cs : List AssetConfig} {a : Asset} {s : Settings} :
    Governs (c :: cs) a s ↔ (c.Matches a ∧ s = c.settings) ∨ (¬ c.Matches a ∧ Governs cs a s) := by
  unfold Governs
  constructor
  · rintro (⟨pre, c', post, h, h1, h2, h3⟩ | ⟨h1, h2⟩)
    · cases pre with
      | nil =>
        simp only [List.nil_append, List.cons.injEq] at h
        obtain ⟨rfl, rfl⟩ := h
        exact .inl ⟨h1, h3⟩
      | cons d pre =>
        simp only [List.cons_append, List.cons.injEq] at h
        obtain ⟨rfl, rfl⟩ := h
        exact .inr ⟨h2 _ (by simp), .inl ⟨pre, c', post, rfl, h1, fun d hd => h2 d (List.mem_cons_of_mem _ hd), h3⟩⟩
    · exact .inr ⟨h1 c (by simp), .inr ⟨fun d hd => h1 d (List.mem_cons_of_mem _ hd), h2⟩⟩
  · rintro (⟨h1, h2⟩ | ⟨h0, ⟨pre, c', post, rfl, h1, h2, h3⟩ | ⟨h1, h2⟩⟩)
    · exact .inl ⟨[], c, cs, rfl, h1, by simp, h2⟩
    · refine .inl ⟨c :: pre, c', post, rfl, h1, ?_, h3⟩
      intro d hd
      rcases List.mem_cons.1 hd with rfl | hd
      · exact h0
      · exact h2 d hd
    · refine .inr ⟨?_, h2⟩
      intro d hd
      rcases List.mem_cons.1 hd with rfl | hd
      · exact h0
      · exact h1 d hd

theorem governs_exists (configs : List AssetConfig) (a : Asset) : ∃ s, Governs configs a s := by
  induction configs with
  | nil => exact ⟨_, governs_nil.2 rfl⟩
  | cons c cs ih =>
    by_cases h : c.Matches a
    · exact ⟨_, governs_cons.2 (.inl ⟨h, rfl⟩)⟩
    · obtain ⟨s, hs⟩ := ih
      exact ⟨s, governs_cons.2 (.inr ⟨h, hs⟩)⟩

/-- What the configurations say about a file. -/
structure SiteSettings (p : Bytes) (s : Settings) : Prop where
  encodings : ∀ x, x ∈ s.encodings ↔ Compressible p ∧ x ∈ siteEncodings
  aliased : ∀ u, u ∈ s.aliasedBy ↔ p = str "index.html" ∧ u = str "/"
  fallback : ∀ f, f ∈ s.fallbackFor ↔ p = str "index.html" ∧ f = ⟨str "/", some 200⟩
  safe : Compressible p → securityHeaders ⊆ s.headers
  names : ∀ h ∈ s.headers, h.1 ≠ str "content-encoding"

theorem site_governs {a : Asset} {s : Settings} (h : Governs siteConfigs a s) : SiteSettings a.path s := by
  unfold siteConfigs at h
  simp only [governs_cons, governs_nil, AssetConfig.Matches, AssetConfig.settings, not_false_eq_true, true_and, false_and,
    false_or] at h
  have hsec : ∀ hs, securityHeaders ⊆ getAssetHeaders hs := fun hs => List.subset_append_left _ _
  have hn : ∀ h ∈ getAssetHeaders [immutableCache], h.1 ≠ str "content-encoding" := by decide
  have hidx : str "index.html" ≠ a.path → ¬ a.path = str "index.html" := fun h e => h e.symm
  rcases h with ⟨h, rfl⟩ | ⟨h0, ⟨h, rfl⟩ | ⟨h1, ⟨h, rfl⟩ | ⟨h2, ⟨h, rfl⟩ | ⟨h3, ⟨h, rfl⟩ | ⟨h4, rfl⟩⟩⟩⟩⟩
  · have h := h.symm
    exact ⟨fun x => ⟨fun hx => ⟨.inl h, hx⟩, fun hx => hx.2⟩, by simp [h], by simp [h], fun _ => hsec _, by decide⟩
  · have h0 := hidx h0
    exact ⟨fun x => ⟨fun hx => ⟨.inr (.inl h), hx⟩, fun hx => hx.2⟩, by simp [h0], by simp [h0], fun _ => hsec _, hn⟩
  · have h0 := hidx h0
    exact ⟨fun x => ⟨fun hx => ⟨.inr (.inr h), hx⟩, fun hx => hx.2⟩, by simp [h0], by simp [h0], fun _ => hsec _, hn⟩
  all_goals
    have h0 := hidx h0
    have hc : ¬ Compressible a.path := by
      rintro (h | h | h)
      · exact h0 h
      · exact h1 h
      · exact h2 h
    exact ⟨by simp [hc], by simp [h0], by simp [h0], fun h => absurd h hc, by first | exact hn | simp⟩

/-! ## Items -/

/-- Where a file is shown: at its own path; `index.html` also at the root. -/
def ShownAt (p path : Bytes) : Prop := path = slashByte :: p ∨ (p = str "index.html" ∧ path = str "/")

theorem site_variant {d : Dir} {m : Machine} (hd : d.Proper m) {p c₀ : Bytes} (hf : d.HasFile p c₀) {s : Settings}
    (hs : SiteSettings p s) {e : Option AssetEncoding} {c : Bytes} :
    Variant d.collect (Asset.new p c₀) s e c ↔ d.Offers p e c := by
  constructor
  · intro h
    cases h with
    | plain => exact .plain hf
    | @encoded e ext b h1 h2 h3 =>
      obtain ⟨p', c', h4, rfl⟩ := (site_current hd).1 h2
      have h3 : p' = p ++ ext := h3
      subst h3
      obtain ⟨h5, h6⟩ := (hs.encodings _).1 h1
      simp only [siteEncodings, AssetEncoding.defaultConfig, List.mem_cons, Prod.mk.injEq, List.not_mem_nil, or_false] at h6
      rcases h6 with ⟨rfl, rfl⟩ | ⟨rfl, rfl⟩
      · exact .brotli h5 hf h4
      · exact .gzip h5 hf h4
  · intro h
    cases h with
    | plain h => rw [hd.unique h hf]; exact .plain
    | brotli h1 _ h2 =>
      exact .encoded (ext := str ".br") ((hs.encodings _).2 ⟨h1, by simp [siteEncodings, AssetEncoding.defaultConfig]⟩)
        ((site_current hd).2 ⟨_, _, h2, rfl⟩) rfl
    | gzip h1 _ h2 =>
      exact .encoded (ext := str ".gz") ((hs.encodings _).2 ⟨h1, by simp [siteEncodings, AssetEncoding.defaultConfig]⟩)
        ((site_current hd).2 ⟨_, _, h2, rfl⟩) rfl

theorem offers_file {d : Dir} {p : Bytes} {e : Option AssetEncoding} {c : Bytes} (h : d.Offers p e c) :
    (∃ c₀, d.HasFile p c₀) ∧ ∃ p', d.HasFile p' c := by
  cases h with
  | plain h => exact ⟨⟨_, h⟩, _, h⟩
  | brotli _ h h' => exact ⟨⟨_, h⟩, _, h'⟩
  | gzip _ h h' => exact ⟨⟨_, h⟩, _, h'⟩

/-- What is announced: files, in their encodings, at their places; `index.html` as the fallback; the redirect. -/
theorem site_announces {d : Dir} {m : Machine} (hd : d.Proper m) {i : Item} :
    Announces d.collect siteConfigs i ↔
      (∃ p path e c s, d.Offers p e c ∧ ShownAt p path ∧ Governs siteConfigs (Asset.new p []) s ∧
        i = .whole path ⟨c, e, s.contentType, s.headers⟩) ∨
      (∃ e c s, d.Offers (str "index.html") e c ∧ Governs siteConfigs (Asset.new (str "index.html") []) s ∧
        i = .fallback (str "/") (some 200) (str "/index.html") ⟨c, e, s.contentType, s.headers⟩) ∨
      i = .redirect (str "/old-url") (str "/") .permanent := by
  have hg : ∀ {p c s}, Governs siteConfigs (Asset.new p c) s ↔ Governs siteConfigs (Asset.new p []) s := by
    intro p c s
    have : ∀ x : AssetConfig, x.Matches (Asset.new p c) ↔ x.Matches (Asset.new p []) := fun x => by cases x <;> exact Iff.rfl
    unfold Governs
    simp only [this]
  constructor
  · intro h
    cases h with
    | @whole a s e c url h1 h2 h3 h4 =>
      obtain ⟨p, c₀, h5, rfl⟩ := (site_current hd).1 h1
      have hs := site_governs h2
      refine .inl ⟨p, url, e, c, s, (site_variant hd h5 hs).1 h3, ?_, hg.1 h2, rfl⟩
      rcases h4 with h4 | h4
      · rw [new_url _ (hd.names h5).2.1] at h4
        exact .inl h4
      · exact .inr ((hs.aliased _).1 h4)
    | @chunk a s e c url i h1 h2 h3 h4 h5 h6 =>
      obtain ⟨p, c₀, h7, rfl⟩ := (site_current hd).1 h1
      obtain ⟨-, p', h8⟩ := offers_file ((site_variant hd h7 (site_governs h2)).1 h3)
      have := hd.small h8
      omega
    | @fallback a s e c fb h1 h2 h3 h4 =>
      obtain ⟨p, c₀, h5, rfl⟩ := (site_current hd).1 h1
      have hs := site_governs h2
      obtain ⟨h6, rfl⟩ := (hs.fallback _).1 h4
      have h6 : p = str "index.html" := h6
      subst h6
      exact .inr (.inl ⟨e, c, s, (site_variant hd h5 hs).1 h3, hg.1 h2, rfl⟩)
    | redirect h =>
      right; right
      simpa [siteConfigs] using h
  · rintro (⟨p, path, e, c, s, h1, h2, h3, rfl⟩ | ⟨e, c, s, h1, h3, rfl⟩ | rfl)
    · obtain ⟨⟨c₀, h4⟩, -⟩ := offers_file h1
      have hs := site_governs h3
      refine .whole (a := Asset.new p c₀) ((site_current hd).2 ⟨_, _, h4, rfl⟩) (hg.2 h3) ((site_variant hd h4 hs).2 h1) ?_
      rw [new_url _ (hd.names h4).2.1]
      rcases h2 with h2 | h2
      · exact .inl h2
      · exact .inr ((hs.aliased _).2 h2)
    · obtain ⟨⟨c₀, h4⟩, -⟩ := offers_file h1
      have hs := site_governs h3
      exact .fallback (a := Asset.new (str "index.html") c₀) (fb := ⟨str "/", some 200⟩) ((site_current hd).2 ⟨_, _, h4, rfl⟩)
        (hg.2 h3) ((site_variant hd h4 hs).2 h1) ((hs.fallback _).2 ⟨rfl, rfl⟩)
    · exact .redirect (by simp [siteConfigs])

end

/-! ## The state -/

section
variable [SHA] [UriLib] [GlobLib]

/-- What `init` does, as a history of the router. -/
def siteCalls (dir : Dir) (values : List Asset) : List RouterCall :=
  [.shared (.insert metricsEntry), .certify dir.collect values siteConfigs]

theorem site_init {dir : Dir} {values : List Asset} {s : Site} (h : Site.init dir values = some s) :
    routerRun (siteCalls dir values) = some s.router ∧ s.certifiedData = s.router.rootHash.1 ∧
      (RouterCall.certify dir.collect values siteConfigs).Succeeds := by
  unfold Site.init at h
  simp only at h
  split at h
  · cases h
  · rename_i hok
    split at h
    · rename_i r hr
      simp only [Option.some.injEq] at h
      subst h
      refine ⟨?_, rfl, hok⟩
      unfold routerRun siteCalls
      simpa [RouterCall.effects, CtOp.effect] using hr
    · cases h

theorem init_site {dir : Dir} {values : List Asset} (h : (RouterCall.certify dir.collect values siteConfigs).Succeeds) :
    ∃ s, Site.init dir values = some s := by
  obtain ⟨r, hr⟩ := routerRun_some (siteCalls dir values)
  have hr : Router.new.applyAll (.treeInsert metricsEntry :: (certifyAssets dir.collect values siteConfigs).1) = some r := by
    unfold routerRun siteCalls at hr
    simpa [RouterCall.effects, CtOp.effect] using hr
  refine ⟨⟨r, r.rootHash.1⟩, ?_⟩
  unfold Site.init
  have h : (certifyAssets dir.collect values siteConfigs).2 = .ok () := h
  simp only [h, hr]

theorem site_held {dir : Dir} {values : List Asset} (hv : IsValues dir.collect values) {s : Site}
    (h : Site.init dir values = some s) (k : RequestKey) :
    ((∃ i x, Announces dir.collect siteConfigs i ∧ i.isFallback = false ∧ i.key = k ∧ i.Answer x ∧ s.router.responses k = some x) ∨
      ((∀ i, Announces dir.collect siteConfigs i → i.isFallback = false → i.key ≠ k) ∧ s.router.responses k = none)) ∧
    ((∃ i x, Announces dir.collect siteConfigs i ∧ i.isFallback = true ∧ i.key = k ∧ i.Answer x ∧ s.router.fallbacks k = some x) ∨
      ((∀ i, Announces dir.collect siteConfigs i → i.isFallback = true → i.key ≠ k) ∧ s.router.fallbacks k = none)) := by
  obtain ⟨h1, -, h3⟩ := site_init h
  obtain ⟨r0, hr0⟩ := routerRun_some ([] : List RouterCall)
  obtain ⟨r1, hr1⟩ := routerRun_some ([] ++ [RouterCall.shared (.insert metricsEntry)])
  obtain ⟨e1, e2⟩ := routerRun_shared hr0 hr1
  have e0 : r0 = Router.new := by
    unfold routerRun Router.applyAll at hr0
    simpa using hr0.symm
  subst e0
  have := C45_certify hv h3 hr1 (r' := s.router) h1 k
  rw [e1, e2] at this
  exact this

/-- The response for a file. -/
def fileItem (path : Bytes) (e : Option AssetEncoding) (c : Bytes) (s : Settings) : Item :=
  .whole path ⟨c, e, s.contentType, s.headers⟩

theorem name_inj {e e' : Option AssetEncoding} (h : e.map AssetEncoding.token = e'.map AssetEncoding.token) : e = e' := by
  revert h
  cases e with
  | none => cases e' with
    | none => intro _; rfl
    | some e' => intro h; cases h
  | some e =>
    cases e' with
    | none => intro h; cases h
    | some e' => cases e <;> cases e' <;> first | (intro _; rfl) | (intro h; exact absurd h (by decide))

/-- What the router holds at a path. -/
theorem site_at {m : Machine} {dir : Dir} (hd : dir.Proper m) {values : List Asset} (hv : IsValues dir.collect values) {s : Site}
    (h : Site.init dir values = some s) {path : Bytes} (hp : path ≠ str "/old-url") (e : Option AssetEncoding) :
    (∃ p c st x, dir.Offers p e c ∧ ShownAt p path ∧ SiteSettings p st ∧ s.router.held path none e = some x ∧
      (fileItem path e c st).Answer x) ∨
    ((∀ p c, dir.Offers p e c → ¬ ShownAt p path) ∧ s.router.held path none e = none) := by
  rcases (site_held hv h ⟨path, e.map AssetEncoding.token, none⟩).1 with ⟨i, x, h1, h2, h3, h4, h5⟩ | ⟨h1, h2⟩
  · left
    rcases (site_announces hd).1 h1 with ⟨p, path', e', c, st, a1, a2, a3, rfl⟩ | ⟨e, c, st, a1, a3, rfl⟩ | rfl
    · simp only [Item.key, RequestKey.mk.injEq, and_true] at h3
      obtain ⟨rfl, h3⟩ := h3
      have := name_inj h3
      subst this
      refine ⟨p, c, st, x, a1, a2, site_governs a3, ?_, h4⟩
      unfold Router.held
      rw [h5]
      simp only
      rw [if_neg]
      rw [h4.response]
      obtain ⟨-, p', h6⟩ := offers_file a1
      have := hd.small h6
      show ¬ c.length > 2000000
      omega
    · cases h2
    · simp only [Item.key, RequestKey.mk.injEq, and_true] at h3
      exact absurd h3.1.symm hp
  · right
    constructor
    · intro p c a1 a2
      obtain ⟨st, hst⟩ := governs_exists siteConfigs (Asset.new p [])
      exact h1 _ ((site_announces hd).2 (.inl ⟨p, path, e, c, st, a1, a2, hst, rfl⟩)) rfl rfl
    · unfold Router.held
      rw [h2]

/-- What the router holds at the old URL. -/
theorem site_old {m : Machine} {dir : Dir} (hd : dir.Proper m) {values : List Asset} (hv : IsValues dir.collect values) {s : Site}
    (h : Site.init dir values = some s) :
    (∃ x, s.router.held (str "/old-url") none none = some x ∧ (Item.redirect (str "/old-url") (str "/") .permanent).Answer x) ∧
    ∀ e, s.router.held (str "/old-url") none (some e) = none := by
  have hno : ∀ {p e c}, dir.Offers p e c → ¬ ShownAt p (str "/old-url") := by
    intro p e c h1 h2
    obtain ⟨⟨c₀, h3⟩, -⟩ := offers_file h1
    rcases h2 with h2 | ⟨-, h2⟩
    · have : str "/old-url" = slashByte :: str "old-url" := by decide
      rw [this, List.cons.injEq] at h2
      exact hd.free _ (by rw [h2.2]; exact h3)
    · exact absurd h2 (by decide)
  constructor
  · rcases (site_held hv h ⟨str "/old-url", none, none⟩).1 with ⟨i, x, h1, h2, h3, h4, h5⟩ | ⟨h1, h2⟩
    · rcases (site_announces hd).1 h1 with ⟨p, path', e', c, st, a1, a2, a3, rfl⟩ | ⟨e, c, st, a1, a3, rfl⟩ | rfl
      · simp only [Item.key, RequestKey.mk.injEq, and_true] at h3
        obtain ⟨rfl, h3⟩ := h3
        exact absurd a2 (hno a1)
      · cases h2
      · refine ⟨x, ?_, h4⟩
        unfold Router.held
        simp only [Option.map_none]
        rw [h5]
        simp only
        rw [if_neg]
        rw [h4.response]
        decide
    · exact absurd rfl (h1 _ ((site_announces hd).2 (.inr (.inr rfl))) rfl)
  · intro e
    rcases (site_held hv h ⟨str "/old-url", some e.token, none⟩).1 with ⟨i, x, h1, h2, h3, h4, h5⟩ | ⟨h1, h2⟩
    · rcases (site_announces hd).1 h1 with ⟨p, path', e', c, st, a1, a2, a3, rfl⟩ | ⟨e, c, st, a1, a3, rfl⟩ | rfl
      · simp only [Item.key, RequestKey.mk.injEq, and_true] at h3
        obtain ⟨rfl, h3⟩ := h3
        exact absurd a2 (hno a1)
      · cases h2
      · simp [Item.key] at h3
    · unfold Router.held
      simp only [Option.map_some]
      rw [h2]

/-- The fallbacks the router holds. -/
theorem site_fallback {m : Machine} {dir : Dir} (hd : dir.Proper m) {values : List Asset} (hv : IsValues dir.collect values) {s : Site}
    (h : Site.init dir values = some s) (scope : Bytes) (e : Option AssetEncoding) :
    (∃ c st x, scope = str "/" ∧ dir.Offers (str "index.html") e c ∧ SiteSettings (str "index.html") st ∧
      s.router.heldFallback scope e = some x ∧
      (Item.fallback (str "/") (some 200) (str "/index.html") ⟨c, e, st.contentType, st.headers⟩).Answer x) ∨
    ((scope = str "/" → ∀ c, ¬ dir.Offers (str "index.html") e c) ∧ s.router.heldFallback scope e = none) := by
  rcases (site_held hv h ⟨scope, e.map AssetEncoding.token, none⟩).2 with ⟨i, x, h1, h2, h3, h4, h5⟩ | ⟨h1, h2⟩
  · left
    rcases (site_announces hd).1 h1 with ⟨p, path', e', c, st, a1, a2, a3, rfl⟩ | ⟨e', c, st, a1, a3, rfl⟩ | rfl
    · cases h2
    · simp only [Item.key, RequestKey.mk.injEq, and_true] at h3
      obtain ⟨rfl, h3⟩ := h3
      have := name_inj h3
      subst this
      exact ⟨c, st, x, rfl, a1, site_governs a3, h5, h4⟩
    · cases h2
  · right
    refine ⟨?_, h2⟩
    rintro rfl c a1
    obtain ⟨st, hst⟩ := governs_exists siteConfigs (Asset.new (str "index.html") [])
    exact h1 _ ((site_announces hd).2 (.inr (.inl ⟨e, c, st, a1, hst, rfl⟩))) rfl rfl

/-- A choice of the router, in terms of the directory. -/
theorem site_picks {dir : Dir} {p : Bytes} {accepts : AssetEncoding → Prop}
    {av : Option AssetEncoding → Option CertifiedResponse} {P : Option AssetEncoding → Bytes → CertifiedResponse → Prop}
    (hav : ∀ e, (∃ c x, dir.Offers p e c ∧ av e = some x ∧ P e c x) ∨ ((∀ c, ¬ dir.Offers p e c) ∧ av e = none))
    {x : CertifiedResponse} (hx : Chooses accepts av x) : ∃ e c, dir.Picks p accepts e c ∧ P e c x := by
  have hno : ∀ {e c}, dir.Offers p e c → av e ≠ none := by
    intro e c h
    rcases hav e with ⟨c, x, -, h2, -⟩ | ⟨h1, -⟩
    · rw [h2]; simp
    · exact absurd h (h1 c)
  cases hx with
  | @encoded e _ h1 h2 h3 =>
    rcases hav (some e) with ⟨c, x', o1, o2, o3⟩ | ⟨-, o2⟩
    swap
    · rw [o2] at h2; cases h2
    rw [h2] at o2
    simp only [Option.some.injEq] at o2
    subst o2
    refine ⟨some e, c, ?_, o3⟩
    cases o1 with
    | brotli a b c => exact .brotli h1 (.brotli a b c)
    | gzip a b c =>
      refine .gzip ?_ h1 (.gzip a b c)
      rintro ⟨d1, d2, d3⟩
      exact absurd (h3 _ d1 (hno d3)) (by decide)
  | plain h1 h2 =>
    rcases hav none with ⟨c, x', o1, o2, o3⟩ | ⟨-, o2⟩
    swap
    · rw [o2] at h2; cases h2
    rw [h2] at o2
    simp only [Option.some.injEq] at o2
    subst o2
    refine ⟨none, c, ?_, o3⟩
    cases o1 with
    | plain a =>
      refine .plain ?_ ?_ a
      · rintro ⟨d1, d2, d3⟩
        exact hno d3 (h1 _ d1)
      · rintro ⟨d1, d2, d3⟩
        exact hno d3 (h1 _ d1)

omit [SHA] [UriLib] [GlobLib] in
theorem name_type : str "content-type" ≠ str "content-encoding" := by decide

omit [SHA] [UriLib] [GlobLib] in
theorem name_length : str "content-length" ≠ str "content-encoding" := by decide

omit [SHA] [UriLib] [GlobLib] in
theorem name_expr : str "IC-CertificateExpression" ≠ str "content-encoding" := by decide

theorem page_encoding {c : Bytes} {e : Option AssetEncoding} {ct : Option Bytes} {hs : List Header} {a b d : Header}
    (ha : a.1 ≠ str "content-encoding") (hb : b.1 ≠ str "content-encoding") (hd : d.1 ≠ str "content-encoding")
    (hh : ∀ h ∈ hs, h.1 ≠ str "content-encoding") (x : Bytes) :
    (str "content-encoding", x) ∈ (a :: Page.allHeaders ⟨c, e, ct, hs⟩ ++ [b]) ++ [d] ↔ e.map AssetEncoding.token = some x := by
  have hne : ∀ {h : Header}, h.1 ≠ str "content-encoding" → (str "content-encoding", x) ≠ h := by
    rintro h h1 rfl
    exact h1 rfl
  have h1 : (str "content-encoding", x) ∉ hs := fun h => hh _ h rfl
  have h2 : (str "content-encoding", x) ∉ (ct.map (fun ct => (str "content-type", ct))).toList := by
    cases ct with
    | none => simp
    | some ct => simp only [Option.map_some, Option.toList_some, List.mem_singleton]; exact hne name_type
  simp only [Page.allHeaders, List.mem_append, List.mem_cons, List.not_mem_nil, or_false, h1, h2, hne ha, hne hb, hne hd, false_or]
  cases e with
  | none => simp
  | some e => simp [eq_comm]

variable [UnstableSort]

/-- **C63.** What the canister answers a request without a Range header with, for any path but that of the metrics: the site of
the directory it was installed with. -/
theorem C63_shows {m m' : Machine} {dir : Dir} (hd : dir.Proper m') {values : List Asset} (hv : IsValues dir.collect values) {s : Site}
    (hs : Site.init dir values = some s) {req : HttpRequest} {path : Bytes} (dataCert metrics : Bytes)
    (hpath : req.getPath = .ok path) (hslash : path.head? = some slashByte) (hnm : path ≠ str "/metrics")
    (hutf : ∀ h ∈ req.headers, (chars h.2).isSome) (hrange : ∀ h ∈ req.headers, ¬ SameName h.1 (str "range")) :
    ∃ res, s.httpRequest m dataCert metrics req = some res ∧ s.router.serveAsset m dataCert req = some (.ok res) ∧
      dir.Shows (Accepts req) path res := by
  obtain ⟨hr, -, -⟩ := site_init hs
  have hcert : certHeaderName ≠ str "content-encoding" := by decide
  obtain ⟨x, w, hans, hserve⟩ : ∃ x w, Answers s.router path (Accepts req) none x ∧
      s.router.serveAsset m dataCert req = some (.ok (addV2CertificateHeader dataCert x.response w x.entry.path.toExprPath)) := by
    rcases C45_serve hr m dataCert hutf hpath (.noHeader hrange) with ⟨x, w, hans, -, h3, -⟩ | ⟨h1, -⟩
    · exact ⟨x, w, hans, h3⟩
    · exfalso
      obtain ⟨c, hc⟩ := hd.index
      have hne : s.router.heldFallback (str "/") none ≠ none := by
        rcases site_fallback hd hv hs (str "/") none with ⟨_, _, x, -, -, -, h, -⟩ | ⟨h, -⟩
        · rw [h]; simp
        · exact absurd (.plain hc) (h rfl c)
      obtain ⟨y, hy⟩ := chooses_exists (accepts := Accepts req) hne
      by_cases hex : ∃ y, Chooses (Accepts req) (s.router.held path none) y
      · obtain ⟨y, hy⟩ := hex
        exact h1 y (.exact hy)
      · refine h1 y (.fallback (scope := str "/") (fun y hy => hex ⟨y, hy⟩) ?_ hy ?_)
        · cases path with
          | nil => cases hslash
          | cons b t =>
            simp only [List.head?_cons, Option.some.injEq] at hslash
            subst hslash
            exact ⟨t, rfl, .inl rfl⟩
        · intro sc h2 h3 y hy
          have : ∀ e, s.router.heldFallback sc e = none := by
            intro e
            rcases site_fallback hd hv hs sc e with ⟨_, _, x, h4, -⟩ | ⟨-, h⟩
            · subst h4
              exact absurd h3 (lt_irrefl _)
            · exact h
          cases hy with
          | encoded _ h _ => rw [this] at h; cases h
          | plain _ h => rw [this] at h; cases h
  refine ⟨_, ?_, hserve, ?_⟩
  · unfold Site.httpRequest
    rw [hpath]
    simp only
    rw [if_neg hnm, hserve]
  · by_cases hold : path = str "/old-url"
    · subst hold
      obtain ⟨⟨y, hy, hyA⟩, hn⟩ := site_old hd hv hs
      have hch : Chooses (Accepts req) (s.router.held (str "/old-url") none) x := by
        cases hans with
        | exact h => exact h
        | fallback h _ _ _ =>
          obtain ⟨z, hz⟩ := chooses_exists (accepts := Accepts req) (av := s.router.held (str "/old-url") none)
            (by rw [hy]; simp)
          exact absurd hz (h z)
      cases hch with
      | encoded _ h _ => rw [hn] at h; cases h
      | plain _ h =>
        rw [hy] at h
        simp only [Option.some.injEq] at h
        subst h
        refine .moved rfl ?_ ?_ ?_
        · show y.response.status = _
          rw [hyA.response]; rfl
        · show y.response.body = _
          rw [hyA.response]; rfl
        · show _ ∈ y.response.headers ++ _
          rw [hyA.response]
          refine List.mem_append_left _ ?_
          decide
    · by_cases hfile : ∃ p c, path = slashByte :: p ∧ dir.HasFile p c
      · obtain ⟨p, c₀, rfl, hf⟩ := hfile
        have hat : ∀ {q}, ShownAt q (slashByte :: p) ↔ q = p := by
          intro q
          constructor
          · rintro (h | ⟨-, h⟩)
            · simp only [List.cons.injEq, true_and] at h; exact h.symm
            · exfalso
              have : str "/" = [slashByte] := rfl
              rw [this] at h
              simp only [List.cons.injEq, true_and] at h
              exact (hd.names hf).1 h
          · rintro rfl; exact .inl rfl
        have hav := fun e => site_at hd hv hs hold e
        have hav : ∀ e, (∃ c x, dir.Offers p e c ∧ s.router.held (slashByte :: p) none e = some x ∧
            ∃ st, SiteSettings p st ∧ (fileItem (slashByte :: p) e c st).Answer x) ∨
            ((∀ c, ¬ dir.Offers p e c) ∧ s.router.held (slashByte :: p) none e = none) := by
          intro e
          rcases hav e with ⟨q, c, st, x, h1, h2, h3, h4, h5⟩ | ⟨h1, h2⟩
          · rw [hat] at h2
            subst h2
            exact .inl ⟨c, x, h1, h4, st, h3, h5⟩
          · exact .inr ⟨fun c h => h1 p c h (hat.2 rfl), h2⟩
        have hch : Chooses (Accepts req) (s.router.held (slashByte :: p) none) x := by
          cases hans with
          | exact h => exact h
          | fallback h _ _ _ =>
            obtain ⟨z, hz⟩ := chooses_exists (accepts := Accepts req) (av := s.router.held (slashByte :: p) none)
              (by
                rcases hav none with ⟨_, _, -, h, -⟩ | ⟨h, -⟩
                · rw [h]; simp
                · exact absurd (.plain hf) (h c₀))
            exact absurd hz (h z)
        obtain ⟨e, c, h1, st, h2, h3⟩ := site_picks (P := fun e c x => ∃ st, SiteSettings p st ∧
          (fileItem (slashByte :: p) e c st).Answer x) hav hch
        refine .file rfl h1 ?_ ?_ ?_ ?_
        · show x.response.status = _
          rw [h3.response]; rfl
        · show x.response.body = _
          rw [h3.response]; rfl
        · intro v
          show _ ∈ x.response.headers ++ _ ↔ _
          rw [h3.response]
          exact page_encoding name_length name_expr hcert h2.names v
        · intro hc y hy
          show _ ∈ x.response.headers ++ _
          rw [h3.response]
          refine List.mem_append_left _ (List.mem_append_left _ (List.mem_cons_of_mem _ ?_))
          exact List.mem_append_left _ (List.mem_append_left _ (h2.safe hc hy))
      · have hnf : ∀ p c, path = slashByte :: p → ¬ dir.HasFile p c := fun p c h1 h2 => hfile ⟨p, c, h1, h2⟩
        -- at the root, or as the fallback
        obtain ⟨e, c, h1, st, i, h2, h3, hi⟩ : ∃ e c, dir.Picks (str "index.html") (Accepts req) e c ∧ ∃ st i,
            SiteSettings (str "index.html") st ∧ i.Answer x ∧
            (i = fileItem (str "/") e c st ∨ i = .fallback (str "/") (some 200) (str "/index.html") ⟨c, e, st.contentType, st.headers⟩) := by
          have hav := fun e => site_at hd hv hs hold e
          have hat : ∀ {q e c}, dir.Offers q e c → (ShownAt q path ↔ q = str "index.html" ∧ path = str "/") := by
            intro q e c ho
            constructor
            · rintro (h | h)
              · obtain ⟨⟨c₀, h3⟩, -⟩ := offers_file ho
                exact absurd h3 (hnf q c₀ h)
              · exact h
            · exact fun h => .inr h
          cases hans with
          | exact hch =>
            have hroot : path = str "/" := by
              have : ∃ e, s.router.held path none e = some x := by
                cases hch with
                | encoded _ h _ => exact ⟨_, h⟩
                | plain _ h => exact ⟨_, h⟩
              obtain ⟨e, he⟩ := this
              rcases hav e with ⟨q, c, st, x, h1, h2, h3, h4, h5⟩ | ⟨-, h2⟩
              · exact ((hat h1).1 h2).2
              · rw [h2] at he; cases he
            subst hroot
            have hav : ∀ e, (∃ c x, dir.Offers (str "index.html") e c ∧ s.router.held (str "/") none e = some x ∧
                ∃ st, SiteSettings (str "index.html") st ∧ (fileItem (str "/") e c st).Answer x) ∨
                ((∀ c, ¬ dir.Offers (str "index.html") e c) ∧ s.router.held (str "/") none e = none) := by
              intro e
              rcases hav e with ⟨q, c, st, x, h1, h2, h3, h4, h5⟩ | ⟨h1, h2⟩
              · obtain ⟨rfl, -⟩ := (hat h1).1 h2
                exact .inl ⟨c, x, h1, h4, st, h3, h5⟩
              · exact .inr ⟨fun c h => h1 _ c h ((hat h).2 ⟨rfl, rfl⟩), h2⟩
            obtain ⟨e, c, h1, st, h2, h3⟩ := site_picks (P := fun e c x => ∃ st, SiteSettings (str "index.html") st ∧
              (fileItem (str "/") e c st).Answer x) hav hch
            exact ⟨e, c, h1, st, _, h2, h3, .inl rfl⟩
          | @fallback scope _ hno henc hch hlong =>
            have hroot : scope = str "/" := by
              have : ∃ e, s.router.heldFallback scope e = some x := by
                cases hch with
                | encoded _ h _ => exact ⟨_, h⟩
                | plain _ h => exact ⟨_, h⟩
              obtain ⟨e, he⟩ := this
              rcases site_fallback hd hv hs scope e with ⟨_, _, _, h, -⟩ | ⟨-, h2⟩
              · exact h
              · rw [h2] at he; cases he
            subst hroot
            have hav : ∀ e, (∃ c x, dir.Offers (str "index.html") e c ∧ s.router.heldFallback (str "/") e = some x ∧
                ∃ st, SiteSettings (str "index.html") st ∧
                  (Item.fallback (str "/") (some 200) (str "/index.html") ⟨c, e, st.contentType, st.headers⟩).Answer x) ∨
                ((∀ c, ¬ dir.Offers (str "index.html") e c) ∧ s.router.heldFallback (str "/") e = none) := by
              intro e
              rcases site_fallback hd hv hs (str "/") e with ⟨c, st, x, -, h1, h2, h3, h4⟩ | ⟨h1, h2⟩
              · exact .inl ⟨c, x, h1, h3, st, h2, h4⟩
              · exact .inr ⟨h1 rfl, h2⟩
            obtain ⟨e, c, h1, st, h2, h3⟩ := site_picks (P := fun e c x => ∃ st, SiteSettings (str "index.html") st ∧
              (Item.fallback (str "/") (some 200) (str "/index.html") ⟨c, e, st.contentType, st.headers⟩).Answer x) hav hch
            exact ⟨e, c, h1, st, _, h2, h3, .inr rfl⟩
        refine .index hold hnf h1 ?_ ?_ ?_ ?_
        · show x.response.status = _
          rw [h3.response]; rcases hi with rfl | rfl <;> rfl
        · show x.response.body = _
          rw [h3.response]; rcases hi with rfl | rfl <;> rfl
        · intro v
          show _ ∈ x.response.headers ++ _ ↔ _
          rw [h3.response]
          rcases hi with rfl | rfl <;> exact page_encoding name_length name_expr hcert h2.names v
        · intro y hy
          show _ ∈ x.response.headers ++ _
          rw [h3.response]
          rcases hi with rfl | rfl <;>
            exact List.mem_append_left _ (List.mem_append_left _ (List.mem_cons_of_mem _
              (List.mem_append_left _ (List.mem_append_left _ (h2.safe (.inl rfl) hy)))))

/-- **C63.** After a history of installation and upgrades, the canister is as the last one that did not trap left it. -/
theorem C63_run {history : List (Dir × List Asset)} {s : Site} (h : Site.run history = some s) :
    ∃ pre dir values post, history = pre ++ (dir, values) :: post ∧ Site.init dir values = some s ∧
      ∀ d ∈ post, Site.init d.1 d.2 = none := by
  unfold Site.run at h
  induction history using List.reverseRecOn with
  | nil => cases h
  | append_singleton history d ih =>
    rw [List.foldl_append] at h
    simp only [List.foldl_cons, List.foldl_nil] at h
    cases hi : Site.init d.1 d.2 with
    | some s' =>
      rw [hi] at h
      simp only [Option.some.injEq] at h
      subst h
      exact ⟨history, d.1, d.2, [], rfl, hi, by simp⟩
    | none =>
      rw [hi] at h
      obtain ⟨pre, dir, values, post, rfl, h2, h3⟩ := ih h
      refine ⟨pre, dir, values, post ++ [d], by simp, h2, ?_⟩
      intro x hx
      rcases List.mem_append.1 hx with hx | hx
      · exact h3 x hx
      · rw [List.mem_singleton] at hx; rw [hx]; exact hi

/-- **C63.** Installation succeeds if the patterns are well-formed and the paths are URLs. -/
theorem C63_installs {m : Machine} {dir : Dir} (hd : dir.Proper m) {values : List Asset} (hv : IsValues dir.collect values)
    (hglob : ∀ x ∈ [str "**/*.js", str "**/*.css", str "**/*.ico", str "**/*.svg"], (GlobLib.compile x).isSome)
    (huri : ∀ u, u = str "/" ∨ u = str "/old-url" ∨ (∃ p c, dir.HasFile p c ∧ u = slashByte :: p) → (UriLib.parse u).isSome) :
    ∃ s, Site.init dir values = some s := by
  refine init_site ((C45_certify_succeeds hv).2 ⟨?_, ?_⟩)
  · intro p ct hs en h
    refine hglob p ?_
    simp only [siteConfigs, List.mem_cons, AssetConfig.pattern.injEq, reduceCtorEq, false_or, or_false, List.not_mem_nil] at h
    rcases h with ⟨rfl, -⟩ | ⟨rfl, -⟩ | ⟨rfl, -⟩ | ⟨rfl, -⟩ <;> simp
  · have hsite : ∀ {a : Asset} {st}, Governs siteConfigs a st → ∀ h ∈ st.headers, ¬ SameName h.1 (str "IC-CertificateExpression") := by
      intro a st h
      unfold siteConfigs at h
      simp only [governs_cons, governs_nil, AssetConfig.Matches, AssetConfig.settings, not_false_eq_true, true_and, false_and,
        false_or] at h
      have h1 : ∀ h ∈ getAssetHeaders [immutableCache], ¬ SameName h.1 (str "IC-CertificateExpression") := by decide
      have h2 : ∀ h ∈ getAssetHeaders [(str "cache-control", str "public, no-cache, no-store")],
          ¬ SameName h.1 (str "IC-CertificateExpression") := by decide
      rcases h with ⟨h, rfl⟩ | ⟨h0, ⟨h, rfl⟩ | ⟨h1, ⟨h, rfl⟩ | ⟨h2, ⟨h, rfl⟩ | ⟨h3, ⟨h, rfl⟩ | ⟨h4, rfl⟩⟩⟩⟩⟩
      · exact h2
      · exact h1
      · assumption
      · assumption
      · assumption
      · simp
    have hall : ∀ {a : Asset} {st e c}, Governs siteConfigs a st →
        ∀ h ∈ Page.allHeaders ⟨c, e, st.contentType, st.headers⟩, ¬ SameName h.1 (str "IC-CertificateExpression") := by
      intro a st e c hg h hh
      simp only [Page.allHeaders, List.mem_append] at hh
      rcases hh with (hh | hh) | hh
      · exact hsite hg h hh
      · simp only [Option.mem_toList, Option.map_eq_some_iff] at hh
        obtain ⟨_, -, rfl⟩ := hh
        show ¬ SameName (str "content-type") _
        decide
      · simp only [Option.mem_toList, Option.map_eq_some_iff] at hh
        obtain ⟨_, -, rfl⟩ := hh
        show ¬ SameName (str "content-encoding") _
        decide
    intro i hi
    rcases (site_announces hd).1 hi with ⟨p, path, e, c, st, a1, a2, a3, rfl⟩ | ⟨e, c, st, a1, a3, rfl⟩ | rfl
    · refine ⟨huri _ ?_, hall a3⟩
      obtain ⟨⟨c₀, h⟩, -⟩ := offers_file a1
      rcases a2 with rfl | ⟨-, rfl⟩
      · exact .inr (.inr ⟨p, c₀, h, rfl⟩)
      · exact .inl rfl
    · refine ⟨huri _ ?_, hall a3⟩
      obtain ⟨⟨c₀, h⟩, -⟩ := offers_file a1
      exact .inr (.inr ⟨_, c₀, h, rfl⟩)
    · refine ⟨huri _ (.inr (.inl rfl)), ?_⟩
      show ∀ h ∈ [(str "location", str "/")], ¬ SameName h.1 (str "IC-CertificateExpression")
      decide

/-! ## Verification -/

section
variable {m : Machine} {dir : Dir} {values : List Asset} {s : Site}

omit [UnstableSort] in
theorem site_faithful (hv : IsValues dir.collect values) : ∀ c ∈ siteCalls dir values, c.Faithful := by
  intro c hc
  simp only [siteCalls, List.mem_cons, List.not_mem_nil, or_false] at hc
  rcases hc with rfl | rfl
  · trivial
  · exact hv

omit [UnstableSort] in
theorem site_about {c : RouterCall} (hc : c ∈ siteCalls dir values) {i : Item} (hi : c.About i) :
    Announces dir.collect siteConfigs i := by
  simp only [siteCalls, List.mem_cons, List.not_mem_nil, or_false] at hc
  rcases hc with rfl | rfl
  · exact absurd hi (by simp [RouterCall.About])
  · exact hi

omit [UnstableSort] in
theorem site_direct {o : CtOp} (h : RouterCall.shared o ∈ siteCalls dir values) : o = .insert metricsEntry := by
  simpa [siteCalls] using h

omit [UnstableSort] in
theorem site_step (hv : IsValues dir.collect values) (hs : Site.init dir values = some s) :
    InStepShared (siteCalls dir values) s.router := by
  obtain ⟨h1, -, h3⟩ := site_init hs
  refine C62_in_step ?_ h1
  intro c hc
  simp only [siteCalls, List.mem_cons, List.not_mem_nil, or_false] at hc
  rcases hc with rfl | rfl
  · exact .inr (.inr (.inl ⟨_, rfl⟩))
  · exact .inr (.inl ⟨_, _, _, rfl, hv, h3⟩)

omit [UriLib] [GlobLib] [UnstableSort] in
theorem metrics_clean : metricsEntry.path.Clean := by
  show (HttpPath.exact (str "/metrics")).Clean
  unfold HttpPath.Clean; decide

set_option maxRecDepth 4000 in
omit [SHA] [UriLib] [GlobLib] [UnstableSort] in
theorem security_names : ∀ h ∈ securityHeaders, ¬ SameName h.1 (str "IC-Certificate") := by decide

omit [SHA] [UriLib] [UnstableSort] in
/-- The paths of the announced items. -/
theorem site_paths (hd : dir.Proper m) (hm : 32 < m.usize) {i : Item} (hi : Announces dir.collect siteConfigs i) :
    (NormalPath i.certPath.url ∧ i.certPath.Clean ∧ (chars i.certPath.url).isSome ∧ m.Fits (i.certPath.url.length + 9)) ∧
    (i.url = str "/" ∨ i.url = str "/old-url" ∨ ∃ p c, dir.HasFile p c ∧ i.url = slashByte :: p) := by
  have hfits : ∀ n, n ≤ 32 → m.Fits n := fun n hn => ⟨by omega, by omega⟩
  have hroot : NormalPath (str "/") ∧ (HttpPath.exact (str "/")).Clean ∧ (chars (str "/")).isSome ∧ m.Fits ((str "/").length + 9) :=
    ⟨normal_of_bool (by decide), by unfold HttpPath.Clean; decide, chars_str (by decide), hfits _ (by decide)⟩
  rcases (site_announces hd).1 hi with ⟨p, path, e, c, st, a1, a2, a3, rfl⟩ | ⟨e, c, st, a1, a3, rfl⟩ | rfl
  · obtain ⟨⟨c₀, h⟩, -⟩ := offers_file a1
    rcases a2 with rfl | ⟨-, rfl⟩
    · obtain ⟨-, n1, n2, n3, n4⟩ := hd.names h
      exact ⟨⟨n1, n2, n3, n4⟩, .inr (.inr ⟨p, c₀, h, rfl⟩)⟩
    · exact ⟨hroot, .inl rfl⟩
  · obtain ⟨⟨c₀, h⟩, -⟩ := offers_file a1
    exact ⟨hroot, .inr (.inr ⟨_, c₀, h, rfl⟩)⟩
  · exact ⟨⟨normal_of_bool (by decide), by unfold HttpPath.Clean Item.certPath; decide, chars_str (by decide), hfits _ (by decide)⟩,
      .inr (.inl rfl)⟩

theorem sharedKind_cel {dkind : CertEntry → CelExpr} {g : CertEntry} (h : sharedKind dkind g ≠ .skip) (hd : dkind g = .skip) :
    ∃ i : Item, sharedKind dkind g = i.cel := by
  unfold sharedKind at h ⊢
  split
  · rename_i hi
    unfold itemKind
    rw [dif_pos hi]
    exact ⟨_, rfl⟩
  · rename_i hi
    rw [if_neg hi] at h
    exact absurd hd h

variable [Bls] [Inflate]

/-- **C63.** What the canister answers a plain request with, for any path but that of the metrics, is the site of the directory
it was installed with, and verifies against the canister's certificate. (Or the texts of the skip expression and of an
expression of the router have the same hash.) -/
theorem C63_verifies {env : Env} (hd : dir.Proper env.machine) (hv : IsValues dir.collect values)
    (hs : Site.init dir values = some s)
    (huri : ∀ u, u = str "/" ∨ u = str "/old-url" ∨ (∃ p c, dir.HasFile p c ∧ u = slashByte :: p) →
      (HttpRequest.getQuery { method := str "GET", url := u, headers := [], body := [] }) = .ok none)
    -- the request
    {req : HttpRequest} {path : Bytes} (dataCert metrics : Bytes)
    (hpath : req.getPath = .ok path) (hnm : path ≠ str "/metrics")
    (hget : req.method = str "GET") (hbody : req.body = []) (hquery : req.getQuery = .ok none)
    (hrange : ∀ h ∈ req.headers, ¬ SameName h.1 (str "range")) (hutf : ∀ h ∈ req.headers, (chars h.2).isSome)
    (hnormal : NormalPath path) (hstart : (pathSegments path).head? ≠ some (str "http_expr")) (hend : PlainEndPath path)
    -- the certificate is valid and carries the canister's certified data
    {c : Certificate} (hcert : certificateFromCbor env.machine dataCert = some (.ok c))
    (hver : certVerify env.machine env.checks c env.canisterId env.rootKey env.now env.offset = .ok ())
    (hroot : c.tree.lookupPath [str "canister", env.canisterId, str "certified_data"] = .found s.certifiedData)
    -- sizes
    (hm : 32 < env.machine.usize)
    (hfit : s.router.tree.full.Fits env.machine ∧ s.router.tree.full.height + 3 ≤ env.machine.stack)
    {minV : Nat} (hmin : minV ≤ 2) :
    ∃ res, s.httpRequest m dataCert metrics req = some res ∧ dir.Shows (Accepts req) path res ∧
      ((∃ info v, verifyPair env req res minV = .ok info ∧ info.version = 2 ∧
        LastHeader res.headers (str "IC-Certificate") v ∧
        info.response = some
          { statusCode := some res.status, body := res.body,
            headers := certifiedRespHeaders (.headerExclusions []) res.headers ++ [(str "IC-Certificate", v)] }) ∨
      ∃ i : Item, CollisionIn [CelExpr.skip.toBytes] [i.cel.toBytes]) := by
  obtain ⟨h1, h2, -⟩ := site_init hs
  obtain ⟨res, r1, r2, r3⟩ := C63_shows (m := m) hd hv hs dataCert metrics hpath hnormal.1 hnm hutf hrange
  refine ⟨res, r1, r3, ?_⟩
  rw [h2] at hroot
  refine C62_verifies (site_faithful hv) h1 (site_step hv hs) ?_ (fun _ => .skip) ?_ ?_ hpath hget hbody hquery hrange hutf
    hnormal hstart hend ?_ r2 hcert hver hroot hm ?_ hfit hmin
  · intro c hc i hi
    obtain ⟨⟨p1, p2, -⟩, p3⟩ := site_paths hd hm (site_about hc hi)
    exact ⟨p1, p2, huri _ p3⟩
  · intro o ho g hg
    rw [site_direct ho] at hg
    simp only [CtOp.entry?, Option.some.injEq] at hg
    subst hg
    exact ⟨metrics_clean, .skip⟩
  · intro g hg _
    have := site_direct hg
    simp only [CtOp.insert.injEq] at this
    subst this
    show PathShape.ofPath (str "/metrics") ≠ PathShape.ofPath path
    exact fun h => hnm (normal_inj (normal_of_bool (by decide)) hnormal h).symm
  · by_cases hp : path = str "/"
    · left; rw [hp]; rfl
    · right
      rcases site_fallback hd hv hs path none with ⟨_, _, _, h, -⟩ | ⟨-, h⟩
      · exact absurd h hp
      · exact h
  · intro c hc i hi
    obtain ⟨⟨-, -, p3⟩, -⟩ := site_paths hd hm (site_about hc hi)
    exact p3

/-- **C63.** The metrics, whatever they are, are answered to every request of their path, and accepted without being verified. (Or
the texts of the skip expression and of an expression of the router have the same hash.) -/
theorem C63_metrics {env : Env} (hd : dir.Proper env.machine) (hv : IsValues dir.collect values)
    (hs : Site.init dir values = some s)
    {req : HttpRequest} (dataCert metrics : Bytes) (hpath : req.getPath = .ok (str "/metrics"))
    -- the certificate is valid and carries the canister's certified data
    {c : Certificate} (hcert : certificateFromCbor env.machine dataCert = some (.ok c))
    (hver : certVerify env.machine env.checks c env.canisterId env.rootKey env.now env.offset = .ok ())
    (hroot : c.tree.lookupPath [str "canister", env.canisterId, str "certified_data"] = .found s.certifiedData)
    -- sizes
    (hm : 32 < env.machine.usize)
    (hfit : s.router.tree.full.Fits env.machine ∧ s.router.tree.full.height + 3 ≤ env.machine.stack)
    {minV : Nat} (hmin : minV ≤ 2) :
    ∃ res, s.httpRequest m dataCert metrics req = some res ∧ res.status = 200 ∧ res.body = metrics ∧
      securityHeaders ⊆ res.headers ∧
      (verifyPair env req res minV = .ok { response := none, version := 2 } ∨
      ∃ i : Item, CollisionIn [CelExpr.skip.toBytes] [i.cel.toBytes]) := by
  obtain ⟨h1, h2, h3⟩ := site_init hs
  obtain ⟨hct, -, -⟩ := routerRun_iff.1 h1
  have hfits : ∀ n, n ≤ 32 → env.machine.Fits n := fun n hn => ⟨by omega, by omega⟩
  have hkind : ∀ o ∈ treeLog (siteCalls dir values), ∀ g, o.entry? = some g →
      g.path.Clean ∧ MadeFor g.cert (sharedKind (fun _ => .skip) g) := by
    intro o ho g hg
    rcases entry_about_shared (site_faithful hv) ho hg with ⟨c, c1, j, y, c2, c3, rfl⟩ | hd'
    · refine ⟨?_, sharedKind_made (.inl ⟨j, madeOf_madeFor c3.made⟩)⟩
      rw [c3.path]
      exact (site_paths hd hm (site_about c1 c2)).1.2.1
    · rw [site_direct hd'] at hg
      simp only [CtOp.entry?, Option.some.injEq] at hg
      subst hg
      exact ⟨metrics_clean, sharedKind_made (.inr .skip)⟩
  have hspec : ctSpec (treeLog (siteCalls dir values)) metricsEntry.toTreePath := by
    have := C62_kept (calls := []) (later := [.certify dir.collect values siteConfigs]) (g := metricsEntry) (by
      intro c hc
      rw [List.mem_singleton] at hc
      exact .inl ⟨_, _, _, hc, hv, hc ▸ h3⟩)
    exact this
  have hcomp := complete_core (env := env) (ops := treeLog (siteCalls dir values)) (f := metricsEntry) (x := .skip)
    (q := req) (req := req) (r := ⟨200, [], []⟩)
    (res := ⟨200, getAssetHeaders [(certExprHeaderName, CelExpr.skip.toBytes)], metrics⟩) (path := str "/metrics")
    (dataCert := dataCert) (c := c) (minV := minV) (sharedKind (fun _ => .skip)) hkind metrics_clean hspec .skip
    (by simp [CelExpr.names]) rfl hpath trivial
    (fun _ => ⟨securityHeaders, certExprHeaderName, [], rfl, by decide, by simp⟩) hcert hver
    (fun t ht => by rw [hct] at ht; simp only [Option.some.injEq] at ht; subst ht; rw [hroot, h2]; rfl) hm
    ⟨chars_str (by decide), hfits ((str "/metrics").length + 9) (by decide)⟩
    (fun t ht => by rw [hct] at ht; simp only [Option.some.injEq] at ht; subst ht; exact hfit) hmin (by decide)
    (.inr ⟨by decide, by decide⟩)
  obtain ⟨w, hw, -⟩ := C21_exact_witness hct (str "/metrics") .mkSkip (str "/metrics")
  have hw : s.router.tree.witness metricsEntry (str "/metrics") = some (.ok w) := hw
  refine ⟨{ status := 200, body := metrics,
            headers := [(certHeaderName, utf8 (v2HeaderText dataCert w metricsEntry.path.toExprPath))] ++
              getAssetHeaders [(certExprHeaderName, CelExpr.skip.toBytes)] }, ?_, rfl, rfl, ?_, ?_⟩
  · unfold Site.httpRequest
    rw [hpath]
    simp only
    rw [if_pos trivial]
    unfold Site.serveMetrics
    rw [hw]
    rfl
  · show securityHeaders ⊆ [_] ++ (securityHeaders ++ _)
    exact fun x hx => List.mem_append_right _ (List.mem_append_left _ hx)
  · rcases hcomp with ⟨t, w', info, g1, g2, g3, g4, g5, g6⟩ | ⟨o, -, g, -, g1, g2⟩
    · left
      rw [hct] at g1
      simp only [Option.some.injEq] at g1
      subst g1
      rw [hw] at g2
      simp only [Option.some.injEq, Except.ok.injEq] at g2
      subst g2
      rw [verifyPair_claims g4 req hmin] at g3
      have hinfo : info = { response := none, version := 2 } := by
        obtain ⟨a, b⟩ := info
        simp only at g5 g6
        rw [g5, g6]
      rw [hinfo] at g3
      have hclaims : Claims env.machine
          { status := 200, body := metrics,
            headers := [(certHeaderName, utf8 (v2HeaderText dataCert w metricsEntry.path.toExprPath))] ++
              getAssetHeaders [(certExprHeaderName, CelExpr.skip.toBytes)] }
          { certificate := c, tree := w, version := 2, exprPath := some metricsEntry.path.toExprPath }
          metricsEntry.path.toExprPath CelExpr.skip.toBytes .skip := by
        refine ⟨?_, rfl, rfl, ⟨(certHeaderName, utf8 (v2HeaderText dataCert w metricsEntry.path.toExprPath)) :: securityHeaders,
          certExprHeaderName, [], rfl, by decide, by simp⟩, g4.parsed⟩
        obtain ⟨text, k1, k2⟩ := g4.header
        have : text = utf8 (v2HeaderText dataCert w metricsEntry.path.toExprPath) := by
          refine LastHeader.unique k1 ?_
          exact ⟨_, certHeaderName, [], rfl, by decide, by simp⟩
        subst this
        refine ⟨_, ⟨[], certHeaderName, getAssetHeaders [(certExprHeaderName, CelExpr.skip.toBytes)], rfl, by decide, ?_⟩, k2⟩
        intro h hh
        rcases List.mem_append.1 hh with hh | hh
        · exact security_names h hh
        · rw [List.mem_singleton] at hh
          subst hh
          show ¬ SameName certExprHeaderName (str "IC-Certificate")
          decide
      have := verifyPair_claims hclaims req hmin
      refine Eq.trans this ?_
      rw [← g3]
      rfl
    · right
      have hk : sharedKind (fun _ => CelExpr.skip) g ≠ .skip := fun h => g1.1 h rfl
      obtain ⟨i, hi⟩ := sharedKind_cel hk rfl
      rw [hi] at g2
      refine ⟨i, ?_⟩
      obtain ⟨a, a1, b, b1, h1, h2⟩ := g2
      exact ⟨b, b1, a, a1, h1.symm, h2.symm⟩

end
end
end Verif.Props
