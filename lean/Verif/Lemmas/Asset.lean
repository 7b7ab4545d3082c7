import Verif.Spec.Asset
import Verif.Props.Certification
import Verif.Lemmas.CertTree
import Mathlib.Data.List.TakeWhile

set_option linter.unusedSimpArgs false
set_option linter.unusedSectionVars false

/-!
# Lemmas about the asset router: what the calls do
-/

namespace Verif
open HashTree Verif.Props

/-! ## Sequences of changes -/

namespace Effects

theorem andThen_ok {a b : Effects} : (a.andThen b).2 = .ok () ↔ a.2 = .ok () ∧ b.2 = .ok () := by
  obtain ⟨a1, a2⟩ := a
  cases a2 <;> simp [andThen]

theorem andThen_list {a b : Effects} (h : a.2 = .ok ()) : (a.andThen b).1 = a.1 ++ b.1 := by
  obtain ⟨a1, a2⟩ := a
  simp at h
  subst h
  simp [andThen]

theorem mem_andThen {a b : Effects} {e : Effect} (h : e ∈ (a.andThen b).1) : e ∈ a.1 ∨ e ∈ b.1 := by
  obtain ⟨a1, a2⟩ := a
  cases a2 with
  | ok u => simpa [andThen] using h
  | error _ => left; simpa [andThen] using h

theorem need_ok {α : Type} {v : Except AssetError α} {f : α → Effects} :
    (need v f).2 = .ok () ↔ ∃ x, v = .ok x ∧ (f x).2 = .ok () := by
  cases v <;> simp [need]

theorem mem_need {α : Type} {v : Except AssetError α} {f : α → Effects} {e : Effect} :
    e ∈ (need v f).1 ↔ ∃ x, v = .ok x ∧ e ∈ (f x).1 := by
  cases v <;> simp [need]

theorem each_ok {α : Type} {f : α → Effects} {xs : List α} :
    (each f xs).2 = .ok () ↔ ∀ x ∈ xs, (f x).2 = .ok () := by
  induction xs with
  | nil => simp [each]
  | cons x xs ih => simp [each, andThen_ok, ih]

theorem each_list {α : Type} {f : α → Effects} {xs : List α} (h : ∀ x ∈ xs, (f x).2 = .ok ()) :
    (each f xs).1 = xs.flatMap (fun x => (f x).1) := by
  induction xs with
  | nil => simp [each]
  | cons x xs ih =>
    simp only [each, List.flatMap_cons]
    rw [andThen_list (h x (by simp)), ih (fun y hy => h y (by simp [hy]))]

theorem mem_each {α : Type} {f : α → Effects} {xs : List α} {e : Effect} (h : e ∈ (each f xs).1) :
    ∃ x ∈ xs, e ∈ (f x).1 := by
  induction xs with
  | nil => simp [each] at h
  | cons x xs ih =>
    rcases mem_andThen h with h | h
    · exact ⟨x, by simp, h⟩
    · obtain ⟨y, hy, h⟩ := ih h
      exact ⟨y, by simp [hy], h⟩

end Effects

/-! ## Preparing responses -/

section
variable [SHA] [UriLib]

/-- The headers given do not include an expression header. -/
def NoExprHeader (hs : List Header) : Prop := ∀ h ∈ hs, ¬ SameName h.1 certExprHeaderName

omit [SHA] [UriLib] in
theorem exprValues_assetResponse (status : UInt16) (body : Bytes) (extra : List Header) (rhs : List Bytes) :
    exprHeaderValues (assetResponse status body extra rhs) = [(assetCel rhs).toBytes] ↔ NoExprHeader extra := by
  unfold exprHeaderValues assetResponse NoExprHeader
  simp only [List.cons_append]
  rw [List.filter_cons_of_neg (by
    show ¬ decide (SameName (str "content-length") certExprHeaderName) = true; decide), List.filter_append, List.map_append]
  have : List.filter (fun h => decide (SameName h.1 certExprHeaderName)) [(certExprHeaderName, (assetCel rhs).toBytes)] =
      [(certExprHeaderName, (assetCel rhs).toBytes)] := by
    rw [List.filter_cons_of_pos (by simp [SameName])]; rfl
  have h' : ∀ A : List Bytes, A ++ [(assetCel rhs).toBytes] = [(assetCel rhs).toBytes] ↔ A = [] := by
    intro A
    constructor
    · intro h; have := congrArg List.length h; simp at this; exact this
    · rintro rfl; rfl
  show _ ++ (List.filter (fun h => decide (SameName h.1 certExprHeaderName)) [(certExprHeaderName, (assetCel rhs).toBytes)]).map Prod.snd = _ ↔ _
  rw [this]
  simp only [List.map_cons, List.map_nil, h', List.map_eq_nil_iff, List.filter_eq_nil_iff, decide_eq_true_eq]
  exact Iff.rfl

/-- When a response can be prepared, and what it is. -/
theorem prepareResponse_ok {url : Bytes} {status : UInt16} {body : Bytes} {extra : List Header} {rhs : List Bytes}
    {r : HttpResponse} {c : HttpCert} :
    prepareResponse url status body extra rhs = .ok (r, c) ↔ r = assetResponse status body extra rhs ∧
      MadeOf c (assetCel rhs) (getRequest url) r := by
  unfold prepareResponse
  constructor
  · intro h
    split at h
    · cases h
    · rename_i cert hc
      simp only [Except.ok.injEq, Prod.mk.injEq] at h
      obtain ⟨rfl, rfl⟩ := h
      exact ⟨rfl, .full hc (by simp)⟩
  · rintro ⟨rfl, h⟩
    cases h with
    | full h hb =>
      have : HttpCert.mkFull { headers := rhs, queryParams := [] } (.headerExclusions []) (getRequest url)
          (assetResponse status body extra rhs) none = .ok c := by
        rw [C44_full] at h ⊢
        rename_i bh
        cases bh with
        | none => exact h
        | some x =>
          rw [hb x rfl, C30_body_hash_override] at h
          exact h
      rw [this]

theorem prepareResponse_isOk {url : Bytes} {status : UInt16} {body : Bytes} {extra : List Header} {rhs : List Bytes} :
    (∃ x, prepareResponse url status body extra rhs = .ok x) ↔ NoExprHeader extra ∧ (UriLib.parse url).isSome := by
  unfold prepareResponse
  constructor
  · rintro ⟨x, h⟩
    split at h
    · cases h
    · rename_i cert hc
      rw [C44_full] at hc
      obtain ⟨h1, rh, h2, _⟩ := hc
      refine ⟨(exprValues_assetResponse _ _ _ _).1 h1, ?_⟩
      unfold requestHash HttpRequest.getQuery getRequest at h2
      cases hp : UriLib.parse url with
      | none => simp only [hp] at h2; cases h2
      | some _ => rfl
  · rintro ⟨h1, h2⟩
    obtain ⟨⟨p, q⟩, hp⟩ := Option.isSome_iff_exists.1 h2
    have := (C44_full { headers := rhs, queryParams := [] } (.headerExclusions []) (getRequest url)
      (assetResponse status body extra rhs) none _).2 ⟨(exprValues_assetResponse _ _ _ _).2 h1, _, by
        unfold requestHash HttpRequest.getQuery getRequest
        simp only [hp]
        rfl, rfl⟩
    exact ⟨_, by rw [this]⟩

omit [SHA] [UriLib] in
theorem slice_length (p : Page) (i : Nat) : (p.slice i).length = min 2000000 (p.content.length - i * 2000000) := by
  simp [Page.slice]

omit [SHA] [UriLib] in
theorem chunk_body (c : Bytes) (i : Nat) (h : i * 2000000 < c.length) :
    (c.drop (i * 2000000)).take (rangeEnd (i * 2000000) c.length + 1 - i * 2000000) =
      (c.drop (i * 2000000)).take 2000000 := by
  unfold rangeEnd chunkSize
  rcases Nat.le_total (i * 2000000 + 2000000) c.length with h' | h'
  · rw [min_eq_left h']
    congr 1
    omega
  · rw [min_eq_right h', List.take_of_length_le (by simp; omega), List.take_of_length_le (by simp; omega)]

omit [SHA] [UriLib] in
theorem chunk_end (p : Page) (i : Nat) (h : i * 2000000 < p.content.length) :
    rangeEnd (i * 2000000) p.content.length = i * 2000000 + (p.slice i).length - 1 := by
  rw [slice_length]
  unfold rangeEnd chunkSize
  omega

/-- The answer of an item, as computed. -/
def Item.prepare (x : Item) : Except AssetError CertifiedResponse :=
  match prepareResponse x.url x.status x.body x.headers (match x with | .chunk _ _ _ => [str "range"] | _ => []) with
  | .error e => .error e
  | .ok (r, c) => .ok { response := r, entry := ⟨x.certPath, c⟩ }

theorem Item.prepare_ok {i : Item} {x : CertifiedResponse} : i.prepare = .ok x ↔ i.Answer x := by
  have hr : ∀ r c, prepareResponse i.url i.status i.body i.headers (match i with | .chunk _ _ _ => [str "range"] | _ => []) =
      .ok (r, c) ↔ r = i.response ∧ MadeOf c i.cel (getRequest i.url) i.response := by
    intro r c
    rw [prepareResponse_ok]
    cases i <;> constructor <;> (rintro ⟨rfl, h⟩; exact ⟨rfl, h⟩)
  unfold Item.prepare
  constructor
  · intro h
    split at h
    · cases h
    · rename_i r c heq
      obtain ⟨h1, h2⟩ := (hr r c).1 heq
      simp only [Except.ok.injEq] at h
      subst h
      exact ⟨h1, rfl, h2⟩
  · rintro ⟨h1, h2, h3⟩
    rw [(hr x.response x.entry.cert).2 ⟨h1, h3⟩]
    obtain ⟨r, p, c⟩ := x
    simp only at h2
    subst h2
    rfl

/-- When an item can be published. -/
theorem Item.prepare_isOk {i : Item} : (∃ x, i.prepare = .ok x) ↔ NoExprHeader i.headers ∧ (UriLib.parse i.url).isSome := by
  rw [← prepareResponse_isOk (status := i.status) (body := i.body)
    (rhs := match i with | .chunk _ _ _ => [str "range"] | _ => [])]
  unfold Item.prepare
  constructor
  · rintro ⟨x, h⟩
    split at h
    · cases h
    · exact ⟨_, by assumption⟩
  · rintro ⟨⟨r, c⟩, h⟩
    simp only [h]
    exact ⟨_, rfl⟩

def mkPage (a : Asset) (ct : Option Bytes) (hs : List Header) (e : Option AssetEncoding) : Page := ⟨a.content, e, ct, hs⟩

theorem prepareStatic_none (a : Asset) (ct : Option Bytes) (hs : List Header) (e : Option AssetEncoding) :
    prepareStatic a ct hs e none = (Item.whole a.url (mkPage a ct hs e)).prepare := rfl

theorem prepareFallback_eq (a : Asset) (ct : Option Bytes) (hs : List Header) (fb : FallbackConfig)
    (e : Option AssetEncoding) :
    prepareFallback a hs ct fb e = (Item.fallback fb.scope fb.status a.url (mkPage a ct hs e)).prepare := rfl

theorem prepareRedirect_eq (s d : Bytes) (k : RedirectKind) :
    prepareRedirect s d k = (Item.redirect s d k).prepare := by
  have : (Item.redirect s d k).status = k.status := by cases k <;> rfl
  unfold prepareRedirect Item.prepare
  rw [this]
  simp only [Item.url, Item.body, Item.headers, Item.certPath]
  generalize prepareResponse s k.status [] [(str "location", d)] [] = x
  cases x <;> rfl

theorem prepareStatic_chunk (a : Asset) (ct : Option Bytes) (hs : List Header) (e : Option AssetEncoding) (i : Nat)
    (h : i * 2000000 < a.content.length) :
    prepareStatic a ct hs e (some (i * 2000000)) = (Item.chunk a.url (mkPage a ct hs e) i).prepare := by
  unfold prepareStatic prepareAssetResponse Item.prepare
  simp only [Item.url, Item.status, Item.body, Item.headers, Item.certPath]
  have he : rangeEnd (i * 2000000) a.content.length = _ := chunk_end (mkPage a ct hs e) i h
  rw [chunk_body a.content i h, contentRange, he]
  rfl

omit [SHA] [UriLib] in
/-- The rounds of the chunk loops. -/
theorem mem_chunkBegins (fuel b len x : Nat) (hf : len ≤ b + fuel) :
    x ∈ chunkBegins fuel b len ↔ ∃ i, x = b + i * 2000000 ∧ x < len := by
  induction fuel generalizing b with
  | zero =>
    simp only [chunkBegins, List.not_mem_nil, false_iff, not_exists, not_and]
    intro i hi; omega
  | succ fuel ih =>
    unfold chunkBegins
    split
    · rename_i hlt
      rw [List.mem_cons, ih (b + chunkSize) (by unfold chunkSize; omega)]
      constructor
      · rintro (rfl | ⟨i, hi, hx⟩)
        · exact ⟨0, by simp, hlt⟩
        · exact ⟨i + 1, by rw [hi]; unfold chunkSize; omega, hx⟩
      · rintro ⟨i, hi, hx⟩
        cases i with
        | zero => left; simpa using hi
        | succ i => right; exact ⟨i, by rw [hi]; unfold chunkSize; omega, hx⟩
    · simp only [List.not_mem_nil, false_iff, not_exists, not_and]
      intro i hi; omega

omit [SHA] [UriLib] in
theorem mem_chunksOf (len x : Nat) : x ∈ chunksOf len ↔ 2000000 < len ∧ ∃ i, x = i * 2000000 ∧ i * 2000000 < len := by
  unfold chunksOf
  split
  · rename_i h
    rw [mem_chunkBegins _ _ _ _ (by omega)]
    simp only [Nat.zero_add]
    unfold chunkSize at h
    constructor
    · rintro ⟨i, h1, h2⟩; exact ⟨h, i, h1, by omega⟩
    · rintro ⟨_, i, h1, h2⟩; exact ⟨i, h1, by omega⟩
  · rename_i h
    unfold chunkSize at h
    simp only [List.not_mem_nil, false_iff, not_and]
    intro h'; omega

/-! ## The items of each step -/

/-- Publishing an item. -/
def Item.put (i : Item) : Effects :=
  Effects.need i.prepare (fun r =>
    ([.treeInsert r.entry, if i.isFallback then .putFallback i.key r else .putResponse i.key r], .ok ()))

/-- The chunk items of a page, in order. -/
def chunkItems (url : Bytes) (p : Page) : List Item :=
  (chunksOf p.content.length).map (fun b => .chunk url p (b / 2000000))

omit [SHA] [UriLib] in
theorem each_congr {α : Type} {f g : α → Effects} {xs : List α} (h : ∀ x ∈ xs, f x = g x) :
    Effects.each f xs = Effects.each g xs := by
  induction xs with
  | nil => rfl
  | cons x xs ih => simp only [Effects.each, h x (by simp), ih (fun y hy => h y (by simp [hy]))]

omit [SHA] [UriLib] in
theorem each_map {α β : Type} {f : β → Effects} {g : α → β} {xs : List α} :
    Effects.each f (xs.map g) = Effects.each (fun x => f (g x)) xs := by
  induction xs with
  | nil => rfl
  | cons x xs ih => simp only [List.map_cons, Effects.each, ih]

theorem insertStatic_eq (a : Asset) (ct : Option Bytes) (hs : List Header) (e : Option AssetEncoding) :
    insertStatic a ct hs e = (Effects.each Item.put (chunkItems a.url (mkPage a ct hs e))).andThen
      (Item.whole a.url (mkPage a ct hs e)).put := by
  unfold insertStatic
  congr 1
  unfold chunkItems
  rw [each_map]
  apply each_congr
  intro b hb
  obtain ⟨_, i, rfl, hi⟩ := (mem_chunksOf _ _).1 hb
  rw [prepareStatic_chunk _ _ _ _ _ hi]
  simp only [Nat.mul_div_cancel i (by decide : 0 < 2000000)]
  rfl

theorem insertFallback_eq (a : Asset) (ct : Option Bytes) (hs : List Header) (fb : FallbackConfig)
    (e : Option AssetEncoding) :
    insertFallback a ct hs fb e = (Item.fallback fb.scope fb.status a.url (mkPage a ct hs e)).put := rfl

theorem insertRedirect_eq (s d : Bytes) (k : RedirectKind) : insertRedirect s d k = (Item.redirect s d k).put := by
  unfold insertRedirect Item.put
  rw [prepareRedirect_eq]; rfl

omit [SHA] [UriLib] in
theorem andThen_assoc (a b c : Effects) : (a.andThen b).andThen c = a.andThen (b.andThen c) := by
  obtain ⟨a1, a2⟩ := a
  obtain ⟨b1, b2⟩ := b
  cases a2 <;> cases b2 <;> simp [Effects.andThen]

omit [SHA] [UriLib] in
theorem nil_andThen (b : Effects) : Effects.andThen ([], .ok ()) b = b := by
  simp [Effects.andThen]

omit [SHA] [UriLib] in
theorem andThen_nil (a : Effects) : a.andThen ([], .ok ()) = a := by
  obtain ⟨a1, a2⟩ := a
  cases a2 <;> simp [Effects.andThen]

omit [SHA] [UriLib] in
theorem each_append {α : Type} (f : α → Effects) (xs ys : List α) :
    Effects.each f (xs ++ ys) = (Effects.each f xs).andThen (Effects.each f ys) := by
  induction xs with
  | nil => simp only [List.nil_append, Effects.each, nil_andThen]
  | cons x xs ih => simp only [List.cons_append, Effects.each, ih, andThen_assoc]

omit [SHA] [UriLib] in
theorem each_singleton {α : Type} (f : α → Effects) (x : α) : Effects.each f [x] = f x := by
  simp only [Effects.each, andThen_nil]

omit [SHA] [UriLib] in
theorem each_flatMap {α β : Type} (f : β → Effects) (g : α → List β) (xs : List α) :
    Effects.each f (xs.flatMap g) = Effects.each (fun x => Effects.each f (g x)) xs := by
  induction xs with
  | nil => rfl
  | cons x xs ih => simp only [List.flatMap_cons, each_append, Effects.each, ih]

/-- The items of a page at a URL. -/
def pageItems (url : Bytes) (p : Page) : List Item := chunkItems url p ++ [.whole url p]

theorem insertStatic_items (a : Asset) (ct : Option Bytes) (hs : List Header) (e : Option AssetEncoding) :
    insertStatic a ct hs e = Effects.each Item.put (pageItems a.url (mkPage a ct hs e)) := by
  rw [insertStatic_eq, pageItems, each_append, each_singleton]

def NConfig.settings : NConfig → Settings
  | .file _ ct hs fb al en => ⟨ct, hs, fb, al, en⟩
  | .pattern _ ct hs en => ⟨ct, hs, [], [], en⟩
  | .redirect _ _ _ => {}

def settingsOf : Option NConfig → Settings
  | some c => c.settings
  | none => {}

/-- The items of an asset in one encoding; `gen` is used for the page at a URL. -/
def assetItems (gen : Bytes → Page → List Item) (url : Bytes) (s : Settings) (p : Page) : List Item :=
  gen url p ++ (s.fallbackFor.map (fun fb => .fallback fb.scope fb.status url p) ++
    s.aliasedBy.flatMap (fun al => gen al p))

theorem certifyAsset_items (a : Asset) (config : Option NConfig) (e : Option AssetEncoding) :
    certifyAsset a config e = Effects.each Item.put
      (assetItems pageItems a.url (settingsOf config) ⟨a.content, e, (settingsOf config).contentType, (settingsOf config).headers⟩) := by
  have key : ∀ ct hs fbs als en, (insertStatic a ct hs e).andThen
      ((Effects.each (fun fb => insertFallback a ct hs fb e) fbs).andThen
        (Effects.each (fun al => insertStatic { a with url := al } ct hs e) als)) =
      Effects.each Item.put (assetItems pageItems a.url ⟨ct, hs, fbs, als, en⟩ ⟨a.content, e, ct, hs⟩) := by
    intro ct hs fbs als en
    unfold assetItems
    rw [each_append, each_append, each_map, each_flatMap, insertStatic_items]
    congr 2
    apply each_congr
    intro al _
    rw [insertStatic_items]; rfl
  have key0 : ∀ ct hs en, insertStatic a ct hs e =
      Effects.each Item.put (assetItems pageItems a.url ⟨ct, hs, [], [], en⟩ ⟨a.content, e, ct, hs⟩) := by
    intro ct hs en
    rw [← key ct hs [] [] en]
    simp only [Effects.each, andThen_nil]
  match config with
  | none => exact key0 none [] []
  | some (.file p ct hs fb al en) => exact key ct hs fb al en
  | some (.pattern f ct hs en) => exact key0 ct hs en
  | some (.redirect _ _ _) => exact key0 none [] []

/-- The items of an asset in all its encodings. -/
def allItems (gen : Bytes → Page → List Item) (assets : List Asset) (configs : List NConfig) (a : Asset) : List Item :=
  let s := settingsOf (configs.find? (fun c => c.matchesAsset a))
  (s.encodings.flatMap (fun e => match assetAt assets (a.path ++ e.2) with
    | none => []
    | some b => assetItems gen a.url s ⟨b.content, some e.1, s.contentType, s.headers⟩)) ++
  assetItems gen a.url s ⟨a.content, none, s.contentType, s.headers⟩

omit [SHA] [UriLib] in
theorem configEncodings_eq (c : Option NConfig) : configEncodings c = (settingsOf c).encodings := by
  match c with
  | none => rfl
  | some (.file _ _ _ _ _ _) => rfl
  | some (.pattern _ _ _ _) => rfl
  | some (.redirect _ _ _) => rfl

omit [SHA] [UriLib] in
theorem oneAsset_items {f : Asset → Option NConfig → Option AssetEncoding → Effects} {step : Item → Effects}
    {gen : Bytes → Page → List Item} (hf : ∀ a c e, f a c e = Effects.each step
      (assetItems gen a.url (settingsOf c) ⟨a.content, e, (settingsOf c).contentType, (settingsOf c).headers⟩))
    (assets : List Asset) (configs : List NConfig) (a : Asset) :
    oneAsset f assets configs a = Effects.each step (allItems gen assets configs a) := by
  unfold oneAsset allItems
  simp only
  rw [each_append, hf, each_flatMap, configEncodings_eq]
  congr 1
  apply each_congr
  intro e _
  cases assetAt assets (a.path ++ e.2) with
  | none => rfl
  | some b => simp only [hf]

/-- The redirect items. -/
def redirectItems (configs : List NConfig) : List Item :=
  configs.filterMap (fun c => match c with
    | .redirect s d k => some (.redirect s d k)
    | _ => none)

omit [SHA] [UriLib] in
theorem eachRedirect_items {f : Bytes → Bytes → RedirectKind → Effects} {step : Item → Effects}
    (hf : ∀ s d k, f s d k = step (.redirect s d k)) (configs : List NConfig) :
    eachRedirect f configs = Effects.each step (redirectItems configs) := by
  unfold eachRedirect redirectItems
  induction configs with
  | nil => rfl
  | cons c cs ih =>
    cases c with
    | file => exact (nil_andThen _).trans ih
    | pattern => exact (nil_andThen _).trans ih
    | redirect s d k =>
      show Effects.andThen (f s d k) (Effects.each _ cs) = Effects.andThen (step (.redirect s d k)) (Effects.each step _)
      rw [hf, ih]

/-- All items of a call. -/
def callItems (gen : Bytes → Page → List Item) (assets values : List Asset) (configs : List NConfig) : List Item :=
  values.flatMap (allItems gen assets configs) ++ redirectItems configs

theorem certifyAssets_items [GlobLib] (assets values : List Asset) (configs : List AssetConfig) :
    certifyAssets assets values configs = Effects.need (normalizeAll configs) (fun cs =>
      Effects.each Item.put (callItems pageItems assets values cs)) := by
  unfold certifyAssets callItems
  congr 1
  funext cs
  rw [each_append, each_flatMap, eachRedirect_items insertRedirect_eq]
  congr 1
  apply each_congr
  intro a _
  exact oneAsset_items certifyAsset_items _ _ _

/-- Withdrawing an item. -/
def Item.withdraw (i : Item) : Effects :=
  Effects.need i.prepare (fun r =>
    (.treeDelete r.entry :: (if i.isFallback then .removeFallback i.key else .removeResponse i.key) ::
      (match i with
        | .whole url p => (chunkItems url p).map (fun c => Effect.removeResponse c.key)
        | _ => []), .ok ()))

theorem deleteStatic_items (a : Asset) (ct : Option Bytes) (hs : List Header) (e : Option AssetEncoding) :
    deleteStatic a ct hs e = (Item.whole a.url (mkPage a ct hs e)).withdraw := by
  unfold deleteStatic Item.withdraw
  rw [prepareStatic_none]
  cases hp : (Item.whole a.url (mkPage a ct hs e)).prepare with
  | error _ => rfl
  | ok r =>
    have hr := (Item.prepare_ok.1 hp).response
    simp only [Effects.need, Prod.mk.injEq, and_true]
    congr 1
    congr 1
    have hb : r.response.body = a.content := by rw [hr]; rfl
    rw [hb]
    unfold chunkItems
    rw [List.map_map]
    apply List.map_congr_left
    intro b hb
    obtain ⟨_, i, rfl, hi⟩ := (mem_chunksOf _ _).1 hb
    simp only [Function.comp_apply, Nat.mul_div_cancel i (by decide : 0 < 2000000)]
    rfl

theorem deleteFallback_items (a : Asset) (ct : Option Bytes) (hs : List Header) (fb : FallbackConfig)
    (e : Option AssetEncoding) :
    deleteFallback a ct hs fb e = (Item.fallback fb.scope fb.status a.url (mkPage a ct hs e)).withdraw := rfl

theorem deleteRedirect_items (s d : Bytes) (k : RedirectKind) : deleteRedirect s d k = (Item.redirect s d k).withdraw := by
  unfold deleteRedirect Item.withdraw
  rw [prepareRedirect_eq]; rfl

theorem deleteAsset_items (a : Asset) (config : Option NConfig) (e : Option AssetEncoding) :
    deleteAsset a config e = Effects.each Item.withdraw
      (assetItems (fun u p => [.whole u p]) a.url (settingsOf config)
        ⟨a.content, e, (settingsOf config).contentType, (settingsOf config).headers⟩) := by
  have key : ∀ ct hs fbs als en, (deleteStatic a ct hs e).andThen
      ((Effects.each (fun fb => deleteFallback a ct hs fb e) fbs).andThen
        (Effects.each (fun al => deleteStatic { a with url := al } ct hs e) als)) =
      Effects.each Item.withdraw (assetItems (fun u p => [.whole u p]) a.url ⟨ct, hs, fbs, als, en⟩ ⟨a.content, e, ct, hs⟩) := by
    intro ct hs fbs als en
    unfold assetItems
    rw [each_append, each_append, each_map, each_flatMap, deleteStatic_items, each_singleton]
    congr 2
    apply each_congr
    intro al _
    rw [deleteStatic_items, each_singleton]; rfl
  have key0 : ∀ ct hs en, deleteStatic a ct hs e =
      Effects.each Item.withdraw (assetItems (fun u p => [.whole u p]) a.url ⟨ct, hs, [], [], en⟩ ⟨a.content, e, ct, hs⟩) := by
    intro ct hs en
    rw [← key ct hs [] [] en]
    simp only [Effects.each, andThen_nil]
  match config with
  | none => exact key0 none [] []
  | some (.file p ct hs fb al en) => exact key ct hs fb al en
  | some (.pattern f ct hs en) => exact key0 ct hs en
  | some (.redirect _ _ _) => exact key0 none [] []

theorem deleteAssets_items [GlobLib] (assets values : List Asset) (configs : List AssetConfig) :
    deleteAssets assets values configs = Effects.need (normalizeAll configs) (fun cs =>
      Effects.each Item.withdraw (callItems (fun u p => [.whole u p]) assets values cs)) := by
  unfold deleteAssets callItems
  congr 1
  funext cs
  rw [each_append, each_flatMap, eachRedirect_items deleteRedirect_items]
  congr 1
  apply each_congr
  intro a _
  exact oneAsset_items deleteAsset_items _ _ _

/-! ## The items are the announced ones -/

omit [SHA] [UriLib] in
theorem assetAt_iff {assets : List Asset} {p : Bytes} {a : Asset} :
    assetAt assets p = some a ↔ Current assets a ∧ a.path = p := by
  unfold assetAt Current
  rw [List.find?_eq_some_iff_append]
  constructor
  · rintro ⟨h1, as, bs, h2, h3⟩
    simp only [beq_iff_eq] at h1
    refine ⟨⟨bs.reverse, as.reverse, ?_, ?_⟩, h1⟩
    · have := congrArg List.reverse h2
      simpa using this
    · intro b hb
      have := h3 b (by simpa using hb)
      simp at this
      rw [h1]; exact this
  · rintro ⟨⟨pre, post, h1, h2⟩, h3⟩
    refine ⟨by simp [h3], post.reverse, pre.reverse, by simp [h1], ?_⟩
    intro b hb
    have := h2 b (by simpa using hb)
    simp only [Bool.not_eq_true', beq_eq_false_iff_ne, ne_eq]
    rw [← h3]; exact this

section
variable [GlobLib]

omit [SHA] [UriLib] in
theorem normalize_matches {c : AssetConfig} {n : NConfig} (h : c.normalize = .ok n) (a : Asset) :
    n.matchesAsset a = true ↔ c.Matches a := by
  cases c with
  | file p ct hs fb al en =>
    simp only [AssetConfig.normalize, Except.ok.injEq] at h
    subst h
    simp [NConfig.matchesAsset, AssetConfig.Matches]
  | pattern p ct hs en =>
    simp only [AssetConfig.normalize] at h
    split at h
    · cases h
    · rename_i f hf
      simp only [Except.ok.injEq] at h
      subst h
      simp [NConfig.matchesAsset, AssetConfig.Matches, hf]
  | redirect s d k =>
    simp only [AssetConfig.normalize, Except.ok.injEq] at h
    subst h
    simp [NConfig.matchesAsset, AssetConfig.Matches]

omit [SHA] [UriLib] in
theorem normalize_settings {c : AssetConfig} {n : NConfig} (h : c.normalize = .ok n) : n.settings = c.settings := by
  cases c with
  | file p ct hs fb al en =>
    simp only [AssetConfig.normalize, Except.ok.injEq] at h
    subst h; rfl
  | pattern p ct hs en =>
    simp only [AssetConfig.normalize] at h
    split at h
    · cases h
    · simp only [Except.ok.injEq] at h
      subst h; rfl
  | redirect s d k =>
    simp only [AssetConfig.normalize, Except.ok.injEq] at h
    subst h; rfl

omit [SHA] [UriLib] in
theorem governs_iff {configs : List AssetConfig} {cs : List NConfig} (h : normalizeAll configs = .ok cs) (a : Asset)
    (s : Settings) : Governs configs a s ↔ s = settingsOf (cs.find? (fun c => c.matchesAsset a)) := by
  induction configs generalizing cs with
  | nil =>
    simp only [normalizeAll, Except.ok.injEq] at h
    subst h
    simp [Governs, settingsOf]
  | cons c configs ih =>
    simp only [normalizeAll] at h
    split at h
    · cases h
    · rename_i n hn
      split at h
      · cases h
      · rename_i ns hns
        simp only [Except.ok.injEq] at h
        subst h
        have hm := normalize_matches hn a
        rw [List.find?_cons]
        by_cases hc : c.Matches a
        · rw [hm.2 hc]
          simp only [settingsOf, normalize_settings hn]
          constructor
          · rintro (⟨pre, d, post, h1, h2, h3, h4⟩ | ⟨h1, _⟩)
            · cases pre with
              | nil => simp at h1; rw [h4, h1.1]
              | cons p pre =>
                simp at h1
                exact absurd hc (by rw [h1.1]; exact h3 p (by simp))
            · exact absurd hc (h1 c (by simp))
          · intro hs
            exact .inl ⟨[], c, configs, rfl, hc, by simp, hs⟩
        · have : n.matchesAsset a = false := by
            rw [Bool.eq_false_iff]; exact fun h => hc (hm.1 h)
          rw [this]
          simp only
          rw [← ih hns]
          constructor
          · rintro (⟨pre, d, post, h1, h2, h3, h4⟩ | ⟨h1, h2⟩)
            · cases pre with
              | nil => simp at h1; exact absurd h2 (by rw [← h1.1]; exact hc)
              | cons p pre =>
                simp at h1
                exact .inl ⟨pre, d, post, h1.2, h2, fun x hx => h3 x (by simp [hx]), h4⟩
            · exact .inr ⟨fun x hx => h1 x (by simp [hx]), h2⟩
          · rintro (⟨pre, d, post, h1, h2, h3, h4⟩ | ⟨h1, h2⟩)
            · refine .inl ⟨c :: pre, d, post, by rw [h1]; rfl, h2, ?_, h4⟩
              intro x hx
              rcases List.mem_cons.1 hx with rfl | hx
              · exact hc
              · exact h3 x hx
            · refine .inr ⟨?_, h2⟩
              intro x hx
              rcases List.mem_cons.1 hx with rfl | hx
              · exact hc
              · exact h1 x hx

omit [SHA] [UriLib] in
theorem mem_redirects {configs : List AssetConfig} {cs : List NConfig} (h : normalizeAll configs = .ok cs) (i : Item) :
    i ∈ redirectItems cs ↔ ∃ s d k, i = .redirect s d k ∧ AssetConfig.redirect s d k ∈ configs := by
  unfold redirectItems
  induction configs generalizing cs with
  | nil =>
    simp only [normalizeAll, Except.ok.injEq] at h
    subst h
    simp
  | cons c configs ih =>
    simp only [normalizeAll] at h
    split at h
    · cases h
    · rename_i n hn
      split at h
      · cases h
      · rename_i ns hns
        simp only [Except.ok.injEq] at h
        subst h
        cases c with
        | file p ct hs fb al en =>
          simp only [AssetConfig.normalize, Except.ok.injEq] at hn
          subst hn
          simp only [List.filterMap_cons, ih hns, List.mem_cons, reduceCtorEq, false_or]
        | pattern p ct hs en =>
          simp only [AssetConfig.normalize] at hn
          split at hn
          · cases hn
          · simp only [Except.ok.injEq] at hn
            subst hn
            simp only [List.filterMap_cons, ih hns, List.mem_cons, reduceCtorEq, false_or]
        | redirect s d k =>
          simp only [AssetConfig.normalize, Except.ok.injEq] at hn
          subst hn
          simp only [List.filterMap_cons, List.mem_cons, ih hns, AssetConfig.redirect.injEq]
          constructor
          · rintro (rfl | ⟨s', d', k', h1, h2⟩)
            · exact ⟨s, d, k, rfl, .inl ⟨rfl, rfl, rfl⟩⟩
            · exact ⟨s', d', k', h1, .inr h2⟩
          · rintro ⟨s', d', k', rfl, ⟨rfl, rfl, rfl⟩ | h⟩
            · exact .inl rfl
            · exact .inr ⟨_, _, _, rfl, h⟩

omit [SHA] [UriLib] [GlobLib] in
theorem mem_chunkItems {url : Bytes} {p : Page} {i : Item} :
    i ∈ chunkItems url p ↔ 2000000 < p.content.length ∧ ∃ n, i = .chunk url p n ∧ n * 2000000 < p.content.length := by
  unfold chunkItems
  rw [List.mem_map]
  constructor
  · rintro ⟨b, hb, rfl⟩
    obtain ⟨h1, n, rfl, h2⟩ := (mem_chunksOf _ _).1 hb
    exact ⟨h1, n, by rw [Nat.mul_div_cancel n (by decide : 0 < 2000000)], h2⟩
  · rintro ⟨h1, n, rfl, h2⟩
    exact ⟨n * 2000000, (mem_chunksOf _ _).2 ⟨h1, n, rfl, h2⟩, by rw [Nat.mul_div_cancel n (by decide : 0 < 2000000)]⟩

omit [SHA] [UriLib] [GlobLib] in
theorem mem_assetItems {gen : Bytes → Page → List Item} {url : Bytes} {s : Settings} {p : Page} {i : Item} :
    i ∈ assetItems gen url s p ↔ (∃ u, (u = url ∨ u ∈ s.aliasedBy) ∧ i ∈ gen u p) ∨
      ∃ fb ∈ s.fallbackFor, i = .fallback fb.scope fb.status url p := by
  unfold assetItems
  simp only [List.mem_append, List.mem_map, List.mem_flatMap]
  constructor
  · rintro (h | ⟨fb, h1, h2⟩ | ⟨al, h1, h2⟩)
    · exact .inl ⟨url, .inl rfl, h⟩
    · exact .inr ⟨fb, h1, h2.symm⟩
    · exact .inl ⟨al, .inr h1, h2⟩
  · rintro (⟨u, rfl | h1, h2⟩ | ⟨fb, h1, h2⟩)
    · exact .inl h2
    · exact .inr (.inr ⟨u, h1, h2⟩)
    · exact .inr (.inl ⟨fb, h1, h2.symm⟩)

omit [SHA] [UriLib] [GlobLib] in
/-- The items of an asset, over its variants. -/
theorem mem_allItems {gen : Bytes → Page → List Item} {assets : List Asset} {cs : List NConfig} {a : Asset} {s : Settings}
    (hs : s = settingsOf (cs.find? (fun c => c.matchesAsset a))) {i : Item} :
    i ∈ allItems gen assets cs a ↔ ∃ e c, Variant assets a s e c ∧ i ∈ assetItems gen a.url s ⟨c, e, s.contentType, s.headers⟩ := by
  subst hs
  unfold allItems
  simp only [List.mem_append, List.mem_flatMap]
  constructor
  · rintro (⟨⟨e, x⟩, h1, h2⟩ | h)
    · split at h2
      · simp at h2
      · rename_i b hb
        obtain ⟨h3, h4⟩ := assetAt_iff.1 hb
        exact ⟨some e, b.content, .encoded h1 h3 h4, h2⟩
    · exact ⟨none, a.content, .plain, h⟩
  · rintro ⟨e, c, hv, hi⟩
    cases hv with
    | plain => exact .inr hi
    | encoded h1 h2 h3 =>
      refine .inl ⟨_, h1, ?_⟩
      simp only [assetAt_iff.2 ⟨h2, h3⟩]
      exact hi

omit [SHA] [UriLib] in
theorem mem_callItems {assets values : List Asset} {configs : List AssetConfig} {cs : List NConfig}
    (h : normalizeAll configs = .ok cs) (hv : IsValues assets values) (i : Item) :
    i ∈ callItems pageItems assets values cs ↔ Announces assets configs i := by
  unfold callItems
  rw [List.mem_append, List.mem_flatMap, mem_redirects h]
  constructor
  · rintro (⟨a, h1, h2⟩ | ⟨s, d, k, rfl, h1⟩)
    · have hg := (governs_iff h a _).2 rfl
      obtain ⟨e, c, h3, h4⟩ := (mem_allItems rfl).1 h2
      have hc := (hv a).1 h1
      rcases mem_assetItems.1 h4 with ⟨u, h5, h6⟩ | ⟨fb, h5, rfl⟩
      · unfold pageItems at h6
        rw [List.mem_append, List.mem_singleton] at h6
        rcases h6 with h6 | rfl
        · obtain ⟨h7, n, rfl, h8⟩ := mem_chunkItems.1 h6
          exact .chunk hc hg h3 h5 h7 h8
        · exact .whole hc hg h3 h5
      · exact .fallback hc hg h3 h5
    · exact .redirect h1
  · intro hi
    cases hi with
    | whole h1 h2 h3 h4 =>
      refine .inl ⟨_, (hv _).2 h1, (mem_allItems ((governs_iff h _ _).1 h2)).2 ⟨_, _, h3, mem_assetItems.2 (.inl ⟨_, h4, ?_⟩)⟩⟩
      simp [pageItems]
    | chunk h1 h2 h3 h4 h5 h6 =>
      refine .inl ⟨_, (hv _).2 h1, (mem_allItems ((governs_iff h _ _).1 h2)).2 ⟨_, _, h3, mem_assetItems.2 (.inl ⟨_, h4, ?_⟩)⟩⟩
      rw [pageItems, List.mem_append]
      exact .inl (mem_chunkItems.2 ⟨h5, _, rfl, h6⟩)
    | fallback h1 h2 h3 h4 =>
      exact .inl ⟨_, (hv _).2 h1, (mem_allItems ((governs_iff h _ _).1 h2)).2 ⟨_, _, h3, mem_assetItems.2 (.inr ⟨_, h4, rfl⟩)⟩⟩
    | redirect h1 => exact .inr ⟨_, _, _, rfl, h1⟩

omit [SHA] [UriLib] in
/-- Deleting is about the same items, chunks apart. -/
theorem mem_callItems' {assets values : List Asset} {configs : List AssetConfig} {cs : List NConfig}
    (h : normalizeAll configs = .ok cs) (hv : IsValues assets values) (i : Item) :
    i ∈ callItems (fun u p => [.whole u p]) assets values cs ↔ Announces assets configs i ∧ i.isChunk = false := by
  unfold callItems
  rw [List.mem_append, List.mem_flatMap, mem_redirects h]
  constructor
  · rintro (⟨a, h1, h2⟩ | ⟨s, d, k, rfl, h1⟩)
    · have hg := (governs_iff h a _).2 rfl
      obtain ⟨e, c, h3, h4⟩ := (mem_allItems rfl).1 h2
      have hc := (hv a).1 h1
      rcases mem_assetItems.1 h4 with ⟨u, h5, h6⟩ | ⟨fb, h5, rfl⟩
      · rw [List.mem_singleton] at h6
        subst h6
        exact ⟨.whole hc hg h3 h5, rfl⟩
      · exact ⟨.fallback hc hg h3 h5, rfl⟩
    · exact ⟨.redirect h1, rfl⟩
  · rintro ⟨hi, hn⟩
    cases hi with
    | whole h1 h2 h3 h4 =>
      refine .inl ⟨_, (hv _).2 h1, (mem_allItems ((governs_iff h _ _).1 h2)).2 ⟨_, _, h3, mem_assetItems.2 (.inl ⟨_, h4, ?_⟩)⟩⟩
      simp
    | chunk h1 h2 h3 h4 h5 h6 => simp [Item.isChunk] at hn
    | fallback h1 h2 h3 h4 =>
      exact .inl ⟨_, (hv _).2 h1, (mem_allItems ((governs_iff h _ _).1 h2)).2 ⟨_, _, h3, mem_assetItems.2 (.inr ⟨_, h4, rfl⟩)⟩⟩
    | redirect h1 => exact .inr ⟨_, _, _, rfl, h1⟩

end
end
end Verif
