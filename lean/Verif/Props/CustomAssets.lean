import Verif.Lemmas.CustomAssets
import Verif.Props.AssetsExampleOnly

set_option linter.unusedSimpArgs false
set_option linter.unusedSectionVars false

/-!
# The example canister `custom-assets` (C67)
-/

namespace Verif.Props
open Verif HashTree PathShape

/-! ## What is posted -/

theorem getFile_iff {d : Front} (hu : ∀ {p c c'}, (p, c) ∈ d.files → (p, c') ∈ d.files → c = c') {p c : Bytes} :
    d.getFile p = some c ↔ (p, c) ∈ d.files := by
  unfold Front.getFile
  rw [Option.map_eq_some_iff]
  constructor
  · rintro ⟨⟨q, b⟩, h, rfl⟩
    have h1 := List.mem_of_find?_eq_some h
    have h2 := List.find?_some h
    simp only [decide_eq_true_eq] at h2
    subst h2
    exact h1
  · intro h
    cases hf : d.files.find? (fun f => f.1 = p) with
    | none =>
      have := List.find?_eq_none.1 hf _ h
      simp at this
    | some f =>
      obtain ⟨q, b⟩ := f
      have h1 := List.mem_of_find?_eq_some hf
      have h2 := List.find?_some hf
      simp only [decide_eq_true_eq] at h2
      subst h2
      exact ⟨_, rfl, hu h1 h⟩

theorem mem_assetPosts {d : Front} (hu : ∀ {p c c'}, (p, c) ∈ d.files → (p, c') ∈ d.files → c = c') {filePath body : Bytes}
    (hb : (filePath, body) ∈ d.files) {tp : HttpPath} {rp ct cc : Bytes} {x : Post} :
    x ∈ assetPosts d body filePath tp rp ct cc ↔ ∃ e c, d.Offers filePath e c ∧ x = ⟨tp, rp, e, ct, cc, c⟩ := by
  unfold assetPosts
  simp only [List.mem_cons, List.mem_append, Option.mem_toList, Option.mem_def, Option.map_eq_some_iff, List.cons_append, getFile_iff hu]
  constructor
  · rintro (rfl | ⟨b, h, rfl⟩ | ⟨b, h, rfl⟩)
    · exact ⟨none, body, .plain hb, rfl⟩
    · exact ⟨_, b, .encoded (.inr rfl) h, rfl⟩
    · exact ⟨_, b, .encoded (.inl rfl) h, rfl⟩
  · rintro ⟨e, c, h, rfl⟩
    cases h with
    | plain h => exact .inl (by rw [hu h hb])
    | encoded he h =>
      rcases he with rfl | rfl
      · exact .inr (.inr ⟨c, h, rfl⟩)
      · exact .inr (.inl ⟨c, h, rfl⟩)

theorem offers_unique {d : Front} (hu : ∀ {p c c'}, (p, c) ∈ d.files → (p, c') ∈ d.files → c = c') {p : Bytes} {e : Option Bytes}
    {c c' : Bytes} (h : d.Offers p e c) (h' : d.Offers p e c') : c = c' := by
  cases h with
  | plain h => cases h' with | plain h' => exact hu h h'
  | encoded he h => cases h' with | encoded he' h' => exact hu h h'

/-- The post of a file. -/
def filePost (p ct : Bytes) (e : Option Bytes) (c : Bytes) : Post :=
  ⟨.exact (slashByte :: p), slashByte :: p, e, ct, cachedForever, c⟩

/-- The post of the index page. -/
def indexPost (e : Option Bytes) (c : Bytes) : Post := ⟨.wildcard (str ""), str "", e, str "text/html", neverCached, c⟩

section
variable [PathGlob]

theorem frontPath_eq {d : Front} {m : Machine} (hd : d.Proper m) {p c ct : Bytes} (h : (p, c) ∈ d.files) (ht : HasType p ct) :
    frontPath p = slashByte :: p := by
  obtain ⟨-, ⟨-, hn⟩, -⟩ := hd.names h ht
  unfold frontPath
  rw [if_neg]
  intro hh
  cases p with
  | nil => simp at hh
  | cons a q =>
    simp only [List.head?_cons, Option.some.injEq] at hh
    subst hh
    exact hn [] q rfl

theorem mem_typePosts {d : Front} {m : Machine} (hd : d.Proper m) {t : Bytes × Bytes} (ht : t ∈ customTypes) {x : Post} :
    x ∈ typePosts d t ↔ ∃ p e c, PathGlob.hits t.1 p = true ∧ (∃ c, (p, c) ∈ d.files) ∧ d.Offers p e c ∧ x = filePost p t.2 e c := by
  unfold typePosts
  simp only [List.mem_flatMap, List.mem_filter]
  constructor
  · rintro ⟨⟨p, b⟩, ⟨h1, h2⟩, h3⟩
    unfold filePosts at h3
    obtain ⟨e, c, h4, rfl⟩ := (mem_assetPosts hd.unique h1).1 h3
    refine ⟨p, e, c, h2, ⟨b, h1⟩, h4, ?_⟩
    rw [frontPath_eq hd h1 ⟨t.1, ht, h2⟩]; rfl
  · rintro ⟨p, e, c, h2, ⟨b, h1⟩, h4, rfl⟩
    refine ⟨(p, b), ⟨h1, h2⟩, ?_⟩
    unfold filePosts
    rw [mem_assetPosts hd.unique h1]
    refine ⟨e, c, h4, ?_⟩
    rw [frontPath_eq hd h1 ⟨t.1, ht, h2⟩]; rfl

theorem mem_allPosts {d : Front} {m : Machine} (hd : d.Proper m) {body : Bytes} (hb : (str "index.html", body) ∈ d.files) {x : Post} :
    x ∈ allPosts d body ↔ (∃ e c, d.Offers (str "index.html") e c ∧ x = indexPost e c) ∨
      ∃ p ct e c, HasType p ct ∧ (∃ c, (p, c) ∈ d.files) ∧ d.Offers p e c ∧ x = filePost p ct e c := by
  unfold allPosts indexPosts
  rw [List.mem_append, mem_assetPosts hd.unique hb, List.mem_flatMap]
  constructor
  · rintro (h | ⟨⟨g, ct⟩, h1, h2⟩)
    · exact .inl h
    · obtain ⟨p, e, c, h3, h4, h5, rfl⟩ := (mem_typePosts hd h1).1 h2
      exact .inr ⟨p, ct, e, c, ⟨g, h1, h3⟩, h4, h5, rfl⟩
  · rintro (h | ⟨p, ct, e, c, ⟨g, h1, h3⟩, h4, h5, rfl⟩)
    · exact .inl h
    · exact .inr ⟨(g, ct), h1, (mem_typePosts hd h1).2 ⟨p, e, c, h3, h4, h5, rfl⟩⟩

/-! ## What is found -/

theorem find_last {α β : Type} (T : α → List β) (q : β → Bool) (ts : List α) {x : β} :
    (ts.flatMap T).reverse.find? q = some x ↔ ∃ pre t post, ts = pre ++ t :: post ∧ (T t).reverse.find? q = some x ∧
      ∀ t' ∈ post, (T t').reverse.find? q = none := by
  induction ts with
  | nil => simp
  | cons t ts ih =>
    rw [List.flatMap_cons, List.reverse_append, List.find?_append]
    constructor
    · intro h
      cases hf : (ts.flatMap T).reverse.find? q with
      | some y =>
        rw [hf] at h
        simp only [Option.some_or, Option.some.injEq] at h
        subst h
        obtain ⟨pre, t', post, rfl, h2, h3⟩ := ih.1 hf
        exact ⟨t :: pre, t', post, rfl, h2, h3⟩
      | none =>
        rw [hf] at h
        simp only [Option.none_or] at h
        refine ⟨[], t, ts, rfl, h, fun t' ht' => ?_⟩
        rw [List.find?_eq_none] at hf ⊢
        intro y hy
        refine hf y ?_
        rw [List.mem_reverse] at hy ⊢
        exact List.mem_flatMap.2 ⟨t', ht', hy⟩
    · rintro ⟨pre, t', post, he, h2, h3⟩
      cases pre with
      | nil =>
        simp only [List.nil_append, List.cons.injEq] at he
        obtain ⟨rfl, rfl⟩ := he
        have : (ts.flatMap T).reverse.find? q = none := by
          rw [List.find?_eq_none]
          intro y hy
          rw [List.mem_reverse, List.mem_flatMap] at hy
          obtain ⟨t', ht', hy⟩ := hy
          exact List.find?_eq_none.1 (h3 t' ht') y (List.mem_reverse.2 hy)
        rw [this]
        simpa using h2
      | cons a pre =>
        simp only [List.cons_append, List.cons.injEq] at he
        obtain ⟨rfl, rfl⟩ := he
        rw [ih.2 ⟨pre, t', post, rfl, h2, h3⟩]
        rfl

theorem find_sole {β : Type} {l : List β} {q : β → Bool} (hu : ∀ x ∈ l, ∀ y ∈ l, q x = true → q y = true → x = y) {x : β} :
    l.reverse.find? q = some x ↔ x ∈ l ∧ q x = true := by
  constructor
  · intro h
    exact ⟨List.mem_reverse.1 (List.mem_of_find?_eq_some h), List.find?_some h⟩
  · rintro ⟨h1, h2⟩
    cases hf : l.reverse.find? q with
    | none => exact absurd h2 (List.find?_eq_none.1 hf _ (List.mem_reverse.2 h1))
    | some y =>
      rw [hu y (List.mem_reverse.1 (List.mem_of_find?_eq_some hf)) x h1 (List.find?_some hf) h2]

variable [SHA]

theorem find_file {d : Front} {m : Machine} (hd : d.Proper m) {body : Bytes} (hb : (str "index.html", body) ∈ d.files)
    (e : Option Bytes) (p : Bytes) {x : Post} :
    (allPosts d body).reverse.find? (fun y => y.enc = e ∧ y.reqPath = slashByte :: p) = some x ↔
      ∃ ct c, TypeOf p ct ∧ (∃ c, (p, c) ∈ d.files) ∧ d.Offers p e c ∧ x = filePost p ct e c := by
  have hidx : (indexPosts d body).reverse.find? (fun y => decide (y.enc = e ∧ y.reqPath = slashByte :: p)) = none := by
    rw [List.find?_eq_none]
    intro y hy
    rw [List.mem_reverse, indexPosts, mem_assetPosts hd.unique hb] at hy
    obtain ⟨e', c, -, rfl⟩ := hy
    have : str "" ≠ slashByte :: p := by simp [str]
    simp [this]
  have hty : ∀ t ∈ customTypes, ∀ x, (typePosts d t).reverse.find? (fun y => decide (y.enc = e ∧ y.reqPath = slashByte :: p)) = some x ↔
      ∃ c, PathGlob.hits t.1 p = true ∧ (∃ c, (p, c) ∈ d.files) ∧ d.Offers p e c ∧ x = filePost p t.2 e c := by
    intro t ht x
    rw [find_sole, mem_typePosts hd ht]
    · constructor
      · rintro ⟨⟨p', e', c, h1, h2, h3, rfl⟩, h4⟩
        simp only [filePost, decide_eq_true_eq, List.cons.injEq, true_and] at h4
        obtain ⟨rfl, rfl⟩ := h4
        exact ⟨c, h1, h2, h3, rfl⟩
      · rintro ⟨c, h1, h2, h3, rfl⟩
        exact ⟨⟨p, e, c, h1, h2, h3, rfl⟩, by simp [filePost]⟩
    · intro x hx y hy h4 h5
      obtain ⟨p1, e1, c1, -, -, o1, rfl⟩ := (mem_typePosts hd ht).1 hx
      obtain ⟨p2, e2, c2, -, -, o2, rfl⟩ := (mem_typePosts hd ht).1 hy
      simp only [filePost, decide_eq_true_eq, List.cons.injEq, true_and] at h4 h5
      obtain ⟨rfl, rfl⟩ := h4
      obtain ⟨rfl, rfl⟩ := h5
      rw [offers_unique hd.unique o1 o2]
  unfold allPosts
  rw [List.reverse_append, List.find?_append, hidx, Option.or_none, find_last]
  constructor
  · rintro ⟨pre, t, post, h1, h2, h3⟩
    have htm : t ∈ customTypes := by rw [h1]; simp
    obtain ⟨c, g1, g2, g3, rfl⟩ := (hty t htm _).1 h2
    refine ⟨t.2, c, ⟨pre, t.1, post, h1, g1, fun t' ht' => ?_⟩, g2, g3, rfl⟩
    have htm' : t' ∈ customTypes := by rw [h1]; simp [ht']
    by_contra hh
    have := (hty t' htm' _).2 ⟨c, by simpa using hh, g2, g3, rfl⟩
    rw [h3 t' ht'] at this
    cases this
  · rintro ⟨ct, c, ⟨pre, g, post, h1, h2, h3⟩, g2, g3, rfl⟩
    have hin : ∀ t, t ∈ pre ++ (g, ct) :: post → t ∈ customTypes := by
      intro t ht; rw [← h1] at ht; exact ht
    refine ⟨pre, (g, ct), post, h1, (hty _ (hin _ (by simp)) _).2 ⟨c, h2, g2, g3, rfl⟩, fun t' ht' => ?_⟩
    cases hf : (typePosts d t').reverse.find? (fun y => decide (y.enc = e ∧ y.reqPath = slashByte :: p)) with
    | none => rfl
    | some y =>
      obtain ⟨c', k1, -⟩ := (hty t' (hin _ (by simp [ht'])) _).1 hf
      rw [h3 t' ht'] at k1
      cases k1

theorem find_index {d : Front} {m : Machine} (hd : d.Proper m) {body : Bytes} (hb : (str "index.html", body) ∈ d.files)
    (e : Option Bytes) {x : Post} :
    (allPosts d body).reverse.find? (fun y => y.enc = e ∧ y.reqPath = str "") = some x ↔
      ∃ c, d.Offers (str "index.html") e c ∧ x = indexPost e c := by
  rw [find_sole, mem_allPosts hd hb]
  · constructor
    · rintro ⟨⟨e', c, h1, rfl⟩ | ⟨p, ct, e', c, -, -, -, rfl⟩, h4⟩
      · simp only [indexPost, decide_eq_true_eq, and_true] at h4
        subst h4
        exact ⟨c, h1, rfl⟩
      · simp [filePost, str] at h4
    · rintro ⟨c, h1, rfl⟩
      exact ⟨.inl ⟨e, c, h1, rfl⟩, by simp [indexPost]⟩
  · intro x hx y hy h4 h5
    rcases (mem_allPosts hd hb).1 hx with ⟨e1, c1, o1, rfl⟩ | ⟨p, ct, e', c, -, -, -, rfl⟩
    · rcases (mem_allPosts hd hb).1 hy with ⟨e2, c2, o2, rfl⟩ | ⟨p, ct, e', c, -, -, -, rfl⟩
      · simp only [indexPost, decide_eq_true_eq, and_true] at h4 h5
        subst h4 h5
        rw [offers_unique hd.unique o1 o2]
      · simp [filePost, str] at h5
    · simp [filePost, str] at h4

/-! ## What is chosen -/

theorem customAccept_iff {req : HttpRequest} {v : Bytes} : customAccept req = some v ↔ FirstHeader req.headers (str "accept-encoding") v := by
  have : customAccept req = firstHeader req.headers (str "accept-encoding") := by
    unfold customAccept firstHeader
    congr 2
    funext h
    exact (beq_eq_decide _ _).symm
  rw [this]
  exact firstHeader_iff (by decide)

theorem mentions_iff {req : HttpRequest} {e : Bytes} : Mentions req e ↔ ∃ v, customAccept req = some v ∧ e <:+: v := by
  unfold Mentions
  simp only [customAccept_iff]
  refine exists_congr fun v => and_congr_right fun _ => ?_
  constructor
  · rintro ⟨a, b, rfl⟩; exact ⟨a, b, rfl⟩
  · rintro ⟨a, b, h⟩; exact ⟨a, b, h.symm⟩

/-- The choice, given what is stored in the three versions. -/
theorem choose_picks {d : Front} {p : Bytes} {s : CustomSite} {req : HttpRequest} {reqPath : Bytes} {mk : Option Bytes → Bytes → Post}
    {c0 : Bytes} (h0 : d.Offers p none c0)
    (he : ∀ e, e = str "br" ∨ e = str "gzip" → (∃ c, d.Offers p (some e) c ∧ s.encoded (reqPath, e) = some (mk (some e) c).stored) ∨
      ((∀ c, ¬ d.Offers p (some e) c) ∧ s.encoded (reqPath, e) = none)) :
    ∃ e c, d.Picks p req e c ∧ d.Offers p e c ∧ s.choose reqPath (mk none c0).stored (customAccept req) = (mk e c).stored := by
  have ment : ∀ {v e}, customAccept req = some v → (Mentions req e ↔ e <:+: v) := by
    intro v e hv
    rw [mentions_iff, hv]; simp
  unfold CustomSite.choose
  cases hv : customAccept req with
  | none =>
    have hno : ∀ e, ¬ Mentions req e := by
      intro e h
      rw [mentions_iff, hv] at h
      simp at h
    exact ⟨none, c0, .plain (fun h => hno _ h.1) (fun h => hno _ h.1) h0, h0, rfl⟩
  | some v =>
    simp only
    by_cases hbr : str "br" <:+: v ∧ ∃ c, d.Offers p (some (str "br")) c
    · obtain ⟨h1, c, h2⟩ := hbr
      rcases he _ (.inl rfl) with ⟨c', g1, g2⟩ | ⟨g1, -⟩
      · rw [if_pos h1, g2]
        exact ⟨_, c', .brotli ((ment hv).2 h1) g1, g1, rfl⟩
      · exact absurd h2 (g1 c)
    · have e1 : (if str "br" <:+: v then s.encoded (reqPath, str "br") else none) = none := by
        split
        · next h =>
          rcases he _ (.inl rfl) with ⟨c', g1, g2⟩ | ⟨-, g2⟩
          · exact absurd ⟨h, c', g1⟩ hbr
          · exact g2
        · rfl
      rw [e1]
      have hbr' : ¬ (Mentions req (str "br") ∧ ∃ b, d.Offers p (some (str "br")) b) := by rw [ment hv]; exact hbr
      simp only
      by_cases hgz : str "gzip" <:+: v ∧ ∃ c, d.Offers p (some (str "gzip")) c
      · obtain ⟨h1, c, h2⟩ := hgz
        rcases he _ (.inr rfl) with ⟨c', g1, g2⟩ | ⟨g1, -⟩
        · rw [if_pos h1, g2]
          exact ⟨_, c', .gzip hbr' ((ment hv).2 h1) g1, g1, rfl⟩
        · exact absurd h2 (g1 c)
      · have e2 : (if str "gzip" <:+: v then s.encoded (reqPath, str "gzip") else none) = none := by
          split
          · next h =>
            rcases he _ (.inr rfl) with ⟨c', g1, g2⟩ | ⟨-, g2⟩
            · exact absurd ⟨h, c', g1⟩ hgz
            · exact g2
          · rfl
        rw [e2]
        exact ⟨none, c0, .plain hbr' (by rw [ment hv]; exact hgz) h0, h0, rfl⟩

/-- A response as it is stored, with the certificate header, is a page. -/
theorem post_page (x : Post) (dataCert : Bytes) (w : HashTree) (ep : List Bytes) :
    (addV2CertificateHeader dataCert x.response w ep).Page x.type x.cache x.enc x.body := by
  have hn : (∀ a ∈ [str "content-type", str "cache-control", str "content-length", str "content-encoding"],
      ∀ b ∈ certHeaderName :: certExprHeaderName :: customSecurityHeaders.map Prod.fst, a ≠ b) ∧
      [str "content-type", str "cache-control", str "content-length", str "content-encoding"].Nodup := by decide +kernel
  obtain ⟨hn1, hn2⟩ := hn
  have hin : ∀ a ∈ [str "content-type", str "cache-control", str "content-length", str "content-encoding"], ∀ v,
      (a, v) ∈ (addV2CertificateHeader dataCert x.response w ep).headers ↔
      (a, v) ∈ (str "content-length", decimal x.body.length) :: x.add := by
    intro a ha v
    have h1 : (a, v) ∉ customSecurityHeaders := fun h =>
      hn1 a ha a (List.mem_cons_of_mem _ (List.mem_cons_of_mem _ (List.mem_map.2 ⟨_, h, rfl⟩))) rfl
    have h2 : a ≠ certExprHeaderName := hn1 a ha _ (by simp)
    have h3 : a ≠ certHeaderName := hn1 a ha _ (by simp)
    simp [addV2CertificateHeader, Post.response, customResponse, customHeaders, h1, h2, h3]
  simp only [List.nodup_cons, List.mem_cons, List.not_mem_nil, or_false, not_or, List.nodup_nil, and_true, not_false_eq_true] at hn2
  obtain ⟨⟨a1, a2, a3⟩, ⟨a4, a5⟩, a6⟩ := hn2
  refine ⟨rfl, rfl, fun v => ?_, fun v => ?_, fun v => ?_, fun v => ?_, fun h hh => ?_⟩
  · rw [hin _ (by simp)]
    cases he : x.enc <;> simp [Post.add, he, a1, a2, a3]
  · rw [hin _ (by simp)]
    cases he : x.enc <;> simp [Post.add, he, a4, a5, Ne.symm a1]
  · rw [hin _ (by simp)]
    cases he : x.enc <;> simp [Post.add, he, a6, Ne.symm a2, Ne.symm a4]
  · rw [hin _ (by simp)]
    have b3 : ¬ str "content-encoding" = str "content-type" := fun h => a3 h.symm
    have b5 : ¬ str "content-encoding" = str "cache-control" := fun h => a5 h.symm
    have b6 : ¬ str "content-encoding" = str "content-length" := fun h => a6 h.symm
    cases he : x.enc with
    | none => simp [Post.add, he, b3, b5, b6]
    | some e =>
      simp only [Post.add, he, b3, b5, b6, Option.map_some, Option.toList_some, List.cons_append, List.nil_append, List.mem_cons,
        Prod.mk.injEq, false_and, true_and, or_false, false_or, List.not_mem_nil, Option.some.injEq]
      exact eq_comm
  · simp [addV2CertificateHeader, Post.response, customResponse, customHeaders, hh]

theorem exists_typeOf {p ct : Bytes} (h : HasType p ct) : ∃ ct', TypeOf p ct' := by
  obtain ⟨g, h1, h2⟩ := h
  have key : ∀ (ts : List (Bytes × Bytes)) (g ct : Bytes), (g, ct) ∈ ts → PathGlob.hits g p = true →
      ∃ ct' pre g' post, ts = pre ++ (g', ct') :: post ∧ PathGlob.hits g' p = true ∧ ∀ x ∈ post, PathGlob.hits x.1 p = false := by
    intro ts
    induction ts with
    | nil => intro g ct h; simp at h
    | cons t ts ih =>
      intro g ct hm hh
      by_cases hx : ∃ x ∈ ts, PathGlob.hits x.1 p = true
      · obtain ⟨⟨g', ct'⟩, x1, x2⟩ := hx
        obtain ⟨c, pre, g2, post, rfl, h3, h4⟩ := ih g' ct' x1 x2
        exact ⟨c, t :: pre, g2, post, rfl, h3, h4⟩
      · rcases List.mem_cons.1 hm with rfl | hm
        · exact ⟨ct, [], g, ts, rfl, hh, fun x hx' => by
            by_contra h
            exact hx ⟨x, hx', by simpa using h⟩⟩
        · exact absurd ⟨(g, ct), hm, hh⟩ hx
  obtain ⟨ct', pre, g', post, h3⟩ := key _ g ct h1 h2
  exact ⟨ct', pre, g', post, h3⟩

/-! ## The entries -/

/-- The expression of all certified pages. -/
def customCel : CelExpr := .responseOnly customCert

variable [UriLib]

def customOps (d : Front) (body : Bytes) : List CtOp := .insert uncertifiedEntry :: (allPosts d body).map (fun p => .insert p.entry)

omit [PathGlob] in
theorem post_made (x : Post) (q : HttpRequest) : MadeOf x.entry.cert customCel q x.response := by
  have h := x.cert_ok
  have e : x.entry.cert = x.cert := by unfold Post.entry; with_reducible rfl
  rw [e]
  generalize x.cert = cc at h
  exact .responseOnly h (fun _ h => by cases h)

omit [PathGlob] in
theorem post_ne (x : Post) : x.entry ≠ uncertifiedEntry := by
  intro h
  have h1 : x.entry.cert = .mkSkip := by rw [h]; rfl
  have h2 := x.cert_ok
  rw [C44_response_only] at h2
  have h3 : x.entry.cert = x.cert := by unfold Post.entry; with_reducible rfl
  rw [h3, h2.2] at h1
  simp [HttpCert.mkSkip] at h1

theorem custom_spec (d : Front) (body : Bytes) (p : List Bytes) :
    ctSpec (customOps d body) p ↔ p = uncertifiedEntry.toTreePath ∨ ∃ x ∈ allPosts d body, p = x.entry.toTreePath := by
  have : customOps d body = (uncertifiedEntry :: (allPosts d body).map Post.entry).map CtOp.insert := by
    simp [customOps, Function.comp_def]
  unfold ctSpec
  rw [this, @ctSpec_inserts _ _ ⟨fun _ => none⟩]
  simp

theorem custom_ops {d : Front} {body : Bytes} {f : CertEntry} (h : ∃ o ∈ customOps d body, o.entry? = some f) :
    f = uncertifiedEntry ∨ ∃ x ∈ allPosts d body, f = x.entry := by
  obtain ⟨o, ho, h⟩ := h
  unfold customOps at ho
  rw [List.mem_cons, List.mem_map] at ho
  rcases ho with rfl | ⟨x, hx, rfl⟩
  · simp only [CtOp.entry?, Option.some.injEq] at h
    exact .inl h.symm
  · simp only [CtOp.entry?, Option.some.injEq] at h
    exact .inr ⟨x, hx, h.symm⟩

open Classical in
/-- The definition an entry was made for. -/
noncomputable def customKind (f : CertEntry) : CelExpr := if f = uncertifiedEntry then .skip else customCel

theorem uncertified_clean : (HttpPath.exact (str "/uncertified")).Clean := by
  unfold HttpPath.Clean; decide

theorem index_clean : (HttpPath.wildcard (str "")).Clean := by
  unfold HttpPath.Clean; decide

theorem post_clean {d : Front} {m : Machine} (hd : d.Proper m) {body : Bytes} (hb : (str "index.html", body) ∈ d.files) {x : Post}
    (hx : x ∈ allPosts d body) : x.treePath.Clean := by
  rcases (mem_allPosts hd hb).1 hx with ⟨e, c, -, rfl⟩ | ⟨p, ct, e, c, h1, ⟨c', h2⟩, -, rfl⟩
  · exact index_clean
  · exact (hd.names h2 h1).2.2.1

theorem custom_made {d : Front} {m : Machine} (hd : d.Proper m) {body : Bytes} (hb : (str "index.html", body) ∈ d.files) {f : CertEntry}
    (h : ∃ o ∈ customOps d body, o.entry? = some f) : f.path.Clean ∧ MadeFor f.cert (customKind f) := by
  rcases custom_ops h with rfl | ⟨x, hx, rfl⟩
  · rw [customKind, if_pos rfl]
    exact ⟨uncertified_clean, .skip⟩
  · rw [customKind, if_neg (post_ne x)]
    exact ⟨post_clean hd hb hx, madeOf_madeFor (post_made x ⟨[], [], [], []⟩)⟩

theorem entry_eq (x : Post) : x.entry = ⟨x.treePath, x.stored.cert⟩ := by unfold Post.entry Post.stored; with_reducible rfl

theorem stored_response (x : Post) : x.stored.response = x.response := by unfold Post.stored; with_reducible rfl

/-! ## What is served -/

variable [Bls] [Inflate]

/-- The certificate is valid and carries the certified data of the canister; the tree can be encoded and decoded on the machine. -/
structure CustomCertified (env : Env) (s : CustomSite) (dataCert : Bytes) : Prop where
  cert : ∃ c, certificateFromCbor env.machine dataCert = some (.ok c) ∧
    certVerify env.machine env.checks c env.canisterId env.rootKey env.now env.offset = .ok () ∧
    c.tree.lookupPath [str "canister", env.canisterId, str "certified_data"] = .found s.certifiedData
  usize : 32 < env.machine.usize
  fits : s.tree.full.Fits env.machine ∧ s.tree.full.height + 3 ≤ env.machine.stack

/-- The post is right for the path. -/
theorem post_responds {d : Front} {m : Machine} (hd : d.Proper m) {body : Bytes} (hb : (str "index.html", body) ∈ d.files) {path : Bytes}
    (hn : NormalPath path) (hne : path ≠ str "/uncertified") {x : Post} (hx : x ∈ allPosts d body)
    (h : x.reqPath = path ∨ (x.reqPath = str "" ∧ ∀ p, ¬ d.Published path p)) :
    Responds (customOps d body) path x.treePath := by
  rcases (mem_allPosts hd hb).1 hx with ⟨e, c, -, rfl⟩ | ⟨p, ct, e, c, h1, h2, -, rfl⟩
  · rcases h with h | ⟨-, h⟩
    · rw [← h] at hn
      have : (str "").head? ≠ some slashByte := by decide
      exact absurd hn.1 this
    · have e : PathShape.ofPath (str "") = ⟨[], false⟩ := by decide
      refine ⟨by rw [e]; exact ⟨List.nil_prefix, by simp⟩, fun g hg _ => ?_⟩
      rcases custom_ops ⟨_, hg, rfl⟩ with rfl | ⟨y, hy, rfl⟩
      · intro hs
        exact hne (normal_inj hn (normal_of_bool (by decide)) hs.symm)
      · rcases (mem_allPosts hd hb).1 hy with ⟨e', c', -, rfl⟩ | ⟨p, ct, e', c', h1, ⟨b, h2⟩, -, rfl⟩
        · show ¬ _
          rw [e]
          rintro ⟨-, h⟩
          simp [PathShape.MoreSpecific] at h
        · show PathShape.ofPath (slashByte :: p) ≠ _
          intro hs
          have := normal_inj (hd.names h2 h1).2.1 hn hs
          exact h p ⟨this.symm, ⟨b, h2⟩, ct, h1⟩
  · rcases h with h | ⟨h, -⟩
    · have h : slashByte :: p = path := h
      rw [← h]
      exact rfl
    · simp [filePost, str] at h

theorem post_fits {d : Front} {m : Machine} (hd : d.Proper m) (hm : 32 < m.usize) {body : Bytes} (hb : (str "index.html", body) ∈ d.files)
    {x : Post} (hx : x ∈ allPosts d body) : (chars x.treePath.url).isSome ∧ m.Fits (x.treePath.url.length + 9) := by
  rcases (mem_allPosts hd hb).1 hx with ⟨e, c, -, rfl⟩ | ⟨p, ct, e, c, h1, ⟨b, h2⟩, -, rfl⟩
  · have h0 : (chars (str "")).isSome = true := by decide
    refine ⟨h0, ?_⟩
    have : (indexPost e c).treePath.url.length + 9 = 9 := rfl
    rw [this]
    exact ⟨by omega, by omega⟩
  · obtain ⟨-, -, -, h3, h4⟩ := hd.names h2 h1
    refine ⟨h3, ?_⟩
    have : (filePost p ct e c).treePath.url.length + 9 = p.length + 10 := by
      show (slashByte :: p).length + 9 = _
      simp
    rw [this]
    exact h4

/-- A stored response that is right for the path verifies. -/
theorem post_verifies {env : Env} {d : Front} (hd : d.Proper env.machine) {body : Bytes} (hb : (str "index.html", body) ∈ d.files)
    {s : CustomSite} (hp : Posted s (allPosts d body)) (hs : s.certifiedData = s.tree.rootHash.1) {dataCert : Bytes}
    (hc : CustomCertified env s dataCert) {x : Post} (hx : x ∈ allPosts d body) {req : HttpRequest} {path : Bytes}
    (hpath : req.getPath = .ok path) (hresp : Responds (customOps d body) path x.treePath)
    (hstart : (pathSegments path).head? ≠ some (str "http_expr")) (hend : PlainEndPath path) {minV : Nat} (hmin : minV ≤ 2) :
    (∃ w info, s.tree.witness x.entry path = some (.ok w) ∧
      verifyPair env req (addV2CertificateHeader dataCert x.response w x.treePath.toExprPath) minV = .ok info ∧ info.version = 2 ∧
      info.response = some
        { statusCode := some 200, body := x.body,
          headers := certifiedRespHeaders (.headerExclusions []) x.response.headers ++
          [(str "IC-Certificate", utf8 (v2HeaderText dataCert w x.treePath.toExprPath))] } ∧
      ∀ c, certificateFromCbor env.machine dataCert = some (.ok c) → CarriesHeader env.machine
        (addV2CertificateHeader dataCert x.response w x.treePath.toExprPath)
        { certificate := c, tree := w, version := 2, exprPath := some x.treePath.toExprPath }) ∨
    CollisionIn [CelExpr.skip.toBytes] [customCel.toBytes] := by
  obtain ⟨c, c1, c2, c3⟩ := hc.cert
  have hrun : ctRun (customOps d body) = some s.tree := hp.run
  rcases complete_core (env := env) (ops := customOps d body) (f := x.entry) (x := customCel) (q := req) (req := req)
      (r := x.response) (res := x.response) (path := path) (dataCert := dataCert) (c := c) (minV := minV) customKind
      (fun o ho g hg => custom_made hd hb ⟨o, ho, hg⟩) (post_clean hd hb hx)
      ((custom_spec _ _ _).2 (.inr ⟨x, hx, rfl⟩)) (post_made x req) (by simp [customCel, customCert, CelExpr.names]) hresp hpath
      ⟨rfl, rfl, .refl _⟩ (by simp [customCel]) c1 c2 (fun t ht => by rw [hrun] at ht; cases ht; rw [c3, hs]) hc.usize
      (post_fits hd hc.usize hb hx) (fun t ht => by rw [hrun] at ht; cases ht; exact hc.fits) hmin hstart hend
    with ⟨t, w, info, w1, w2, w3, wc, w4, w5⟩ | ⟨o, o1, g, o2, o3, o4⟩
  · rw [hrun] at w1; cases w1
    exact .inl ⟨w, info, w2, w3, w4, w5, fun c' hc' => by
      rw [c1] at hc'
      simp only [Option.some.injEq, Except.ok.injEq] at hc'
      subst hc'
      exact wc.1⟩
  · right
    have := o3.2 (by simp [customCel])
    rw [this] at o4
    exact o4

/-- **C67.** After installation (or an upgrade), a request of any normal path but `/uncertified` is answered with the file at that path, if
the patterns match it, and with `index.html` otherwise: brotli if the `Accept-Encoding` header mentions it and there is a file with the
extension `.br`, else gzip likewise, else the file itself; with the headers for type, encoding, length, caching and security. The
answer verifies (unless the hashes of two given expressions collide). -/
theorem C67_serves {m : Machine} {d : Front} (hd : d.Proper m) : ∃ s, CustomSite.init d = some s ∧
    ∀ (env : Env) (dataCert page : Bytes) (req : HttpRequest) (path : Bytes) (minV : Nat), env.machine = m →
      CustomCertified env s dataCert → req.getPath = .ok path → NormalPath path → path ≠ str "/uncertified" →
      (pathSegments path).head? ≠ some (str "http_expr") → PlainEndPath path → minV ≤ 2 →
      (∃ res info ct caching e c hs, s.httpRequest dataCert page req = some res ∧ res.Page ct caching e c ∧
        ((∃ p, d.Published path p ∧ TypeOf p ct ∧ caching = str "public, max-age=31536000, immutable" ∧ d.Picks p req e c) ∨
          ((∀ p, ¬ d.Published path p) ∧ ct = str "text/html" ∧ caching = str "public, no-cache, no-store" ∧
            d.Picks (str "index.html") req e c)) ∧
        verifyPair env req res minV = .ok info ∧ info.version = 2 ∧
        info.response = some { statusCode := some 200, body := c, headers := hs } ∧ (str "content-type", ct) ∈ hs) ∨
      CollisionIn [CelExpr.skip.toBytes] [customCel.toBytes] := by
  obtain ⟨body, hb⟩ := hd.index
  obtain ⟨s, hinit, hp, hs⟩ := custom_init ((getFile_iff hd.unique).2 hb) (by
    intro t ht p hp
    by_contra h
    exact hd.dirs hp (ct := t.2) ⟨t.1, ht, by simpa using h⟩)
  refine ⟨s, hinit, ?_⟩
  rintro env dataCert page req path minV rfl hc hpath hn hne hstart hend hmin
  have fin : ∀ (x : Post) (tp : HttpPath), x ∈ allPosts d body → x.treePath = tp →
      (x.reqPath = path ∨ (x.reqPath = str "" ∧ ∀ p, ¬ d.Published path p)) →
      (∀ w, s.tree.witness x.entry path = some (.ok w) → s.httpRequest dataCert page req =
        some (addV2CertificateHeader dataCert x.response w x.treePath.toExprPath)) →
      ((∃ p, d.Published path p ∧ TypeOf p x.type ∧ x.cache = str "public, max-age=31536000, immutable" ∧ d.Picks p req x.enc x.body) ∨
        ((∀ p, ¬ d.Published path p) ∧ x.type = str "text/html" ∧ x.cache = str "public, no-cache, no-store" ∧
          d.Picks (str "index.html") req x.enc x.body)) →
      (∃ res info ct caching e c hs, s.httpRequest dataCert page req = some res ∧ res.Page ct caching e c ∧
        ((∃ p, d.Published path p ∧ TypeOf p ct ∧ caching = str "public, max-age=31536000, immutable" ∧ d.Picks p req e c) ∨
          ((∀ p, ¬ d.Published path p) ∧ ct = str "text/html" ∧ caching = str "public, no-cache, no-store" ∧
            d.Picks (str "index.html") req e c)) ∧
        verifyPair env req res minV = .ok info ∧ info.version = 2 ∧
        info.response = some { statusCode := some 200, body := c, headers := hs } ∧ (str "content-type", ct) ∈ hs) ∨
      CollisionIn [CelExpr.skip.toBytes] [customCel.toBytes] := by
    intro x tp hx htp hor hreq hspec
    subst htp
    rcases post_verifies hd hb hp hs hc hx hpath (post_responds hd hb hn hne hx hor) hstart hend hmin with ⟨w, info, w1, w2, w3, w4, -⟩ | h
    · exact Or.inl ⟨_, info, x.type, x.cache, x.enc, x.body, _, hreq w w1, post_page x _ _ _, hspec, w2, w3, w4, by
        refine List.mem_append_left _ ?_
        have hin : (str "content-type", x.type) ∈ x.response.headers := by
          simp [Post.response, customResponse, customHeaders, Post.add]
        unfold certifiedRespHeaders
        have e1 : (RespCert.headerExclusions []).Certifies (str "content-type") := by decide
        have e2 : lower (str "content-type") = str "content-type" := by decide
        refine List.mem_map.2 ⟨_, List.mem_filter.2 ⟨hin, by simpa using e1⟩, by rw [e2]⟩⟩
    · exact Or.inr h
  have hslash : ∃ p, path = slashByte :: p := by
    obtain ⟨h1, -⟩ := hn
    cases path with
    | nil => simp at h1
    | cons a q => simp at h1; exact ⟨q, by rw [h1]⟩
  obtain ⟨p, rfl⟩ := hslash
  by_cases hpub : ∃ ct, TypeOf p ct ∧ ∃ c, (p, c) ∈ d.files
  · obtain ⟨ct, hct, c0, hc0⟩ := hpub
    have hty : HasType p ct := by
      obtain ⟨pre, g, post, h1, h2, -⟩ := hct
      exact ⟨g, by rw [h1]; simp, h2⟩
    have hfind : ∀ e c, d.Offers p e c → (allPosts d body).reverse.find? (fun y => y.enc = e ∧ y.reqPath = slashByte :: p) =
        some (filePost p ct e c) := fun e c h => (find_file hd hb e p).2 ⟨ct, c, hct, ⟨c0, hc0⟩, h, rfl⟩
    have hr : s.responses (slashByte :: p) = some (filePost p ct none c0).stored := by
      rw [hp.resp, hfind _ _ (.plain hc0)]; rfl
    obtain ⟨e, c, hpick, hoff, hch⟩ := choose_picks (s := s) (req := req) (reqPath := slashByte :: p) (mk := filePost p ct) (.plain hc0)
      (fun e he => by
        by_cases h : ∃ c, d.Offers p (some e) c
        · obtain ⟨c, h⟩ := h
          exact .inl ⟨c, h, by rw [hp.enc, hfind _ _ h]; rfl⟩
        · refine .inr ⟨fun c hc => h ⟨c, hc⟩, ?_⟩
          rw [hp.enc]
          cases hf : (allPosts d body).reverse.find? (fun y => y.enc = some e ∧ y.reqPath = slashByte :: p) with
          | none => rfl
          | some x =>
            obtain ⟨_, c, -, -, h', -⟩ := (find_file hd hb _ p).1 hf
            exact absurd ⟨c, h'⟩ h)
    refine fin (filePost p ct e c) (.exact (slashByte :: p)) ((mem_allPosts hd hb).2 (.inr ⟨p, ct, e, c, hty, ⟨c0, hc0⟩, hoff, rfl⟩)) rfl
      (.inl rfl) (fun w hw => ?_) (.inl ⟨p, ⟨rfl, ⟨c0, hc0⟩, ct, hty⟩, hct, rfl, hpick⟩)
    have ht : (filePost p ct e c).treePath = HttpPath.exact (slashByte :: p) := by simp only [filePost]
    have hw' : s.tree.witness ⟨.exact (slashByte :: p), (filePost p ct e c).stored.cert⟩ (slashByte :: p) = some (.ok w) := by
      rw [← hw, entry_eq, ht]
    unfold CustomSite.httpRequest
    rw [hpath]
    simp only [Except.toOption, Option.bind_eq_bind, Option.bind_some, if_neg hne, hr, hch, hw', ht, stored_response, Option.pure_def]
  · have hno : ∀ q, ¬ d.Published (slashByte :: p) q := by
      rintro q ⟨h1, h2, ct, h3⟩
      have := (List.cons.inj h1).2
      subst this
      refine hpub ?_
      obtain ⟨c, hc⟩ := h2
      obtain ⟨ct', h⟩ := exists_typeOf h3
      exact ⟨ct', h, c, hc⟩
    have hfind : ∀ e c, d.Offers (str "index.html") e c → (allPosts d body).reverse.find? (fun y => y.enc = e ∧ y.reqPath = str "") =
        some (indexPost e c) := fun e c h => (find_index hd hb e).2 ⟨c, h, rfl⟩
    have hr0 : s.responses (slashByte :: p) = none := by
      rw [hp.resp]
      cases hf : (allPosts d body).reverse.find? (fun y => y.enc = none ∧ y.reqPath = slashByte :: p) with
      | none => rfl
      | some x =>
        obtain ⟨ct, c, h1, h2, -⟩ := (find_file hd hb _ p).1 hf
        exact absurd ⟨ct, h1, h2⟩ hpub
    have hr : s.responses (str "") = some (indexPost none body).stored := by
      rw [hp.resp, hfind _ _ (.plain hb)]; rfl
    obtain ⟨e, c, hpick, hoff, hch⟩ := choose_picks (s := s) (req := req) (reqPath := str "") (mk := indexPost) (.plain hb)
      (fun e he => by
        by_cases h : ∃ c, d.Offers (str "index.html") (some e) c
        · obtain ⟨c, h⟩ := h
          exact .inl ⟨c, h, by rw [hp.enc, hfind _ _ h]; rfl⟩
        · refine .inr ⟨fun c hc => h ⟨c, hc⟩, ?_⟩
          rw [hp.enc]
          cases hf : (allPosts d body).reverse.find? (fun y => y.enc = some e ∧ y.reqPath = str "") with
          | none => rfl
          | some x =>
            obtain ⟨c, h', -⟩ := (find_index hd hb _).1 hf
            exact absurd ⟨c, h'⟩ h)
    refine fin (indexPost e c) (.wildcard (str "")) ((mem_allPosts hd hb).2 (.inl ⟨e, c, hoff, rfl⟩)) rfl
      (.inr ⟨rfl, hno⟩) (fun w hw => ?_) (.inr ⟨hno, rfl, rfl, hpick⟩)
    have ht : (indexPost e c).treePath = HttpPath.wildcard (str "") := by simp only [indexPost]
    have hw' : s.tree.witness ⟨.wildcard (str ""), (indexPost e c).stored.cert⟩ (slashByte :: p) = some (.ok w) := by
      rw [← hw, entry_eq, ht]
    unfold CustomSite.httpRequest
    rw [hpath]
    simp only [Except.toOption, Option.bind_eq_bind, Option.bind_some, if_neg hne, hr0, hr, Option.map_some, hch, hw', ht, stored_response, Option.pure_def]

/-- **C67.** The page at `/uncertified` is served whatever it says, and it is accepted - as is anything else that anyone serves there
under the same witness and the skip expression, with no verified content. -/
theorem C67_uncertified {m : Machine} {d : Front} (hd : d.Proper m) : ∃ s, CustomSite.init d = some s ∧
    ∀ (env : Env) (dataCert page : Bytes) (req : HttpRequest) (minV : Nat), env.machine = m →
      CustomCertified env s dataCert → req.getPath = .ok (str "/uncertified") → minV ≤ 2 →
      (∃ res info, s.httpRequest dataCert page req = some res ∧ res.status = 200 ∧ res.body = page ∧
        verifyPair env req res minV = .ok info ∧ info.version = 2 ∧ info.response = none ∧
        ∃ w, res = addV2CertificateHeader dataCert (uncertifiedResponse page) w [str "http_expr", str "uncertified", str "<$>"] ∧
        ∀ other : HttpResponse, LastHeader other.headers (str "IC-CertificateExpression") CelExpr.skip.toBytes →
          ∃ info', verifyPair env req (addV2CertificateHeader dataCert other w [str "http_expr", str "uncertified", str "<$>"]) minV =
            .ok info' ∧ info'.response = none) ∨
      CollisionIn [customCel.toBytes] [CelExpr.skip.toBytes] := by
  obtain ⟨body, hb⟩ := hd.index
  obtain ⟨s, hinit, hp, hs⟩ := custom_init ((getFile_iff hd.unique).2 hb) (by
    intro t ht p hp
    by_contra h
    exact hd.dirs hp (ct := t.2) ⟨t.1, ht, by simpa using h⟩)
  refine ⟨s, hinit, ?_⟩
  rintro env dataCert page req minV rfl hc hpath hmin
  have hrun : ctRun (customOps d body) = some s.tree := hp.run
  obtain ⟨c, c1, c2, c3⟩ := hc.cert
  have hue : uncertifiedEntry.path = .exact (str "/uncertified") := by unfold uncertifiedEntry; with_reducible rfl
  have hex : uncertifiedEntry.path.toExprPath = [str "http_expr", str "uncertified", str "<$>"] := by rw [hue]; decide
  have huse := hc.usize
  have key : ∀ res : HttpResponse, LastHeader res.headers (str "IC-CertificateExpression") CelExpr.skip.toBytes →
      (∃ w info, s.tree.witness uncertifiedEntry (str "/uncertified") = some (.ok w) ∧
        verifyPair env req (addV2CertificateHeader dataCert res w [str "http_expr", str "uncertified", str "<$>"]) minV = .ok info ∧
        info.version = 2 ∧ info.response = none) ∨ CollisionIn [customCel.toBytes] [CelExpr.skip.toBytes] := by
    intro res hres
    rcases complete_core (env := env) (ops := customOps d body) (f := uncertifiedEntry) (x := .skip) (q := req) (req := req)
        (r := res) (res := res) (path := str "/uncertified") (dataCert := dataCert) (c := c) (minV := minV) customKind
        (fun o ho g hg => custom_made hd hb ⟨o, ho, hg⟩) uncertified_clean
        ((custom_spec _ _ _).2 (.inl rfl)) .skip (by simp [CelExpr.names]) (by rw [hue]; exact rfl) hpath
        trivial (fun _ => hres) c1 c2 (fun t ht => by rw [hrun] at ht; cases ht; rw [c3, hs]) hc.usize
        ⟨by rw [hue]; decide, by
          have : uncertifiedEntry.path.url.length + 9 = 21 := by rw [hue]; decide
          rw [this]; exact ⟨by omega, by omega⟩⟩
        (fun t ht => by rw [hrun] at ht; cases ht; exact hc.fits) hmin (by decide) (by unfold PlainEndPath; decide)
      with ⟨t, w, info, w1, w2, w3, -, w4, w5⟩ | ⟨o, o1, g, o2, o3, o4⟩
    · rw [hrun] at w1; cases w1
      rw [hex] at w3
      exact .inl ⟨w, info, w2, w3, w4, w5⟩
    · right
      rcases custom_ops ⟨o, o1, o2⟩ with rfl | ⟨x, hx, rfl⟩
      · have := o3.1 (by rw [customKind, if_pos rfl])
        simp at this
      · rw [customKind, if_neg (post_ne x)] at o4
        exact o4
  by_cases hcol : CollisionIn [customCel.toBytes] [CelExpr.skip.toBytes]
  · exact .inr hcol
  left
  have hlast : LastHeader (uncertifiedResponse page).headers (str "IC-CertificateExpression") CelExpr.skip.toBytes := by
    refine ⟨customSecurityHeaders ++ [(str "content-length", decimal page.length)], certExprHeaderName,
      [(str "content-type", str "text/html")], ?_, ?_, ?_⟩
    · simp [uncertifiedResponse, customHeaders]
    · decide
    · intro h hh
      rw [List.mem_singleton] at hh
      subst hh
      show ¬ SameName (str "content-type") _
      decide
  rcases key _ hlast with ⟨w, info, w1, w2, w3, w4⟩ | h
  swap
  · exact absurd h hcol
  refine ⟨_, info, ?_, rfl, rfl, w2, w3, w4, w, rfl, fun other ho => ?_⟩
  · have hch : s.choose (str "/uncertified") ⟨uncertifiedResponse page, .mkSkip⟩ (customAccept req) = ⟨uncertifiedResponse page, .mkSkip⟩ := by
      have henc : ∀ e, s.encoded (str "/uncertified", e) = none := by
        intro e
        rw [hp.enc]
        cases hf : (allPosts d body).reverse.find? (fun y => y.enc = some e ∧ y.reqPath = str "/uncertified") with
        | none => rfl
        | some x =>
          have hsl : str "/uncertified" = slashByte :: str "uncertified" := by decide
          rw [hsl] at hf
          obtain ⟨ct, c, ⟨pre, g, post, h1, h2, -⟩, ⟨c', h3⟩, -, -⟩ := (find_file hd hb _ _).1 hf
          exact absurd rfl (hd.names h3 (ct := ct) ⟨g, by rw [h1]; simp, h2⟩).1
      unfold CustomSite.choose
      cases customAccept req with
      | none => rfl
      | some v => simp only [henc, ite_self]
    have w1' : s.tree.witness ⟨.exact (str "/uncertified"), .mkSkip⟩ (str "/uncertified") = some (.ok w) := by
      rw [← w1]; unfold uncertifiedEntry; with_reducible rfl
    rw [hue] at hex
    unfold CustomSite.httpRequest
    rw [hpath]
    simp only [Except.toOption, Option.bind_eq_bind, Option.bind_some, if_true, hch, w1', hex, Option.pure_def]
  · rcases key _ ho with ⟨w', info', v1, v2, -, v4⟩ | h
    · rw [w1] at v1
      simp only [Option.some.injEq, Except.ok.injEq] at v1
      subst v1
      exact ⟨info', v2, v4⟩
    · exact absurd h hcol

end
end Verif.Props
