import Verif.Props.AssetExamples
import Verif.Props.AssetVerify
import Verif.Model.AssetsExample

set_option linter.unusedSimpArgs false
set_option linter.unusedSectionVars false

/-!
# C45 for a set of plain files

The simplest use of the asset router: files are published without configuration, and each is served at its URL.
-/

namespace Verif.Props
open Verif HashTree PathShape

/-- The URL of a file: its path, with a slash put in front if it does not start with one. -/
inductive UrlOf : Bytes → Bytes → Prop
  | absolute (p : Bytes) : UrlOf (slashByte :: p) (slashByte :: p)
  | relative (p : Bytes) : p.head? ≠ some slashByte → UrlOf p (slashByte :: p)

/-- The assets made of files. -/
def fileAssets (files : List (Bytes × Bytes)) : List Asset := files.map (fun f => Asset.new f.1 f.2)

theorem urlOf_new (p c : Bytes) : UrlOf p (Asset.new p c).url ∧ (Asset.new p c).path = p ∧ (Asset.new p c).content = c := by
  refine ⟨?_, rfl, rfl⟩
  unfold Asset.new
  dsimp only
  split
  · rename_i h
    cases p with
    | nil => cases h
    | cons x p =>
      simp only [List.head?_cons, Option.some.injEq] at h
      subst h
      exact .absolute p
  · rename_i h
    exact .relative p h

theorem urlOf_unique {p u v : Bytes} (h : UrlOf p u) (h' : UrlOf p v) : u = v := by
  cases h with
  | absolute q => cases h' with
    | absolute => rfl
    | relative _ h => simp at h
  | relative _ h => cases h' with
    | absolute => simp at h
    | relative => rfl

theorem urlOf_exists (p : Bytes) : ∃ u, UrlOf p u := ⟨_, (urlOf_new p []).1⟩

section
variable [SHA] [UriLib] [GlobLib] [UnstableSort]

/-- What is announced for files. -/
theorem announces_files {files : List (Bytes × Bytes)} {i : Item} (h : Announces (fileAssets files) [] i) :
    ∃ p c u, (p, c) ∈ files ∧ UrlOf p u ∧
      (i = .whole u ⟨c, none, none, []⟩ ∨ ∃ n, i = .chunk u ⟨c, none, none, []⟩ n ∧ 2000000 < c.length) := by
  have hcur : ∀ {a}, Current (fileAssets files) a → ∃ f ∈ files, a = Asset.new f.1 f.2 := by
    rintro a ⟨pre, post, h, -⟩
    have : a ∈ fileAssets files := by rw [h]; simp
    obtain ⟨f, hf, rfl⟩ := List.mem_map.1 this
    exact ⟨f, hf, rfl⟩
  have hgov : ∀ {a s}, Governs [] a s → s = {} := by
    rintro a s (⟨pre, c, post, h, -⟩ | ⟨-, h⟩)
    · simp at h
    · exact h
  have hvar : ∀ {a : Asset} {e c}, Variant (fileAssets files) a {} e c → e = none ∧ c = a.content := by
    intro a e c hv
    cases hv with
    | plain => exact ⟨rfl, rfl⟩
    | encoded h => cases h
  cases h with
  | whole h1 h2 h3 h4 =>
    have := hgov h2
    subst this
    obtain ⟨rfl, rfl⟩ := hvar h3
    obtain ⟨f, hf, rfl⟩ := hcur h1
    rcases h4 with rfl | h4
    · exact ⟨f.1, f.2, _, hf, (urlOf_new _ _).1, .inl rfl⟩
    · cases h4
  | chunk h1 h2 h3 h4 h5 h6 =>
    have := hgov h2
    subst this
    obtain ⟨rfl, rfl⟩ := hvar h3
    obtain ⟨f, hf, rfl⟩ := hcur h1
    rcases h4 with rfl | h4
    · exact ⟨f.1, f.2, _, hf, (urlOf_new _ _).1, .inr ⟨_, rfl, h5⟩⟩
    · cases h4
  | fallback h1 h2 h3 h4 =>
    have := hgov h2
    subst this
    cases h4
  | redirect h => cases h

/-- **C45** for plain files. Files, no two of which have the same URL, are published in a new router without configuration. If
their URLs parse then this succeeds, and a request without a Range header for the URL of a file of at most 2,000,000 bytes, whatever
encodings it accepts, is answered with the file; a request for a path that is the URL of no file is refused. -/
theorem C45_files {files : List (Bytes × Bytes)} {values : List Asset} {r : Router} (hv : IsValues (fileAssets files) values)
    (hnodup : files.Pairwise (fun f g => ∀ u, UrlOf f.1 u → ¬ UrlOf g.1 u))
    (hparse : ∀ f ∈ files, ∀ u, UrlOf f.1 u → (UriLib.parse u).isSome)
    (hr : routerRun [.certify (fileAssets files) values []] = some r)
    (m : Machine) (dataCert : Bytes) {req : HttpRequest} {path : Bytes} (hpath : req.getPath = .ok path)
    (hutf : ∀ h ∈ req.headers, (chars h.2).isSome) (hrange : ∀ h ∈ req.headers, ¬ SameName h.1 (str "range")) :
    (RouterCall.certify (fileAssets files) values []).Succeeds ∧
    (∀ f ∈ files, UrlOf f.1 path → f.2.length ≤ 2000000 →
      ∃ res, r.serveAsset m dataCert req = some (.ok res) ∧ res.status = 200 ∧ res.body = f.2) ∧
    ((∀ f ∈ files, ¬ UrlOf f.1 path) → r.serveAsset m dataCert req = some (.error (.noAsset path))) := by
  have hok : (RouterCall.certify (fileAssets files) values []).Succeeds := by
    rw [C45_certify_succeeds hv]
    refine ⟨by simp, ?_⟩
    intro i hi
    obtain ⟨p, c, u, h1, h2, rfl | ⟨n, rfl, -⟩⟩ := announces_files hi
    · exact ⟨hparse _ h1 _ h2, by simp [Item.headers, Page.allHeaders]⟩
    · refine ⟨hparse _ h1 _ h2, ?_⟩
      intro h hh
      simp only [Item.headers, Page.allHeaders, List.nil_append, Option.map_none, Option.toList_none, List.mem_singleton] at hh
      subst hh
      show ¬ SameName (str "content-range") _
      decide
  have hfaith : ∀ c ∈ [RouterCall.certify (fileAssets files) values []], c.Faithful := by
    intro c hc
    rw [List.mem_singleton] at hc
    subst hc; exact hv
  have hab := @held_about _ _ _ _ hfaith r hr
  -- nothing is held in an encoding, or as a fallback
  have hheld : ∀ k x, r.responses k = some x → ∃ p c u, (p, c) ∈ files ∧ UrlOf p u ∧
      (k = ⟨u, none, none⟩ ∨ ∃ n, k = ⟨u, none, some n⟩) := by
    intro k x hx
    obtain ⟨c, hc, i, hi, -, hk, -⟩ := (hab (k := k) (x := x)).1 hx
    rw [List.mem_singleton] at hc
    subst hc
    obtain ⟨p, c, u, h1, h2, rfl | ⟨n, rfl, -⟩⟩ := announces_files hi
    · exact ⟨p, c, u, h1, h2, .inl hk.symm⟩
    · exact ⟨p, c, u, h1, h2, .inr ⟨_, hk.symm⟩⟩
  have hfall : ∀ k, r.fallbacks k = none := by
    intro k
    cases h : r.fallbacks k with
    | none => rfl
    | some x =>
      obtain ⟨c, hc, i, hi, hf, -, -⟩ := (hab (k := k) (x := x)).2 h
      rw [List.mem_singleton] at hc
      subst hc
      obtain ⟨p, c, u, h1, h2, rfl | ⟨n, rfl, -⟩⟩ := announces_files hi <;> cases hf
  have henc : ∀ u e, r.held u none (some e) = none := by
    intro u e
    unfold Router.held
    cases h : r.responses ⟨u, (some e).map AssetEncoding.token, none⟩ with
    | none => rfl
    | some x =>
      obtain ⟨p, c, v, -, -, hk | ⟨n, hk⟩⟩ := hheld _ x h <;> simp at hk
  refine ⟨hok, ?_, ?_⟩
  · rintro ⟨p, c⟩ hf hu hlen
    dsimp only at hu hlen
    have hcur : Current (fileAssets files) (Asset.new p c) := by
      obtain ⟨pre, post, rfl⟩ := List.append_of_mem hf
      refine ⟨fileAssets pre, fileAssets post, by simp [fileAssets], ?_⟩
      intro b hb heq
      obtain ⟨g, hg, rfl⟩ := List.mem_map.1 hb
      have heq : g.1 = p := heq
      have := (List.pairwise_append.1 hnodup).2.1
      rw [List.pairwise_cons] at this
      refine this.1 g hg path hu ?_
      rw [heq]; exact hu
    have hurl : (Asset.new p c).url = path := urlOf_unique (urlOf_new p c).1 hu
    have hsole : Sole (fileAssets files) [] (.whole path ⟨c, none, none, []⟩) := by
      refine ⟨.whole (a := Asset.new p c) (s := {}) hcur (.inr ⟨by simp, rfl⟩) .plain (.inl hurl.symm), ?_⟩
      intro j hj _ hk
      obtain ⟨p', c', u, h1, h2, rfl | ⟨n, rfl, -⟩⟩ := announces_files hj
      · simp only [Item.key, RequestKey.mk.injEq] at hk
        obtain ⟨rfl, -⟩ := hk
        have hsame : (p', c') = (p, c) := by
          obtain ⟨pre, post, rfl⟩ := List.append_of_mem hf
          obtain ⟨-, hb, hc⟩ := List.pairwise_append.1 hnodup
          rcases List.mem_append.1 h1 with h | h
          · exact absurd hu (hc _ h _ List.mem_cons_self _ h2)
          · rcases List.mem_cons.1 h with h | h
            · exact h
            · exact absurd h2 ((List.pairwise_cons.1 hb).1 _ h _ hu)
        cases hsame
        rfl
      · simp [Item.key] at hk
    obtain ⟨w, -, hs⟩ := (C45_place (before := []) (later := []) hv hok (by simp) hr m dataCert hutf hrange).1 path
      ⟨c, none, none, []⟩ hpath hsole (by simp) hlen (fun e _ => henc _ e)
    exact ⟨_, hs, rfl, rfl⟩
  · intro hno
    rcases C45_serve hr m dataCert hutf hpath (.noHeader hrange) with ⟨x, w, hans, -⟩ | ⟨-, h⟩
    · exfalso
      cases hans with
      | exact h =>
        cases h with
        | encoded _ h => rw [henc] at h; cases h
        | plain _ h =>
          unfold Router.held at h
          split at h
          · rename_i y hy
            obtain ⟨p, c, u, h1, h2, hk | ⟨n, hk⟩⟩ := hheld _ y hy
            · simp only [Option.map_none, RequestKey.mk.injEq, and_true] at hk
              subst hk
              exact hno _ h1 h2
            · simp at hk
          · cases h
      | fallback _ _ h =>
        cases h with
        | encoded _ h => simp [Router.heldFallback, hfall] at h
        | plain _ h => simp [Router.heldFallback, hfall] at h
    · exact h

end

/-- **C48.** With the default configurations of some encodings, the content of an asset in an encoding is that of the current asset
whose path has `.br` (Brotli), `.zst` (Zstandard), `.gz` (Gzip) or `.zz` (Deflate) added; in the encoding `identity`, the asset itself
(if no later asset has its path). -/
theorem C48_default {assets : List Asset} {a : Asset} {s : Settings} {encs : List AssetEncoding} {e : AssetEncoding} {c : Bytes}
    (hs : s.encodings = encs.map AssetEncoding.defaultConfig) :
    Variant assets a s (some e) c ↔ e ∈ encs ∧ ∃ b, Current assets b ∧ c = b.content ∧
      ((e = .brotli ∧ b.path = a.path ++ str ".br") ∨ (e = .zstd ∧ b.path = a.path ++ str ".zst") ∨
       (e = .gzip ∧ b.path = a.path ++ str ".gz") ∨ (e = .deflate ∧ b.path = a.path ++ str ".zz") ∨
       (e = .identity ∧ b.path = a.path)) := by
  constructor
  · intro h
    cases h with
    | encoded h1 h2 h3 =>
      rw [hs] at h1
      obtain ⟨e', he, heq⟩ := List.mem_map.1 h1
      cases heq
      refine ⟨he, _, h2, rfl, ?_⟩
      cases e <;> simp_all
  · rintro ⟨he, b, hb, rfl, h⟩
    refine .encoded (ext := e.defaultConfig.2) ?_ hb ?_
    · rw [hs]
      exact List.mem_map.2 ⟨e, he, rfl⟩
    · rcases h with ⟨rfl, h⟩ | ⟨rfl, h⟩ | ⟨rfl, h⟩ | ⟨rfl, h⟩ | ⟨rfl, h⟩ <;> simp [h, AssetEncoding.defaultConfig]

/-- C48_default: a Zstandard variant. -/
example : Variant [Asset.new (str "a") (str "1"), Asset.new (str "a.zst") (str "2")] (Asset.new (str "a") (str "1"))
    { encodings := [AssetEncoding.brotli, .zstd].map AssetEncoding.defaultConfig } (some .zstd) (str "2") :=
  (C48_default rfl).2 ⟨by simp, Asset.new (str "a.zst") (str "2"), ⟨[_], [], rfl, by simp⟩, rfl, .inr (.inl ⟨rfl, rfl⟩)⟩

section
attribute [local instance] toySHA toyUri toyGlob mergeSorting

/-- All hypotheses of C45_files are met: one path with, one without slash. -/
example : IsValues (fileAssets [(str "a", str "1"), (str "/b", str "2")]) (fileAssets [(str "a", str "1"), (str "/b", str "2")]) ∧
    [(str "a", str "1"), (str "/b", str "2")].Pairwise (fun f g => ∀ u, UrlOf f.1 u → ¬ UrlOf g.1 u) ∧
    UrlOf (str "a") (str "/a") ∧ UrlOf (str "/b") (str "/b") ∧
    ∃ r, routerRun [.certify (fileAssets [(str "a", str "1"), (str "/b", str "2")])
      (fileAssets [(str "a", str "1"), (str "/b", str "2")]) []] = some r := by
  refine ⟨?_, ?_, .relative _ (by decide), .absolute (str "b"), routerRun_some _⟩
  · intro a
    constructor
    · intro h
      simp only [fileAssets, List.map_cons, List.map_nil, List.mem_cons, List.not_mem_nil, or_false] at h
      rcases h with rfl | rfl
      · exact ⟨[], [_], rfl, by decide⟩
      · exact ⟨[_], [], rfl, by simp⟩
    · rintro ⟨pre, post, h, -⟩
      rw [h]; simp
  · simp only [List.pairwise_cons, List.mem_cons, List.not_mem_nil, or_false, forall_eq]
    refine ⟨?_, by simp⟩
    intro u h1 h2
    have e1 := urlOf_unique h1 (.relative (str "a") (by decide))
    have e2 := urlOf_unique h2 (.absolute (str "b"))
    rw [e1] at e2
    exact absurd e2 (by decide)

end
end Verif.Props
