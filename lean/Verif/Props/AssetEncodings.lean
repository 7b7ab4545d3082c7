import Verif.Props.AssetExamples

set_option linter.unusedSimpArgs false
set_option linter.unusedSectionVars false

/-!
# Property C48: encoding negotiation
-/

namespace Verif.Props
open Verif HashTree

theorem best_encoding {P : AssetEncoding → Prop} (h : ∃ e, P e) : ∃ e, P e ∧ ∀ e', P e' → e'.rank ≤ e.rank := by
  by_cases h1 : P .brotli
  · exact ⟨_, h1, fun e' _ => by cases e' <;> decide⟩
  by_cases h2 : P .zstd
  · exact ⟨_, h2, fun e' he' => by cases e' <;> first | decide | exact absurd he' h1⟩
  by_cases h3 : P .gzip
  · exact ⟨_, h3, fun e' he' => by cases e' <;> first | decide | exact absurd he' h1 | exact absurd he' h2⟩
  by_cases h4 : P .deflate
  · exact ⟨_, h4, fun e' he' => by
      cases e' <;> first | decide | exact absurd he' h1 | exact absurd he' h2 | exact absurd he' h3⟩
  obtain ⟨e, he⟩ := h
  refine ⟨.identity, ?_, fun e' he' => ?_⟩
  · cases e <;> first | exact he | exact absurd he h1 | exact absurd he h2 | exact absurd he h3 | exact absurd he h4
  · cases e' <;> first | decide | exact absurd he' h1 | exact absurd he' h2 | exact absurd he' h3 | exact absurd he' h4

section
variable [SHA] [UriLib] [GlobLib]

/-- What is held for an encoding says so. -/
theorem held_encoding {calls : List RouterCall} {r : Router} (hr : routerRun calls = some r) {path : Bytes}
    {range : Option Nat} {e : AssetEncoding} {x : CertifiedResponse} (h : r.held path range (some e) = some x) :
    (str "content-encoding", e.token) ∈ x.response.headers := by
  have key : ∀ k, r.responses k = some x → k.encoding = some e.token →
      (str "content-encoding", e.token) ∈ x.response.headers := by
    intro k hk he
    obtain ⟨i, i1, i2, i3, -⟩ := (router_inv hr).1 k x hk
    rw [i3.response]
    rw [← i2] at he
    have hin : ∀ p : Page, p.encoding.map AssetEncoding.token = some e.token →
        (str "content-encoding", e.token) ∈ p.allHeaders := by
      intro p hp
      obtain ⟨e', he', hn⟩ := Option.map_eq_some_iff.1 hp
      simp [Page.allHeaders, he', hn]
    cases i with
    | whole u p => simp [Item.response, Item.headers, hin p he]
    | chunk u p n => simp [Item.response, Item.headers, hin p he]
    | fallback => simp [Item.isFallback] at i1
    | redirect => simp [Item.key] at he
  unfold Router.held at h
  split at h
  · split at h
    · exact key _ h rfl
    · rename_i y hy _
      simp only [Option.some.injEq] at h
      subst h
      exact key _ hy rfl
  · cases h

section
variable [UnstableSort]

/-- **C48.** After any history, and whatever ties `sort_unstable` makes of: if a path is held in an encoding that the
request lists, or without encoding, then what is served is in the most preferred encoding among those that the request
lists and that are held (its Content-Encoding header says so), or unencoded if there is none. -/
theorem C48_negotiate {calls : List RouterCall} {r : Router} (hr : routerRun calls = some r) (m : Machine)
    (dataCert : Bytes) {req : HttpRequest} {path : Bytes} {range : Option Nat}
    (hutf : ∀ h ∈ req.headers, (chars h.2).isSome) (hpath : req.getPath = .ok path) (hrange : AsksFrom m req range)
    (hheld : r.held path range none ≠ none ∨ ∃ e, Accepts req e ∧ r.held path range (some e) ≠ none) :
    ∃ x w, r.serveAsset m dataCert req = some (.ok (addV2CertificateHeader dataCert x.response w x.entry.path.toExprPath)) ∧
      ((∃ e, r.held path range (some e) = some x ∧ Accepts req e ∧ (str "content-encoding", e.token) ∈ x.response.headers ∧
          ∀ e', Accepts req e' → r.held path range (some e') ≠ none → e'.rank ≤ e.rank) ∨
        (r.held path range none = some x ∧ ∀ e, Accepts req e → r.held path range (some e) = none)) := by
  by_cases hex : ∃ e, Accepts req e ∧ r.held path range (some e) ≠ none
  · obtain ⟨e, ⟨h1, h2⟩, h3⟩ := best_encoding hex
    obtain ⟨x, hx⟩ := Option.ne_none_iff_exists'.1 h2
    obtain ⟨w, w1, -⟩ := serve_chosen hr m dataCert hutf hpath hrange
      (.exact (.encoded h1 hx (fun e' a b => h3 e' ⟨a, b⟩)))
    exact ⟨x, w, w1, .inl ⟨e, hx, h1, held_encoding hr hx, fun e' a b => h3 e' ⟨a, b⟩⟩⟩
  · have hn : ∀ e, Accepts req e → r.held path range (some e) = none := by
      intro e he
      by_contra hne
      exact hex ⟨e, he, hne⟩
    obtain ⟨x, hx⟩ := Option.ne_none_iff_exists'.1 (hheld.resolve_right hex)
    obtain ⟨w, w1, -⟩ := serve_chosen hr m dataCert hutf hpath hrange (.exact (.plain hn hx))
    exact ⟨x, w, w1, .inr ⟨hx, hn⟩⟩

/-- **C48.** If what is held for a path is only in encodings the request does not list, the path is served as if nothing
were held for it. -/
theorem C48_unlisted {r : Router} {req : HttpRequest} {path : Bytes} {range : Option Nat}
    (h : r.held path range none = none) (he : ∀ e, Accepts req e → r.held path range (some e) = none)
    {x : CertifiedResponse} (hx : Answers r path (Accepts req) range x) :
    ∃ scope e, Encloses scope path ∧ r.heldFallback scope e = some x := by
  cases hx with
  | exact hc =>
    cases hc with
    | encoded h1 h2 _ => rw [he _ h1] at h2; cases h2
    | plain _ h2 => rw [h] at h2; cases h2
  | @fallback scope _ h1 h2 h3 h4 =>
    cases h3 with
    | @encoded e _ _ h5 _ => exact ⟨scope, some e, h2, h5⟩
    | plain _ h5 => exact ⟨scope, none, h2, h5⟩

end

/-- **C48.** The order in which the sort leaves encodings of the same quality has no effect. -/
theorem C48_sort {calls : List RouterCall} {r : Router} (hr : routerRun calls = some r) (s s' : UnstableSort) (m : Machine)
    (dataCert : Bytes) {req : HttpRequest} (hutf : ∀ h ∈ req.headers, (chars h.2).isSome) :
    @Router.serveAsset _ _ s r m dataCert req = @Router.serveAsset _ _ s' r m dataCert req := by
  cases hp : req.getPath with
  | error e =>
    rw [(@C45_serve_errors _ _ _ s r m dataCert req hutf).1 e hp, (@C45_serve_errors _ _ _ s' r m dataCert req hutf).1 e hp]
  | ok path =>
    by_cases hb : ∃ range, AsksFrom m req range
    · obtain ⟨range, hrange⟩ := hb
      rcases @C45_serve _ _ _ s _ _ hr m dataCert _ _ _ hutf hp hrange with ⟨x, w, a1, a2, a3, a4, -⟩ | ⟨a1, a2⟩ <;>
        rcases @C45_serve _ _ _ s' _ _ hr m dataCert _ _ _ hutf hp hrange with ⟨y, w', b1, b2, b3, b4, -⟩ | ⟨b1, b2⟩
      · have := a2 y b1
        subst this
        rw [a4] at b4
        simp only [Option.some.injEq, Except.ok.injEq] at b4
        subst b4
        rw [a3, b3]
      · exact absurd a1 (b1 x)
      · exact absurd b1 (a1 y)
      · rw [a2, b2]
    · rw [(@C45_serve_errors _ _ _ s r m dataCert req hutf).2 path hp hb,
        (@C45_serve_errors _ _ _ s' r m dataCert req hutf).2 path hp hb]

/-- **C48** (limit): a request that refuses an encoding by `q=0` is taken to list it. -/
theorem C48_refused (req : HttpRequest) (h : FirstHeader req.headers (str "accept-encoding") (str "br;q=0")) :
    Accepts req .brotli := by
  refine ⟨"br;q=0".toList, "br;q=0".toList, ?_, by decide, [], [], "br".toList, ";q=0".toList, rfl, rfl, rfl, by decide,
    .inr rfl⟩
  have : str "br;q=0" = utf8 "br;q=0".toList := str_eq_utf8 rfl
  rw [← this]
  exact h

end

example : FirstHeader [(str "Accept-Encoding", str "br;q=0")] (str "accept-encoding") (str "br;q=0") :=
  ⟨[], str "Accept-Encoding", [], rfl, by decide, by simp⟩

section
attribute [local instance] toyUri toyGlob mergeSorting
variable [SHA]

theorem exSoleGzip (c : Bytes) : Sole (exAssets c) exConfigs (.whole (str "/a.txt") (exPage (str "zip") (some .gzip))) := by
  refine ⟨(exAnnounced c _).2 (.inr (.inl (mem_pageItems.2 (.inl rfl)))), fun j hj hf hk => ?_⟩
  have hp : j.key.path = str "/a.txt" := by rw [hk]; rfl
  have he : j.key.encoding = some (str "gzip") := by rw [hk]; rfl
  have hno : ∀ {v : Bytes} {p : Page}, j ∈ pageItems v p → v ≠ str "/a.txt" ∨ p.encoding = none →
      j = .whole (str "/a.txt") (exPage (str "zip") (some .gzip)) := by
    intro v p h hne
    obtain ⟨l1, l2, -⟩ := pageItem_at h
    rw [l1] at hp
    rw [l2] at he
    rcases hne with hne | hne
    · exact absurd hp hne
    · simp [hne] at he
  rcases (exAnnounced c j).1 hj with h | h | rfl | h | h | rfl | h | rfl
  · exact hno h (.inr rfl)
  · exact pageItems_key_inj h (mem_pageItems.2 (.inl rfl)) hk
  · simp [Item.isFallback] at hf
  · exact hno h (.inl (by decide))
  · exact hno h (.inr rfl)
  · simp [Item.isFallback] at hf
  · exact hno h (.inr rfl)
  · simp [Item.key] at he

/-- C48_negotiate: the example holds an encoding that a request lists. -/
example (c : Bytes) : ∃ r, routerRun [.certify (exAssets c) (exAssets c).reverse exConfigs] = some r ∧
    Accepts (exAsk (str "/a.txt") [(str "accept-encoding", str "x, gzip ;q=0.3")]) .gzip ∧
    r.held (str "/a.txt") none (some .gzip) ≠ none := by
  obtain ⟨r, hr⟩ := routerRun_some [.certify (exAssets c) (exAssets c).reverse exConfigs]
  obtain ⟨x, hx, hh⟩ := C45_stays (before := []) (later := []) (exValues c) (exCertifies c) (by simp) hr (exSoleGzip c) (by simp)
  refine ⟨r, hr, ?_, ?_⟩
  · refine ⟨"x, gzip ;q=0.3".toList, " gzip ;q=0.3".toList, ⟨[], str "accept-encoding", [], ?_, by decide, by simp⟩, by decide,
      [' '], [' '], "gzip".toList, ";q=0.3".toList, rfl, by decide, by decide, by decide, .inr rfl⟩
    have : str "x, gzip ;q=0.3" = utf8 "x, gzip ;q=0.3".toList := str_eq_utf8 rfl
    rw [← this]; rfl
  · rw [Ne, held_ne_none (router_inv hr).1]
    simp only [Item.isFallback, Bool.false_eq_true, if_false, Item.key] at hh
    intro h
    rw [show (⟨str "/a.txt", (exPage (str "zip") (some .gzip)).encoding.map AssetEncoding.token, none⟩ : RequestKey) =
      ⟨str "/a.txt", (some AssetEncoding.gzip).map AssetEncoding.token, none⟩ from rfl, h] at hh
    cases hh

end
end Verif.Props
