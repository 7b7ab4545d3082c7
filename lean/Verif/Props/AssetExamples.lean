import Verif.Props.AssetDelete

set_option linter.unusedSimpArgs false
set_option linter.unusedSectionVars false

/-!
# The hypotheses of the theorems about the asset router can be met

A router with one configured asset (with an encoding, an alias, a fallback), one asset without configuration, and a
redirect. The content of the first asset is arbitrary: it may be large.
-/

namespace Verif.Props
open Verif HashTree

@[instance_reducible] def toyGlob : GlobLib := ⟨fun p => some (fun a => p == a)⟩

@[instance_reducible] def mergeSorting : UnstableSort where
  sort l := l.mergeSort (fun a b => decide (b.2 ≤ a.2))
  perm l := List.mergeSort_perm l _
  sorted l := by
    have := List.pairwise_mergeSort (le := fun (a b : Bytes × Nat) => decide (b.2 ≤ a.2))
      (by intro a b c; simp; omega) (by intro a b; simp; omega) l
    simpa using this

def exAssets (c : Bytes) : List Asset := [Asset.new (str "a.txt") c, Asset.new (str "a.txt.gz") (str "zip")]

def exConfigs : List AssetConfig :=
  [.file (str "a.txt") (some (str "text/plain")) [(str "cache-control", str "x")] [⟨str "/", some 404⟩] [str "/alias"]
    [(.gzip, str ".gz")],
   .redirect (str "/old") (str "/new") .permanent]

def exPage (c : Bytes) (e : Option AssetEncoding) : Page := ⟨c, e, some (str "text/plain"), [(str "cache-control", str "x")]⟩

def exNormalized : List NConfig :=
  [.file (str "a.txt") (some (str "text/plain")) [(str "cache-control", str "x")] [⟨str "/", some 404⟩] [str "/alias"]
    [(.gzip, str ".gz")],
   .redirect (str "/old") (str "/new") .permanent]

theorem exValues (c : Bytes) : IsValues (exAssets c) (exAssets c).reverse := by
  intro a
  rw [List.mem_reverse]
  constructor
  · intro h
    simp only [exAssets, List.mem_cons, List.not_mem_nil, or_false] at h
    rcases h with rfl | rfl
    · exact ⟨[], [Asset.new (str "a.txt.gz") (str "zip")], rfl, by
        intro b hb; rw [List.mem_singleton] at hb; subst hb; show str "a.txt.gz" ≠ str "a.txt"; decide⟩
    · exact ⟨[Asset.new (str "a.txt") c], [], rfl, by simp⟩
  · rintro ⟨pre, post, h, -⟩
    rw [h]; simp

theorem exItems (c : Bytes) : callItems pageItems (exAssets c) (exAssets c).reverse exNormalized =
    pageItems (str "/a.txt.gz") ⟨str "zip", none, none, []⟩ ++
    ((pageItems (str "/a.txt") (exPage (str "zip") (some .gzip)) ++
      ([.fallback (str "/") (some 404) (str "/a.txt") (exPage (str "zip") (some .gzip))] ++
        pageItems (str "/alias") (exPage (str "zip") (some .gzip)))) ++
    (pageItems (str "/a.txt") (exPage c none) ++
      ([.fallback (str "/") (some 404) (str "/a.txt") (exPage c none)] ++ pageItems (str "/alias") (exPage c none)))) ++
    [.redirect (str "/old") (str "/new") .permanent] := by
  have f1 : exNormalized.find? (fun n => n.matchesAsset (Asset.new (str "a.txt") c)) = exNormalized.head? := rfl
  have f2 : exNormalized.find? (fun n => n.matchesAsset (Asset.new (str "a.txt.gz") (str "zip"))) = none := rfl
  have f3 : assetAt (exAssets c) ((Asset.new (str "a.txt") c).path ++ str ".gz") =
    some (Asset.new (str "a.txt.gz") (str "zip")) := rfl
  have h1 : ∀ gen, allItems gen (exAssets c) exNormalized (Asset.new (str "a.txt") c) =
      assetItems gen (str "/a.txt") (settingsOf exNormalized.head?) (exPage (str "zip") (some .gzip)) ++
      assetItems gen (str "/a.txt") (settingsOf exNormalized.head?) (exPage c none) := by
    intro gen
    unfold allItems
    rw [f1]
    simp only [exNormalized, List.head?_cons, settingsOf, NConfig.settings, List.flatMap_cons, List.flatMap_nil,
      List.append_nil, f3]
    rfl
  have h2 : ∀ gen, allItems gen (exAssets c) exNormalized (Asset.new (str "a.txt.gz") (str "zip")) =
      assetItems gen (str "/a.txt.gz") {} ⟨str "zip", none, none, []⟩ := by
    intro gen
    unfold allItems
    rw [f2]
    rfl
  unfold callItems
  show (([Asset.new (str "a.txt.gz") (str "zip"), Asset.new (str "a.txt") c] : List Asset).flatMap _) ++ _ = _
  rw [List.flatMap_cons, List.flatMap_cons, h1, h2]
  simp [assetItems, exNormalized, settingsOf, NConfig.settings, redirectItems]

section
attribute [local instance] toyUri toyGlob mergeSorting
variable [SHA]

/-- All that is announced. -/
theorem exAnnounced (c : Bytes) (i : Item) : Announces (exAssets c) exConfigs i ↔
    i ∈ pageItems (str "/a.txt.gz") ⟨str "zip", none, none, []⟩ ∨
    i ∈ pageItems (str "/a.txt") (exPage (str "zip") (some .gzip)) ∨
    i = .fallback (str "/") (some 404) (str "/a.txt") (exPage (str "zip") (some .gzip)) ∨
    i ∈ pageItems (str "/alias") (exPage (str "zip") (some .gzip)) ∨
    i ∈ pageItems (str "/a.txt") (exPage c none) ∨
    i = .fallback (str "/") (some 404) (str "/a.txt") (exPage c none) ∨
    i ∈ pageItems (str "/alias") (exPage c none) ∨
    i = .redirect (str "/old") (str "/new") .permanent := by
  rw [← mem_callItems (cs := exNormalized) rfl (exValues c), exItems]
  simp only [List.mem_append, List.mem_singleton, or_assoc]

def ownNames : List Bytes := [str "content-type", str "content-encoding", str "content-range", str "location"]

theorem page_header {p : Page} {h : Header} (hh : h ∈ p.allHeaders) : h.1 ∈ ownNames ∨ h ∈ p.headers := by
  simp only [Page.allHeaders, List.mem_append, Option.mem_toList, Option.mem_def, Option.map_eq_some_iff] at hh
  rcases hh with (hh | ⟨ct, -, rfl⟩) | ⟨e, -, rfl⟩
  · exact .inr hh
  · exact .inl (by simp [ownNames])
  · exact .inl (by simp [ownNames])

theorem pageItem_header {u : Bytes} {p : Page} {i : Item} (hi : i ∈ pageItems u p) {h : Header} (hh : h ∈ i.headers) :
    h.1 ∈ ownNames ∨ h ∈ p.headers := by
  rcases mem_pageItems.1 hi with rfl | ⟨-, n, rfl, -⟩
  · exact page_header hh
  · simp only [Item.headers, List.mem_append, List.mem_singleton] at hh
    rcases hh with hh | rfl
    · exact page_header hh
    · exact .inl (by simp [ownNames])

theorem ownNames_ok : ∀ n ∈ str "cache-control" :: ownNames, ¬ SameName n (str "IC-CertificateExpression") := by decide

theorem exHeaderNames (c : Bytes) (i : Item) (hi : Announces (exAssets c) exConfigs i) :
    ∀ h ∈ i.headers, h.1 ∈ str "cache-control" :: ownNames := by
  have hown : ∀ {h : Header}, h.1 ∈ ownNames ∨ h ∈ [(str "cache-control", str "x")] → h.1 ∈ str "cache-control" :: ownNames := by
    rintro h (h1 | h1)
    · exact List.mem_cons_of_mem _ h1
    · rw [List.mem_singleton] at h1
      subst h1
      simp
  intro h hh
  rcases (exAnnounced c i).1 hi with h1 | h1 | rfl | h1 | h1 | rfl | h1 | rfl
  · rcases pageItem_header h1 hh with h2 | h2
    · exact hown (.inl h2)
    · simp at h2
  · exact hown (pageItem_header h1 hh)
  · exact hown (page_header hh)
  · exact hown (pageItem_header h1 hh)
  · exact hown (pageItem_header h1 hh)
  · exact hown (page_header hh)
  · exact hown (pageItem_header h1 hh)
  · simp only [Item.headers, List.mem_singleton] at hh
    subst hh
    exact hown (.inl (by simp [ownNames]))

theorem exHeaders (c : Bytes) (i : Item) (hi : Announces (exAssets c) exConfigs i) :
    ∀ h ∈ i.headers, ¬ SameName h.1 (str "IC-CertificateExpression") := by
  intro h hh
  exact ownNames_ok _ (exHeaderNames c i hi h hh)

theorem exCertifies (c : Bytes) : (RouterCall.certify (exAssets c) (exAssets c).reverse exConfigs).Succeeds := by
  rw [C45_certify_succeeds (exValues c)]
  exact ⟨fun _ _ _ _ _ => rfl, fun i hi => ⟨rfl, exHeaders c i hi⟩⟩

theorem delete_succeeds {assets values : List Asset} {configs : List AssetConfig} (hv : IsValues assets values)
    (h : (RouterCall.certify assets values configs).Succeeds) : (RouterCall.delete assets values configs).Succeeds := by
  obtain ⟨h1, h2⟩ := (C45_certify_succeeds hv).1 h
  obtain ⟨cs, hcs⟩ := normalizeAll_ok.2 h1
  unfold RouterCall.Succeeds RouterCall.effects
  simp only
  rw [deleteAssets_items, Effects.need_ok]
  refine ⟨cs, hcs, Effects.each_ok.2 fun i hi => ?_⟩
  rw [withdraw_ok, Item.prepare_isOk]
  have := h2 i ((mem_callItems' hcs hv i).1 hi).1
  exact ⟨this.2, this.1⟩

theorem pageItem_at {u : Bytes} {p : Page} {i : Item} (hi : i ∈ pageItems u p) :
    i.key.path = u ∧ i.key.encoding = p.encoding.map AssetEncoding.token ∧ i.isFallback = false := by
  rcases mem_pageItems.1 hi with rfl | ⟨-, n, rfl, -⟩ <;> exact ⟨rfl, rfl, rfl⟩

/-- The asset and its chunks are the only items for their places. -/
theorem exSole (c : Bytes) (u : Bytes) (hu : u = str "/a.txt" ∨ u = str "/alias") {i : Item}
    (hi : i ∈ pageItems u (exPage c none)) : Sole (exAssets c) exConfigs i := by
  refine ⟨(exAnnounced c i).2 (by rcases hu with rfl | rfl <;> simp [hi]), fun j hj hf hk => ?_⟩
  obtain ⟨k1, k2, k3⟩ := pageItem_at hi
  rw [k3] at hf
  have hp : j.key.path = u := by rw [hk, k1]
  have he : j.key.encoding = none := by rw [hk, k2]; rfl
  have hno : ∀ {v : Bytes} {p : Page}, j ∈ pageItems v p → v ≠ u ∨ p.encoding ≠ none → j = i := by
    intro v p h hne
    obtain ⟨l1, l2, -⟩ := pageItem_at h
    rw [l1] at hp
    rw [l2] at he
    rcases hne with hne | hne
    · exact absurd hp hne
    · simp at he; exact absurd he hne
  have h1 : str "/a.txt.gz" ≠ str "/a.txt" := by decide
  have h2 : str "/a.txt.gz" ≠ str "/alias" := by decide
  have h3 : str "/old" ≠ str "/a.txt" := by decide
  have h4 : str "/old" ≠ str "/alias" := by decide
  have h5 : str "/alias" ≠ str "/a.txt" := by decide
  rcases (exAnnounced c j).1 hj with h | h | rfl | h | h | rfl | h | rfl
  · exact hno h (.inl (by rcases hu with rfl | rfl <;> assumption))
  · exact hno h (.inr (by simp [exPage]))
  · simp [Item.isFallback] at hf
  · exact hno h (.inr (by simp [exPage]))
  · rcases hu with rfl | rfl
    · exact pageItems_key_inj h hi hk
    · exact hno h (.inl h5.symm)
  · simp [Item.isFallback] at hf
  · rcases hu with rfl | rfl
    · exact hno h (.inl h5)
    · exact pageItems_key_inj h hi hk
  · simp only [Item.key] at hp
    rcases hu with rfl | rfl
    · exact absurd hp h3
    · exact absurd hp h4

def exAsk (path : Bytes) (hs : List Header) : HttpRequest := { method := str "GET", url := path, headers := hs, body := [] }

omit [SHA] in
theorem no_accept (path : Bytes) (e : AssetEncoding) : ¬ Accepts (exAsk path []) e := by
  rintro ⟨text, item, ⟨pre, n, post, h, -⟩, -⟩
  simp [exAsk] at h

/-- C45_place: the asset (if it is not large) is served at its alias, after a later call about something else. -/
example (c : Bytes) (hc : c.length ≤ 2000000) (m : Machine) (dc : Bytes) : ∃ r w,
    routerRun [.certify (exAssets c) (exAssets c).reverse exConfigs, .shared .clear] = some r ∧ w.digest = r.rootHash ∧
    r.serveAsset m dc (exAsk (str "/alias") []) = some (.ok (addV2CertificateHeader dc
      (Item.whole (str "/alias") (exPage c none)).response w (HttpPath.exact (str "/alias")).toExprPath)) := by
  obtain ⟨r, hr⟩ := routerRun_some [.certify (exAssets c) (exAssets c).reverse exConfigs, .shared .clear]
  obtain ⟨w, h1, h2⟩ := (C45_place (before := []) (later := [.shared .clear]) (req := exAsk (str "/alias") [])
    (exValues c) (exCertifies c) (by simp [RouterCall.Faithful]) hr m dc (by simp [exAsk]) (by simp [exAsk])).1
    (str "/alias") (exPage c none) rfl (exSole c _ (.inr rfl) (mem_pageItems.2 (.inl rfl))) (by simp [RouterCall.Touches]) hc
    (fun e he => absurd he (no_accept _ e))
  exact ⟨r, w, hr, h1, h2⟩

omit [SHA] in
theorem no_accept_range (path v : Bytes) (e : AssetEncoding) : ¬ Accepts (exAsk path [(str "Range", v)]) e := by
  rintro ⟨text, item, ⟨pre, n, post, h, h2, -⟩, -⟩
  cases pre with
  | nil =>
    simp only [exAsk, List.nil_append, List.cons.injEq, Prod.mk.injEq] at h
    rw [← h.1.1] at h2
    exact absurd h2 (by decide)
  | cons a pre => simp [exAsk] at h

omit [SHA] in
theorem ask_range (m : Machine) (path : Bytes) (n : Nat) (h : n < m.usize) :
    AsksFrom m (exAsk path [(str "Range", str "bytes=" ++ decimal n ++ str "-")]) (some n) :=
  C46_ask m _ n h (.inl ⟨[], str "Range", [], rfl, by decide, by simp⟩)

omit [SHA] in
theorem range_utf8 (n : Nat) : (chars (str "bytes=" ++ decimal n ++ str "-")).isSome := by
  have e1 : str "bytes=" = utf8 "bytes=".toList := str_eq_utf8 rfl
  have e2 : str "-" = utf8 ['-'] := str_eq_utf8 rfl
  rw [decimal_utf8, e1, e2, ← utf8_append, ← utf8_append, chars_utf8]
  rfl

/-- C46_reassemble: the chunks of the asset, if it is large, are served. -/
example (c : Bytes) (hc : 2000000 < c.length) (m : Machine) (hm : c.length < m.usize) (dc : Bytes) :
    ∃ (r : Router) (resp : Nat → HttpResponse),
    routerRun [.certify (exAssets c) (exAssets c).reverse exConfigs] = some r ∧
    (∀ i < chunkCount c, r.serveAsset m dc
      (exAsk (str "/a.txt") [(str "Range", str "bytes=" ++ decimal (i * 2000000) ++ str "-")]) = some (.ok (resp i))) ∧
    (List.range (chunkCount c)).flatMap (fun i => (resp i).body) = c := by
  obtain ⟨r, hr⟩ := routerRun_some [.certify (exAssets c) (exAssets c).reverse exConfigs]
  have hlt : ∀ i < chunkCount c, i * 2000000 < c.length := fun i hi => (chunk_lt_iff c i).2 hi
  obtain ⟨resp, h1, h2⟩ := C46_reassemble (before := []) (later := []) (url := str "/a.txt") (p := exPage c none)
    (req := fun i => exAsk (str "/a.txt") [(str "Range", str "bytes=" ++ decimal (i * 2000000) ++ str "-")])
    (exValues c) (exCertifies c) (by simp) hr m dc
    (fun i _ h hh => by
      simp only [exAsk, List.mem_singleton] at hh
      subst hh
      exact range_utf8 _)
    (fun i _ => rfl) (fun i hi => ask_range m _ _ (Nat.lt_trans (hlt i hi) hm))
    (fun i hi => exSole c _ (.inl rfl) (mem_pageItems.2 (.inr ⟨hc, i, rfl, hlt i hi⟩)))
    (by simp) (fun i _ e he => absurd he (no_accept_range _ _ e))
  exact ⟨r, resp, hr, h1, h2⟩

/-- A large content. -/
theorem exLarge : ∃ c : Bytes, 2000000 < c.length ∧ c.length < 2 ^ 32 :=
  ⟨List.replicate 2000001 7, by rw [List.length_replicate]; decide, by rw [List.length_replicate]; decide⟩

end

/-- The length and the last 31 bytes. -/
@[instance_reducible] def lengthSHA : SHA := ⟨fun b => ⟨(UInt8.ofNat b.length :: b.reverse ++ List.replicate 32 0).take 32, by simp⟩⟩

section
attribute [local instance] toyUri toyGlob lengthSHA

/-- C47_counterexample_chunks: a large asset is certified and deleted, and its chunks remain certified. -/
example (c : Bytes) (hc : 2000000 < c.length) : ∃ x, Item.Answer (.chunk (str "/a.txt") (exPage c none) 0) x ∧
    ctSpec (treeLog ([] ++ [.certify (exAssets c) (exAssets c).reverse exConfigs,
      .delete (exAssets c) (exAssets c).reverse exConfigs])) x.entry.toTreePath :=
  C47_counterexample_chunks (exValues c) (exValues c) (exCertifies c) (delete_succeeds (exValues c) (exCertifies c))
    (by decide +kernel)
    ((exSole c _ (.inl rfl) (mem_pageItems.2 (.inr ⟨hc, 0, rfl, by rw [Nat.zero_mul]; exact Nat.zero_lt_of_lt hc⟩))).1)

end
end Verif.Props
