import Verif.Props.AssetVerify

set_option linter.unusedSimpArgs false
set_option linter.unusedSectionVars false

/-!
# Property C76: calls of the asset router that fail
-/

namespace Verif.Props
open Verif HashTree

section
variable [SHA] [UriLib] [GlobLib]

/-- The work done by a run over a list that stops at the first failure. -/
theorem each_prefix {α : Type} {f : α → Effects} (hnil : ∀ x, (f x).2 ≠ .ok () → (f x).1 = []) (xs : List α) :
    ∃ pre post, xs = pre ++ post ∧ (∀ x ∈ pre, (f x).2 = .ok ()) ∧
      (Effects.each f xs).1 = pre.flatMap (fun x => (f x).1) ∧ (∀ j, post.head? = some j → (f j).2 ≠ .ok ()) := by
  induction xs with
  | nil => exact ⟨[], [], rfl, by simp, rfl, by simp⟩
  | cons x xs ih =>
    by_cases hx : (f x).2 = .ok ()
    · obtain ⟨pre, post, h1, h2, h3, h4⟩ := ih
      refine ⟨x :: pre, post, by rw [h1]; rfl, ?_, ?_, h4⟩
      · intro y hy
        rcases List.mem_cons.1 hy with rfl | hy
        · exact hx
        · exact h2 y hy
      · show (Effects.andThen (f x) (Effects.each f xs)).1 = _
        rw [Effects.andThen_list hx, h3, List.flatMap_cons]
    · refine ⟨[], x :: xs, rfl, by simp, ?_, ?_⟩
      · show (Effects.andThen (f x) (Effects.each f xs)).1 = _
        unfold Effects.andThen
        have := hnil x hx
        revert this hx
        rcases f x with ⟨l, _ | ⟨⟩⟩
        · intro _ h; simpa using h
        · intro h; exact absurd rfl h
      · intro j hj
        simp only [List.head?_cons, Option.some.injEq] at hj
        subst hj; exact hx

theorem put_nil (i : Item) (h : i.put.2 ≠ .ok ()) : i.put.1 = [] := by
  rw [put_list]
  rw [ne_eq, put_ok] at h
  cases hp : i.prepare with
  | error e => rfl
  | ok x => exact absurd ⟨x, hp⟩ h

theorem withdraw_nil (i : Item) (h : i.withdraw.2 ≠ .ok ()) : i.withdraw.1 = [] := by
  rw [ne_eq, withdraw_ok] at h
  unfold Item.withdraw Effects.need
  cases hp : i.prepare with
  | error e => rfl
  | ok x => exact absurd ⟨x, hp⟩ h

/-- **C76.** `delete_assets` succeeds exactly when all patterns are well formed, the URLs of all announced items parse,
and no configured header is the expression header. -/
theorem C76_delete_succeeds {assets values : List Asset} {configs : List AssetConfig} (hv : IsValues assets values) :
    (RouterCall.delete assets values configs).Succeeds ↔
      (∀ p ct hs en, AssetConfig.pattern p ct hs en ∈ configs → (GlobLib.compile p).isSome) ∧
      ∀ i, Announces assets configs i → (UriLib.parse i.url).isSome ∧
        ∀ h ∈ i.headers, ¬ SameName h.1 (str "IC-CertificateExpression") := by
  unfold RouterCall.Succeeds RouterCall.effects
  simp only
  rw [deleteAssets_items, Effects.need_ok, ← normalizeAll_ok]
  constructor
  · rintro ⟨cs, h1, h2⟩
    refine ⟨⟨cs, h1⟩, fun i hi => ?_⟩
    have main : ∀ i, Announces assets configs i → i.isChunk = false → NoExprHeader i.headers ∧ (UriLib.parse i.url).isSome := by
      intro i hi hc
      have := Effects.each_ok.1 h2 i ((mem_callItems' h1 hv i).2 ⟨hi, hc⟩)
      rw [withdraw_ok, Item.prepare_isOk] at this
      exact this
    have : NoExprHeader i.headers ∧ (UriLib.parse i.url).isSome := by
      cases hi with
      | whole a1 a2 a3 a4 => exact main _ (.whole a1 a2 a3 a4) rfl
      | fallback a1 a2 a3 a4 => exact main _ (.fallback a1 a2 a3 a4) rfl
      | redirect a1 => exact main _ (.redirect a1) rfl
      | chunk a1 a2 a3 a4 b1 b2 =>
        have := main _ (.whole a1 a2 a3 a4) rfl
        rw [← Item.prepare_isOk] at this ⊢
        rw [pageItem_ok (mem_pageItems.2 (.inr ⟨b1, _, rfl, b2⟩))]
        rwa [pageItem_ok (mem_pageItems.2 (.inl rfl))] at this
    exact ⟨this.2, this.1⟩
  · rintro ⟨⟨cs, h1⟩, h2⟩
    refine ⟨cs, h1, Effects.each_ok.2 fun i hi => ?_⟩
    rw [withdraw_ok, Item.prepare_isOk]
    have := h2 i ((mem_callItems' h1 hv i).1 hi).1
    exact ⟨this.2, this.1⟩

/-- **C76.** A call with a pattern that is not well formed changes nothing. -/
theorem C76_bad_pattern {calls : List RouterCall} {assets values : List Asset} {configs : List AssetConfig}
    {p : Bytes} {ct : Option Bytes} {hs : List Header} {en : List (AssetEncoding × Bytes)}
    (hp : AssetConfig.pattern p ct hs en ∈ configs) (hbad : GlobLib.compile p = none) :
    ∀ c, c = RouterCall.certify assets values configs ∨ c = RouterCall.delete assets values configs →
      ¬ c.Succeeds ∧ routerRun (calls ++ [c]) = routerRun calls ∧ treeLog (calls ++ [c]) = treeLog calls := by
  have hn : ∀ cs, normalizeAll configs ≠ .ok cs := by
    intro cs h
    have := normalizeAll_ok.1 ⟨cs, h⟩ p ct hs en hp
    rw [hbad] at this; cases this
  have key : ∀ c : RouterCall, c.effects.1 = [] → routerRun (calls ++ [c]) = routerRun calls ∧
      treeLog (calls ++ [c]) = treeLog calls := by
    intro c hc
    unfold routerRun treeLog
    rw [List.flatMap_append]
    simp [hc]
  have hneed : ∀ f : List NConfig → Effects, (Effects.need (normalizeAll configs) f).1 = [] ∧
      (Effects.need (normalizeAll configs) f).2 ≠ .ok () := by
    intro f
    cases h : normalizeAll configs with
    | error e => exact ⟨rfl, by simp [Effects.need]⟩
    | ok cs => exact absurd h (hn cs)
  rintro c (rfl | rfl)
  · have : (RouterCall.certify assets values configs).effects = certifyAssets assets values configs := rfl
    rw [certifyAssets_items] at this
    exact ⟨by unfold RouterCall.Succeeds; rw [this]; exact (hneed _).2, key _ (by rw [this]; exact (hneed _).1)⟩
  · have : (RouterCall.delete assets values configs).effects = deleteAssets assets values configs := rfl
    rw [deleteAssets_items] at this
    exact ⟨by unfold RouterCall.Succeeds; rw [this]; exact (hneed _).2, key _ (by rw [this]; exact (hneed _).1)⟩

/-- What a certification does, whether it succeeds or fails, in terms of items. -/
theorem certify_list_any {assets values : List Asset} {configs : List AssetConfig} (hv : IsValues assets values) :
    ∃ pre : List Item, (∀ i ∈ pre, Announces assets configs i) ∧ (∀ i ∈ pre, ∃ x, i.prepare = .ok x) ∧
      (RouterCall.certify assets values configs).effects.1 = pre.flatMap (fun i => i.put.1) ∧
      ((RouterCall.certify assets values configs).Succeeds → ∀ i, Announces assets configs i → i ∈ pre) ∧
      (pre = [] ∨ ∃ cs post, normalizeAll configs = .ok cs ∧ callItems pageItems assets values cs = pre ++ post ∧
        ∀ j, post.head? = some j → ¬ ∃ x, j.prepare = .ok x) := by
  have he : (RouterCall.certify assets values configs).effects = certifyAssets assets values configs := rfl
  rw [certifyAssets_items] at he
  unfold RouterCall.Succeeds
  rw [he]
  cases h : normalizeAll configs with
  | error e => exact ⟨[], by simp, by simp, rfl, by simp [Effects.need], .inl rfl⟩
  | ok cs =>
    obtain ⟨pre, post, h1, h2, h3, h4⟩ := each_prefix put_nil (callItems pageItems assets values cs)
    have hm := mem_callItems h hv
    refine ⟨pre, ?_, fun i hi => (put_ok i).1 (h2 i hi), h3, ?_, .inr ⟨cs, post, rfl, h1, ?_⟩⟩
    · intro i hi
      exact (hm i).1 (by rw [h1]; exact List.mem_append_left _ hi)
    · intro hok i hi
      have hok : (Effects.each Item.put (callItems pageItems assets values cs)).2 = .ok () := hok
      rw [Effects.each_ok] at hok
      have hi' := (hm i).2 hi
      cases post with
      | nil => rwa [h1, List.append_nil] at hi'
      | cons j post => exact absurd (hok j (by rw [h1]; simp)) (h4 j rfl)
    · intro j hj
      rw [← put_ok]; exact h4 j hj

/-- The tree operations of publishing items. -/
theorem put_entries (items : List Item) (h : ∀ i ∈ items, ∃ x, i.prepare = .ok x) : ∃ es : List CertEntry,
    (items.flatMap (fun i => i.put.1)).filterMap Effect.treeOp? = es.map CtOp.insert ∧
    ∀ e, e ∈ es ↔ ∃ i x, i ∈ items ∧ i.Answer x ∧ e = x.entry := by
  induction items with
  | nil => exact ⟨[], rfl, by simp⟩
  | cons i items ih =>
    obtain ⟨es, e1, e2⟩ := ih (fun j hj => h j (by simp [hj]))
    obtain ⟨x, hx⟩ := h i (by simp)
    refine ⟨x.entry :: es, ?_, ?_⟩
    · rw [List.flatMap_cons, List.filterMap_append, e1, put_list, hx]
      cases i.isFallback <;> rfl
    · intro e
      rw [List.mem_cons, e2]
      constructor
      · rintro (rfl | ⟨j, y, j1, j2, j3⟩)
        · exact ⟨i, x, by simp, Item.prepare_ok.1 hx, rfl⟩
        · exact ⟨j, y, by simp [j1], j2, j3⟩
      · rintro ⟨j, y, j1, j2, j3⟩
        rcases List.mem_cons.1 j1 with rfl | j1
        · left; rw [j3, answer_unique j2 (Item.prepare_ok.1 hx)]
        · exact .inr ⟨j, y, j1, j2, j3⟩

/-- What publishing some items changes. -/
theorem certify_done {calls : List RouterCall} {c : RouterCall} {r r' : Router} {pre : List Item}
    (h2 : ∀ i ∈ pre, ∃ x, i.prepare = .ok x) (h3 : c.effects.1 = pre.flatMap (fun i => i.put.1))
    (hr : routerRun calls = some r) (hr' : routerRun (calls ++ [c]) = some r') :
    (∀ k, ((∃ i x, i ∈ pre ∧ i.isFallback = false ∧ i.key = k ∧ i.Answer x ∧ r'.responses k = some x) ∨
      ((∀ i, i ∈ pre → i.isFallback = false → i.key ≠ k) ∧ r'.responses k = r.responses k)) ∧
    ((∃ i x, i ∈ pre ∧ i.isFallback = true ∧ i.key = k ∧ i.Answer x ∧ r'.fallbacks k = some x) ∨
      ((∀ i, i ∈ pre → i.isFallback = true → i.key ≠ k) ∧ r'.fallbacks k = r.fallbacks k))) ∧
    (∀ p, ctSpec (treeLog (calls ++ [c])) p ↔ ctSpec (treeLog calls) p ∨
      ∃ i x, i ∈ pre ∧ i.Answer x ∧ p = x.entry.toTreePath) ∧
    ∀ i x, i ∈ pre → i.Answer x → CtOp.insert x.entry ∈ treeLog (calls ++ [c]) := by
  obtain ⟨-, a2, a3⟩ := routerRun_iff.1 hr
  obtain ⟨-, b2, b3⟩ := routerRun_iff.1 hr'
  have he : effectsOf (calls ++ [c]) = effectsOf calls ++ pre.flatMap (fun i => i.put.1) := by
    rw [effectsOf_append, ← h3]
    simp [effectsOf]
  rw [he, List.foldl_append, ← a2] at b2
  rw [he, List.foldl_append, ← a3] at b3
  obtain ⟨es, e1, e2⟩ := put_entries pre h2
  have e1' : treeLog [c] = es.map CtOp.insert := by
    rw [← e1]; unfold treeLog; rw [← h3]; simp
  refine ⟨fun k => ⟨?_, ?_⟩, fun p => ?_, ?_⟩
  · rw [b2]
    rcases foldl_puts pre r.responses h2 k with ⟨pre', i, post, x, c1, c2, c3, c4, c5, c6⟩ | ⟨c1, c2⟩
    · exact .inl ⟨i, x, by rw [c1]; simp, c2, c3, Item.prepare_ok.1 c4, c5⟩
    · exact .inr ⟨c1, c2⟩
  · rw [b3]
    rcases foldl_putsF pre r.fallbacks h2 k with ⟨pre', i, post, x, c1, c2, c3, c4, c5, c6⟩ | ⟨c1, c2⟩
    · exact .inl ⟨i, x, by rw [c1]; simp, c2, c3, Item.prepare_ok.1 c4, c5⟩
    · exact .inr ⟨c1, c2⟩
  · have : ctSpec (treeLog (calls ++ [c])) p ↔
        (es.map CtOp.insert).foldl CtOp.spec (ctSpec (treeLog calls)) p := by
      unfold ctSpec
      rw [treeLog_append, e1', List.foldl_append]
    rw [this, ctSpec_inserts]
    refine or_congr_right ?_
    constructor
    · rintro ⟨e, he, rfl⟩
      obtain ⟨i, x, a, b, rfl⟩ := (e2 e).1 he
      exact ⟨i, x, a, b, rfl⟩
    · rintro ⟨i, x, a, b, rfl⟩
      exact ⟨_, (e2 _).2 ⟨i, x, a, b, rfl⟩, rfl⟩
  · intro i x hi hx
    rw [treeLog_append, e1']
    exact List.mem_append_right _ (List.mem_map.2 ⟨_, (e2 _).2 ⟨i, x, hi, hx, rfl⟩, rfl⟩)

/-- **C76.** Whether `certify_assets` succeeds or fails, it publishes some of the announced items, all of them if it
succeeds: what the router holds and what its tree certifies change together, exactly by the responses and entries of
these items, and nothing else changes. -/
theorem C76_certify {calls : List RouterCall} {assets values : List Asset} {configs : List AssetConfig} {r r' : Router}
    (hv : IsValues assets values)
    (hr : routerRun calls = some r) (hr' : routerRun (calls ++ [.certify assets values configs]) = some r') :
    ∃ done : Item → Prop, (∀ i, done i → Announces assets configs i ∧ ∃ x, i.Answer x) ∧
      ((RouterCall.certify assets values configs).Succeeds → ∀ i, Announces assets configs i → done i) ∧
      (∀ k, ((∃ i x, done i ∧ i.isFallback = false ∧ i.key = k ∧ i.Answer x ∧ r'.responses k = some x) ∨
          ((∀ i, done i → i.isFallback = false → i.key ≠ k) ∧ r'.responses k = r.responses k)) ∧
        ((∃ i x, done i ∧ i.isFallback = true ∧ i.key = k ∧ i.Answer x ∧ r'.fallbacks k = some x) ∨
          ((∀ i, done i → i.isFallback = true → i.key ≠ k) ∧ r'.fallbacks k = r.fallbacks k))) ∧
      ∀ p, ctSpec (treeLog (calls ++ [.certify assets values configs])) p ↔ ctSpec (treeLog calls) p ∨
        ∃ i x, done i ∧ i.Answer x ∧ p = x.entry.toTreePath := by
  obtain ⟨pre, h1, h2, h3, h4, -⟩ := certify_list_any (configs := configs) hv
  obtain ⟨c1, c2, -⟩ := certify_done h2 h3 hr hr'
  refine ⟨(· ∈ pre), fun i hi => ⟨h1 i hi, ?_⟩, h4, c1, c2⟩
  obtain ⟨x, hx⟩ := h2 i hi
  exact ⟨x, Item.prepare_ok.1 hx⟩

/-- **C76.** Whether `delete_assets` succeeds or fails, it withdraws some of the announced items, all of them if it
succeeds: the router holds nothing at their places and the tree no longer certifies their entries (those for chunks
excepted, as in C47); nothing else changes. -/
theorem C76_delete {calls : List RouterCall} {assets values : List Asset} {configs : List AssetConfig} {r r' : Router}
    (hv : IsValues assets values)
    (hr : routerRun calls = some r) (hr' : routerRun (calls ++ [.delete assets values configs]) = some r') :
    ∃ done : Item → Prop, (∀ i, done i → Announces assets configs i ∧ ∃ x, i.Answer x) ∧
      ((RouterCall.delete assets values configs).Succeeds → ∀ i, Announces assets configs i → done i) ∧
      (∀ k, ((∃ i, done i ∧ i.isFallback = false ∧ i.key = k) → r'.responses k = none) ∧
        ((∀ i, done i → i.isFallback = false → i.key ≠ k) → r'.responses k = r.responses k) ∧
        ((∃ i, done i ∧ i.isFallback = true ∧ i.key = k) → r'.fallbacks k = none) ∧
        ((∀ i, done i → i.isFallback = true → i.key ≠ k) → r'.fallbacks k = r.fallbacks k)) ∧
      ∀ p, ctSpec (treeLog (calls ++ [.delete assets values configs])) p ↔ ctSpec (treeLog calls) p ∧
        ∀ i x, done i → i.isChunk = false → i.Answer x → p ≠ x.entry.toTreePath := by
  have hlist : ∃ pre : List Item, (∀ i ∈ pre, Announces assets configs i ∧ i.isChunk = false) ∧
      (∀ i ∈ pre, ∃ x, i.prepare = .ok x) ∧
      (RouterCall.delete assets values configs).effects.1 = pre.flatMap (fun i => i.withdraw.1) ∧
      ((RouterCall.delete assets values configs).Succeeds → ∀ i, Announces assets configs i → i.isChunk = false → i ∈ pre) := by
    have he : (RouterCall.delete assets values configs).effects = deleteAssets assets values configs := rfl
    rw [deleteAssets_items] at he
    unfold RouterCall.Succeeds
    rw [he]
    cases h : normalizeAll configs with
    | error e => exact ⟨[], by simp, by simp, rfl, by simp [Effects.need]⟩
    | ok cs =>
      obtain ⟨pre, post, h1, h2, h3, h4⟩ := each_prefix withdraw_nil (callItems (fun u p => [.whole u p]) assets values cs)
      have hm := mem_callItems' h hv
      refine ⟨pre, ?_, fun i hi => (withdraw_ok i).1 (h2 i hi), h3, ?_⟩
      · intro i hi
        exact (hm i).1 (by rw [h1]; exact List.mem_append_left _ hi)
      · intro hok i hi hc
        have hok : (Effects.each Item.withdraw (callItems (fun u p => [.whole u p]) assets values cs)).2 = .ok () := hok
        rw [Effects.each_ok] at hok
        have hi' := (hm i).2 ⟨hi, hc⟩
        cases post with
        | nil => rwa [h1, List.append_nil] at hi'
        | cons j post => exact absurd (hok j (by rw [h1]; simp)) (h4 j rfl)
  obtain ⟨pre, h1, h2, h3, h4⟩ := hlist
  obtain ⟨-, a2, a3⟩ := routerRun_iff.1 hr
  obtain ⟨-, b2, b3⟩ := routerRun_iff.1 hr'
  have he : effectsOf (calls ++ [.delete assets values configs]) = effectsOf calls ++ pre.flatMap (fun i => i.withdraw.1) := by
    rw [effectsOf_append, ← h3]
    simp [effectsOf]
  rw [he, List.foldl_append, ← a2] at b2
  rw [he, List.foldl_append, ← a3] at b3
  obtain ⟨-, -, es, e1, e2⟩ := withdraws pre h2 ⟨[], none, none⟩
  -- the chunks of a page withdrawn count as withdrawn
  refine ⟨fun i => Announces assets configs i ∧ (i ∈ pre ∨ ∃ u p n, i = .chunk u p n ∧ .whole u p ∈ pre), ?_, ?_, ?_, ?_⟩
  · rintro i ⟨hi, hd⟩
    refine ⟨hi, ?_⟩
    rcases hd with hd | ⟨u, p, n, rfl, hd⟩
    · obtain ⟨x, hx⟩ := h2 i hd; exact ⟨x, Item.prepare_ok.1 hx⟩
    · cases hi with
      | chunk a1 a2 a3 a4 b1 b2 =>
        have hw := h2 _ hd
        rw [pageItem_ok (mem_pageItems.2 (.inl rfl)), ← pageItem_ok (mem_pageItems.2 (.inr ⟨b1, _, rfl, b2⟩))] at hw
        obtain ⟨x, hx⟩ := hw
        exact ⟨x, Item.prepare_ok.1 hx⟩
  · intro hok i hi
    refine ⟨hi, ?_⟩
    cases hi with
    | whole a1 a2 a3 a4 => exact .inl (h4 hok _ (.whole a1 a2 a3 a4) rfl)
    | fallback a1 a2 a3 a4 => exact .inl (h4 hok _ (.fallback a1 a2 a3 a4) rfl)
    | redirect a1 => exact .inl (h4 hok _ (.redirect a1) rfl)
    | chunk a1 a2 a3 a4 b1 b2 => exact .inr ⟨_, _, _, rfl, h4 hok _ (.whole a1 a2 a3 a4) rfl⟩
  · intro k
    obtain ⟨w1, w2, -⟩ := withdraws pre h2 k
    have f1 : (∃ i ∈ pre, i.isFallback = false ∧ k ∈ itemKeys i) ↔
        ∃ i, (Announces assets configs i ∧ (i ∈ pre ∨ ∃ u p n, i = .chunk u p n ∧ .whole u p ∈ pre)) ∧
          i.isFallback = false ∧ i.key = k := by
      constructor
      · rintro ⟨i, i1, i2, i3⟩
        have ha := (h1 i i1).1
        cases ha with
        | whole a1 a2 a3 a4 =>
          rcases List.mem_cons.1 i3 with i3 | i3
          · exact ⟨_, ⟨.whole a1 a2 a3 a4, .inl i1⟩, rfl, i3.symm⟩
          · obtain ⟨j, j1, j2⟩ := List.mem_map.1 i3
            obtain ⟨b1, n, rfl, b2⟩ := mem_chunkItems.1 j1
            exact ⟨_, ⟨.chunk a1 a2 a3 a4 b1 b2, .inr ⟨_, _, _, rfl, i1⟩⟩, rfl, j2⟩
        | chunk => exact absurd (h1 _ i1).2 (by simp [Item.isChunk])
        | fallback => simp [Item.isFallback] at i2
        | redirect a1 =>
          simp only [itemKeys, List.mem_singleton] at i3
          exact ⟨_, ⟨.redirect a1, .inl i1⟩, rfl, i3.symm⟩
      · rintro ⟨i, ⟨ha, hd⟩, i2, i3⟩
        rcases hd with hd | ⟨u, p, n, rfl, hd⟩
        · refine ⟨i, hd, i2, ?_⟩
          cases i <;> simp_all [itemKeys]
        · refine ⟨_, hd, rfl, ?_⟩
          cases ha with
          | chunk a1 a2 a3 a4 b1 b2 =>
            rw [itemKeys, List.mem_cons, List.mem_map]
            exact .inr ⟨_, mem_chunkItems.2 ⟨b1, _, rfl, b2⟩, i3⟩
    have f2 : (∃ i ∈ pre, i.isFallback = true ∧ k = i.key) ↔
        ∃ i, (Announces assets configs i ∧ (i ∈ pre ∨ ∃ u p n, i = .chunk u p n ∧ .whole u p ∈ pre)) ∧
          i.isFallback = true ∧ i.key = k := by
      constructor
      · rintro ⟨i, a, b, c⟩; exact ⟨i, ⟨(h1 i a).1, .inl a⟩, b, c.symm⟩
      · rintro ⟨i, ⟨ha, hd⟩, b, c⟩
        rcases hd with hd | ⟨u, p, n, rfl, hd⟩
        · exact ⟨i, hd, b, c.symm⟩
        · simp [Item.isFallback] at b
    rw [b2, b3]
    refine ⟨?_, ?_, ?_, ?_⟩
    · intro h
      rcases w1 r.responses with ⟨a, -⟩ | ⟨-, b⟩
      · exact a
      · obtain ⟨i, i1, i2, i3⟩ := f1.2 h
        exact absurd i3 (b i i1 i2)
    · intro h
      rcases w1 r.responses with ⟨-, b⟩ | ⟨a, -⟩
      · obtain ⟨i, i1, i2, i3⟩ := f1.1 b
        exact absurd i3 (h i i1 i2)
      · exact a
    · intro h
      rcases w2 r.fallbacks with ⟨a, -⟩ | ⟨-, b⟩
      · exact a
      · obtain ⟨i, i1, i2, i3⟩ := f2.2 h
        exact absurd i3 (b i i1 i2)
    · intro h
      rcases w2 r.fallbacks with ⟨-, b⟩ | ⟨a, -⟩
      · obtain ⟨i, i1, i2, i3⟩ := f2.1 b
        exact absurd i3 (h i i1 i2)
      · exact a
  · intro p
    have e1' : treeLog [RouterCall.delete assets values configs] = es.map CtOp.delete := by
      rw [← e1]; unfold treeLog; rw [← h3]; simp
    have : ctSpec (treeLog (calls ++ [.delete assets values configs])) p ↔
        (es.map CtOp.delete).foldl CtOp.spec (ctSpec (treeLog calls)) p := by
      unfold ctSpec
      rw [treeLog_append, e1', List.foldl_append]
    rw [this, ctSpec_deletes]
    refine and_congr_right fun _ => ?_
    constructor
    · rintro h i x ⟨-, hd⟩ hc hx
      rcases hd with hd | ⟨u, q, n, rfl, hd⟩
      · exact h _ ((e2 _).2 ⟨i, x, hd, hx, rfl⟩)
      · simp [Item.isChunk] at hc
    · intro h e he
      obtain ⟨i, x, a, b, rfl⟩ := (e2 e).1 he
      exact h i x ⟨(h1 i a).1, .inl a⟩ (h1 i a).2 b

/-! ## Serving after a failed certification -/

/-- A run over blocks, each of which can be published as a whole or not at all, stops between blocks. -/
theorem stops_between {α : Type} {ok : α → Prop} (bs : List (List α)) (hb : ∀ b ∈ bs, (∀ x ∈ b, ok x) ∨ ∀ x ∈ b, ¬ ok x)
    {pre post : List α} (h : bs.flatten = pre ++ post) (hp : ∀ x ∈ pre, ok x) (hj : ∀ j, post.head? = some j → ¬ ok j) :
    ∃ bs1 : List (List α), (∀ b ∈ bs1, b ∈ bs) ∧ pre = bs1.flatten := by
  induction bs generalizing pre with
  | nil =>
    simp only [List.flatten_nil] at h
    have := (List.append_eq_nil_iff.1 h.symm).1
    exact ⟨[], by simp, by simpa using this⟩
  | cons b bs ih =>
    rw [List.flatten_cons] at h
    rcases hb b (by simp) with ha | hn
    · rcases List.append_eq_append_iff.1 h with ⟨as, h1, h2⟩ | ⟨cs, h1, h2⟩
      · obtain ⟨bs1, g1, g2⟩ := ih (fun b hb' => hb b (by simp [hb'])) h2 (fun x hx => hp x (by rw [h1]; simp [hx]))
        exact ⟨b :: bs1, fun c hc => by rcases List.mem_cons.1 hc with rfl | hc <;> simp [*], by rw [h1, g2]; rfl⟩
      · cases cs with
        | nil =>
          refine ⟨[b], by simp, ?_⟩
          simp only [List.append_nil] at h1
          simp [h1]
        | cons c cs =>
          exact absurd (ha c (by rw [h1]; simp)) (hj c (by rw [h2]; rfl))
    · cases b with
      | nil =>
        obtain ⟨bs1, g1, g2⟩ := ih (fun b hb' => hb b (by simp [hb'])) h hp
        exact ⟨bs1, fun c hc => by simp [g1 c hc], g2⟩
      | cons x b =>
        cases pre with
        | nil => exact ⟨[], by simp, rfl⟩
        | cons y pre =>
          simp only [List.cons_append, List.cons.injEq] at h
          exact absurd (hp y (by simp)) (by rw [← h.1]; exact hn x (by simp))

/-- The items of a call, in blocks: pages with their chunks, and single items. -/
theorem callItems_blocks (assets values : List Asset) (cs : List NConfig) : ∃ bs : List (List Item),
    callItems pageItems assets values cs = bs.flatten ∧
    ∀ b ∈ bs, (∃ u p, b = pageItems u p) ∨ ∃ i, i.isChunk = false ∧ b = [i] := by
  have hnil : ∃ bs : List (List Item), ([] : List Item) = bs.flatten ∧
      ∀ b ∈ bs, (∃ u p, b = pageItems u p) ∨ ∃ i, i.isChunk = false ∧ b = [i] := ⟨[], rfl, by simp⟩
  have happ : ∀ xs ys : List Item, (∃ bs : List (List Item), xs = bs.flatten ∧
      ∀ b ∈ bs, (∃ u p, b = pageItems u p) ∨ ∃ i, i.isChunk = false ∧ b = [i]) →
      (∃ bs : List (List Item), ys = bs.flatten ∧
      ∀ b ∈ bs, (∃ u p, b = pageItems u p) ∨ ∃ i, i.isChunk = false ∧ b = [i]) →
      ∃ bs : List (List Item), xs ++ ys = bs.flatten ∧
      ∀ b ∈ bs, (∃ u p, b = pageItems u p) ∨ ∃ i, i.isChunk = false ∧ b = [i] := by
    rintro xs ys ⟨b1, h1, h2⟩ ⟨b2, h3, h4⟩
    refine ⟨b1 ++ b2, by rw [h1, h3, List.flatten_append], fun b hb => ?_⟩
    rcases List.mem_append.1 hb with hb | hb
    · exact h2 b hb
    · exact h4 b hb
  have hflat : ∀ {α : Type} (f : α → List Item) (l : List α), (∀ a ∈ l, ∃ bs : List (List Item), f a = bs.flatten ∧
      ∀ b ∈ bs, (∃ u p, b = pageItems u p) ∨ ∃ i, i.isChunk = false ∧ b = [i]) →
      ∃ bs : List (List Item), l.flatMap f = bs.flatten ∧
      ∀ b ∈ bs, (∃ u p, b = pageItems u p) ∨ ∃ i, i.isChunk = false ∧ b = [i] := by
    intro α f l
    induction l with
    | nil => intro _; exact hnil
    | cons a l ih =>
      intro h
      rw [List.flatMap_cons]
      exact happ _ _ (h a (by simp)) (ih fun a ha => h a (by simp [ha]))
  have hsing : ∀ l : List Item, (∀ i ∈ l, i.isChunk = false) → ∃ bs : List (List Item), l = bs.flatten ∧
      ∀ b ∈ bs, (∃ u p, b = pageItems u p) ∨ ∃ i, i.isChunk = false ∧ b = [i] := by
    intro l
    induction l with
    | nil => intro _; exact hnil
    | cons i l ih =>
      intro h
      exact happ [i] l ⟨[[i]], rfl, by simp [h i (by simp)]⟩ (ih fun a ha => h a (by simp [ha]))
  have hpage : ∀ u p, ∃ bs : List (List Item), pageItems u p = bs.flatten ∧
      ∀ b ∈ bs, (∃ u p, b = pageItems u p) ∨ ∃ i, i.isChunk = false ∧ b = [i] :=
    fun u p => ⟨[pageItems u p], by simp, by simp only [List.mem_singleton]; rintro b rfl; exact .inl ⟨u, p, rfl⟩⟩
  have hasset : ∀ u s p, ∃ bs : List (List Item), assetItems pageItems u s p = bs.flatten ∧
      ∀ b ∈ bs, (∃ u p, b = pageItems u p) ∨ ∃ i, i.isChunk = false ∧ b = [i] := by
    intro u s p
    unfold assetItems
    refine happ _ _ (hpage u p) (happ _ _ (hsing _ ?_) (hflat _ _ fun a _ => hpage a p))
    intro i hi
    obtain ⟨fb, -, rfl⟩ := List.mem_map.1 hi
    rfl
  unfold callItems
  refine happ _ _ (hflat _ _ fun a _ => ?_) (hsing _ ?_)
  · unfold allItems
    refine happ _ _ (hflat _ _ fun e _ => ?_) (hasset _ _ _)
    split
    · exact hnil
    · exact hasset _ _ _
  · intro i hi
    unfold redirectItems at hi
    obtain ⟨c, -, h⟩ := List.mem_filterMap.1 hi
    split at h
    · simp only [Option.some.injEq] at h; subst h; rfl
    · cases h

/-- **C76.** Whatever the history of calls of `certify_assets`, failed ones among them, and of `delete_all_assets`: everything the
router holds is certified. -/
theorem C76_certified {calls : List RouterCall} {r : Router}
    (hc : ∀ c ∈ calls, c = .deleteAll ∨ ∃ assets values configs, c = .certify assets values configs ∧ IsValues assets values)
    (hr : routerRun calls = some r) (k : RequestKey) (x : CertifiedResponse)
    (hx : r.responses k = some x ∨ r.fallbacks k = some x) : ctSpec (treeLog calls) x.entry.toTreePath := by
  induction calls using List.reverseRecOn generalizing r with
  | nil =>
    have h := C49_start hr
    rcases hx with hx | hx
    · exact h.responses k x hx
    · exact h.fallbacks k x hx
  | append_singleton calls c ih =>
    obtain ⟨r0, h0⟩ := routerRun_some calls
    have hs := ih (fun c hc' => hc c (List.mem_append_left _ hc')) h0
    rcases hc c (by simp) with rfl | ⟨assets, values, configs, rfl, hv⟩
    · have h := C49_delete_all hr
      rcases hx with hx | hx
      · exact h.responses k x hx
      · exact h.fallbacks k x hx
    · obtain ⟨pre, h1, h2, h3, h4, h5⟩ := certify_list_any (configs := configs) hv
      obtain ⟨c1, c2, c3⟩ := certify_done h2 h3 h0 hr
      rw [c2]
      rcases hx with hx | hx
      · rcases (c1 k).1 with ⟨i, y, i1, -, -, i4, i5⟩ | ⟨-, i5⟩
        · rw [hx] at i5
          simp only [Option.some.injEq] at i5
          subst i5
          exact .inr ⟨i, x, i1, i4, rfl⟩
        · exact .inl (hs (.inl (by rw [← i5]; exact hx)))
      · rcases (c1 k).2 with ⟨i, y, i1, -, -, i4, i5⟩ | ⟨-, i5⟩
        · rw [hx] at i5
          simp only [Option.some.injEq] at i5
          subst i5
          exact .inr ⟨i, x, i1, i4, rfl⟩
        · exact .inl (hs (.inr (by rw [← i5]; exact hx)))

/-- **C76.** If no encodings other than the plain one are published, a certification, even if it fails, keeps the router in step with
its tree, so that what is served afterwards verifies (C49). The proviso is needed: see `C76_counterexample_encodings`. -/
theorem C76_certify_in_step {calls : List RouterCall} {assets values : List Asset} {configs : List AssetConfig} {r r' : Router}
    (hv : IsValues assets values)
    (hr : routerRun calls = some r) (hr' : routerRun (calls ++ [.certify assets values configs]) = some r')
    (h : InStep calls r) (hplain : ∀ i, Announces assets configs i → i.key.encoding = none) :
    InStep (calls ++ [.certify assets values configs]) r' := by
  obtain ⟨pre, h1, h2, h3, h4, h5⟩ := certify_list_any (configs := configs) hv
  obtain ⟨c1, c2, c3⟩ := certify_done h2 h3 hr hr'
  have hresp : ∀ k x, r'.responses k = some x →
      ctSpec (treeLog (calls ++ [.certify assets values configs])) x.entry.toTreePath := by
    intro k x hx
    rw [c2]
    rcases (c1 k).1 with ⟨i, y, i1, -, -, i4, i5⟩ | ⟨-, i5⟩
    · rw [hx] at i5
      simp only [Option.some.injEq] at i5
      subst i5
      exact .inr ⟨i, x, i1, i4, rfl⟩
    · exact .inl (h.responses k x (by rw [← i5]; exact hx))
  have hfall : ∀ k x, r'.fallbacks k = some x →
      ctSpec (treeLog (calls ++ [.certify assets values configs])) x.entry.toTreePath := by
    intro k x hx
    rw [c2]
    rcases (c1 k).2 with ⟨i, y, i1, -, -, i4, i5⟩ | ⟨-, i5⟩
    · rw [hx] at i5
      simp only [Option.some.injEq] at i5
      subst i5
      exact .inr ⟨i, x, i1, i4, rfl⟩
    · exact .inl (h.fallbacks k x (by rw [← i5]; exact hx))
  refine ⟨hresp, hfall, ?_⟩
  intro p hp
  rcases (c2 p).1 hp with hp | ⟨i, x, hi, hx, rfl⟩
  · obtain ⟨e, e0, e1, e2⟩ := h.certified p hp
    refine ⟨e, by rw [treeLog_append]; exact List.mem_append_left _ e0, e1, ?_⟩
    cases hpe : e.path with
    | exact a =>
      rw [hpe] at e2
      simp only at e2 ⊢
      rcases (c1 ⟨a, none, none⟩).1 with ⟨i, y, -, -, -, -, h5⟩ | ⟨-, h5⟩
      · rw [h5]; simp
      · rw [h5]; exact e2
    | wildcard a =>
      rw [hpe] at e2
      simp only at e2 ⊢
      rcases (c1 ⟨a, none, none⟩).2 with ⟨i, y, -, -, -, -, h5⟩ | ⟨-, h5⟩
      · rw [h5]; simp
      · rw [h5]; exact e2
  · refine ⟨x.entry, c3 i x hi hx, rfl, ?_⟩
    -- the plain item is published as well
    have hw : ∃ j ∈ pre, j.isFallback = i.isFallback ∧ j.key = ⟨i.certPath.url, none, none⟩ := by
      have henc := hplain i (h1 i hi)
      cases i with
      | whole u p =>
        simp only [Item.key] at henc
        exact ⟨_, hi, rfl, by simp [Item.key, Item.certPath, HttpPath.url, henc]⟩
      | redirect s d k => exact ⟨_, hi, rfl, by simp [Item.key, Item.certPath, HttpPath.url]⟩
      | fallback sc st u p =>
        simp only [Item.key] at henc
        exact ⟨_, hi, rfl, by simp [Item.key, Item.certPath, HttpPath.url, henc]⟩
      | chunk u p n =>
        simp only [Item.key] at henc
        rcases h5 with h5 | ⟨cs, post, g1, g2, g3⟩
        · rw [h5] at hi; simp at hi
        · obtain ⟨bs, b1, b2⟩ := callItems_blocks assets values cs
          have huni : ∀ b ∈ bs, (∀ x ∈ b, ∃ y, Item.prepare x = .ok y) ∨ ∀ x ∈ b, ¬ ∃ y, Item.prepare x = .ok y := by
            intro b hb
            rcases b2 b hb with ⟨u, p, rfl⟩ | ⟨i, -, rfl⟩
            · by_cases hq : NoExprHeader p.allHeaders ∧ (UriLib.parse u).isSome
              · exact .inl fun x hx => (pageItem_ok hx).2 hq
              · exact .inr fun x hx hy => hq ((pageItem_ok hx).1 hy)
            · by_cases hq : ∃ y, i.prepare = .ok y
              · left; simpa using hq
              · right; simpa using hq
          obtain ⟨bs1, k1, k2⟩ := stops_between (ok := fun i : Item => ∃ x, i.prepare = .ok x) bs huni
            (by rw [← b1]; exact g2) h2 g3
          rw [k2] at hi
          obtain ⟨b, hb, hib⟩ := List.mem_flatten.1 hi
          rcases b2 b (k1 b hb) with ⟨u', p', rfl⟩ | ⟨j, j1, rfl⟩
          · rcases mem_pageItems.1 hib with hib | ⟨-, n', hib, -⟩
            · cases hib
            · cases hib
              refine ⟨.whole u p, ?_, rfl, by simp [Item.key, Item.certPath, HttpPath.url, henc]⟩
              rw [k2]
              exact List.mem_flatten.2 ⟨_, hb, mem_pageItems.2 (.inl rfl)⟩
          · rw [List.mem_singleton] at hib
            subst hib
            simp [Item.isChunk] at j1
    obtain ⟨j, j1, j2, j3⟩ := hw
    rw [hx.path]
    cases hf : i.isFallback with
    | false =>
      rw [certPath_exact hf]
      simp only
      rcases (c1 ⟨i.certPath.url, none, none⟩).1 with ⟨i, y, -, -, -, -, h5⟩ | ⟨h5, -⟩
      · rw [h5]; simp
      · exact absurd j3 (h5 j j1 (j2.trans hf))
    | true =>
      rw [certPath_wild hf]
      simp only
      rcases (c1 ⟨i.certPath.url, none, none⟩).2 with ⟨i, y, -, -, -, -, h5⟩ | ⟨h5, -⟩
      · rw [h5]; simp
      · exact absurd j3 (h5 j j1 (j2.trans hf))

/-- **C76.** After any history of calls of `certify_assets`, failed ones without encodings among them, and of
`delete_all_assets`, the router is in step with its tree. -/
theorem C76_in_step {calls : List RouterCall} {r : Router}
    (hc : ∀ c ∈ calls, c = .deleteAll ∨ ∃ assets values configs, c = .certify assets values configs ∧
      IsValues assets values ∧ (c.Succeeds ∨ ∀ i, Announces assets configs i → i.key.encoding = none))
    (hr : routerRun calls = some r) : InStep calls r := by
  induction calls using List.reverseRecOn generalizing r with
  | nil => exact C49_start hr
  | append_singleton calls c ih =>
    obtain ⟨r0, h0⟩ := routerRun_some calls
    have hs := ih (fun c hc' => hc c (List.mem_append_left _ hc')) h0
    rcases hc c (by simp) with rfl | ⟨assets, values, configs, rfl, h1, h2 | h2⟩
    · exact C49_delete_all hr
    · exact C49_certify h1 h2 h0 hr hs
    · exact C76_certify_in_step h1 h0 hr hs h2

end
end Verif.Props
