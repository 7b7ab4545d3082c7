import Verif.Lemmas.Asset

set_option linter.unusedSimpArgs false
set_option linter.unusedSectionVars false

/-!
# Lemmas about the asset router: the state after a history
-/

namespace Verif
open HashTree Verif.Props

abbrev RespMap := RequestKey → Option CertifiedResponse

/-- The effect of an elementary change on the responses. -/
def Effect.onResponses (m : RespMap) : Effect → RespMap
  | .putResponse k x => mapSet m k (some x)
  | .removeResponse k => mapSet m k none
  | .clearResponses => fun _ => none
  | _ => m

/-- The effect of an elementary change on the fallback responses. -/
def Effect.onFallbacks (m : RespMap) : Effect → RespMap
  | .putFallback k x => mapSet m k (some x)
  | .removeFallback k => mapSet m k none
  | .clearFallbacks => fun _ => none
  | _ => m

section
variable [SHA]

theorem applyAll_eq (es : List Effect) (r : Router) :
    r.applyAll es = ((es.filterMap Effect.treeOp?).foldlM (fun t (o : CtOp) => o.run t) r.tree).map (fun t =>
      { tree := t, responses := es.foldl Effect.onResponses r.responses
        fallbacks := es.foldl Effect.onFallbacks r.fallbacks }) := by
  induction es generalizing r with
  | nil => simp [Router.applyAll]
  | cons e es ih =>
    have hc : r.applyAll (e :: es) = (r.apply e).bind (fun r' => r'.applyAll es) := by
      simp [Router.applyAll]
    rw [hc]
    cases e with
    | treeInsert e =>
      simp only [Router.apply, Effect.treeOp?, List.filterMap_cons, List.foldlM_cons, CtOp.run, Effect.onResponses,
        Effect.onFallbacks, List.foldl_cons]
      cases r.tree.insert e with
      | none => rfl
      | some t => simp only [Option.map_some, Option.bind_some, ih]; rfl
    | treeDelete e =>
      simp only [Router.apply, Effect.treeOp?, List.filterMap_cons, List.foldlM_cons, CtOp.run, Effect.onResponses,
        Effect.onFallbacks, List.foldl_cons]
      cases r.tree.delete e with
      | none => rfl
      | some t => simp only [Option.map_some, Option.bind_some, ih]; rfl
    | treeClear =>
      simp [Router.apply, Effect.treeOp?, List.filterMap_cons, List.foldlM_cons, CtOp.run, Effect.onResponses,
        Effect.onFallbacks, List.foldl_cons, ih]
    | _ =>
      simp [Router.apply, Effect.treeOp?, List.filterMap_cons, List.foldlM_cons, CtOp.run, Effect.onResponses,
        Effect.onFallbacks, List.foldl_cons, ih]

theorem ctRun_some (ops : List CtOp) : ∃ t, ctRun ops = some t := by
  obtain ⟨nt, h1, _⟩ := NTree.nRun_ok (ops.map CtOp.toNOp)
  exact ⟨⟨nt⟩, by rw [ctRun_eq, h1]; rfl⟩

variable [UriLib] [GlobLib]

/-- The elementary changes of a history. -/
def effectsOf (calls : List RouterCall) : List Effect := calls.flatMap (fun c => c.effects.1)

theorem routerRun_iff {calls : List RouterCall} {r : Router} :
    routerRun calls = some r ↔ ctRun (treeLog calls) = some r.tree ∧
      r.responses = (effectsOf calls).foldl Effect.onResponses (fun _ => none) ∧
      r.fallbacks = (effectsOf calls).foldl Effect.onFallbacks (fun _ => none) := by
  unfold routerRun
  rw [applyAll_eq]
  have : ∀ x, List.foldlM (fun t (o : CtOp) => o.run t) Router.new.tree x = ctRun x := fun x => rfl
  rw [this]
  obtain ⟨t, ht⟩ := ctRun_some (treeLog calls)
  have ht' : ctRun (List.filterMap Effect.treeOp? (calls.flatMap (fun c => c.effects.1))) = some t := ht
  rw [ht', ht]
  obtain ⟨a, b, c⟩ := r
  simp only [Option.map_some, Option.some.injEq, Router.mk.injEq, Router.new, effectsOf]
  constructor
  · rintro ⟨h1, h2, h3⟩; exact ⟨h1, h2.symm, h3.symm⟩
  · rintro ⟨h1, h2, h3⟩; exact ⟨h1, h2.symm, h3.symm⟩

theorem routerRun_some (calls : List RouterCall) : ∃ r, routerRun calls = some r := by
  obtain ⟨t, ht⟩ := ctRun_some (treeLog calls)
  exact ⟨⟨t, _, _⟩, routerRun_iff.2 ⟨ht, rfl, rfl⟩⟩

theorem effectsOf_append (a b : List RouterCall) : effectsOf (a ++ b) = effectsOf a ++ effectsOf b := by
  simp [effectsOf]

theorem treeLog_append (a b : List RouterCall) : treeLog (a ++ b) = treeLog a ++ treeLog b := by
  simp [treeLog]

/-! ## Invariants -/

/-- A property of the responses is kept by a sequence of changes. -/
def Keeps (on : RespMap → Effect → RespMap) (I : RespMap → Prop) (es : List Effect) : Prop :=
  ∀ m, I m → I (es.foldl on m)

omit [SHA] [UriLib] [GlobLib] in
theorem Keeps.append {on I a b} (ha : Keeps on I a) (hb : Keeps on I b) : Keeps on I (a ++ b) := by
  intro m hm
  rw [List.foldl_append]
  exact hb _ (ha _ hm)

omit [SHA] [UriLib] [GlobLib] in
theorem Keeps.andThen {on I} {a b : Effects} (ha : Keeps on I a.1) (hb : Keeps on I b.1) : Keeps on I (a.andThen b).1 := by
  obtain ⟨a1, a2⟩ := a
  cases a2 with
  | ok u => simpa [Effects.andThen] using ha.append hb
  | error e => simpa [Effects.andThen] using ha

omit [SHA] [UriLib] [GlobLib] in
theorem Keeps.each {on I} {α : Type} {f : α → Effects} {xs : List α} (h : ∀ x ∈ xs, Keeps on I (f x).1) :
    Keeps on I (Effects.each f xs).1 := by
  induction xs with
  | nil => intro m hm; simpa [Effects.each] using hm
  | cons x xs ih => exact (h x (by simp)).andThen (ih (fun y hy => h y (by simp [hy])))

omit [SHA] [UriLib] [GlobLib] in
theorem Keeps.need {on I} {α : Type} {v : Except AssetError α} {f : α → Effects} (h : ∀ x, v = .ok x → Keeps on I (f x).1) :
    Keeps on I (Effects.need v f).1 := by
  cases v with
  | ok x => simpa [Effects.need] using h x rfl
  | error e => intro m hm; simpa [Effects.need] using hm

/-- What holds of the responses held. -/
def RespInv (m : RespMap) : Prop := ∀ k x, m k = some x → ∃ i : Item, i.isFallback = false ∧ i.key = k ∧ i.Answer x ∧
  ∀ u p, i = .whole u p → 2000000 < p.content.length → ∃ y, m (Item.chunk u p 0).key = some y ∧ (Item.chunk u p 0).Answer y

def FallbackInv (m : RespMap) : Prop := ∀ k x, m k = some x → ∃ i : Item, i.isFallback = true ∧ i.key = k ∧ i.Answer x

omit [GlobLib] in
theorem put_list (i : Item) : i.put.1 = match i.prepare with
    | .ok x => [.treeInsert x.entry, if i.isFallback then .putFallback i.key x else .putResponse i.key x]
    | .error _ => [] := by
  unfold Item.put
  cases i.prepare <;> rfl

omit [GlobLib] in
theorem put_ok (i : Item) : i.put.2 = .ok () ↔ ∃ x, i.prepare = .ok x := by
  unfold Item.put
  rw [Effects.need_ok]
  simp

omit [GlobLib] in
theorem pageItem_ok {u : Bytes} {p : Page} {i : Item} (hi : i ∈ pageItems u p) :
    (∃ x, i.prepare = .ok x) ↔ NoExprHeader p.allHeaders ∧ (UriLib.parse u).isSome := by
  rw [Item.prepare_isOk]
  unfold pageItems at hi
  rw [List.mem_append, List.mem_singleton] at hi
  rcases hi with hi | rfl
  · obtain ⟨_, n, rfl, _⟩ := mem_chunkItems.1 hi
    simp only [Item.headers, Item.url, NoExprHeader, List.mem_append, List.mem_singleton]
    constructor
    · rintro ⟨h1, h2⟩; exact ⟨fun h hh => h1 h (.inl hh), h2⟩
    · rintro ⟨h1, h2⟩
      refine ⟨?_, h2⟩
      rintro h (hh | rfl)
      · exact h1 h hh
      · show ¬ SameName (str "content-range") certExprHeaderName
        decide
  · rfl

omit [GlobLib] in
/-- The final responses after publishing items that can all be published. -/
theorem foldl_puts (items : List Item) (m : RespMap) (h : ∀ i ∈ items, ∃ x, i.prepare = .ok x) (k : RequestKey) :
    (∃ pre i post x, items = pre ++ i :: post ∧ i.isFallback = false ∧ i.key = k ∧ i.prepare = .ok x ∧
      (items.flatMap (fun i => i.put.1)).foldl Effect.onResponses m k = some x ∧
      ∀ j ∈ post, j.isFallback = false → j.key ≠ k) ∨
    ((∀ i ∈ items, i.isFallback = false → i.key ≠ k) ∧
      (items.flatMap (fun i => i.put.1)).foldl Effect.onResponses m k = m k) := by
  induction items generalizing m with
  | nil => right; simp
  | cons i items ih =>
    obtain ⟨x, hx⟩ := h i (by simp)
    have hl : i.put.1 = [.treeInsert x.entry, if i.isFallback then .putFallback i.key x else .putResponse i.key x] := by
      rw [put_list, hx]
    rw [List.flatMap_cons, List.foldl_append]
    rcases ih (i.put.1.foldl Effect.onResponses m) (fun j hj => h j (by simp [hj])) with
      ⟨pre, j, post, y, h1, h2, h3, h4, h5, h6⟩ | ⟨h1, h2⟩
    · exact .inl ⟨i :: pre, j, post, y, by rw [h1]; rfl, h2, h3, h4, h5, h6⟩
    · cases hf : i.isFallback with
      | true =>
        rw [hf] at hl
        right
        refine ⟨?_, ?_⟩
        · intro j hj hjf
          rcases List.mem_cons.1 hj with rfl | hj
          · rw [hf] at hjf; cases hjf
          · exact h1 j hj hjf
        · rw [h2, hl]; simp [Effect.onResponses]
      | false =>
        rw [hf] at hl
        by_cases hk : i.key = k
        · left
          refine ⟨[], i, items, x, rfl, hf, hk, hx, ?_, h1⟩
          rw [h2, hl]; simp [Effect.onResponses, mapSet, hk]
        · right
          refine ⟨?_, ?_⟩
          · intro j hj hjf
            rcases List.mem_cons.1 hj with rfl | hj
            · exact hk
            · exact h1 j hj hjf
          · rw [h2, hl]; simp [Effect.onResponses, mapSet, Ne.symm hk]

omit [GlobLib] in
theorem foldl_putsF (items : List Item) (m : RespMap) (h : ∀ i ∈ items, ∃ x, i.prepare = .ok x) (k : RequestKey) :
    (∃ pre i post x, items = pre ++ i :: post ∧ i.isFallback = true ∧ i.key = k ∧ i.prepare = .ok x ∧
      (items.flatMap (fun i => i.put.1)).foldl Effect.onFallbacks m k = some x ∧
      ∀ j ∈ post, j.isFallback = true → j.key ≠ k) ∨
    ((∀ i ∈ items, i.isFallback = true → i.key ≠ k) ∧
      (items.flatMap (fun i => i.put.1)).foldl Effect.onFallbacks m k = m k) := by
  induction items generalizing m with
  | nil => right; simp
  | cons i items ih =>
    obtain ⟨x, hx⟩ := h i (by simp)
    have hl : i.put.1 = [.treeInsert x.entry, if i.isFallback then .putFallback i.key x else .putResponse i.key x] := by
      rw [put_list, hx]
    rw [List.flatMap_cons, List.foldl_append]
    rcases ih (i.put.1.foldl Effect.onFallbacks m) (fun j hj => h j (by simp [hj])) with
      ⟨pre, j, post, y, h1, h2, h3, h4, h5, h6⟩ | ⟨h1, h2⟩
    · exact .inl ⟨i :: pre, j, post, y, by rw [h1]; rfl, h2, h3, h4, h5, h6⟩
    · cases hf : i.isFallback with
      | false =>
        rw [hf] at hl
        right
        refine ⟨?_, ?_⟩
        · intro j hj hjf
          rcases List.mem_cons.1 hj with rfl | hj
          · rw [hf] at hjf; cases hjf
          · exact h1 j hj hjf
        · rw [h2, hl]; simp [Effect.onFallbacks]
      | true =>
        rw [hf] at hl
        by_cases hk : i.key = k
        · left
          refine ⟨[], i, items, x, rfl, hf, hk, hx, ?_, h1⟩
          rw [h2, hl]; simp [Effect.onFallbacks, mapSet, hk]
        · right
          refine ⟨?_, ?_⟩
          · intro j hj hjf
            rcases List.mem_cons.1 hj with rfl | hj
            · exact hk
            · exact h1 j hj hjf
          · rw [h2, hl]; simp [Effect.onFallbacks, mapSet, Ne.symm hk]

omit [GlobLib] in
theorem each_put_list {items : List Item} (h : ∀ i ∈ items, ∃ x, i.prepare = .ok x) :
    (Effects.each Item.put items).1 = items.flatMap (fun i => i.put.1) :=
  Effects.each_list (fun i hi => (put_ok i).2 (h i hi))

omit [SHA] [UriLib] [GlobLib] in
theorem chunk_zero_mem {u : Bytes} {p : Page} (h : 2000000 < p.content.length) : Item.chunk u p 0 ∈ pageItems u p := by
  unfold pageItems
  rw [List.mem_append]
  exact .inl (mem_chunkItems.2 ⟨h, 0, rfl, by omega⟩)

omit [SHA] [UriLib] [GlobLib] in
theorem mem_pageItems {u : Bytes} {p : Page} {i : Item} :
    i ∈ pageItems u p ↔ i = .whole u p ∨ (2000000 < p.content.length ∧ ∃ n, i = .chunk u p n ∧ n * 2000000 < p.content.length) := by
  unfold pageItems
  rw [List.mem_append, List.mem_singleton, mem_chunkItems, or_comm]

omit [SHA] [UriLib] [GlobLib] in
/-- Items of one page with the same key are the same. -/
theorem pageItems_key_inj {u : Bytes} {p : Page} {i j : Item} (hi : i ∈ pageItems u p) (hj : j ∈ pageItems u p)
    (h : i.key = j.key) : i = j := by
  rw [mem_pageItems] at hi hj
  rcases hi with rfl | ⟨_, n, rfl, _⟩ <;> rcases hj with rfl | ⟨_, n', rfl, _⟩ <;> simp [Item.key] at h ⊢
  exact h

omit [SHA] [UriLib] [GlobLib] in
theorem pageItems_notFallback {u : Bytes} {p : Page} {i : Item} (hi : i ∈ pageItems u p) : i.isFallback = false := by
  rw [mem_pageItems] at hi
  rcases hi with rfl | ⟨_, n, rfl, _⟩ <;> rfl

omit [GlobLib] in
/-- Publishing a page keeps the invariant. -/
theorem keeps_page (u : Bytes) (p : Page) : Keeps Effect.onResponses RespInv (Effects.each Item.put (pageItems u p)).1 := by
  by_cases hok : NoExprHeader p.allHeaders ∧ (UriLib.parse u).isSome
  swap
  · have hne : ∀ i ∈ pageItems u p, i.put.1 = [] := by
      intro i hi
      rw [put_list]
      cases hp : i.prepare with
      | ok x => exact absurd ((pageItem_ok hi).1 ⟨x, hp⟩) hok
      | error _ => rfl
    have : (Effects.each Item.put (pageItems u p)).1 = [] := by
      rw [List.eq_nil_iff_forall_not_mem]
      intro e he
      obtain ⟨i, hi, h⟩ := Effects.mem_each he
      rw [hne i hi] at h
      simp at h
    rw [this]
    exact fun m hm => hm
  intro m hm
  have hall : ∀ i ∈ pageItems u p, ∃ x, i.prepare = .ok x := fun i hi => (pageItem_ok hi).2 hok
  rw [each_put_list hall]
  intro k x hx
  have hzero : 2000000 < p.content.length → ∃ y,
      ((pageItems u p).flatMap (fun i => i.put.1)).foldl Effect.onResponses m (Item.chunk u p 0).key = some y ∧
      (Item.chunk u p 0).Answer y := by
    intro hl
    rcases foldl_puts (pageItems u p) m hall (Item.chunk u p 0).key with ⟨pre, i, post, y, h1, h2, h3, h4, h5, h6⟩ | ⟨h1, h2⟩
    · have : i = Item.chunk u p 0 := pageItems_key_inj (by rw [h1]; simp) (chunk_zero_mem hl) h3
      subst this
      exact ⟨y, h5, Item.prepare_ok.1 h4⟩
    · exact absurd rfl (h1 _ (chunk_zero_mem hl) rfl)
  rcases foldl_puts (pageItems u p) m hall k with ⟨pre, i, post, y, h1, h2, h3, h4, h5, h6⟩ | ⟨h1, h2⟩
  · rw [h5] at hx
    simp only [Option.some.injEq] at hx
    subst hx
    refine ⟨i, h2, h3, Item.prepare_ok.1 h4, ?_⟩
    rintro u' p' rfl hl
    have hi : Item.whole u' p' ∈ pageItems u p := by rw [h1]; simp
    rw [mem_pageItems] at hi
    rcases hi with hi | ⟨_, n, hi, _⟩
    · simp only [Item.whole.injEq] at hi
      obtain ⟨rfl, rfl⟩ := hi
      exact hzero hl
    · cases hi
  · rw [h2] at hx
    obtain ⟨i, i1, i2, i3, i4⟩ := hm k x hx
    refine ⟨i, i1, i2, i3, ?_⟩
    rintro u' p' rfl hl
    obtain ⟨y, y1, y2⟩ := i4 u' p' rfl hl
    refine ⟨y, ?_, y2⟩
    rcases foldl_puts (pageItems u p) m hall (Item.chunk u' p' 0).key with ⟨pre, j, post, z, j1, j2, j3, j4, j5, j6⟩ | ⟨j1, j2⟩
    · exfalso
      have hj : j ∈ pageItems u p := by rw [j1]; simp
      have hw : Item.whole u p ∈ pageItems u p := mem_pageItems.2 (.inl rfl)
      have : (Item.whole u p).key = k := by
        rw [← i2]
        rw [mem_pageItems] at hj
        rcases hj with rfl | ⟨_, n, rfl, _⟩
        · simp [Item.key] at j3
        · simp only [Item.key, RequestKey.mk.injEq] at j3 ⊢
          exact ⟨j3.1, j3.2.1, trivial⟩
      exact h1 _ hw rfl this
    · rw [j2]; exact y1

omit [GlobLib] in
theorem keeps_redirect (s d : Bytes) (k : RedirectKind) :
    Keeps Effect.onResponses RespInv (Item.redirect s d k).put.1 := by
  intro m hm
  rw [put_list]
  cases hp : (Item.redirect s d k).prepare with
  | error _ => exact hm
  | ok z =>
    have he : ∀ k', List.foldl Effect.onResponses m [Effect.treeInsert z.entry,
        if (Item.redirect s d k).isFallback = true then Effect.putFallback (Item.redirect s d k).key z
        else Effect.putResponse (Item.redirect s d k).key z] k' = if k' = ⟨s, none, none⟩ then some z else m k' := by
      intro k'; rfl
    intro k' x hx
    dsimp only at hx ⊢
    simp only [he] at hx ⊢
    split at hx
    · rename_i hk
      subst hk
      simp only [Option.some.injEq] at hx
      subst hx
      exact ⟨.redirect s d k, rfl, rfl, Item.prepare_ok.1 hp, by rintro u p h; cases h⟩
    · obtain ⟨i, i1, i2, i3, i4⟩ := hm k' x hx
      refine ⟨i, i1, i2, i3, ?_⟩
      rintro u p rfl hl
      obtain ⟨y, y1, y2⟩ := i4 u p rfl hl
      refine ⟨y, ?_, y2⟩
      rw [if_neg (by simp [Item.key])]
      exact y1

omit [SHA] [UriLib] [GlobLib] in
/-- Changes that do not concern the responses keep the invariant. -/
theorem keeps_id {on : RespMap → Effect → RespMap} {I : RespMap → Prop} {es : List Effect}
    (h : ∀ e ∈ es, ∀ m, on m e = m) : Keeps on I es := by
  intro m hm
  have : es.foldl on m = m := by
    induction es with
    | nil => rfl
    | cons e es ih =>
      rw [List.foldl_cons, h e (by simp)]
      exact ih (fun x hx => h x (by simp [hx]))
  rw [this]; exact hm

omit [GlobLib] in
theorem keeps_fallbackItem (sc : Bytes) (st : Option UInt16) (u : Bytes) (p : Page) :
    Keeps Effect.onResponses RespInv (Item.fallback sc st u p).put.1 := by
  apply keeps_id
  intro e he m
  rw [put_list] at he
  split at he
  · simp [Item.isFallback] at he
    rcases he with rfl | rfl <;> rfl
  · simp at he

omit [GlobLib] in
theorem keeps_asset (u : Bytes) (s : Settings) (p : Page) :
    Keeps Effect.onResponses RespInv (Effects.each Item.put (assetItems pageItems u s p)).1 := by
  unfold assetItems
  rw [each_append, each_append, each_map, each_flatMap]
  exact (keeps_page u p).andThen ((Keeps.each (fun fb _ => keeps_fallbackItem _ _ _ _)).andThen
    (Keeps.each (fun al _ => keeps_page al p)))

omit [GlobLib] in
/-- Removing a page keeps the invariant. -/
theorem keeps_removes (ks : List RequestKey) (m : RespMap) (hm : RespInv m)
    (h : ∀ u e, (⟨u, e, some 0⟩ : RequestKey) ∈ ks → ⟨u, e, none⟩ ∈ ks) :
    RespInv ((ks.map Effect.removeResponse).foldl Effect.onResponses m) := by
  have he : ∀ k, (ks.map Effect.removeResponse).foldl Effect.onResponses m k = if k ∈ ks then none else m k := by
    intro k
    clear h hm
    induction ks generalizing m with
    | nil => simp
    | cons a ks ih =>
      rw [List.map_cons, List.foldl_cons, ih]
      simp only [Effect.onResponses, mapSet, List.mem_cons]
      by_cases h1 : k ∈ ks <;> by_cases h2 : k = a <;> simp [h1, h2]
  intro k x hx
  simp only [he] at hx ⊢
  split at hx
  · cases hx
  · rename_i hk
    obtain ⟨i, i1, i2, i3, i4⟩ := hm k x hx
    refine ⟨i, i1, i2, i3, ?_⟩
    rintro u p rfl hl
    obtain ⟨y, y1, y2⟩ := i4 u p rfl hl
    refine ⟨y, ?_, y2⟩
    rw [if_neg]
    · exact y1
    · intro hc
      apply hk
      rw [← i2]
      exact h _ _ hc

omit [GlobLib] in
theorem keeps_withdraw (i : Item) (hi : i.isChunk = false) : Keeps Effect.onResponses RespInv i.withdraw.1 := by
  unfold Item.withdraw
  apply Keeps.need
  intro x _
  intro m hm
  cases i with
  | whole u p =>
    have := keeps_removes ((Item.whole u p).key :: (chunkItems u p).map Item.key) m hm (by
      intro u' e' h
      rcases List.mem_cons.1 h with h | h
      · simp [Item.key] at h
      · rw [List.mem_map] at h
        obtain ⟨j, hj, hk⟩ := h
        obtain ⟨_, n, rfl, _⟩ := mem_chunkItems.1 hj
        simp only [Item.key, RequestKey.mk.injEq] at hk
        simp [Item.key, hk.1, hk.2.1])
    simpa [Item.isFallback, Effect.onResponses, List.map_map, Function.comp_def] using this
  | chunk u p n => simp [Item.isChunk] at hi
  | fallback sc st u p => simpa [Item.isFallback, Effect.onResponses] using hm
  | redirect s d k =>
    have := keeps_removes [(Item.redirect s d k).key] m hm (by
      intro u' e' h
      simp [Item.key] at h)
    simpa [Item.isFallback, Effect.onResponses] using this

theorem keeps_call (c : RouterCall) : Keeps Effect.onResponses RespInv c.effects.1 := by
  cases c with
  | certify assets values configs =>
    show Keeps _ _ (certifyAssets assets values configs).1
    rw [certifyAssets_items]
    apply Keeps.need
    intro cs _
    unfold callItems
    rw [each_append, each_flatMap]
    refine Keeps.andThen (Keeps.each (fun a _ => ?_)) (Keeps.each (fun i hi => ?_))
    · unfold allItems
      simp only
      rw [each_append, each_flatMap]
      refine Keeps.andThen (Keeps.each (fun e _ => ?_)) (keeps_asset _ _ _)
      split
      · exact fun m hm => hm
      · exact keeps_asset _ _ _
    · simp only [redirectItems, List.mem_filterMap] at hi
      obtain ⟨c, _, hc⟩ := hi
      cases c <;> simp at hc
      subst hc
      exact keeps_redirect _ _ _
  | delete assets values configs =>
    show Keeps _ _ (deleteAssets assets values configs).1
    rw [deleteAssets_items]
    apply Keeps.need
    intro cs _
    apply Keeps.each
    intro i hi
    apply keeps_withdraw
    unfold callItems at hi
    rw [List.mem_append, List.mem_flatMap] at hi
    rcases hi with ⟨a, _, hi⟩ | hi
    · obtain ⟨e, c, _, h⟩ := (mem_allItems rfl).1 hi
      rcases mem_assetItems.1 h with ⟨u, _, h⟩ | ⟨fb, _, rfl⟩
      · rw [List.mem_singleton] at h; subst h; rfl
      · rfl
    · simp only [redirectItems, List.mem_filterMap] at hi
      obtain ⟨c, _, hc⟩ := hi
      cases c <;> simp at hc
      subst hc
      rfl
  | deleteAll =>
    intro m _ k x hx
    simp [RouterCall.effects, deleteAllAssets, Effect.onResponses] at hx
  | shared o =>
    apply keeps_id
    intro e he m
    simp [RouterCall.effects] at he
    subst he
    cases o <;> rfl

omit [GlobLib] in
theorem keepsF_put (i : Item) : Keeps Effect.onFallbacks FallbackInv i.put.1 := by
  intro m hm
  rw [put_list]
  cases hp : i.prepare with
  | error _ => exact hm
  | ok z =>
    cases hf : i.isFallback with
    | false => simpa [Effect.onFallbacks] using hm
    | true =>
      intro k x hx
      simp only [if_true, List.foldl_cons, List.foldl_nil, Effect.onFallbacks, mapSet] at hx
      split at hx
      · rename_i hk
        simp only [Option.some.injEq] at hx
        subst hx
        exact ⟨i, hf, hk.symm, Item.prepare_ok.1 hp⟩
      · exact hm k x hx

omit [GlobLib] in
theorem keepsF_withdraw (i : Item) : Keeps Effect.onFallbacks FallbackInv i.withdraw.1 := by
  unfold Item.withdraw
  apply Keeps.need
  intro z _ m hm
  have hid : ∀ (l : List Item) (m : RespMap), (l.map (fun c => Effect.removeResponse c.key)).foldl Effect.onFallbacks m = m := by
    intro l
    induction l with
    | nil => intro m; rfl
    | cons a l ih => intro m; exact ih _
  have key : ∀ m : RespMap, FallbackInv m → FallbackInv (mapSet m i.key none) := by
    intro m hm k x hx
    simp only [mapSet] at hx
    split at hx
    · cases hx
    · exact hm k x hx
  cases i with
  | whole u p =>
    show FallbackInv (List.foldl Effect.onFallbacks m (List.map (fun c => Effect.removeResponse c.key) (chunkItems u p)))
    rw [hid]; exact hm
  | chunk u p n => exact hm
  | fallback sc st u p => exact key m hm
  | redirect s d k => exact hm

theorem keepsF_call (c : RouterCall) : Keeps Effect.onFallbacks FallbackInv c.effects.1 := by
  cases c with
  | certify assets values configs =>
    show Keeps _ _ (certifyAssets assets values configs).1
    rw [certifyAssets_items]
    exact Keeps.need (fun cs _ => Keeps.each (fun i _ => keepsF_put i))
  | delete assets values configs =>
    show Keeps _ _ (deleteAssets assets values configs).1
    rw [deleteAssets_items]
    exact Keeps.need (fun cs _ => Keeps.each (fun i _ => keepsF_withdraw i))
  | deleteAll =>
    intro m _ k x hx
    simp [RouterCall.effects, deleteAllAssets, Effect.onFallbacks] at hx
  | shared o =>
    apply keeps_id
    intro e he m
    simp [RouterCall.effects] at he
    subst he
    cases o <;> rfl

theorem router_inv {calls : List RouterCall} {r : Router} (h : routerRun calls = some r) :
    RespInv r.responses ∧ FallbackInv r.fallbacks := by
  obtain ⟨-, h2, h3⟩ := routerRun_iff.1 h
  rw [h2, h3]
  have : ∀ (on : RespMap → Effect → RespMap) (I : RespMap → Prop), (∀ c : RouterCall, Keeps on I c.effects.1) →
      Keeps on I (effectsOf calls) := by
    intro on I hk
    unfold effectsOf
    clear h h2 h3
    induction calls with
    | nil => exact fun m hm => hm
    | cons c cs ih => rw [List.flatMap_cons]; exact (hk c).append ih
  exact ⟨this _ _ keeps_call _ (by intro k x hx; cases hx), this _ _ keepsF_call _ (by intro k x hx; cases hx)⟩

end
end Verif
