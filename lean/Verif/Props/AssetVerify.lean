import Verif.Props.Complete
import Verif.Props.AssetEncodings
import Verif.Props.AssetDelete
import Verif.Lemmas.Normal

set_option linter.unusedSimpArgs false
set_option linter.unusedSectionVars false

/-!
# Property C49: what the router serves verifies
-/

namespace Verif.Props
open Verif HashTree PathShape

section
variable [SHA] [UriLib] [GlobLib]

/-! ## Where things come from -/

omit [SHA] [UriLib] [GlobLib] in
theorem foldl_origin (es : List Effect) (k : RequestKey) (x : CertifiedResponse) (m : RespMap) :
    (es.foldl Effect.onResponses m k = some x → m k = some x ∨ Effect.putResponse k x ∈ es) ∧
    (es.foldl Effect.onFallbacks m k = some x → m k = some x ∨ Effect.putFallback k x ∈ es) := by
  induction es generalizing m with
  | nil => exact ⟨fun h => .inl h, fun h => .inl h⟩
  | cons e es ih =>
    rw [List.foldl_cons, List.foldl_cons]
    constructor
    · intro h
      rcases (ih _).1 h with h | h
      · cases e with
        | putResponse k' y =>
          simp only [Effect.onResponses, mapSet] at h
          split at h
          · rename_i hk
            rw [Option.some.injEq] at h
            rw [hk, h]
            exact .inr (by simp)
          · exact .inl h
        | removeResponse k' =>
          simp only [Effect.onResponses, mapSet] at h
          split at h
          · cases h
          · exact .inl h
        | clearResponses => simp [Effect.onResponses] at h
        | _ => exact .inl h
      · exact .inr (List.mem_cons_of_mem _ h)
    · intro h
      rcases (ih _).2 h with h | h
      · cases e with
        | putFallback k' y =>
          simp only [Effect.onFallbacks, mapSet] at h
          split at h
          · rename_i hk
            rw [Option.some.injEq] at h
            rw [hk, h]
            exact .inr (by simp)
          · exact .inl h
        | removeFallback k' =>
          simp only [Effect.onFallbacks, mapSet] at h
          split at h
          · cases h
          · exact .inl h
        | clearFallbacks => simp [Effect.onFallbacks] at h
        | _ => exact .inl h
      · exact .inr (List.mem_cons_of_mem _ h)

/-- A change that puts something is made for an item that the call is about. -/
theorem effect_about {c : RouterCall} (hc : c.Faithful) {e : Effect} (he : e ∈ c.effects.1) :
    (∀ k x, e = .putResponse k x → ∃ i, c.About i ∧ i.isFallback = false ∧ i.key = k ∧ i.Answer x) ∧
    (∀ k x, e = .putFallback k x → ∃ i, c.About i ∧ i.isFallback = true ∧ i.key = k ∧ i.Answer x) ∧
    ∀ o g, e.treeOp? = some o → o.entry? = some g → (∀ o', c ≠ .shared o') → ∃ i x, c.About i ∧ i.Answer x ∧ g = x.entry := by
  cases c with
  | certify assets values configs =>
    simp only [RouterCall.effects] at he
    rw [certifyAssets_items, Effects.mem_need] at he
    obtain ⟨cs, h1, h2⟩ := he
    obtain ⟨i, hi, h3⟩ := Effects.mem_each h2
    have ha := (mem_callItems h1 hc i).1 hi
    rw [put_list] at h3
    split at h3
    · rename_i x hx
      have hx := Item.prepare_ok.1 hx
      rcases List.mem_cons.1 h3 with rfl | h3
      · refine ⟨by simp, by simp, ?_⟩
        intro o g ho hg _
        simp only [Effect.treeOp?, Option.some.injEq] at ho
        subst ho
        simp only [CtOp.entry?, Option.some.injEq] at hg
        exact ⟨i, x, ha, hx, hg.symm⟩
      · rw [List.mem_singleton] at h3
        subst h3
        cases hf : i.isFallback
        · simp only [Bool.false_eq_true, if_false]
          refine ⟨?_, by simp, by simp [Effect.treeOp?]⟩
          intro k y hk
          simp only [Effect.putResponse.injEq] at hk
          exact ⟨i, ha, hf, hk.1, hk.2 ▸ hx⟩
        · simp only [if_true]
          refine ⟨by simp, ?_, by simp [Effect.treeOp?]⟩
          intro k y hk
          simp only [Effect.putFallback.injEq] at hk
          exact ⟨i, ha, hf, hk.1, hk.2 ▸ hx⟩
    · simp at h3
  | delete assets values configs =>
    simp only [RouterCall.effects] at he
    rw [deleteAssets_items, Effects.mem_need] at he
    obtain ⟨cs, h1, h2⟩ := he
    obtain ⟨i, hi, h3⟩ := Effects.mem_each h2
    obtain ⟨a1, a2⟩ := (mem_callItems' h1 hc i).1 hi
    unfold Item.withdraw at h3
    rw [Effects.mem_need] at h3
    obtain ⟨x, h4, h5⟩ := h3
    rcases List.mem_cons.1 h5 with rfl | h5
    · refine ⟨by simp, by simp, ?_⟩
      intro o g ho hg _
      simp only [Effect.treeOp?, Option.some.injEq] at ho
      subst ho
      simp only [CtOp.entry?, Option.some.injEq] at hg
      exact ⟨i, x, a1, Item.prepare_ok.1 h4, hg.symm⟩
    · have hrem : ∃ k, e = .removeFallback k ∨ e = .removeResponse k := by
        rcases List.mem_cons.1 h5 with rfl | h5
        · cases i.isFallback
          · exact ⟨_, .inr rfl⟩
          · exact ⟨_, .inl rfl⟩
        · cases i with
          | whole u p =>
            obtain ⟨j, -, rfl⟩ := List.mem_map.1 h5
            exact ⟨_, .inr rfl⟩
          | _ => simp at h5
      obtain ⟨k, rfl | rfl⟩ := hrem <;> exact ⟨by simp, by simp, by simp [Effect.treeOp?]⟩
  | deleteAll =>
    simp only [RouterCall.effects, deleteAllAssets, List.mem_cons, List.not_mem_nil, or_false] at he
    rcases he with rfl | rfl | rfl
    · exact ⟨by simp, by simp, by simp [Effect.treeOp?]⟩
    · exact ⟨by simp, by simp, by simp [Effect.treeOp?]⟩
    · refine ⟨by simp, by simp, ?_⟩
      intro o g ho hg
      simp only [Effect.treeOp?, Option.some.injEq] at ho
      subst ho
      simp [CtOp.entry?] at hg
  | shared o =>
    simp only [RouterCall.effects, List.mem_singleton] at he
    subst he
    refine ⟨?_, ?_, ?_⟩
    · intro k x h; cases o <;> simp [CtOp.effect] at h
    · intro k x h; cases o <;> simp [CtOp.effect] at h
    · intro _ _ _ _ h; exact absurd rfl (h o)

/-- What is held was put there for an item that some call was about. -/
theorem held_about {calls : List RouterCall} (hc : ∀ c ∈ calls, c.Faithful) {r : Router} (hr : routerRun calls = some r)
    {k : RequestKey} {x : CertifiedResponse} :
    (r.responses k = some x → ∃ c ∈ calls, ∃ i, c.About i ∧ i.isFallback = false ∧ i.key = k ∧ i.Answer x) ∧
    (r.fallbacks k = some x → ∃ c ∈ calls, ∃ i, c.About i ∧ i.isFallback = true ∧ i.key = k ∧ i.Answer x) := by
  obtain ⟨-, h2, h3⟩ := routerRun_iff.1 hr
  rw [h2, h3]
  constructor
  · intro h
    rcases (foldl_origin _ k x _).1 h with h | h
    · cases h
    · obtain ⟨c, c1, c2⟩ := List.mem_flatMap.1 h
      exact ⟨c, c1, (effect_about (hc c c1) c2).1 k x rfl⟩
  · intro h
    rcases (foldl_origin _ k x _).2 h with h | h
    · cases h
    · obtain ⟨c, c1, c2⟩ := List.mem_flatMap.1 h
      exact ⟨c, c1, (effect_about (hc c c1) c2).2.1 k x rfl⟩

/-- The entries of the tree's history come from items that calls were about. -/
theorem entry_about {calls : List RouterCall} (hc : ∀ c ∈ calls, c.Faithful ∧ ∀ o, c ≠ .shared o) {o : CtOp} {g : CertEntry}
    (ho : o ∈ treeLog calls) (hg : o.entry? = some g) : ∃ c ∈ calls, ∃ i x, c.About i ∧ i.Answer x ∧ g = x.entry := by
  unfold treeLog at ho
  obtain ⟨e, e1, e2⟩ := List.mem_filterMap.1 ho
  obtain ⟨c, c1, c2⟩ := List.mem_flatMap.1 e1
  obtain ⟨h1, h2⟩ := hc c c1
  exact ⟨c, c1, (effect_about h1 c2).2.2 o g e2 hg h2⟩

/-! ## In step -/

theorem mem_ctSpec_insert {calls : List RouterCall} {assets values : List Asset} {configs : List AssetConfig}
    (hv : IsValues assets values) (hok : (RouterCall.certify assets values configs).Succeeds) {i : Item}
    {x : CertifiedResponse} (hi : Announces assets configs i) (hx : i.Answer x) :
    CtOp.insert x.entry ∈ treeLog (calls ++ [.certify assets values configs]) := by
  obtain ⟨items, h1, h2, h3⟩ := certify_list hv hok
  rw [treeLog_append, List.mem_append]
  right
  unfold treeLog
  simp only [List.flatMap_cons, List.flatMap_nil, List.append_nil]
  rw [h3, List.mem_filterMap]
  refine ⟨.treeInsert x.entry, List.mem_flatMap.2 ⟨i, (h1 i).2 hi, ?_⟩, rfl⟩
  rw [put_list, Item.prepare_ok.2 hx]
  simp

omit [SHA] [UriLib] in
/-- With every item the unencoded whole is announced for the same path or scope. -/
theorem plain_announced {assets : List Asset} {configs : List AssetConfig} {i : Item} (h : Announces assets configs i) :
    ∃ j, Announces assets configs j ∧ j.isFallback = i.isFallback ∧ j.key = ⟨i.certPath.url, none, none⟩ := by
  cases h with
  | whole a b c d => exact ⟨_, .whole a b .plain d, rfl, rfl⟩
  | chunk a b c d _ _ => exact ⟨_, .whole a b .plain d, rfl, rfl⟩
  | fallback a b c d => exact ⟨_, .fallback a b .plain d, rfl, rfl⟩
  | redirect a => exact ⟨_, .redirect a, rfl, rfl⟩

theorem certPath_exact {i : Item} (h : i.isFallback = false) : i.certPath = .exact i.certPath.url := by
  cases i <;> first | rfl | cases h

theorem certPath_wild {i : Item} (h : i.isFallback = true) : i.certPath = .wildcard i.certPath.url := by
  cases i <;> first | rfl | cases h

/-- **C49**, the invariant. A new router is in step with its tree. -/
theorem C49_start {r : Router} (hr : routerRun [] = some r) : InStep [] r := by
  have : r = Router.new := by
    have h : routerRun [] = some Router.new := rfl
    rw [h] at hr
    simpa using hr.symm
  subst this
  exact ⟨fun k x h => (by cases h), fun k x h => (by cases h), fun p h => False.elim h⟩

/-- **C49**, the invariant. Successful certification keeps the router in step with its tree. -/
theorem C49_certify {calls : List RouterCall} {assets values : List Asset} {configs : List AssetConfig} {r r' : Router}
    (hv : IsValues assets values) (hok : (RouterCall.certify assets values configs).Succeeds)
    (hr : routerRun calls = some r) (hr' : routerRun (calls ++ [.certify assets values configs]) = some r')
    (h : InStep calls r) : InStep (calls ++ [.certify assets values configs]) r' := by
  refine ⟨?_, ?_, ?_⟩
  · intro k x hx
    rw [C45_certify_tree hv hok]
    rcases (C45_certify hv hok hr hr' k).1 with ⟨i, y, h1, h2, h3, h4, h5⟩ | ⟨-, h5⟩
    · rw [hx] at h5
      simp only [Option.some.injEq] at h5
      subst h5
      exact .inr ⟨i, x, h1, h4, rfl⟩
    · exact .inl (h.responses k x (by rw [← h5]; exact hx))
  · intro k x hx
    rw [C45_certify_tree hv hok]
    rcases (C45_certify hv hok hr hr' k).2 with ⟨i, y, h1, h2, h3, h4, h5⟩ | ⟨-, h5⟩
    · rw [hx] at h5
      simp only [Option.some.injEq] at h5
      subst h5
      exact .inr ⟨i, x, h1, h4, rfl⟩
    · exact .inl (h.fallbacks k x (by rw [← h5]; exact hx))
  · intro p hp
    rw [C45_certify_tree hv hok] at hp
    rcases hp with hp | ⟨i, x, h1, h2, rfl⟩
    · obtain ⟨e, e0, e1, e2⟩ := h.certified p hp
      refine ⟨e, by rw [treeLog_append]; exact List.mem_append_left _ e0, e1, ?_⟩
      cases hpe : e.path with
      | exact a =>
        rw [hpe] at e2
        simp only at e2 ⊢
        rcases (C45_certify hv hok hr hr' ⟨a, none, none⟩).1 with ⟨i, y, -, -, -, -, h5⟩ | ⟨-, h5⟩
        · rw [h5]; simp
        · rw [h5]; exact e2
      | wildcard a =>
        rw [hpe] at e2
        simp only at e2 ⊢
        rcases (C45_certify hv hok hr hr' ⟨a, none, none⟩).2 with ⟨i, y, -, -, -, -, h5⟩ | ⟨-, h5⟩
        · rw [h5]; simp
        · rw [h5]; exact e2
    · refine ⟨x.entry, mem_ctSpec_insert hv hok h1 h2, rfl, ?_⟩
      obtain ⟨j, j1, j2, j3⟩ := plain_announced h1
      rw [h2.path]
      cases hf : i.isFallback with
      | false =>
        rw [certPath_exact hf]
        simp only
        rcases (C45_certify hv hok hr hr' ⟨i.certPath.url, none, none⟩).1 with ⟨i, y, -, -, -, -, h5⟩ | ⟨h5, -⟩
        · rw [h5]; simp
        · exact absurd j3 (h5 j j1 (j2.trans hf))
      | true =>
        rw [certPath_wild hf]
        simp only
        rcases (C45_certify hv hok hr hr' ⟨i.certPath.url, none, none⟩).2 with ⟨i, y, -, -, -, -, h5⟩ | ⟨h5, -⟩
        · rw [h5]; simp
        · exact absurd j3 (h5 j j1 (j2.trans hf))

/-- **C49**, the invariant. Deleting everything leaves the router in step with its tree, whatever happened before. -/
theorem C49_delete_all {calls : List RouterCall} {r : Router} (hr : routerRun (calls ++ [.deleteAll]) = some r) :
    InStep (calls ++ [.deleteAll]) r := by
  obtain ⟨rfl, h⟩ := C47_delete_all hr
  exact ⟨fun k x h => (by cases h), fun k x h => (by cases h), fun p hp => absurd hp (h p)⟩

/-- **C49**, the invariant. Deletion keeps the router in step with its tree if the deleted entries are all that is
certified for the paths and scopes concerned, and nothing held elsewhere depends on them. (The former fails for large
assets, see `C47_counterexample_chunks`, and for assets changed since they were certified.) -/
theorem C49_delete {calls : List RouterCall} {assets values : List Asset} {configs : List AssetConfig} {r r' : Router}
    (hv : IsValues assets values) (hok : (RouterCall.delete assets values configs).Succeeds)
    (hr : routerRun calls = some r) (hr' : routerRun (calls ++ [.delete assets values configs]) = some r')
    (h : InStep calls r)
    (hall : ∀ g, CtOp.insert g ∈ treeLog calls → ctSpec (treeLog calls) g.toTreePath → ∀ i, Announces assets configs i →
      i.certPath = g.path → ∃ j x, Announces assets configs j ∧ j.isChunk = false ∧ j.Answer x ∧ x.entry.toTreePath = g.toTreePath)
    (honly : ∀ j x, Announces assets configs j → j.isChunk = false → j.Answer x → ∀ k y,
      y.entry.toTreePath = x.entry.toTreePath →
        (r.responses k = some y → ∃ i, Announces assets configs i ∧ i.isFallback = false ∧ i.key = k) ∧
        (r.fallbacks k = some y → ∃ i, Announces assets configs i ∧ i.isFallback = true ∧ i.key = k)) :
    InStep (calls ++ [.delete assets values configs]) r' := by
  refine ⟨?_, ?_, ?_⟩
  · intro k x hx
    obtain ⟨d1, d2, -, -⟩ := C47_delete hv hok hr hr' k
    rw [C47_delete_tree_partial hv hok]
    have hk : ¬ ∃ i, Announces assets configs i ∧ i.isFallback = false ∧ i.key = k := by
      intro hn; rw [d1 hn] at hx; cases hx
    have hold : r.responses k = some x := by
      rw [← d2 (fun i h1 h2 h3 => hk ⟨i, h1, h2, h3⟩)]; exact hx
    exact ⟨h.responses k x hold, fun j y h1 h2 h3 he => hk ((honly j y h1 h2 h3 k x he).1 hold)⟩
  · intro k x hx
    obtain ⟨-, -, d1, d2⟩ := C47_delete hv hok hr hr' k
    rw [C47_delete_tree_partial hv hok]
    have hk : ¬ ∃ i, Announces assets configs i ∧ i.isFallback = true ∧ i.key = k := by
      intro hn; rw [d1 hn] at hx; cases hx
    have hold : r.fallbacks k = some x := by
      rw [← d2 (fun i h1 h2 h3 => hk ⟨i, h1, h2, h3⟩)]; exact hx
    exact ⟨h.fallbacks k x hold, fun j y h1 h2 h3 he => hk ((honly j y h1 h2 h3 k x he).2 hold)⟩
  · intro p hp
    rw [C47_delete_tree_partial hv hok] at hp
    obtain ⟨hp, hno⟩ := hp
    obtain ⟨e, e0, e1, e2⟩ := h.certified p hp
    refine ⟨e, by rw [treeLog_append]; exact List.mem_append_left _ e0, e1, ?_⟩
    have hna : ∀ i, Announces assets configs i → i.certPath ≠ e.path := by
      intro i hi hc
      obtain ⟨j, x, j1, j2, j3, j4⟩ := hall e e0 (by rw [e1]; exact hp) i hi hc
      exact hno j x j1 j2 j3 (by rw [j4, e1])
    cases hpe : e.path with
    | exact a =>
      rw [hpe] at e2 hna
      simp only at e2 ⊢
      rw [(C47_delete hv hok hr hr' ⟨a, none, none⟩).2.1 ?_]
      · exact e2
      · intro i h1 h2 h3
        refine hna i h1 ?_
        rw [certPath_exact h2]
        cases i <;> simp_all [Item.key, Item.certPath, HttpPath.url]
    | wildcard a =>
      rw [hpe] at e2 hna
      simp only at e2 ⊢
      rw [(C47_delete hv hok hr hr' ⟨a, none, none⟩).2.2.2 ?_]
      · exact e2
      · intro i h1 h2 h3
        refine hna i h1 ?_
        rw [certPath_wild h2]
        cases i <;> simp_all [Item.key, Item.certPath, HttpPath.url, Item.isFallback]

/-- **C49**, the invariant. After any history of successful certifications and complete deletions, the router is in
step with its tree. -/
theorem C49_in_step {calls : List RouterCall} {r : Router}
    (hc : ∀ c ∈ calls, c = .deleteAll ∨ ∃ assets values configs, c = .certify assets values configs ∧
      IsValues assets values ∧ c.Succeeds) (hr : routerRun calls = some r) : InStep calls r := by
  induction calls using List.reverseRecOn generalizing r with
  | nil => exact C49_start hr
  | append_singleton calls c ih =>
    obtain ⟨r0, h0⟩ := routerRun_some calls
    have hs := ih (fun c hc' => hc c (List.mem_append_left _ hc')) h0
    rcases hc c (by simp) with rfl | ⟨assets, values, configs, rfl, h1, h2⟩
    · exact C49_delete_all hr
    · exact C49_certify h1 h2 h0 hr hs

/-! ## Verification -/

theorem chooses_exists {accepts : AssetEncoding → Prop} {av : Option AssetEncoding → Option CertifiedResponse}
    (h : av none ≠ none) : ∃ y, Chooses accepts av y := by
  by_cases he : ∃ e, accepts e ∧ av (some e) ≠ none
  · obtain ⟨e, ⟨h1, h2⟩, h3⟩ := best_encoding he
    obtain ⟨x, hx⟩ := Option.ne_none_iff_exists'.1 h2
    exact ⟨x, .encoded h1 hx (fun e' a b => h3 e' ⟨a, b⟩)⟩
  · push Not at he
    obtain ⟨x, hx⟩ := Option.ne_none_iff_exists'.1 h
    exact ⟨x, .plain he hx⟩

/-- Entries with the same tree path have the same certification path, if both are normal and clean. -/
theorem entry_path_inj {e g : CertEntry} (he : e.path.Clean ∧ NormalPath e.path.url) (hg : g.path.Clean ∧ NormalPath g.path.url)
    (h : e.toTreePath = g.toTreePath) : e.path = g.path := by
  have hterm : ∀ g : CertEntry, ∀ y ∈ g.cert.toTreePath, ¬ (y = exactTerm ∨ y = wildTerm) := by
    intro g y hy hterm
    have hl := term_len hterm
    have : y.length = 0 ∨ y.length = 32 := by
      cases hfc : g.cert with
      | skip a => rw [hfc] at hy; simp [HttpCert.toTreePath] at hy; rw [hy]; exact .inr a.2
      | responseOnly a b =>
        rw [hfc] at hy; simp [HttpCert.toTreePath] at hy
        rcases hy with rfl | rfl | rfl
        · exact .inr a.2
        · exact .inl rfl
        · exact .inr b.2
      | full a b c =>
        rw [hfc] at hy; simp [HttpCert.toTreePath] at hy
        rcases hy with rfl | rfl | rfl
        · exact .inr a.2
        · exact .inr b.2
        · exact .inr c.2
    omega
  obtain ⟨t, t1, t2, t3⟩ := entryPath_eq e
  obtain ⟨u, u1, u2, u3⟩ := entryPath_eq g
  rw [t3, u3] at h
  obtain ⟨k1, k2, -⟩ := cut_single (S := fun x => x = exactTerm ∨ x = wildTerm) (D := e.cert.toTreePath) t1 (clean_labels hg.1)
    (hterm g) (by rw [h])
  have hu := normal_inj he.2 hg.2 (labels_inj (ofPath_proper _) (ofPath_proper _) k1)
  cases hpe : e.path with
  | exact a =>
    cases hpg : g.path with
    | exact b => rw [hpe, hpg] at hu; exact congrArg _ hu
    | wildcard b =>
      rw [hpe] at t2; rw [hpg] at u2
      have e1 : t = exactTerm := by
        have := List.append_inj_right' t2 rfl; simpa using this.symm
      have e2 : u = wildTerm := by
        have := List.append_inj_right' u2 rfl; simpa using this.symm
      rw [e1, e2] at k2; exact absurd k2 (by decide)
  | wildcard a =>
    cases hpg : g.path with
    | wildcard b => rw [hpe, hpg] at hu; exact congrArg _ hu
    | exact b =>
      rw [hpe] at t2; rw [hpg] at u2
      have e1 : t = wildTerm := by
        have := List.append_inj_right' t2 rfl; simpa using this.symm
      have e2 : u = exactTerm := by
        have := List.append_inj_right' u2 rfl; simpa using this.symm
      rw [e1, e2] at k2; exact absurd k2 (by decide)

open Classical in
/-- What an entry of the router was made for. -/
noncomputable def itemKind (g : CertEntry) : CelExpr :=
  if h : ∃ i : Item, MadeFor g.cert i.cel then h.choose.cel else celOfWholes

theorem item_cel_ne (i : Item) : i.cel ≠ .skip := by cases i <;> simp [Item.cel]

theorem itemKind_ne (g : CertEntry) : itemKind g ≠ .skip := by
  unfold itemKind
  split
  · exact item_cel_ne _
  · simp [celOfWholes]

theorem itemKind_made {g : CertEntry} {i : Item} (h : MadeFor g.cert i.cel) : MadeFor g.cert (itemKind g) := by
  unfold itemKind
  rw [dif_pos ⟨i, h⟩]
  exact Exists.choose_spec (⟨i, h⟩ : ∃ i : Item, MadeFor g.cert i.cel)

variable [UnstableSort] [Bls] [Inflate]

/-- **C49.** What the router serves verifies. Let the router be in step with its tree (`C49_in_step`), and the paths
and scopes it was given be normal and clean and the asset URLs without query. A plain request (GET, no body, no query,
no Range header) of a normal path is served with a certificate that is valid (C40) and carries the root hash of the
router's tree. Then verification of the served response succeeds, and returns its status, body and headers.

The proviso `hscope` excludes a request for a scope itself, written without a final slash; see
`C49_counterexample_scope`. -/
theorem C49_verifies_partial {env : Env} {calls : List RouterCall} {r : Router} {req : HttpRequest} {res : HttpResponse}
    {path dataCert : Bytes} {c : Certificate} {minV : Nat} {m : Machine}
    -- the router
    (hcalls : ∀ c ∈ calls, c.Faithful ∧ ∀ o, c ≠ .shared o) (hr : routerRun calls = some r) (hstep : InStep calls r)
    (hitems : ∀ c ∈ calls, ∀ i, c.About i → NormalPath i.certPath.url ∧ i.certPath.Clean ∧
      (HttpRequest.getQuery { method := str "GET", url := i.url, headers := [], body := [] }) = .ok none)
    -- the request
    (hpath : req.getPath = .ok path) (hget : req.method = str "GET") (hbody : req.body = []) (hquery : req.getQuery = .ok none)
    (hrange : ∀ h ∈ req.headers, ¬ SameName h.1 (str "range")) (hutf : ∀ h ∈ req.headers, (chars h.2).isSome)
    (hnormal : NormalPath path) (hstart : (pathSegments path).head? ≠ some (str "http_expr")) (hend : PlainEndPath path)
    (hscope : path.getLast? = some slashByte ∨ r.fallbacks ⟨path, none, none⟩ = none)
    -- the response
    (hserve : r.serveAsset m dataCert req = some (.ok res))
    -- the certificate is valid and certifies the root hash of the tree
    (hcert : certificateFromCbor env.machine dataCert = some (.ok c))
    (hver : certVerify env.machine env.checks c env.canisterId env.rootKey env.now env.offset = .ok ())
    (hroot : c.tree.lookupPath [str "canister", env.canisterId, str "certified_data"] = .found r.rootHash.1)
    -- sizes
    (hm : 32 < env.machine.usize)
    (hurl : ∀ c ∈ calls, ∀ i, c.About i → (chars i.certPath.url).isSome ∧ env.machine.Fits (i.certPath.url.length + 9))
    (hfit : r.tree.full.Fits env.machine ∧ r.tree.full.height + 3 ≤ env.machine.stack)
    (hmin : minV ≤ 2) :
    ∃ info v, verifyPair env req res minV = .ok info ∧ info.version = 2 ∧
      LastHeader res.headers (str "IC-Certificate") v ∧
      info.response = some
        { statusCode := some res.status, body := res.body,
          headers := certifiedRespHeaders (.headerExclusions []) res.headers ++ [(str "IC-Certificate", v)] } := by
  obtain ⟨hct, -, -⟩ := routerRun_iff.1 hr
  have hf : ∀ c ∈ calls, c.Faithful := fun c hc => (hcalls c hc).1
  -- what is served
  rcases C45_serve hr m dataCert hutf hpath (.noHeader hrange) with ⟨x, w, hans, -, hs, hw, -, -⟩ | ⟨-, hs⟩
  swap
  · rw [hs] at hserve; cases hserve
  rw [hs] at hserve
  simp only [Option.some.injEq, Except.ok.injEq] at hserve
  subst hserve
  have hclean : ∀ g, CtOp.insert g ∈ treeLog calls → g.path.Clean ∧ NormalPath g.path.url := by
    intro g hg
    obtain ⟨c, c1, i, y, c2, c3, rfl⟩ := entry_about hcalls hg rfl
    obtain ⟨n1, n2, -⟩ := hitems c c1 i c2
    rw [c3.path]
    exact ⟨n2, n1⟩
  -- the item
  obtain ⟨c0, hc0, i, hi, hx, hspec, hresp⟩ : ∃ c ∈ calls, ∃ i, c.About i ∧ i.Answer x ∧
      ctSpec (treeLog calls) x.entry.toTreePath ∧ Responds (treeLog calls) path x.entry.path := by
    have hex : ∀ k, r.responses k = some x → k.path = path → ∃ c ∈ calls, ∃ i, c.About i ∧ i.Answer x ∧
        ctSpec (treeLog calls) x.entry.toTreePath ∧ Responds (treeLog calls) path x.entry.path := by
      intro k hk hp
      obtain ⟨c, c1, i, i1, i2, i3, i4⟩ := (held_about hf hr).1 hk
      refine ⟨c, c1, i, i1, i4, hstep.responses k x hk, ?_⟩
      rw [i4.path, certPath_exact i2]
      have : i.certPath.url = path := by
        rw [← hp, ← i3]
        cases i <;> first | rfl | cases i2
      rw [this]
      rfl
    have hheld : ∀ e, r.held path none e = some x → ∃ c ∈ calls, ∃ i, c.About i ∧ i.Answer x ∧
        ctSpec (treeLog calls) x.entry.toTreePath ∧ Responds (treeLog calls) path x.entry.path := by
      intro e he
      unfold Router.held at he
      split at he
      · rename_i y hy
        split at he
        · exact hex _ he rfl
        · simp only [Option.some.injEq] at he
          subst he
          exact hex _ hy rfl
      · cases he
    cases hans with
    | exact hch =>
      cases hch with
      | encoded _ h _ => exact hheld _ h
      | plain _ h => exact hheld _ h
    | @fallback scope _ hno henc hch hlong =>
      have hfb : ∃ e, r.heldFallback scope e = some x := by
        cases hch with
        | encoded _ h _ => exact ⟨_, h⟩
        | plain _ h => exact ⟨_, h⟩
      obtain ⟨e, he⟩ := hfb
      obtain ⟨c, c1, i, i1, i2, i3, i4⟩ := (held_about hf hr).2 he
      refine ⟨c, c1, i, i1, i4, hstep.fallbacks _ x he, ?_⟩
      have hsc : i.certPath.url = scope := by
        have := congrArg RequestKey.path i3
        cases i <;> exact this
      rw [i4.path, certPath_wild i2, hsc]
      refine ⟨encloses_matches henc, ?_⟩
      intro g g1 g2
      obtain ⟨e', e0, e1, e2⟩ := hstep.certified _ g2
      have hpe : e'.path = g.path := entry_path_inj (hclean e' e0) (hclean g g1) e1
      rw [hpe] at e2
      have hgn := (hclean g g1).2
      cases hgp : g.path with
      | exact a =>
        rw [hgp] at e2 hgn
        simp only at e2 ⊢
        intro ha
        have : a = path := normal_inj hgn hnormal ha
        subst this
        obtain ⟨y, hy⟩ := chooses_exists (accepts := Accepts req) (av := r.held a none)
          (fun hc => e2 ((held_ne_none (router_inv hr).1).1 hc))
        exact hno y hy
      | wildcard v =>
        rw [hgp] at e2 hgn
        simp only at e2 ⊢
        rintro ⟨h1, h2⟩
        rcases matches_encloses hgn hnormal h1 with h3 | ⟨h3, h4⟩
        · have hs : NormalPath scope := by
            rw [← hsc]; exact (hitems c c1 i i1).1
          have hlt := specific_longer hgn hs h1 (encloses_matches henc) h2
          obtain ⟨y, hy⟩ := chooses_exists (accepts := Accepts req) (av := r.heldFallback v) (fun hc => e2 hc)
          exact hlong v h3 hlt y hy
        · subst h3
          rcases hscope with h5 | h5
          · exact h4 h5
          · exact e2 h5
  obtain ⟨-, hcl, hq0⟩ := hitems c0 hc0 i hi
  -- the certified parts agree
  have hsame : SameCertified i.cel { method := str "GET", url := i.url, headers := [], body := [] } req i.response x.response := by
    have hnone : ∀ d : ReqCert, (∀ n ∈ d.headers, n = str "range") → certifiedReqHeaders d req.headers = [] := by
      intro d hd
      unfold certifiedReqHeaders
      rw [List.map_eq_nil_iff, List.filter_eq_nil_iff]
      intro h hh
      simp only [decide_eq_true_eq, not_exists, not_and]
      intro n hn hs
      have := hd n hn
      subst this
      exact hrange h hh hs.symm
    have hreq : ∀ d : ReqCert, (∀ n ∈ d.headers, n = str "range") →
        SameRequest d { method := str "GET", url := i.url, headers := [], body := [] } req := by
      intro d hd
      refine ⟨hget.symm, hbody.symm, ?_, none, none, hq0, hquery, rfl⟩
      rw [hnone d hd]
      exact List.Perm.refl _
    rw [hx.response]
    have hres : ∀ c, SameResponse c i.response i.response := fun c => ⟨rfl, rfl, List.Perm.refl _⟩
    cases i <;> exact ⟨hreq _ (by simp), hres _⟩
  have hkind : ∀ o ∈ treeLog calls, ∀ g, o.entry? = some g → g.path.Clean ∧ MadeFor g.cert (itemKind g) := by
    intro o ho g hg
    obtain ⟨c, c1, j, y, c2, c3, rfl⟩ := entry_about hcalls ho hg
    refine ⟨?_, itemKind_made (madeOf_madeFor c3.made)⟩
    rw [c3.path]
    exact (hitems c c1 j c2).2.1
  have hnames : ∀ n ∈ i.cel.names, CarriedName n := by
    intro n hn
    have : n = str "range" := by
      cases i <;> simp [Item.cel, CelExpr.names] at hn <;> exact hn
    subst this
    exact plain_carried (by decide)
  have hcomp := complete_clean (env := env) (ops := treeLog calls) (f := x.entry) (x := i.cel)
    (q := { method := str "GET", url := i.url, headers := [], body := [] }) (req := req) (r := i.response)
    (res := x.response) (path := path) (dataCert := dataCert) (c := c) (minV := minV) itemKind hkind
    (by rw [hx.path]; exact hcl) hspec hx.made hnames hresp hpath hsame (fun h => absurd h (item_cel_ne i)) hcert hver
    (fun t ht => by rw [hct] at ht; simp only [Option.some.injEq] at ht; subst ht; exact hroot) hm
    (by rw [hx.path]; exact hurl c0 hc0 i hi)
    (fun t ht => by rw [hct] at ht; simp only [Option.some.injEq] at ht; subst ht; exact hfit) hmin hstart hend
  rcases hcomp with ⟨t, w', info, h1, h2, h3, h4, h5⟩ | ⟨o, -, g, -, h, -⟩
  swap
  · exact absurd (h.2 (item_cel_ne i)) (itemKind_ne g)
  rw [hct] at h1
  simp only [Option.some.injEq] at h1
  subst h1
  rw [hw] at h2
  simp only [Option.some.injEq, Except.ok.injEq] at h2
  subst h2
  refine ⟨info, _, h3, h4, ⟨x.response.headers, certHeaderName, [], rfl, by decide, by simp⟩, ?_⟩
  have hcrt : ∀ rc : RespCert, certifiedRespHeaders rc (addV2CertificateHeader dataCert x.response w x.entry.path.toExprPath).headers =
      certifiedRespHeaders rc x.response.headers := by
    intro rc
    show certifiedRespHeaders rc (x.response.headers ++ [_]) = _
    unfold certifiedRespHeaders
    rw [List.filter_append]
    have : ¬ rc.Certifies certHeaderName := fun h => h.1 (by decide)
    simp [this]
  rw [hcrt]
  cases i <;> exact h5

end
end Verif.Props
