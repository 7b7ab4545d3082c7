import Verif.Spec.TodoApi
import Verif.Lemmas.AssetState
import Verif.Props.EndToEnd

set_option linter.unusedSimpArgs false
set_option linter.unusedSectionVars false

/-!
# The state of the `json-api` canister
-/

namespace Verif.Props
open Verif HashTree

/-- The URL library reads the constant `/todos` as a path without query. -/
structure TodoUri [UriLib] : Prop where
  parse : UriLib.parse (str "/todos") = some (str "/todos", none)
  decode : UriLib.decode (str "/todos") = some (str "/todos")

section
variable [SHA] [UriLib]

/-- the full expression -/
abbrev todoCel : CelExpr := .full todoReqCert todoRespCert
/-- the expression of the fallback -/
abbrev nfCel : CelExpr := .responseOnly todoRespCert

/-- a response as it is stored -/
abbrev todoStoredResponse (st : UInt16) (b : Bytes) : HttpResponse := withExpr (todoResponse st b) todoCel
abbrev nfResponse : HttpResponse := withExpr (todoResponse 404 notFoundBody) nfCel

def todoCert (m : Bytes) (st : UInt16) (b : Bytes) : HttpCert :=
  match HttpCert.mkFull todoReqCert todoRespCert (todoRequest m) (todoStoredResponse st b) none with
  | .ok c => c
  | .error _ => .mkSkip

def nfCert : HttpCert :=
  match HttpCert.mkResponseOnly todoRespCert nfResponse none with
  | .ok c => c
  | .error _ => .mkSkip

omit [SHA] in
theorem todoRequest_path (hU : TodoUri) (m : Bytes) : (todoRequest m).getPath = .ok todosPath := by
  simp [HttpRequest.getPath, todoRequest, todosPath, hU.parse, hU.decode]

omit [SHA] in
theorem todoRequest_query (hU : TodoUri) (m : Bytes) : (todoRequest m).getQuery = .ok none := by
  simp [HttpRequest.getQuery, todoRequest, todosPath, hU.parse]

theorem todo_validate (st : UInt16) (b : Bytes) (cel : CelExpr) :
    validateExprHeader (withExpr (todoResponse st b) cel) cel.toBytes = .ok () := by
  have h : ∀ n : Bytes, n ∈ [str "content-type", str "strict-transport-security", str "x-content-type-options",
      str "referrer-policy", str "cache-control", str "pragma"] → (lower n == lower certExprHeaderName) = false := by decide
  simp only [List.mem_cons, List.not_mem_nil, or_false, forall_eq_or_imp, forall_eq] at h
  obtain ⟨h1, h2, h3, h4, h5, h6⟩ := h
  simp only [validateExprHeader, withExpr, todoResponse, List.cons_append, List.nil_append, validateExprHeaderLoop,
    h1, h2, h3, h4, h5, h6, beq_self_eq_true, if_true, Bool.false_eq_true, if_false]
  rfl

theorem todoCert_ok (hU : TodoUri) (m : Bytes) (st : UInt16) (b : Bytes) :
    HttpCert.mkFull todoReqCert todoRespCert (todoRequest m) (todoStoredResponse st b) none = .ok (todoCert m st b) := by
  have : ∃ c, HttpCert.mkFull todoReqCert todoRespCert (todoRequest m) (todoStoredResponse st b) none = .ok c := by
    have h2 : ∃ h, requestHash (todoRequest m) todoReqCert = .ok h := by
      unfold requestHash
      rw [todoRequest_query hU]
      exact ⟨_, rfl⟩
    obtain ⟨h, h2⟩ := h2
    unfold HttpCert.mkFull
    simp only [todo_validate, h2]
    exact ⟨_, rfl⟩
  obtain ⟨c, hc⟩ := this
  unfold todoCert
  rw [hc]

theorem nfCert_ok : HttpCert.mkResponseOnly todoRespCert nfResponse none = .ok nfCert := by
  have : ∃ c, HttpCert.mkResponseOnly todoRespCert nfResponse none = .ok c := by
    unfold HttpCert.mkResponseOnly
    simp only [todo_validate]
    exact ⟨_, rfl⟩
  obtain ⟨c, hc⟩ := this
  unfold nfCert
  rw [hc]

def todoEntry (m : Bytes) (st : UInt16) (b : Bytes) : CertEntry := ⟨.exact todosPath, todoCert m st b⟩
def listEntry (b : Bytes) : CertEntry := todoEntry (str "GET") 200 b
def naEntry (m : Bytes) : CertEntry := todoEntry m 405 notAllowedBody
def nfEntry : CertEntry := ⟨.wildcard (str ""), nfCert⟩

theorem todo_path_head (m : Bytes) (st : UInt16) (b : Bytes) :
    (todoEntry m st b).toTreePath = str "todos" :: str "<$>" :: (todoCert m st b).toTreePath := by
  have h : (HttpPath.exact todosPath).toTreePath = [str "todos", str "<$>"] := by decide
  unfold todoEntry CertEntry.toTreePath
  simp only [h, List.cons_append, List.nil_append]

theorem nf_path_head : nfEntry.toTreePath = str "<*>" :: nfCert.toTreePath := by
  have h : (HttpPath.wildcard (str "")).toTreePath = [str "<*>"] := by decide
  unfold nfEntry CertEntry.toTreePath
  simp only [h, List.cons_append, List.nil_append]

theorem nf_ne (m : Bytes) (st : UInt16) (b : Bytes) : nfEntry.toTreePath ≠ (todoEntry m st b).toTreePath := by
  rw [todo_path_head, nf_path_head]
  intro h
  have := (List.cons.inj h).1
  exact absurd this (by decide)

/-- Two entries with the same tree path are the same. -/
theorem todoCert_inj (hU : TodoUri) {m m' : Bytes} {st st' : UInt16} {b b' : Bytes}
    (h : (todoEntry m st b).toTreePath = (todoEntry m' st' b').toTreePath) : todoCert m st b = todoCert m' st' b' := by
  rw [todo_path_head, todo_path_head] at h
  have h := (List.cons.inj (List.cons.inj h).2).2
  obtain ⟨-, q1, -, e1⟩ := madeOf_iff (.full (todoCert_ok hU m st b) (by simp))
  obtain ⟨-, q2, -, e2⟩ := madeOf_iff (.full (todoCert_ok hU m' st' b') (by simp))
  rw [e1, e2] at h ⊢
  simp only [HttpCert.toTreePath, List.cons.injEq, true_and, and_true] at h
  rw [Subtype.ext h.1, Subtype.ext h.2]

/-- Entries of different methods share a tree path only if the request hashes collide. -/
theorem todo_methods (hU : TodoUri) {m m' : Bytes} {st st' : UInt16} {b b' : Bytes} (hm : m ≠ m')
    (h : (todoEntry m st b).toTreePath = (todoEntry m' st' b').toTreePath) :
    CollisionIn (requestHashed (todoRequest m) todoReqCert none) (requestHashed (todoRequest m') todoReqCert none) := by
  have hc := todoCert_inj hU h
  obtain ⟨-, q1, h1, e1⟩ := madeOf_iff (.full (todoCert_ok hU m st b) (by simp))
  obtain ⟨-, q2, h2, e2⟩ := madeOf_iff (.full (todoCert_ok hU m' st' b') (by simp))
  rw [e1, e2] at hc
  simp only [HttpCert.full.injEq, true_and] at hc
  obtain ⟨rfl, -⟩ := hc
  rcases C29_binding (todoRequest_query hU m) (todoRequest_query hU m') (by simp [todoReqCert]) h1 h2 with h | h
  · exact absurd h.1 hm
  · exact h

/-! ### The invariant -/

/-- Entries the canister ever certifies. -/
def TodoKnown (g : CertEntry) : Prop := g = nfEntry ∨ (∃ m ∈ notAllowedMethods, g = naEntry m) ∨ ∃ b, g = listEntry b

/-- The state, when the methods `done` and the fallback (if `nf`) have been certified, and the list with the body given
(if any). -/
structure TodoInv (s : Todo) (ops : List CtOp) (list : Option Bytes) (done : List Bytes) (nf : Bool) : Prop where
  run : ctRun ops = some s.tree
  resp : ∀ k, s.responses.lookup k =
    if k.2 = todosPath then
      if k.1 = str "GET" then list.map (fun b => ⟨todoStoredResponse 200 b, todoCert (str "GET") 200 b⟩)
      else if k.1 ∈ done then some ⟨todoStoredResponse 405 notAllowedBody, todoCert k.1 405 notAllowedBody⟩ else none
    else none
  doneSub : ∀ m ∈ done, m ∈ notAllowedMethods
  fb : nf = true → s.fallback = some ⟨nfResponse, nfCert⟩
  known : ∀ o ∈ ops, ∃ g, o.entry? = some g ∧ TodoKnown g
  only : ∀ p, ctSpec ops p → (∃ b, list = some b ∧ p = (listEntry b).toTreePath) ∨ (nf = true ∧ p = nfEntry.toTreePath) ∨
    ∃ m ∈ done, p = (naEntry m).toTreePath
  hasList : ∀ b, list = some b → ctSpec ops (listEntry b).toTreePath
  hasNf : nf = true → ctSpec ops nfEntry.toTreePath
  hasNa : ∀ m ∈ done, ctSpec ops (naEntry m).toTreePath ∨
    CollisionIn (requestHashed (todoRequest (str "GET")) todoReqCert none) (requestHashed (todoRequest m) todoReqCert none)

theorem lookup_filter_ne {α β : Type} [BEq α] [LawfulBEq α] [DecidableEq α] (l : List (α × β)) (k k' : α) :
    (l.filter (fun x => x.1 ≠ k)).lookup k' = if k' = k then none else l.lookup k' := by
  induction l with
  | nil => simp
  | cons x l ih =>
    obtain ⟨a, b⟩ := x
    simp only [List.filter_cons, List.lookup_cons, ne_eq, decide_not, Bool.not_eq_true', decide_eq_false_iff_not]
    by_cases ha : a = k
    · subst ha
      simp only [not_true, if_false]
      rw [show (fun x : α × β => !decide (x.1 = a)) = fun x => decide (x.1 ≠ a) by funext; simp, ih]
      by_cases hk : k' = a
      · simp [hk]
      · have : (k' == a) = false := by simpa using hk
        simp [hk, this]
    · simp only [ha, not_false_eq_true, if_true, List.lookup_cons]
      rw [show (fun x : α × β => !decide (x.1 = k)) = fun x => decide (x.1 ≠ k) by funext; simp, ih]
      by_cases hk : k' = a
      · subst hk; simp [ha]
      · have : (k' == a) = false := by simpa using hk
        simp [this]

/-- One call of `certify_response`. -/
theorem certifyResponse_spec (hU : TodoUri) {s : Todo} {ops : List CtOp} (hrun : ctRun ops = some s.tree) (m : Bytes)
    (st : UInt16) (b : Bytes) :
    ∃ s', certifyResponse s (todoRequest m) (todoResponse st b) (.exact todosPath) = some s' ∧
      s'.next = s.next ∧ s'.items = s.items ∧ s'.fallback = s.fallback ∧ s'.certifiedData = s'.tree.rootHash.1 ∧
      (∀ k, s'.responses.lookup k = if k = (m, todosPath) then some ⟨todoStoredResponse st b, todoCert m st b⟩
        else s.responses.lookup k) ∧
      ctRun (ops ++ ((s.responses.lookup (m, todosPath)).toList.map (fun old => .delete ⟨.exact todosPath, old.cert⟩) ++
        [.insert (todoEntry m st b)])) = some s'.tree := by
  obtain ⟨t, ht⟩ := ctRun_some (ops ++ ((s.responses.lookup (m, todosPath)).toList.map
    (fun old => .delete ⟨.exact todosPath, old.cert⟩) ++ [.insert (todoEntry m st b)]))
  have key : ∃ t1, (match s.responses.lookup (m, todosPath) with
      | some old => s.tree.delete ⟨.exact todosPath, old.cert⟩
      | none => some s.tree) = some t1 ∧ t1.insert (todoEntry m st b) = some t := by
    unfold ctRun at ht hrun
    rw [List.foldlM_append, hrun] at ht
    cases hl : s.responses.lookup (m, todosPath) with
    | none => rw [hl] at ht; simp [CtOp.run] at ht; exact ⟨_, rfl, ht⟩
    | some old =>
      rw [hl] at ht
      simp only [Option.toList, List.map_cons, List.map_nil, List.cons_append, List.nil_append, List.foldlM_cons,
        List.foldlM_nil, CtOp.run, Option.bind_eq_bind, Option.bind_some] at ht
      cases hd : s.tree.delete ⟨.exact todosPath, old.cert⟩ with
      | none => rw [hd] at ht; cases ht
      | some t1 => rw [hd] at ht; simp at ht; exact ⟨t1, hd, ht⟩
  obtain ⟨t1, k1, k2⟩ := key
  have hm : (todoRequest m).method = m := rfl
  have e : certifyResponse s (todoRequest m) (todoResponse st b) (.exact todosPath) =
      some { s with
        responses := ((m, todosPath), ⟨todoStoredResponse st b, todoCert m st b⟩) ::
          s.responses.filter (fun x => x.1 ≠ (m, todosPath))
        tree := t, certifiedData := t.rootHash.1 } := by
    have k2' : t1.insert ⟨.exact todosPath, todoCert m st b⟩ = some t := k2
    unfold certifyResponse
    rw [todoRequest_path hU]
    simp only [Except.toOption, Option.bind_eq_bind, Option.bind_some, hm]
    cases hl : s.responses.lookup (m, todosPath) with
    | none =>
      rw [hl] at k1
      simp only [Option.some.injEq] at k1
      subst k1
      simp only [if_true, todoCert_ok hU, Option.bind_some, k2']
      rfl
    | some old =>
      rw [hl] at k1
      simp only at k1
      simp only [k1, if_true, todoCert_ok hU, Option.bind_some, k2']
      rfl
  refine ⟨_, e, rfl, rfl, rfl, rfl, fun k => ?_, ht⟩
  simp only [List.lookup_cons]
  by_cases hk : k = (m, todosPath)
  · subst hk; simp
  · have : (k == (m, todosPath)) = false := by simpa using hk
    rw [this, if_neg hk]
    simp only
    rw [lookup_filter_ne, if_neg hk]


theorem get_not_na : str "GET" ∉ notAllowedMethods := by decide

/-- The parts of the state that certification leaves alone. -/
structure SameData (s s' : Todo) : Prop where
  next : s'.next = s.next
  items : s'.items = s.items
  data : s'.certifiedData = s'.tree.rootHash.1

theorem list_step (hU : TodoUri) {s : Todo} {ops : List CtOp} {list : Option Bytes} {done : List Bytes} {nf : Bool}
    (inv : TodoInv s ops list done nf) (b : Bytes) :
    ∃ s' ops', certifyResponse s (todoRequest (str "GET")) (todoResponse 200 b) (.exact todosPath) = some s' ∧
      SameData s s' ∧ TodoInv s' ops' (some b) done nf := by
  obtain ⟨s', h1, h2, h3, h4, h5, h6, h7⟩ := certifyResponse_spec hU inv.run (str "GET") 200 b
  have hold : (s.responses.lookup (str "GET", todosPath)).toList.map
      (fun old => CtOp.delete ⟨.exact todosPath, old.cert⟩) = list.toList.map (fun b => CtOp.delete (listEntry b)) := by
    rw [inv.resp]
    simp only [if_true]
    cases list with
    | none => rfl
    | some b' => simp only [Option.map_some, Option.toList, List.map_cons, List.map_nil, listEntry, todoEntry]
  rw [hold] at h7
  have hspec : ∀ p, ctSpec (ops ++ (list.toList.map (fun b => CtOp.delete (listEntry b)) ++
      [.insert (todoEntry (str "GET") 200 b)])) p ↔
      p = (listEntry b).toTreePath ∨ ((∀ b', list = some b' → p ≠ (listEntry b').toTreePath) ∧ ctSpec ops p) := by
    intro p
    unfold ctSpec
    rw [List.foldl_append, List.foldl_append]
    cases list <;> simp [CtOp.spec, listEntry]
  refine ⟨s', _, h1, ⟨h2, h3, h5⟩, h7, fun k => ?_, inv.doneSub, fun h => by rw [h4]; exact inv.fb h, ?_, ?_, ?_, ?_, ?_⟩
  · rw [h6, inv.resp]
    obtain ⟨k1, k2⟩ := k
    by_cases a : k2 = todosPath <;> by_cases c : k1 = str "GET" <;> simp [a, c]
  · intro o ho
    simp only [List.mem_append, List.mem_map, Option.mem_toList, Option.mem_def, List.mem_singleton] at ho
    rcases ho with ho | ⟨b', -, rfl⟩ | rfl
    · exact inv.known o ho
    · exact ⟨_, rfl, .inr (.inr ⟨_, rfl⟩)⟩
    · exact ⟨_, rfl, .inr (.inr ⟨_, rfl⟩)⟩
  · intro p hp
    rcases (hspec p).1 hp with h | ⟨g1, g2⟩
    · exact .inl ⟨b, rfl, h⟩
    · rcases inv.only p g2 with ⟨b', e1, e2⟩ | h | h
      · exact absurd e2 (g1 b' e1)
      · exact .inr (.inl h)
      · exact .inr (.inr h)
  · intro b' hb
    cases hb
    exact (hspec _).2 (.inl rfl)
  · intro h
    exact (hspec _).2 (.inr ⟨fun b' _ => nf_ne _ _ _, inv.hasNf h⟩)
  · intro m hm
    rcases inv.hasNa m hm with h | h
    · by_cases hc : ∃ b', list = some b' ∧ (naEntry m).toTreePath = (listEntry b').toTreePath
      · obtain ⟨b', -, e⟩ := hc
        exact .inr (todo_methods hU (fun hx => get_not_na (hx ▸ inv.doneSub m hm)) e.symm)
      · exact .inl ((hspec _).2 (.inr ⟨fun b' e1 e2 => hc ⟨b', e1, e2⟩, h⟩))
    · exact .inr h

theorem na_step (hU : TodoUri) {s : Todo} {ops : List CtOp} {list : Option Bytes} {done : List Bytes} {nf : Bool}
    (inv : TodoInv s ops list done nf) {m : Bytes} (hm : m ∈ notAllowedMethods) (hd : m ∉ done) :
    ∃ s' ops', certifyResponse s (todoRequest m) (todoResponse 405 notAllowedBody) (.exact todosPath) = some s' ∧
      SameData s s' ∧ TodoInv s' ops' list (m :: done) nf := by
  obtain ⟨s', h1, h2, h3, h4, h5, h6, h7⟩ := certifyResponse_spec hU inv.run m 405 notAllowedBody
  have hg : m ≠ str "GET" := fun hx => get_not_na (hx ▸ hm)
  have hold : s.responses.lookup (m, todosPath) = none := by
    rw [inv.resp]
    simp [hg, hd]
  rw [hold] at h7
  simp only [Option.toList, List.map_nil, List.nil_append] at h7
  have hspec : ∀ p, ctSpec (ops ++ [.insert (todoEntry m 405 notAllowedBody)]) p ↔ p = (naEntry m).toTreePath ∨ ctSpec ops p := by
    intro p
    unfold ctSpec
    rw [List.foldl_append]
    simp [CtOp.spec, naEntry]
  refine ⟨s', _, h1, ⟨h2, h3, h5⟩, h7, fun k => ?_, ?_, fun h => by rw [h4]; exact inv.fb h, ?_, ?_, ?_, ?_, ?_⟩
  · rw [h6, inv.resp]
    obtain ⟨k1, k2⟩ := k
    by_cases a : k2 = todosPath <;> by_cases c : k1 = m
    · subst c; simp [a, hg]
    · simp [a, c]
    · simp [a]
    · simp [a]
  · intro x hx
    rcases List.mem_cons.1 hx with rfl | hx
    · exact hm
    · exact inv.doneSub x hx
  · intro o ho
    rcases List.mem_append.1 ho with ho | ho
    · exact inv.known o ho
    · rw [List.mem_singleton.1 ho]; exact ⟨_, rfl, .inr (.inl ⟨m, hm, rfl⟩)⟩
  · intro p hp
    rcases (hspec p).1 hp with h | h
    · exact .inr (.inr ⟨m, by simp, h⟩)
    · rcases inv.only p h with h | h | ⟨m', e1, e2⟩
      · exact .inl h
      · exact .inr (.inl h)
      · exact .inr (.inr ⟨m', by simp [e1], e2⟩)
  · intro b hb; exact (hspec _).2 (.inr (inv.hasList b hb))
  · intro h; exact (hspec _).2 (.inr (inv.hasNf h))
  · intro x hx
    rcases List.mem_cons.1 hx with rfl | hx
    · exact .inl ((hspec _).2 (.inl rfl))
    · rcases inv.hasNa x hx with h | h
      · exact .inl ((hspec _).2 (.inr h))
      · exact .inr h

theorem na_fold (hU : TodoUri) (ms : List Bytes) : ∀ {s : Todo} {ops : List CtOp} {list : Option Bytes} {done : List Bytes} {nf : Bool},
    TodoInv s ops list done nf → (∀ m ∈ ms, m ∈ notAllowedMethods ∧ m ∉ done) → ms.Nodup → s.certifiedData = s.tree.rootHash.1 →
    ∃ s' ops', ms.foldlM (fun s m => certifyResponse s (todoRequest m) (todoResponse 405 notAllowedBody) (.exact todosPath)) s = some s' ∧
      SameData s s' ∧ TodoInv s' ops' list (ms.reverse ++ done) nf := by
  induction ms with
  | nil => intro s ops list done nf inv _ _ hs; exact ⟨s, ops, rfl, ⟨rfl, rfl, hs⟩, inv⟩
  | cons m ms ih =>
    intro s ops list done nf inv hm hnd hs
    obtain ⟨s1, ops1, h1, h2, h3⟩ := na_step hU inv (hm m (by simp)).1 (hm m (by simp)).2
    rw [List.nodup_cons] at hnd
    obtain ⟨s2, ops2, h4, h5, h6⟩ := ih h3 (fun x hx => ⟨(hm x (by simp [hx])).1, fun hx' => by
      rcases List.mem_cons.1 hx' with rfl | hx'
      · exact hnd.1 hx
      · exact (hm x (by simp [hx])).2 hx'⟩) hnd.2 h2.data
    refine ⟨s2, ops2, by rw [List.foldlM_cons, h1]; exact h4, ⟨h5.next.trans h2.next, h5.items.trans h2.items, h5.data⟩, ?_⟩
    rw [List.reverse_cons, List.append_assoc]
    exact h6

theorem nf_step {s : Todo} {ops : List CtOp} {list : Option Bytes} {done : List Bytes}
    (inv : TodoInv s ops list done false) :
    ∃ s' ops', certifyNotFound s = some s' ∧ SameData s s' ∧ TodoInv s' ops' list done true := by
  obtain ⟨t, ht⟩ := ctRun_some (ops ++ [.insert nfEntry])
  have hins : s.tree.insert nfEntry = some t := by
    have := inv.run
    unfold ctRun at ht this
    rw [List.foldlM_append, this] at ht
    simpa [CtOp.run] using ht
  have hspec : ∀ p, ctSpec (ops ++ [.insert nfEntry]) p ↔ p = nfEntry.toTreePath ∨ ctSpec ops p := by
    intro p
    unfold ctSpec
    rw [List.foldl_append]
    simp [CtOp.spec]
  have e : certifyNotFound s = some { s with fallback := some ⟨nfResponse, nfCert⟩, tree := t, certifiedData := t.rootHash.1 } := by
    have hins' : s.tree.insert ⟨.wildcard (str ""), nfCert⟩ = some t := hins
    unfold certifyNotFound
    simp only [nfCert_ok, Except.toOption, Option.bind_eq_bind, Option.bind_some, hins']
    rfl
  refine ⟨_, _, e, ⟨rfl, rfl, rfl⟩, ht, inv.resp, inv.doneSub, fun _ => rfl, ?_, ?_, ?_, ?_, ?_⟩
  · intro o ho
    rcases List.mem_append.1 ho with ho | ho
    · exact inv.known o ho
    · rw [List.mem_singleton.1 ho]; exact ⟨_, rfl, .inl rfl⟩
  · intro p hp
    rcases (hspec p).1 hp with h | h
    · exact .inr (.inl ⟨rfl, h⟩)
    · rcases inv.only p h with h | h | h
      · exact .inl h
      · exact absurd h.1 (by simp)
      · exact .inr (.inr h)
  · intro b hb; exact (hspec _).2 (.inr (inv.hasList b hb))
  · intro _; exact (hspec _).2 (.inl rfl)
  · intro x hx
    rcases inv.hasNa x hx with h | h
    · exact .inl ((hspec _).2 (.inr h))
    · exact .inr h

variable [TodoJson]

/-- After `init`. -/
theorem todoInit_inv (hU : TodoUri) (enum : List TodoItem → List TodoItem) :
    ∃ s ops, todoInit enum = some s ∧ s.next = 0 ∧ s.items = [] ∧ s.certifiedData = s.tree.rootHash.1 ∧
      TodoInv s ops (some (TodoJson.list (enum []))) notAllowedMethods.reverse true := by
  have inv0 : TodoInv { next := 0, items := [], tree := .default, fallback := none, responses := [], certifiedData := [] }
      [] none [] false := by
    refine ⟨rfl, fun k => ?_, by simp, by simp, by simp, ?_, by simp, by simp, by simp⟩
    · obtain ⟨k1, k2⟩ := k
      simp
    · intro p hp; exact hp.elim
  obtain ⟨s1, ops1, h1, d1, i1⟩ := list_step hU inv0 (TodoJson.list (enum []))
  obtain ⟨s2, ops2, h2, d2, i2⟩ := na_fold hU notAllowedMethods i1 (fun m hm => ⟨hm, by simp⟩) (by decide) d1.data
  obtain ⟨s3, ops3, h3, d3, i3⟩ := nf_step i2
  rw [List.append_nil] at i3
  refine ⟨s3, ops3, ?_, d3.next.trans (d2.next.trans d1.next), d3.items.trans (d2.items.trans d1.items), d3.data, i3⟩
  unfold todoInit certifyList certifyNotAllowed
  simp only [h1, h2, h3, Option.bind_eq_bind, Option.bind_some]

/-- Certifying the list again after a change of the items. -/
theorem certifyList_inv (hU : TodoUri) {s : Todo} {ops : List CtOp} {list : Option Bytes} {done : List Bytes} {nf : Bool}
    (inv : TodoInv s ops list done nf) (next : UInt32) (items : List TodoItem) (enum : List TodoItem → List TodoItem) :
    ∃ s' ops', certifyList { s with next, items } enum = some s' ∧ s'.next = next ∧ s'.items = items ∧
      s'.certifiedData = s'.tree.rootHash.1 ∧ TodoInv s' ops' (some (TodoJson.list (enum items))) done nf := by
  have inv' : TodoInv { s with next, items } ops list done nf :=
    ⟨inv.run, inv.resp, inv.doneSub, inv.fb, inv.known, inv.only, inv.hasList, inv.hasNf, inv.hasNa⟩
  obtain ⟨s', ops', h1, h2, h3⟩ := list_step hU inv' (TodoJson.list (enum items))
  exact ⟨s', ops', h1, h2.next, h2.items, h2.data, h3⟩

end
end Verif.Props
