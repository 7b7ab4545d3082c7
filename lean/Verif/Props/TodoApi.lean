import Verif.Lemmas.TodoApi
import Verif.Props.Complete

set_option linter.unusedSimpArgs false
set_option linter.unusedSectionVars false

/-!
# Property C60: the `json-api` example
-/

namespace Verif.Props
open Verif HashTree

/-! ### The list of todos -/

theorem lists_perm {a : TodoAbs} {l l' : List TodoItem} (h : a.Lists l) (hp : l'.Perm l) : a.Lists l' :=
  ⟨(hp.map _).nodup_iff.2 h.1, fun x => by rw [hp.mem_iff]; exact h.2 x⟩

theorem lists_empty : TodoAbs.empty.Lists [] := ⟨by simp, fun x => by simp [TodoAbs.empty]⟩

theorem lists_unique {a : TodoAbs} {l : List TodoItem} (h : a.Lists l) {x y : TodoItem} (hx : x ∈ l) (hy : y ∈ l)
    (e : x.id = y.id) : x = y := by
  have h1 := (h.2 x).1 hx
  have h2 := (h.2 y).1 hy
  rw [e, h2] at h1
  obtain ⟨i, t, c⟩ := x
  obtain ⟨j, u, d⟩ := y
  simp only [Option.some.injEq, Prod.mk.injEq] at h1 e
  simp [h1.1, h1.2, e]

theorem lists_create {a : TodoAbs} {l : List TodoItem} (h : a.Lists l) (n next : UInt32) (title : Bytes) :
    TodoAbs.Lists ⟨next, fun i => if i = n then some (title, false) else a.items i⟩
      (⟨n, title, false⟩ :: l.filter (fun x => x.id ≠ n)) := by
  constructor
  · simp only [List.map_cons, List.nodup_cons, List.mem_map, List.mem_filter, decide_eq_true_eq]
    exact ⟨fun ⟨x, ⟨_, h2⟩, h3⟩ => h2 h3, h.1.sublist (List.filter_sublist.map _)⟩
  · intro x
    simp only [List.mem_cons, List.mem_filter, decide_eq_true_eq, h.2 x]
    obtain ⟨i, t, c⟩ := x
    by_cases e : i = n
    · subst e
      simp only [TodoItem.mk.injEq, true_and, ne_eq, not_true, and_false, or_false, if_true, Option.some.injEq, Prod.mk.injEq]
      constructor
      · rintro ⟨rfl, rfl⟩; exact ⟨rfl, rfl⟩
      · rintro ⟨rfl, rfl⟩; exact ⟨rfl, rfl⟩
    · simp [e]

theorem lists_remove {a : TodoAbs} {l : List TodoItem} (h : a.Lists l) (n : UInt32) :
    TodoAbs.Lists ⟨a.next, fun i => if i = n then none else a.items i⟩ (l.filter (fun x => x.id ≠ n)) := by
  constructor
  · exact h.1.sublist (List.filter_sublist.map _)
  · intro x
    simp only [List.mem_filter, decide_eq_true_eq, h.2 x]
    by_cases e : x.id = n <;> simp [e]

theorem lists_change {a : TodoAbs} {l : List TodoItem} (h : a.Lists l) (n : UInt32) (title : Option Bytes) (completed : Option Bool)
    {item : TodoItem} (hi : item ∈ l) (hn : item.id = n) :
    TodoAbs.Lists
      ⟨a.next, fun i => if i = n then (a.items n).map (fun x => (title.getD x.1, completed.getD x.2)) else a.items i⟩
      (l.map (fun x => if x.id = n then ⟨n, title.getD item.title, completed.getD item.completed⟩ else x)) := by
  have hids : (l.map (fun x => if x.id = n then (⟨n, title.getD item.title, completed.getD item.completed⟩ : TodoItem) else x)).map
      TodoItem.id = l.map TodoItem.id := by
    rw [List.map_map]
    apply List.map_congr_left
    intro x _
    simp only [Function.comp]
    split
    · next e => exact e.symm
    · rfl
  have hai : a.items n = some (item.title, item.completed) := by rw [← hn]; exact (h.2 item).1 hi
  refine ⟨by rw [hids]; exact h.1, fun x => ?_⟩
  simp only [List.mem_map]
  by_cases e : x.id = n
  · simp only [e, if_true, hai, Option.map_some, Option.some.injEq, Prod.mk.injEq]
    constructor
    · rintro ⟨y, -, h2⟩
      split at h2
      · subst h2; exact ⟨rfl, rfl⟩
      · next hy => subst h2; exact absurd e hy
    · rintro ⟨h1, h2⟩
      refine ⟨item, hi, ?_⟩
      rw [if_pos hn]
      obtain ⟨i, t, c⟩ := x
      simp only at e h1 h2
      rw [e, h1, h2]
  · simp only [e, if_false]
    rw [← h.2 x]
    constructor
    · rintro ⟨y, h1, h2⟩
      split at h2
      · subst h2; exact absurd rfl e
      · subst h2; exact h1
    · intro hx
      exact ⟨x, hx, by rw [if_neg e]⟩

/-! ### Histories -/

section
variable [SHA] [UriLib] [TodoJson]

/-- The canister is in order, and its list of todos is `a`. -/
structure TodoGood (s : Todo) (a : TodoAbs) : Prop where
  next : s.next = a.next
  items : a.Lists s.items
  data : s.certifiedData = s.tree.rootHash.1
  inv : ∃ l ops, a.Lists l ∧ TodoInv s ops (some (TodoJson.list l)) notAllowedMethods.reverse true

theorem good_certifyList (hU : TodoUri) {s : Todo} {a a' : TodoAbs} (h : TodoGood s a) {items : List TodoItem}
    {enum : List TodoItem → List TodoItem} (he : ∀ l, (enum l).Perm l) (hi : a'.Lists items) :
    ∃ s', certifyList { s with next := a'.next, items } enum = some s' ∧ TodoGood s' a' := by
  obtain ⟨l, ops, -, inv⟩ := h.inv
  obtain ⟨s', ops', h1, h2, h3, h4, h5⟩ := certifyList_inv hU inv a'.next items enum
  exact ⟨s', h1, h2, h3.symm ▸ hi, h4, _, ops', lists_perm hi (he _), h5⟩

theorem good_init (hU : TodoUri) {enum : List TodoItem → List TodoItem} (he : ∀ l, (enum l).Perm l) :
    ∃ s, todoInit enum = some s ∧ TodoGood s .empty := by
  obtain ⟨s, ops, h1, h2, h3, h4, h5⟩ := todoInit_inv hU enum
  exact ⟨s, h1, h2, h3.symm ▸ lists_empty, h4, _, ops, lists_perm lists_empty (he _), h5⟩

theorem good_call (hU : TodoUri) (checks : Bool) {s : Todo} {a : TodoAbs} (h : TodoGood s a) (req : HttpRequest)
    {enum : List TodoItem → List TodoItem} (he : ∀ l, (enum l).Perm l) :
    TodoGood ((todoUpdateCall checks s enum req).getD s) (a.step checks (.call req enum)) := by
  unfold todoUpdateCall TodoAbs.step todoWish
  cases hp : req.getPath with
  | error e => simpa [Except.toOption, hp] using h
  | ok path =>
    simp only [hp, Except.toOption, Option.bind_eq_bind, Option.bind_some]
    by_cases m1 : upper req.method = str "POST"
    · simp only [m1, if_true, true_and]
      have e1 : str "POST" ≠ str "PATCH" := by decide
      have e2 : str "POST" ≠ str "DELETE" := by decide
      by_cases p1 : path = todosPath
      · have p1' : path = str "/todos" := p1
        simp only [p1, if_true]
        rw [if_pos (show todosPath = str "/todos" from rfl)]
        unfold todoCreate
        cases hj : TodoJson.create req.body with
        | none => simpa using h
        | some title =>
          simp only [Option.bind_eq_bind, Option.bind_some, Option.elim]
          by_cases hc : checks = true ∧ a.next = 0xFFFFFFFF
          · have : (checks && s.next == 0xFFFFFFFF) = true := by rw [h.next, hc.1, hc.2]; rfl
            rw [if_pos hc, this]
            simpa using h
          · have : (checks && s.next == 0xFFFFFFFF) = false := by
              rw [h.next]
              cases checks with
              | false => rfl
              | true => simpa using hc
            rw [if_neg hc, this]
            simp only [Bool.false_eq_true, if_false]
            obtain ⟨s', g1, g2⟩ := good_certifyList hU h he (lists_create h.items a.next (a.next + 1) title)
            rw [h.next, g1]
            exact g2
      · have p1' : ¬ path = str "/todos" := p1
        simp only [p1, p1', if_false, e1, e2, Option.getD_none]
        exact h
    · by_cases m2 : upper req.method = str "PATCH"
      · have e1 : str "PATCH" ≠ str "POST" := by decide
        simp only [m2, e1, if_false, if_true, false_and]
        cases hi : todoIdParam path with
        | none => simpa using h
        | some idt =>
          simp only [Option.bind_some]
          unfold todoUpdate
          cases hj : TodoJson.update req.body with
          | none =>
            cases parseU32 idt <;> simpa using h
          | some tc =>
            obtain ⟨title, completed⟩ := tc
            cases hid : parseU32 idt with
            | none => simpa using h
            | some id =>
              simp only [Option.bind_eq_bind, Option.bind_some]
              cases hf : s.items.find? (fun x => x.id = id) with
              | none =>
                simp only [Option.bind_none, Option.getD_none]
                have hnone : a.items id = none := by
                  cases hx : a.items id with
                  | none => rfl
                  | some tc =>
                    have := (h.items.2 ⟨id, tc.1, tc.2⟩).2 hx
                    have := List.find?_eq_none.1 hf _ this
                    simp at this
                have hsame : (⟨a.next, fun i => if i = id then (a.items id).map (fun x => (title.getD x.1, completed.getD x.2))
                    else a.items i⟩ : TodoAbs) = a := by
                  obtain ⟨n, it⟩ := a
                  congr 1
                  funext i
                  simp only at hnone
                  by_cases e : i = id
                  · subst e; simp [hnone]
                  · simp [e]
                rw [hsame]
                exact h
              | some item =>
                have hmem := List.mem_of_find?_eq_some hf
                have hid' : item.id = id := by simpa using List.find?_some hf
                simp only [Option.bind_some]
                obtain ⟨s', g1, g2⟩ := good_certifyList hU h he (lists_change h.items id title completed hmem hid')
                have g1' := g1
                simp only [← h.next] at g1'
                rw [g1']
                simpa [h.next] using g2
      · by_cases m3 : upper req.method = str "DELETE"
        · have e1 : str "DELETE" ≠ str "POST" := by decide
          have e2 : str "DELETE" ≠ str "PATCH" := by decide
          simp only [m3, e1, e2, if_false, if_true, false_and]
          cases hi : todoIdParam path with
          | none => simpa using h
          | some idt =>
            simp only [Option.bind_some]
            unfold todoDelete
            cases hid : parseU32 idt with
            | none => simpa using h
            | some id =>
              simp only [Option.bind_eq_bind, Option.bind_some]
              obtain ⟨s', g1, g2⟩ := good_certifyList hU h he (lists_remove h.items id)
              have g1' := g1
              simp only [← h.next] at g1'
              rw [g1']
              simpa [h.next] using g2
        · simp only [m1, m2, m3, if_false, false_and]
          split <;> exact h

theorem good_run (hU : TodoUri) (checks : Bool) {enum : List TodoItem → List TodoItem} (he : ∀ l, (enum l).Perm l)
    (evs : List TodoEvent) (hf : ∀ e ∈ evs, e.Faithful) :
    ∃ s, todoRun checks enum evs = some s ∧ TodoGood s (todoAbs checks evs) := by
  obtain ⟨s0, h0, g0⟩ := good_init hU he
  have : ∀ (evs : List TodoEvent) (s : Todo) (a : TodoAbs), (∀ e ∈ evs, e.Faithful) → TodoGood s a →
      ∃ s', evs.foldlM (fun s e => match e with
        | .call req enum => some ((todoUpdateCall checks s enum req).getD s)
        | .upgrade enum => todoInit enum) s = some s' ∧ TodoGood s' (evs.foldl (TodoAbs.step checks) a) := by
    intro evs
    induction evs with
    | nil => intro s a _ g; exact ⟨s, rfl, g⟩
    | cons e evs ih =>
      intro s a hf g
      have hfe := hf e (by simp)
      rw [List.foldlM_cons, List.foldl_cons]
      cases e with
      | call req enum => exact ih _ _ (fun x hx => hf x (by simp [hx])) (good_call hU checks g req hfe)
      | upgrade enum =>
        obtain ⟨s1, h1, g1⟩ := good_init hU hfe
        simp only [h1]
        exact ih _ _ (fun x hx => hf x (by simp [hx])) g1
  obtain ⟨s, h1, h2⟩ := this evs s0 .empty hf g0
  exact ⟨s, by unfold todoRun; rw [h0]; exact h1, h2⟩


/-! ### What is served verifies -/

variable [Bls] [Inflate]

/-- The certificate is valid and carries the certified data of the canister; the tree can be encoded and decoded on the
machine. -/
structure TodoCertified (env : Env) (s : Todo) (dataCert : Bytes) : Prop where
  cert : ∃ c, certificateFromCbor env.machine dataCert = some (.ok c) ∧
    certVerify env.machine env.checks c env.canisterId env.rootKey env.now env.offset = .ok () ∧
    c.tree.lookupPath [str "canister", env.canisterId, str "certified_data"] = .found s.certifiedData
  usize : 32 < env.machine.usize
  fits : s.tree.full.Fits env.machine ∧ s.tree.full.height + 3 ≤ env.machine.stack

/-- the definition an entry was made for -/
def todoKind (g : CertEntry) : CelExpr := if g = nfEntry then nfCel else todoCel

omit [TodoJson] [Bls] [Inflate] in
theorem todoEntry_ne_nf (m : Bytes) (st : UInt16) (b : Bytes) : todoEntry m st b ≠ nfEntry := by
  intro h; exact nf_ne m st b (by rw [h])

omit [TodoJson] [Bls] [Inflate] in
theorem known_entry {g : CertEntry} (h : TodoKnown g) : g = nfEntry ∨ ∃ m st b, g = todoEntry m st b := by
  rcases h with h | ⟨m, -, h⟩ | ⟨b, h⟩
  · exact .inl h
  · exact .inr ⟨_, _, _, h⟩
  · exact .inr ⟨_, _, _, h⟩

omit [TodoJson] [Bls] [Inflate] in
theorem todo_madeOf (hU : TodoUri) (m : Bytes) (st : UInt16) (b : Bytes) :
    MadeOf (todoEntry m st b).cert todoCel (todoRequest m) (todoStoredResponse st b) := by
  have h := todoCert_ok hU m st b
  have e : (todoEntry m st b).cert = todoCert m st b := by unfold todoEntry; with_reducible rfl
  rw [e]
  generalize todoCert m st b = cc at h
  exact .full h (fun _ h => by cases h)

omit [TodoJson] [Bls] [Inflate] in
theorem nf_madeOf (q : HttpRequest) : MadeOf nfEntry.cert nfCel q nfResponse := by
  have h := nfCert_ok
  have e : nfEntry.cert = nfCert := by unfold nfEntry; with_reducible rfl
  rw [e]
  generalize nfCert = cc at h
  exact .responseOnly h (fun _ h => by cases h)

omit [SHA] [UriLib] [TodoJson] [Bls] [Inflate] in
theorem todo_names : todoCel.names = [] ∧ nfCel.names = [] := ⟨rfl, rfl⟩

omit [TodoJson] [Bls] [Inflate] in
theorem todoClean : (HttpPath.exact todosPath).Clean ∧ (HttpPath.wildcard (str "")).Clean := by
  constructor
  · exact ⟨by decide, by decide⟩
  · exact ⟨by decide, by decide⟩

omit [TodoJson] [Bls] [Inflate] in
theorem known_made (hU : TodoUri) {g : CertEntry} (h : TodoKnown g) : g.path.Clean ∧ MadeFor g.cert (todoKind g) := by
  rcases known_entry h with rfl | ⟨m, st, b, rfl⟩
  · refine ⟨todoClean.2, ?_⟩
    rw [todoKind, if_pos rfl]
    exact madeOf_madeFor (nf_madeOf (todoRequest []))
  · refine ⟨todoClean.1, ?_⟩
    rw [todoKind, if_neg (todoEntry_ne_nf _ _ _)]
    exact madeOf_madeFor (todo_madeOf hU m st b)

omit [TodoJson] [Bls] [Inflate] in
theorem known_not_skip (g : CertEntry) : todoKind g ≠ .skip := by
  unfold todoKind; split <;> simp

omit [SHA] [UriLib] [TodoJson] [Bls] [Inflate] in
theorem todo_headers (hs : List Header) : certifiedReqHeaders todoReqCert hs = [] := by
  simp [certifiedReqHeaders, todoReqCert]

omit [TodoJson] in
/-- Serving a certified response for `/todos`. -/
theorem serve_todo (hU : TodoUri) {env : Env} {s : Todo} {ops : List CtOp} {list : Option Bytes} {done : List Bytes}
    (inv : TodoInv s ops list done true) (hdata : s.certifiedData = s.tree.rootHash.1) {dataCert : Bytes}
    (hc : TodoCertified env s dataCert) {m : Bytes} {st : UInt16} {b : Bytes}
    (hl : s.responses.lookup (m, todosPath) = some ⟨todoStoredResponse st b, todoCert m st b⟩)
    (hspec : ctSpec ops (todoEntry m st b).toTreePath)
    {req : HttpRequest} (h1 : req.method = m) (h2 : req.getPath = .ok todosPath) (h3 : req.getQuery = .ok none)
    (h4 : req.body = []) {minV : Nat} (hmin : minV ≤ 2) :
    ∃ res info, todoQuery s dataCert req = some res ∧ res.status = st ∧ res.body = b ∧
      verifyPair env req res minV = .ok info ∧ info.version = 2 ∧
      ∃ hs, info.response = some { statusCode := some st, body := b, headers := hs } := by
  obtain ⟨c, c1, c2, c3⟩ := hc.cert
  have hf : (todoEntry m st b).path = .exact todosPath := rfl
  have huse := hc.usize
  rcases complete_clean (env := env) (ops := ops) (f := todoEntry m st b) (x := todoCel) (q := todoRequest m) (req := req)
      (r := todoStoredResponse st b) (res := todoStoredResponse st b) (path := todosPath) (dataCert := dataCert) (c := c) (minV := minV)
      todoKind
      (fun o ho g hg => by
        obtain ⟨g', e1, e2⟩ := inv.known o ho
        rw [hg] at e1; cases e1
        exact known_made hU e2)
      todoClean.1 hspec (todo_madeOf hU m st b) (by rw [todo_names.1]; simp)
      (by rw [hf]; exact rfl) h2
      ⟨⟨h1.symm, h4.symm, by rw [todo_headers, todo_headers], none, none, todoRequest_query hU m, h3, rfl⟩, rfl, rfl, .refl _⟩
      (by simp) c1 c2 (fun t ht => by rw [inv.run] at ht; cases ht; rw [c3, hdata])
      hc.usize
      ⟨by rw [hf]; decide, by
        have : (todoEntry m st b).path.url.length + 9 = 15 := by rw [hf]; decide
        rw [this]; exact ⟨by omega, by omega⟩⟩
      (fun t ht => by rw [inv.run] at ht; cases ht; exact hc.fits) hmin (by decide) (by unfold PlainEndPath; decide)
    with ⟨t, w, info, w1, w2, w3, w4, w5⟩ | ⟨o, -, g, -, hg, -⟩
  · rw [inv.run] at w1; cases w1
    refine ⟨_, info, ?_, ?_, ?_, w3, w4, _, w5⟩
    · unfold todoQuery
      rw [h2, h1, ]
      simp only [Except.toOption, Option.bind_eq_bind, Option.bind_some, hl]
      have w2' : s.tree.witness ⟨.exact todosPath, todoCert m st b⟩ todosPath = some (.ok w) := w2
      rw [w2', hf]
      rfl
    · rfl
    · rfl
  · exact absurd (hg.2 (by simp)) (known_not_skip g)


/-- **C60** After any history of update calls and upgrades, the answer to `GET /todos` (without query and body) has status 200,
its body lists exactly the current todos, and it verifies. -/
theorem C60_list (hU : TodoUri) (checks : Bool) {enum : List TodoItem → List TodoItem} (he : ∀ l, (enum l).Perm l)
    (evs : List TodoEvent) (hf : ∀ e ∈ evs, e.Faithful) :
    ∃ s l, todoRun checks enum evs = some s ∧ (todoAbs checks evs).Lists l ∧
      ∀ (env : Env) (dataCert : Bytes) (req : HttpRequest) (minV : Nat), TodoCertified env s dataCert →
        req.method = str "GET" → req.getPath = .ok (str "/todos") → req.getQuery = .ok none → req.body = [] → minV ≤ 2 →
        ∃ res info, todoHttpRequest s dataCert req = some (.response res) ∧ res.status = 200 ∧ res.body = TodoJson.list l ∧
          verifyPair env req res minV = .ok info ∧ info.version = 2 ∧
          ∃ hs, info.response = some { statusCode := some 200, body := TodoJson.list l, headers := hs } := by
  obtain ⟨s, h1, g⟩ := good_run hU checks he evs hf
  obtain ⟨l, ops, h2, inv⟩ := g.inv
  refine ⟨s, l, h1, h2, fun env dataCert req minV hc m1 m2 m3 m4 m5 => ?_⟩
  obtain ⟨res, info, r1, r2⟩ := serve_todo hU inv g.data hc (m := str "GET") (st := 200) (b := TodoJson.list l)
    (by rw [inv.resp]; simp) (inv.hasList _ rfl) m1 m2 m3 m4 m5
  refine ⟨res, info, ?_, r2⟩
  unfold todoHttpRequest
  have e1 : upper (str "GET") ≠ str "POST" := by decide
  have e2 : ¬ (upper (str "GET") = str "PATCH" ∨ upper (str "GET") = str "DELETE") := by decide
  have e3 : upper (str "GET") ∈ catchAllMethods ∧ catchAllMatches (str "/todos") = true := by decide
  rw [m2, m1]
  simp only [Except.toOption, Option.bind_eq_bind, Option.bind_some]
  rw [if_neg e1, if_neg e2, if_pos e3, r1]
  rfl

/-- **C60** After any history, `HEAD`, `PUT`, `OPTIONS`, `TRACE` and `CONNECT` on `/todos` get an answer with status 405 that
verifies (unless the hashes of two of the requests certified collide). -/
theorem C60_not_allowed (hU : TodoUri) (checks : Bool) {enum : List TodoItem → List TodoItem} (he : ∀ l, (enum l).Perm l)
    (evs : List TodoEvent) (hf : ∀ e ∈ evs, e.Faithful) :
    ∃ s, todoRun checks enum evs = some s ∧
      ∀ (env : Env) (dataCert : Bytes) (req : HttpRequest) (minV : Nat), TodoCertified env s dataCert →
        req.method ∈ [str "HEAD", str "PUT", str "OPTIONS", str "TRACE", str "CONNECT"] →
        req.getPath = .ok (str "/todos") → req.getQuery = .ok none → req.body = [] → minV ≤ 2 →
        (∃ res info, todoHttpRequest s dataCert req = some (.response res) ∧ res.status = 405 ∧ res.body = notAllowedBody ∧
          verifyPair env req res minV = .ok info ∧ info.version = 2 ∧
          ∃ hs, info.response = some { statusCode := some 405, body := notAllowedBody, headers := hs }) ∨
        CollisionIn (requestHashed (todoRequest (str "GET")) todoReqCert none)
          (requestHashed (todoRequest req.method) todoReqCert none) := by
  obtain ⟨s, h1, g⟩ := good_run hU checks he evs hf
  obtain ⟨l, ops, h2, inv⟩ := g.inv
  refine ⟨s, h1, fun env dataCert req minV hc m1 m2 m3 m4 m5 => ?_⟩
  have hm : ∀ x ∈ [str "HEAD", str "PUT", str "OPTIONS", str "TRACE", str "CONNECT"], x ∈ notAllowedMethods ∧ x ≠ str "GET" ∧
      upper x ≠ str "POST" ∧ ¬ (upper x = str "PATCH" ∨ upper x = str "DELETE") ∧ upper x ∈ catchAllMethods := by decide
  obtain ⟨n1, n2, n3, n4, n5⟩ := hm _ m1
  have n6 : req.method ∈ notAllowedMethods.reverse := by simpa using n1
  rcases inv.hasNa req.method n6 with hs | hcol
  · left
    obtain ⟨res, info, r1, r2⟩ := serve_todo hU inv g.data hc (m := req.method) (st := 405) (b := notAllowedBody)
      (by rw [inv.resp]; simp only [if_true, n2, if_false, n6]) hs rfl m2 m3 m4 m5
    refine ⟨res, info, ?_, r2⟩
    unfold todoHttpRequest
    rw [m2]
    simp only [Except.toOption, Option.bind_eq_bind, Option.bind_some]
    rw [if_neg n3, if_neg n4, if_pos ⟨n5, by decide⟩, r1]
    rfl
  · exact .inr hcol

/-- **C60** After any history, a request with one of the methods `GET`, `HEAD`, `PUT`, `OPTIONS`, `TRACE`, `CONNECT` (in any case)
for any other path - other than `/todos` with repeated slashes, and with the provisos of C22 - gets an answer with status 404
that verifies. -/
theorem C60_not_found (hU : TodoUri) (checks : Bool) {enum : List TodoItem → List TodoItem} (he : ∀ l, (enum l).Perm l)
    (evs : List TodoEvent) (hf : ∀ e ∈ evs, e.Faithful) :
    ∃ s, todoRun checks enum evs = some s ∧
      ∀ (env : Env) (dataCert path : Bytes) (req : HttpRequest) (minV : Nat), TodoCertified env s dataCert →
        upper req.method ∈ catchAllMethods → req.getPath = .ok path → 1 < path.length → path.head? = some 0x2F →
        PathShape.ofPath path ≠ PathShape.ofPath (str "/todos") →
        (pathSegments path).head? ≠ some (str "http_expr") → PlainEndPath path → minV ≤ 2 →
        ∃ res info, todoHttpRequest s dataCert req = some (.response res) ∧ res.status = 404 ∧ res.body = notFoundBody ∧
          verifyPair env req res minV = .ok info ∧ info.version = 2 ∧
          ∃ hs, info.response = some { statusCode := some 404, body := notFoundBody, headers := hs } := by
  obtain ⟨s, h1, g⟩ := good_run hU checks he evs hf
  obtain ⟨l, ops, h2, inv⟩ := g.inv
  refine ⟨s, h1, fun env dataCert path req minV hc m1 m2 m3 m3' m4 m5 m6 m7 => ?_⟩
  obtain ⟨c, c1, c2, c3⟩ := hc.cert
  have huse := hc.usize
  have hf : nfEntry.path = .wildcard (str "") := by unfold nfEntry; with_reducible rfl
  have hne : path ≠ todosPath := fun e => m4 (by rw [e]; rfl)
  rcases complete_clean (env := env) (ops := ops) (f := nfEntry) (x := nfCel) (q := req) (req := req)
      (r := nfResponse) (res := nfResponse) (path := path) (dataCert := dataCert) (c := c) (minV := minV)
      todoKind
      (fun o ho g hg => by
        obtain ⟨g', e1, e2⟩ := inv.known o ho
        rw [hg] at e1; cases e1
        exact known_made hU e2)
      (by rw [hf]; exact todoClean.2) (inv.hasNf rfl) (nf_madeOf req) (by rw [todo_names.2]; simp)
      (by
        rw [hf]
        have e : PathShape.ofPath (str "") = ⟨[], false⟩ := by decide
        refine ⟨by rw [e]; exact ⟨List.nil_prefix, by simp⟩, fun g hg _ => ?_⟩
        obtain ⟨g', e1, e2⟩ := inv.known _ hg
        cases e1
        rcases known_entry e2 with rfl | ⟨m, st, b, rfl⟩
        · rw [hf]
          simp only
          rw [e]
          rintro ⟨-, h⟩
          simp [PathShape.MoreSpecific] at h
        · have : (todoEntry m st b).path = .exact todosPath := by unfold todoEntry; with_reducible rfl
          rw [this]
          exact fun h => m4 h.symm) m2
      ⟨rfl, rfl, .refl _⟩
      (by simp) c1 c2 (fun t ht => by rw [inv.run] at ht; cases ht; rw [c3, g.data])
      hc.usize
      ⟨by rw [hf]; decide, by
        have : nfEntry.path.url.length + 9 = 9 := by rw [hf]; decide
        rw [this]; exact ⟨by omega, by omega⟩⟩
      (fun t ht => by rw [inv.run] at ht; cases ht; exact hc.fits) m7 m5 m6
    with ⟨t, w, info, w1, w2, w3, w4, w5⟩ | ⟨o, -, g, -, hg, -⟩
  · rw [inv.run] at w1; cases w1
    refine ⟨_, info, ?_, ?_, ?_, w3, w4, _, w5⟩
    · have n : ∀ x ∈ catchAllMethods, x ≠ str "POST" ∧ ¬ (x = str "PATCH" ∨ x = str "DELETE") := by decide
      have hca : catchAllMatches path = true := by
        match path, m3, m3' with
        | [a], h, _ => simp at h
        | a :: b :: r, _, h => simp at h; subst h; rfl
      unfold todoHttpRequest
      rw [m2]
      simp only [Except.toOption, Option.bind_eq_bind, Option.bind_some]
      rw [if_neg (n _ m1).1, if_neg (n _ m1).2, if_pos ⟨m1, hca⟩]
      have : todoQuery s dataCert req = some (addV2CertificateHeader dataCert nfResponse w nfEntry.path.toExprPath) := by
        unfold todoQuery
        rw [m2]
        simp only [Except.toOption, Option.bind_eq_bind, Option.bind_some, inv.resp, hne, if_false, inv.fb rfl, Option.map_some]
        have w2' : s.tree.witness ⟨.wildcard (str ""), nfCert⟩ path = some (.ok w) := w2
        rw [w2', hf]
        rfl
      rw [this]
      rfl
    · rfl
    · rfl
  · exact absurd (hg.2 (by simp)) (known_not_skip g)


/-! ### Nothing else verifies -/

/-- What the canister certifies when its list of todos is `l`: the list, the refusals, and the fallback. -/
def todoOrigins (l : List TodoItem) : List Origin :=
  ⟨nfCel, todoRequest (str "GET"), nfResponse⟩ ::
  ⟨todoCel, todoRequest (str "GET"), todoStoredResponse 200 (TodoJson.list l)⟩ ::
  notAllowedMethods.map (fun m => ⟨todoCel, todoRequest m, todoStoredResponse 405 notAllowedBody⟩)

open Classical in
/-- An origin of an entry: the current list, if possible. -/
noncomputable def todoOrigin (l : List TodoItem) (f : CertEntry) : Origin :=
  if f = nfEntry then ⟨nfCel, todoRequest (str "GET"), nfResponse⟩
  else if f = listEntry (TodoJson.list l) then ⟨todoCel, todoRequest (str "GET"), todoStoredResponse 200 (TodoJson.list l)⟩
  else if h : ∃ m ∈ notAllowedMethods, f = naEntry m then ⟨todoCel, todoRequest h.choose, todoStoredResponse 405 notAllowedBody⟩
  else if h : ∃ b, f = listEntry b then ⟨todoCel, todoRequest (str "GET"), todoStoredResponse 200 h.choose⟩
  else ⟨nfCel, todoRequest (str "GET"), nfResponse⟩

omit [SHA] [UriLib] [TodoJson] [Bls] [Inflate] in
theorem todo_noPseudo (st : UInt16) (b : Bytes) (cel : CelExpr) : (withExpr (todoResponse st b) cel).NoPseudo := by
  have h : ∀ n ∈ [str "content-type", str "strict-transport-security", str "x-content-type-options",
      str "referrer-policy", str "cache-control", str "pragma", certExprHeaderName], ¬ SameName n (str ":ic-cert-status") := by decide
  intro x hx
  apply h
  simp only [withExpr, todoResponse, List.cons_append, List.nil_append, List.mem_cons, List.not_mem_nil, or_false] at hx
  rcases hx with rfl | rfl | rfl | rfl | rfl | rfl | rfl <;> simp

omit [Bls] [Inflate] in
theorem todoOrigin_made (hU : TodoUri) (l : List TodoItem) {f : CertEntry} (hk : TodoKnown f) :
    (todoOrigin l f).Made f.cert ∧ (∀ n ∈ (todoOrigin l f).cel.names, CarriedName n) ∧ (todoOrigin l f).cel.NoPseudo ∧
      (todoOrigin l f).response.NoPseudo := by
  have hfull : ∀ m st b, f = todoEntry m st b → Origin.Made ⟨todoCel, todoRequest m, todoStoredResponse st b⟩ f.cert ∧
      (∀ n ∈ todoCel.names, CarriedName n) ∧ todoCel.NoPseudo ∧ (todoStoredResponse st b).NoPseudo := by
    intro m st b e
    rw [e]
    refine ⟨todo_madeOf hU m st b, by rw [todo_names.1]; simp, ?_, todo_noPseudo _ _ _⟩
    intro n hn
    simp [todoReqCert] at hn
  unfold todoOrigin
  split
  · next e =>
    rw [e]
    exact ⟨nf_madeOf _, by simp only [todo_names.2]; simp, trivial, todo_noPseudo _ _ _⟩
  · next e0 =>
    split
    · next e => exact hfull _ _ _ e
    · split
      · next h => exact hfull _ _ _ h.choose_spec.2
      · next h1 =>
        split
        · next h => exact hfull _ _ _ h.choose_spec
        · next h2 =>
          rcases hk with h | h | h
          · exact absurd h e0
          · exact absurd h h1
          · exact absurd h h2

omit [Bls] [Inflate] in
/-- An entry that is certified now has an origin among the current ones. -/
theorem todoOrigin_mem (hU : TodoUri) {s : Todo} {ops : List CtOp} {l : List TodoItem}
    (inv : TodoInv s ops (some (TodoJson.list l)) notAllowedMethods.reverse true) {f : CertEntry} (hk : TodoKnown f)
    (hs : ctSpec ops f.toTreePath) : todoOrigin l f ∈ todoOrigins l ∧ (todoOrigin l f).cel = todoKind f := by
  unfold todoOrigin todoOrigins
  split
  · next e => exact ⟨by simp, by rw [todoKind, if_pos e]⟩
  · next e0 =>
    have hkind : todoKind f = todoCel := by rw [todoKind, if_neg e0]
    split
    · exact ⟨by simp, hkind.symm⟩
    · next e1 =>
      split
      · next h =>
        refine ⟨?_, hkind.symm⟩
        simp only [List.mem_cons, List.mem_map]
        exact .inr (.inr ⟨_, h.choose_spec.1, rfl⟩)
      · next h1 =>
        exfalso
        have hcert : ∀ {m st b m' st' b'}, f = todoEntry m st b → f.toTreePath = (todoEntry m' st' b').toTreePath →
            f = todoEntry m' st' b' := by
          intro m st b m' st' b' e1 e2
          rw [e1] at e2 ⊢
          unfold todoEntry
          rw [todoCert_inj hU e2]
        obtain ⟨m, st, b, e⟩ : ∃ m st b, f = todoEntry m st b := by
          rcases known_entry hk with h | h
          · exact absurd h e0
          · exact h
        rcases inv.only _ hs with ⟨b', hb', h⟩ | ⟨-, h⟩ | ⟨m', hm', h⟩
        · cases hb'
          exact e1 (hcert e h)
        · rw [e] at h
          exact nf_ne _ _ _ h.symm
        · exact h1 ⟨m', by simpa using hm', hcert e h⟩

omit [Bls] [Inflate] in
/-- The exact path `/todos` is in the tree. -/
theorem todo_exact_node (hU : TodoUri) {s : Todo} {ops : List CtOp} {b : Bytes} {done : List Bytes} {nf : Bool}
    (inv : TodoInv s ops (some b) done nf) :
    ∃ n, s.tree.full.HasNode (str "http_expr" :: (PathShape.ofPath (str "/todos")).labels ++ [str "<$>"]) n := by
  have hsk : ∀ g, TodoKnown g → g.cert.isSkip = false := by
    intro g hg
    have h2 := (known_made hU hg).2
    have h3 := known_not_skip g
    generalize todoKind g = x at h2 h3
    generalize g.cert = cc at h2
    cases h2 with
    | skip => exact absurd rfl h3
    | responseOnly h => rw [C44_response_only] at h; rw [h.2]; rfl
    | full h => rw [C44_full] at h; obtain ⟨_, _, _, h⟩ := h; rw [h]; rfl
  obtain ⟨t, h1, -, -, h4, -⟩ := entries_clean ops (listEntry b) todoClean.1
    (fun o ho f hf => by
      obtain ⟨g', e1, e2⟩ := inv.known o ho
      rw [hf] at e1; cases e1
      exact (known_made hU e2).1)
    (fun o ho f hf _ => by
      obtain ⟨g', e1, e2⟩ := inv.known o ho
      rw [hf] at e1; cases e1
      rw [hsk _ e2, hsk _ (.inr (.inr ⟨b, rfl⟩))])
  rw [inv.run] at h1; cases h1
  have hl := h4.2 (inv.hasList b rfl)
  unfold HasLeaf at hl
  unfold listEntry at hl
  rw [todo_path_head] at hl
  generalize (todoCert (str "GET") 200 b).toTreePath = q at hl
  obtain ⟨n, hn, -⟩ := HasNode.split (p := [str "http_expr", str "todos", str "<$>"]) (q := q) hl
  exact ⟨n, hn⟩


/-- **C60** With a certificate of the current state, nothing but the following verifies: for `/todos`, the current list for `GET`,
and the refusal for the other methods; for other paths, the fallback; or a collision is exhibited. In particular no
earlier version of the list verifies. -/
theorem C60_only (hU : TodoUri) (checks : Bool) {enum : List TodoItem → List TodoItem} (he : ∀ l, (enum l).Perm l)
    (evs : List TodoEvent) (hf : ∀ e ∈ evs, e.Faithful) {s : Todo} (hs : todoRun checks enum evs = some s)
    {env : Env} {req : HttpRequest} {res : HttpResponse} {minV : Nat} {info : VerificationInfo} {hdr : CertHeader} {S : HashTree}
    (hc : CarriesHeader env.machine res hdr) (h : verifyPair env req res minV = .ok info)
    (hC : Certifies hdr.certificate env.canisterId S s.tree.full)
    {path : Bytes} (hpath : req.getPath = .ok path) (hend : PlainEndPath path) :
    ∃ l, (todoAbs checks evs).Lists l ∧
    ((PathShape.ofPath path = PathShape.ofPath (str "/todos") ∧ req.body = [] ∧ req.getQuery = .ok none ∧
        ((req.method = str "GET" ∧ res.status = 200 ∧ res.body = TodoJson.list l) ∨
         (req.method ∈ notAllowedMethods ∧ res.status = 405 ∧ res.body = notAllowedBody))) ∨
     (PathShape.ofPath path ≠ PathShape.ofPath (str "/todos") ∧ res.status = 404 ∧ res.body = notFoundBody) ∨
     CollisionIn hdr.certificate.tree.hashed S.hashed ∨ CollisionIn hdr.tree.hashed s.tree.full.hashed ∨
     ∃ e expr cel, Claims env.machine res hdr e expr cel ∧ ∃ o ∈ todoOrigins l,
       CollisionIn [o.cel.toBytes] [expr] ∨ CollisionIn (certHashed o.cel o.request o.response) (certHashed cel req res)) := by
  obtain ⟨s', h1, g⟩ := good_run hU checks he evs hf
  rw [hs] at h1; cases h1
  obtain ⟨l, ops, h2, inv⟩ := g.inv
  refine ⟨l, h2, ?_⟩
  obtain ⟨hdr', h3, -, h4⟩ := verifyPair_ok.1 h
  have := carriesHeader_unique h3 hc
  subst this
  rcases h4 with ⟨hv, -⟩ | ⟨hv, expr, e, cel, h5, h6, h7, h8⟩
  · obtain ⟨-, -, path, enc, decoded, body, -, -, -, -, h7⟩ := C28_sound hc hv h
    have hno : ∀ p v, ¬ s.tree.full.HasLeaf (str "http_assets" :: p) v := by
      intro p v hx
      unfold CertTree.full HasLeaf at hx
      generalize hq : (str "http_assets" :: p) = q at hx
      cases hx with
      | down hx =>
        have := (List.cons.inj hq).1
        exact absurd this (by decide)
    rcases h7 S _ hC with (h8 | ⟨-, h8⟩) | h8 | h8
    · exact absurd h8 (hno _ _)
    · exact absurd h8 (hno _ _)
    · exact .inr (.inr (.inl h8))
    · exact .inr (.inr (.inr (.inl h8)))
  · have hcl : Claims env.machine res hdr' e expr cel := ⟨hc, hv, h6, h5, h7⟩
    have hknown : ∀ f, CtOp.insert f ∈ ops → TodoKnown f := by
      intro f hf
      obtain ⟨g', e1, e2⟩ := inv.known _ hf
      cases e1; exact e2
    by_cases hcel : cel = .skip
    · subst hcel
      rcases C27_end_to_end hcl h inv.run hC todoKind (fun f hf => ⟨HttpPath.not_hides (known_made hU (hknown f hf)).1 _, (known_made hU (hknown f hf)).2, by
          unfold todoKind
          split
          · rw [todo_names.2]; simp
          · rw [todo_names.1]; simp⟩) with ⟨f, -, -, -, k, -⟩ | k | k | ⟨f, k1, k2, -, k3⟩
      · exact absurd k (known_not_skip f)
      · exact .inr (.inr (.inl k))
      · exact .inr (.inr (.inr (.inl k)))
      · obtain ⟨o1, o2⟩ := todoOrigin_mem hU inv (hknown f k1) k2
        exact .inr (.inr (.inr (.inr ⟨e, expr, _, hcl, _, o1, .inl (by rw [o2]; exact k3)⟩)))
    · rcases C23_end_to_end hcl h hcel inv.run hC (todoOrigin l) (fun f hf => todoOrigin_made hU l (hknown f hf)) with
        ⟨f, k1, k2, k3, k4, k5⟩ | k | k | ⟨f, k1, k2, -, k3⟩
      · rcases C24_best_path_partial hcl h hpath hend hC (C24_api_tree inv.run) with ⟨-, hbest⟩ | k | k
        · obtain ⟨o1, o2⟩ := todoOrigin_mem hU inv (hknown f k1) k2
          obtain ⟨nt, hnt⟩ := todo_exact_node hU inv
          rcases known_entry (hknown f k1) with e0 | ⟨m, st, b, e0⟩
          · -- the fallback
            have hfe : f.path.toExprPath = [str "http_expr", str "<*>"] := by
              have : f.path = .wildcard (str "") := by rw [e0]; unfold nfEntry; with_reducible rfl
              rw [this]; decide
            have ho : todoOrigin l f = ⟨nfCel, todoRequest (str "GET"), nfResponse⟩ := by rw [todoOrigin, if_pos e0]
            rw [ho] at k4 k5
            simp only at k4 k5
            rw [← k4] at k5
            obtain ⟨r1, r2, -⟩ := k5
            refine .inr (.inl ⟨fun hsh => ?_, r1.symm, r2.symm⟩)
            rw [hsh] at hbest
            rcases hbest with hb | ⟨hb, -⟩
            · rw [← k3, hfe] at hb
              exact absurd hb (by decide)
            · exact hb ⟨nt, hnt⟩
          · have hne : f ≠ nfEntry := by rw [e0]; exact todoEntry_ne_nf _ _ _
            have hfe : f.path.toExprPath = [str "http_expr", str "todos", str "<$>"] := by
              have : f.path = .exact todosPath := by rw [e0]; unfold todoEntry; with_reducible rfl
              rw [this]; decide
            have hsh : PathShape.ofPath path = PathShape.ofPath (str "/todos") := by
              rcases hbest with hb | ⟨-, w, -, hb, -⟩
              · rw [← k3, hfe] at hb
                apply PathShape.labels_inj (ofPath_proper _) (ofPath_proper _)
                have e5 : (PathShape.ofPath (str "/todos")).labels = [str "todos"] := by decide
                rw [e5]
                have := (List.cons.inj hb).2
                have h6 : [str "todos"] ++ [str "<$>"] = (PathShape.ofPath path).labels ++ [str "<$>"] := this
                exact (List.append_cancel_right h6).symm
              · rw [← k3, hfe] at hb
                have := congrArg List.getLast? hb
                rw [List.getLast?_append] at this
                have : some (str "<$>") = some (str "<*>") := this
                exact absurd this (by decide)
            left
            unfold todoOrigins at o1
            rw [todoKind, if_neg hne] at o2
            generalize todoOrigin l f = o at o1 o2 k4 k5
            subst k4
            rw [o2] at k5
            obtain ⟨⟨q1, q2, -, p, q, q3, q4, q5⟩, r1, r2, -⟩ := k5
            simp only [List.mem_cons, List.mem_map] at o1
            rcases o1 with rfl | rfl | ⟨m', hm', rfl⟩
            · simp at o2
            · simp only at q1 q2 q3 r1 r2
              rw [todoRequest_query hU] at q3
              cases q3
              refine ⟨hsh, q2.symm, ?_, .inl ⟨q1.symm, r1.symm, r2.symm⟩⟩
              cases q with
              | none => exact q4
              | some q => simp at q5
            · simp only at q1 q2 q3 r1 r2
              rw [todoRequest_query hU] at q3
              cases q3
              refine ⟨hsh, q2.symm, ?_, .inr ⟨by rw [← q1]; exact hm', r1.symm, r2.symm⟩⟩
              cases q with
              | none => exact q4
              | some q => simp at q5
        · exact .inr (.inr (.inl k))
        · exact .inr (.inr (.inr (.inl k)))
      · exact .inr (.inr (.inl k))
      · exact .inr (.inr (.inr (.inl k)))
      · obtain ⟨o1, -⟩ := todoOrigin_mem hU inv (hknown f k1) k2
        exact .inr (.inr (.inr (.inr ⟨e, expr, _, hcl, _, o1, k3⟩)))

end

/-! ### A concrete case -/

section
attribute [local instance] toySHA toyUri toyBls toyInflate

/-- Stands for JSON: titles followed by commas. -/
@[instance_reducible] def toyTodoJson : TodoJson :=
  ⟨fun l => l.flatMap (fun x => x.title ++ (if x.completed then str "!" else []) ++ str ","), some, fun _ => some (none, some true)⟩
attribute [local instance] toyTodoJson

theorem exTodoUri : TodoUri := ⟨by decide +kernel, by decide +kernel⟩

/-- Create `a`, `b`, `c`, complete `b`, delete `a`, and a call that traps (unknown id). -/
def exTodoEvents : List TodoEvent :=
  [.call ⟨str "POST", str "/todos", [], str "a"⟩ id, .call ⟨str "POST", str "/todos", [], str "b"⟩ List.reverse,
   .call ⟨str "POST", str "/todos", [], str "c"⟩ id, .call ⟨str "PATCH", str "/todos/1", [], []⟩ id,
   .call ⟨str "DELETE", str "/todos/0", [], []⟩ id, .call ⟨str "PATCH", str "/todos/7", [], []⟩ id]

theorem exTodo_faithful : ∀ e ∈ exTodoEvents, e.Faithful := by
  intro e he
  simp only [exTodoEvents, List.mem_cons, List.not_mem_nil, or_false] at he
  rcases he with rfl | rfl | rfl | rfl | rfl | rfl
  · exact fun l => .refl _
  · exact fun l => List.reverse_perm l
  all_goals exact fun l => .refl _

example : (todoAbs true exTodoEvents).Lists [⟨2, str "c", false⟩, ⟨1, str "b", true⟩] := by
  obtain ⟨s, h1, h2⟩ := good_run exTodoUri true (enum := id) (fun l => .refl _) exTodoEvents exTodo_faithful
  have h3 : (todoRun true id exTodoEvents).map Todo.items = some [⟨2, str "c", false⟩, ⟨1, str "b", true⟩] := by decide +kernel
  rw [h1] at h3
  have h4 := h2.items
  rw [Option.some.inj h3] at h4
  exact h4

def exTodo : Todo := (todoRun true id exTodoEvents).getD ⟨0, [], .default, none, [], []⟩

theorem exTodo_run : todoRun true id exTodoEvents = some exTodo := by
  obtain ⟨s, h1, h2⟩ := good_run exTodoUri true (enum := id) (fun l => .refl _) exTodoEvents exTodo_faithful
  unfold exTodo
  rw [h1]; rfl

theorem exTodo_certified : TodoCertified exEnv exTodo (encCertificate (exStateCert exTodo.certifiedData)) := by
  refine ⟨⟨exStateCert exTodo.certifiedData, ?_, exCert_verifies _, ?_⟩, by decide, ?_⟩
  · refine (C37_certificate_roundtrip exMachine (exStateCert exTodo.certifiedData) (by decide) (by decide) ?_ ?_ ?_ (by decide)).1
    · decide +kernel
    · decide
    · intro d hd; simp [exStateCert] at hd
  · decide +kernel
  · decide +kernel

/-- `GET /todos` then shows `b` (completed) and `c`, and this verifies. -/
example : ∃ res info, todoHttpRequest exTodo (encCertificate (exStateCert exTodo.certifiedData)) ⟨str "GET", str "/todos", [], []⟩ =
    some (.response res) ∧ verifyPair exEnv ⟨str "GET", str "/todos", [], []⟩ res 2 = .ok info ∧ res.status = 200 := by
  obtain ⟨s, l, h1, -, h2⟩ := C60_list exTodoUri true (enum := id) (fun l => .refl _) exTodoEvents exTodo_faithful
  have hs : exTodo = s := Option.some.inj (exTodo_run.symm.trans h1)
  have hc := exTodo_certified
  rw [hs] at hc ⊢
  obtain ⟨res, info, r1, r2, -, r3, -⟩ := h2 exEnv _ ⟨str "GET", str "/todos", [], []⟩ 2 hc rfl
    (by decide +kernel) (by decide +kernel) rfl (by decide)
  exact ⟨res, info, r1, r3, r2⟩

end
end Verif.Props
