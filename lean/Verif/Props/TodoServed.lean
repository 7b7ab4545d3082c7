import Verif.Props.TodoApi

/-!
# Property C60: what is answered to a query, completely
-/

set_option linter.unusedSimpArgs false
set_option linter.unusedSectionVars false

namespace Verif.Props
open Verif

/-- The headers of every answer. -/
def todoHeaders (expression certificate : Bytes) : List Header :=
  [(str "content-type", str "application/json"),
   (str "strict-transport-security", str "max-age=31536000; includeSubDomains"),
   (str "x-content-type-options", str "nosniff"), (str "referrer-policy", str "no-referrer"),
   (str "cache-control", str "no-store, max-age=0"), (str "pragma", str "no-cache"),
   (str "IC-CertificateExpression", expression), (str "IC-Certificate", certificate)]

section
variable [SHA] [UriLib] [TodoJson]

/-- **C60** After any history, whatever is answered to a query is: for the path `/todos`, the list of the current todos (for `GET`,
in capitals) or the answer that the method is not allowed (for `HEAD`, `PUT`, `PATCH`, `OPTIONS`, `TRACE` and `CONNECT`, in capitals);
otherwise that nothing is found. It has exactly the headers listed. -/
theorem C60_served (hU : TodoUri) (checks : Bool) {enum : List TodoItem → List TodoItem} (he : ∀ l, (enum l).Perm l)
    (evs : List TodoEvent) (hf : ∀ e ∈ evs, e.Faithful) :
    ∃ s l, todoRun checks enum evs = some s ∧ (todoAbs checks evs).Lists l ∧
      ∀ (dataCert : Bytes) (req : HttpRequest) (res : HttpResponse), todoHttpRequest s dataCert req = some (.response res) →
        ∃ path expression certificate, req.getPath = .ok path ∧ res.headers = todoHeaders expression certificate ∧
          ((path = str "/todos" ∧ req.method = str "GET" ∧ res.status = 200 ∧ res.body = TodoJson.list l) ∨
           (path = str "/todos" ∧ req.method ∈ [str "HEAD", str "PUT", str "PATCH", str "OPTIONS", str "TRACE", str "CONNECT"] ∧
            res.status = 405 ∧ res.body = str "{\"err\":{\"code\":405,\"message\":\"Method not allowed\"}}") ∨
           (¬ (path = str "/todos" ∧
              req.method ∈ [str "GET", str "HEAD", str "PUT", str "PATCH", str "OPTIONS", str "TRACE", str "CONNECT"]) ∧
            res.status = 404 ∧ res.body = str "{\"err\":{\"code\":404,\"message\":\"Not found\"}}")) := by
  obtain ⟨s, h1, g⟩ := good_run hU checks he evs hf
  obtain ⟨l, ops, h2, inv⟩ := g.inv
  refine ⟨s, l, h1, h2, fun dataCert req res h => ?_⟩
  unfold todoHttpRequest at h
  cases hp : req.getPath with
  | error e => simp [hp, Except.toOption] at h
  | ok path =>
    rw [hp] at h
    simp only [Except.toOption, Option.bind_eq_bind, Option.bind_some] at h
    have hq : ∃ r, todoQuery s dataCert req = some r ∧ r = res := by
      split at h
      · split at h <;> cases h
      · split at h
        · cases hid : todoIdParam path <;> simp [hid] at h
        · split at h
          · cases hq : todoQuery s dataCert req with
            | none => simp [hq] at h
            | some r => simp [hq] at h; exact ⟨r, rfl, h⟩
          · cases h
    obtain ⟨r0, hq, hr0⟩ := hq
    rw [hr0] at hq
    clear hr0 h
    unfold todoQuery at hq
    rw [hp] at hq
    simp only [Except.toOption, Option.bind_eq_bind, Option.bind_some] at hq
    have hl := inv.resp (req.method, path)
    refine ⟨path, ?_⟩
    have hdone : ∀ m, m ∈ notAllowedMethods.reverse ↔
        m ∈ [str "HEAD", str "PUT", str "PATCH", str "OPTIONS", str "TRACE", str "CONNECT"] := by
      intro m; rw [List.mem_reverse]; rfl
    have fin : ∀ (r : StoredResponse) (p : HttpPath), (∃ w, addV2CertificateHeader dataCert r.response w p.toExprPath = res) →
        ∀ st b x, r.response = withExpr (todoResponse st b) x →
        res.status = st ∧ res.body = b ∧ ∃ e c, res.headers = todoHeaders e c := by
      rintro r p ⟨w, rfl⟩ st b x hr
      rw [hr]
      exact ⟨rfl, rfl, _, _, rfl⟩
    have fin' : ∀ (r : StoredResponse) (p : HttpPath), ((s.tree.witness ⟨p, r.cert⟩ path).bind Except.toOption).bind
        (fun w => some (addV2CertificateHeader dataCert r.response w p.toExprPath)) = some res →
        ∃ w, addV2CertificateHeader dataCert r.response w p.toExprPath = res := by
      intro r p h
      cases hw : (s.tree.witness ⟨p, r.cert⟩ path).bind Except.toOption with
      | none => rw [hw] at h; cases h
      | some w => rw [hw] at h; exact ⟨w, Option.some.inj h⟩
    have nf : s.responses.lookup (req.method, path) = none →
        res.status = 404 ∧ res.body = notFoundBody ∧ ∃ e c, res.headers = todoHeaders e c := by
      intro hn
      rw [hn, inv.fb rfl] at hq
      exact fin ⟨nfResponse, nfCert⟩ _ (fin' _ _ hq) 404 notFoundBody nfCel rfl
    have hG : str "GET" ∉ notAllowedMethods.reverse := by decide
    simp only at hl
    by_cases hpath : path = todosPath
    · rw [if_pos hpath] at hl
      by_cases hget : req.method = str "GET"
      · rw [if_pos hget, Option.map_some] at hl
        rw [hl] at hq
        obtain ⟨a, b, e, c, d⟩ := fin _ _ (fin' _ _ hq) 200 (TodoJson.list l) todoCel rfl
        exact ⟨e, c, rfl, d, .inl ⟨hpath, hget, a, b⟩⟩
      · rw [if_neg hget] at hl
        by_cases hm : req.method ∈ notAllowedMethods.reverse
        · rw [if_pos hm] at hl
          rw [hl] at hq
          obtain ⟨a, b, e, c, d⟩ := fin _ _ (fin' _ _ hq) 405 notAllowedBody todoCel rfl
          exact ⟨e, c, rfl, d, .inr (.inl ⟨hpath, (hdone _).1 hm, a, b⟩)⟩
        · rw [if_neg hm] at hl
          obtain ⟨a, b, e, c, d⟩ := nf hl
          refine ⟨e, c, rfl, d, .inr (.inr ⟨?_, a, b⟩)⟩
          rintro ⟨-, h⟩
          rcases List.mem_cons.1 h with h | h
          · exact hget h
          · exact hm ((hdone _).2 h)
    · rw [if_neg hpath] at hl
      obtain ⟨a, b, e, c, d⟩ := nf hl
      exact ⟨e, c, rfl, d, .inr (.inr ⟨fun h => hpath h.1, a, b⟩)⟩
end

/-! ### A concrete case -/

section
attribute [local instance] toySHA toyUri toyBls toyInflate toyTodoJson

/-- `get /todos`, in small letters: answered, but as not found. -/
example : ∃ res, todoHttpRequest exTodo [] ⟨str "get", str "/todos", [], []⟩ = some (.response res) ∧ res.status = 404 ∧
    ∃ e c, res.headers = todoHeaders e c := by
  obtain ⟨s, l, h1, -, h2⟩ := C60_served exTodoUri true (enum := id) (fun l => .refl _) exTodoEvents exTodo_faithful
  have hs : exTodo = s := Option.some.inj (exTodo_run.symm.trans h1)
  have ha : (todoHttpRequest exTodo [] ⟨str "get", str "/todos", [], []⟩).map (fun a => match a with
      | .response r => r.status | .upgrade => 0) = some 404 := by decide +kernel
  cases h : todoHttpRequest exTodo [] ⟨str "get", str "/todos", [], []⟩ with
  | none => rw [h] at ha; cases ha
  | some a =>
    rw [h] at ha
    cases a with
    | upgrade => exact absurd ha (by decide)
    | response r =>
      refine ⟨r, rfl, Option.some.inj ha, ?_⟩
      rw [hs] at h
      obtain ⟨_, e, c, -, h3, -⟩ := h2 _ _ _ h
      exact ⟨e, c, h3⟩

end
end Verif.Props
