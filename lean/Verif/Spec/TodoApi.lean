import Verif.Model.TodoApi
import Verif.Spec.EndToEnd

/-!
# Specification vocabulary for the `json-api` example
-/

namespace Verif

/-- What can happen to the canister after its installation: an update call, or an upgrade; with the order in which the
`HashMap` of items is enumerated at that moment. -/
inductive TodoEvent where
  | call (req : HttpRequest) (enum : List TodoItem → List TodoItem)
  | upgrade (enum : List TodoItem → List TodoItem)

/-- The order in which the items were enumerated is an order. -/
def TodoEvent.Faithful : TodoEvent → Prop
  | .call _ enum => ∀ l, (enum l).Perm l
  | .upgrade enum => ∀ l, (enum l).Perm l

section
variable [UriLib] [TodoJson]

/-- The canister after a history. A call that traps leaves the state as it was. -/
def todoRun [SHA] (checks : Bool) (enum : List TodoItem → List TodoItem) (evs : List TodoEvent) : Option Todo := do
  let s ← todoInit enum
  evs.foldlM (fun s e => match e with
    | .call req enum => some ((todoUpdateCall checks s enum req).getD s)
    | .upgrade enum => todoInit enum) s

/-- What an update call asks for. -/
inductive TodoWish where
  | create (title : Bytes)
  | change (id : UInt32) (title : Option Bytes) (completed : Option Bool)
  | remove (id : UInt32)
  | nothing

/-- `POST /todos` creates, `PATCH /todos/{id}` changes, `DELETE /todos/{id}` removes, if the id and the body can be read. -/
def todoWish (req : HttpRequest) : TodoWish :=
  match req.getPath with
  | .error _ => .nothing
  | .ok path =>
    if upper req.method = str "POST" ∧ path = str "/todos" then
      (TodoJson.create req.body).elim .nothing .create
    else if upper req.method = str "PATCH" then
      match (todoIdParam path).bind parseU32, TodoJson.update req.body with
      | some id, some (title, completed) => .change id title completed
      | _, _ => .nothing
    else if upper req.method = str "DELETE" then
      match (todoIdParam path).bind parseU32 with
      | some id => .remove id
      | _ => .nothing
    else .nothing

/-- The list of todos, abstractly: the next id, and title and state of each existing id. -/
structure TodoAbs where
  next : UInt32
  items : UInt32 → Option (Bytes × Bool)

def TodoAbs.empty : TodoAbs := ⟨0, fun _ => none⟩

/-- What an event does to the list of todos. -/
def TodoAbs.step (checks : Bool) (a : TodoAbs) : TodoEvent → TodoAbs
  | .upgrade _ => .empty
  | .call req _ =>
    match todoWish req with
    | .nothing => a
    | .create title =>
      if checks = true ∧ a.next = 0xFFFFFFFF then a
      else ⟨a.next + 1, fun i => if i = a.next then some (title, false) else a.items i⟩
    | .change id title completed =>
      ⟨a.next, fun i => if i = id then (a.items id).map (fun x => (title.getD x.1, completed.getD x.2)) else a.items i⟩
    | .remove id => ⟨a.next, fun i => if i = id then none else a.items i⟩

/-- The list of todos after a history. -/
def todoAbs (checks : Bool) (evs : List TodoEvent) : TodoAbs := evs.foldl (TodoAbs.step checks) .empty

end

/-- `l` lists the todos, each once. -/
def TodoAbs.Lists (a : TodoAbs) (l : List TodoItem) : Prop :=
  (l.map TodoItem.id).Nodup ∧ ∀ x, x ∈ l ↔ a.items x.id = some (x.title, x.completed)

end Verif
