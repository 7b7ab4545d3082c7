/-!
# Outcomes of the verification functions

A call returns `Ok`, returns `Err`, or does not return (panic, stack overflow).
-/

namespace Verif

inductive Out (ε α : Type) where
  | ok (a : α)
  | err (e : ε)
  | crash

namespace Out

def bind {ε α β : Type} (x : Out ε α) (f : α → Out ε β) : Out ε β :=
  match x with
  | ok a => f a
  | err e => err e
  | crash => crash

instance {ε : Type} : Monad (Out ε) where
  pure := ok
  bind := bind

/-- The result of a function that may crash, with its error converted (`?` with `From`). -/
def ofRun {ε ε' α : Type} (conv : ε' → ε) : Option (Except ε' α) → Out ε α
  | none => crash
  | some (.ok a) => ok a
  | some (.error e) => err (conv e)

/-- The result of a function that does not crash. -/
def ofExcept {ε ε' α : Type} (conv : ε' → ε) : Except ε' α → Out ε α
  | .ok a => ok a
  | .error e => err (conv e)

/-- `ok_or(e)?`. -/
def ofOption {ε α : Type} (e : ε) : Option α → Out ε α
  | some a => ok a
  | none => err e

theorem bind_ok {ε α β : Type} {x : Out ε α} {f : α → Out ε β} {b : β} :
    (x >>= f) = ok b ↔ ∃ a, x = ok a ∧ f a = ok b := by
  show Out.bind x f = ok b ↔ _
  cases x <;> simp [Out.bind]

theorem pure_ok {ε α : Type} {a b : α} : (pure a : Out ε α) = ok b ↔ a = b := by
  show Out.ok a = ok b ↔ _
  simp

theorem ok_bind {ε α β : Type} (a : α) (f : α → Out ε β) : (ok a >>= f) = f a := rfl

theorem err_bind {ε α β : Type} (e : ε) (f : α → Out ε β) : (err e >>= f) = err e := rfl

theorem crash_bind {ε α β : Type} (f : α → Out ε β) : ((crash : Out ε α) >>= f) = crash := rfl

theorem ofRun_ok {ε ε' α : Type} {conv : ε' → ε} {x : Option (Except ε' α)} {a : α} :
    ofRun conv x = ok a ↔ x = some (.ok a) := by
  rcases x with _ | _ | _ <;> simp [ofRun]

theorem ofExcept_ok {ε ε' α : Type} {conv : ε' → ε} {x : Except ε' α} {a : α} :
    ofExcept conv x = ok a ↔ x = .ok a := by
  rcases x with _ | _ <;> simp [ofExcept]

theorem ofOption_ok {ε α : Type} {e : ε} {x : Option α} {a : α} : ofOption e x = ok a ↔ x = some a := by
  rcases x with _ | _ <;> simp [ofOption]

end Out
end Verif
