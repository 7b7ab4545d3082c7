import Verif.Model.Header

/-!
# Specification of the `IC-Certificate` header

The header is a comma-separated list of fields `name=value` or `name=:value:`, with optional white space around.
-/

namespace Verif

/-- `text` is a field with this name and value. -/
def IsField (text name value : List Char) : Prop :=
  ∃ before after body open_ close, text = before ++ (name ++ '=' :: open_ ++ value ++ close) ++ after ∧
    (∀ c ∈ before, isWs c) ∧ (∀ c ∈ after, isWs c) ∧ body = name ++ '=' :: open_ ++ value ++ close ∧
    (∀ c, body.head? = some c → ¬ isWs c) ∧ (∀ c, body.getLast? = some c → ¬ isWs c) ∧
    '=' ∉ name ∧ ':' ∉ value ∧ name ≠ [] ∧ value ≠ [] ∧ (open_ = [] ∨ open_ = [':']) ∧ (close = [] ∨ close = [':'])

/-- The header consists of these comma-separated texts. -/
def HeaderTexts (s : List Char) (texts : List (List Char)) : Prop :=
  texts ≠ [] ∧ (∀ t ∈ texts, ',' ∉ t) ∧ s = [','].intercalate texts

/-- The first field with this name has this value. -/
def FirstField (s name value : List Char) : Prop :=
  ∃ pre t post, HeaderTexts s (pre ++ t :: post) ∧ IsField t name value ∧ ∀ u ∈ pre, ∀ v, ¬ IsField u name v

/-- The header has no field with this name. -/
def NoField (s name : List Char) : Prop :=
  ∃ texts, HeaderTexts s texts ∧ ∀ u ∈ texts, ∀ v, ¬ IsField u name v

end Verif
