import Verif.Spec.Cel
import Verif.Model.Utf8

/-!
# Specification: the grammar of certification expressions

The texts that the parser reads as values, written as a grammar; only the type of values is shared with the model.
-/

namespace Verif.CelGrammar
open Verif

/-- Blanks: spaces, tabs and line ends. -/
def Blank (w : List Char) : Prop := ∀ c ∈ w, c = ' ' ∨ c = '\t' ∨ c = '\r' ∨ c = '\n'

/-- A letter or a digit; or, because only the lowest eight bits of the code point are looked at, a character whose code point has
these in common with one. -/
def LetterOrDigit (c : Char) : Prop :=
  ∃ d : Char, c.toNat % 256 = d.toNat ∧
    (('0' ≤ d ∧ d ≤ '9') ∨ ('A' ≤ d ∧ d ≤ 'Z') ∨ ('a' ≤ d ∧ d ≤ 'z'))

/-- A name: letters, digits and underscores; it may be empty. -/
def Name (n : List Char) : Prop := ∀ c ∈ n, c = '_' ∨ LetterOrDigit c

/-- The content of a string: letters, digits and hyphens; it may be empty. -/
def StringText (s : List Char) : Prop := ∀ c ∈ s, c = '-' ∨ LetterOrDigit c

/-- Things in sequence, with commas between them; blanks may precede a comma. -/
inductive Separated {α : Type} (P : α → List Char → Prop) : List α → List Char → Prop
  | none : Separated P [] []
  | one {x t} : P x t → Separated P [x] t
  | more {x t w xs u} : P x t → Blank w → xs ≠ [] → Separated P xs u → Separated P (x :: xs) (t ++ (w ++ ',' :: u))

/-- A field: name, colon, value. -/
inductive Field (P : CelValue → List Char → Prop) : List Char × CelValue → List Char → Prop
  | intro {w k w' v t} : Blank w → Name k → Blank w' → P v t → Field P (k, v) (w ++ (k ++ (w' ++ ':' :: t)))

/-- The texts of a value: strings, arrays, function calls and objects. -/
inductive Val : CelValue → List Char → Prop
  | string {w s w'} : Blank w → StringText s → Blank w' → Val (.string s) (w ++ '"' :: (s ++ (w' ++ ['"'])))
  | array {w vs t w'} : Blank w → Separated Val vs t → Blank w' → Val (.array vs) (w ++ '[' :: (t ++ (w' ++ [']'])))
  | function {w n w1 vs t w'} : Blank w → Name n → Blank w1 → Separated Val vs t → Blank w' →
      Val (.function n vs) (w ++ (n ++ (w1 ++ '(' :: (t ++ (w' ++ [')'])))))
  | object {w n w1 fs t w'} : Blank w → Name n → Blank w1 → Separated (Field Val) fs t → Blank w' →
      Val (.object n fs) (w ++ (n ++ (w1 ++ '{' :: (t ++ (w' ++ ['}'])))))

set_option inductive.autoPromoteIndices false in
/-- Some complete items, each with its comma, and then something. -/
inductive After (P : List Char → Prop) (D : Nat → List Char → Prop) : Nat → List Char → Prop
  | now {n t} : D n t → After P D n t
  | item {n t w u} : P t → Blank w → After P D n u → After P D n (t ++ (w ++ ',' :: u))

set_option inductive.autoPromoteIndices false in
/-- The beginning of a field: name and colon, and then something. -/
inductive InField (D : Nat → List Char → Prop) : Nat → List Char → Prop
  | intro {n w k w' t} : Blank w → Name k → Blank w' → D n t → InField D n (w ++ (k ++ (w' ++ ':' :: t)))

/-- Texts that begin with so many nested arrays, calls and objects, closed or not. -/
inductive Deep : Nat → List Char → Prop
  | zero (t) : Deep 0 t
  | array {n w t} : Blank w → After (fun t => ∃ v, Val v t) Deep n t → Deep (n + 1) (w ++ '[' :: t)
  | function {n w nm w1 t} : Blank w → Name nm → Blank w1 → After (fun t => ∃ v, Val v t) Deep n t →
      Deep (n + 1) (w ++ (nm ++ (w1 ++ '(' :: t)))
  | object {n w nm w1 t} : Blank w → Name nm → Blank w1 → After (fun t => ∃ f, Field Val f t) (InField Deep) n t →
      Deep (n + 1) (w ++ (nm ++ (w1 ++ '{' :: t)))

/-- The number of opening brackets: `(`, `[` and `{`. -/
def opening (b : Bytes) : Nat := b.countP (fun x => x == 0x28 || x == 0x5B || x == 0x7B)

/-- The value at the beginning of a text. -/
def Begins (text : List Char) (v : CelValue) : Prop := ∃ t rest, text = t ++ rest ∧ Val v t

end Verif.CelGrammar
