import Verif.Spec.LabelText
import Verif.Spec.Asset

/-!
# Specification of the debug text of hash trees
-/

namespace Verif

/-- The text that stands for the content of a leaf or for a label: visible ASCII as it is; otherwise lower-case hexadecimal
after `0x`, up to 32 bytes; otherwise the number of bytes. -/
inductive ContentText (b : Bytes) : Bytes → Prop
  | visible : Visible b → ContentText b b
  | short {s} : ¬ Visible b → b.length ≤ 32 → HexOf s b → (∀ c ∈ s, ¬ (65 ≤ c.toNat ∧ c.toNat ≤ 90)) →
      ContentText b (str "0x" ++ s)
  | long {ds : List Char} : ¬ Visible b → 32 < b.length → Digits ds b.length → ds.head? ≠ some '0' →
      ContentText b (utf8 ds ++ str " bytes")

/-- A text with a backslash before every quotation mark and backslash. -/
inductive Escaped : Bytes → Bytes → Prop
  | nil : Escaped [] []
  | plain {c s e} : c ≠ 34 → c ≠ 92 → Escaped s e → Escaped (c :: s) (c :: e)
  | mark {c s e} : c = 34 ∨ c = 92 → Escaped s e → Escaped (c :: s) (92 :: c :: e)

/-- The debug text of a node. -/
inductive NodeText : HashTree → Bytes → Prop
  | empty : NodeText .empty (str "Empty")
  | fork {l r a b} : NodeText l a → NodeText r b → NodeText (.fork l r) (str "Fork(" ++ a ++ str ", " ++ b ++ str ")")
  | leaf {b s} : ContentText b s → NodeText (.leaf b) (str "Leaf(" ++ s ++ str ")")
  | labeled {l s e t a} : ContentText l s → Escaped s e → NodeText t a →
      NodeText (.labeled l t) (str "Label(\"" ++ e ++ str "\", " ++ a ++ str ")")
  | pruned {h : Hash} {s} : HexOf s h.1 → (∀ c ∈ s, ¬ (65 ≤ c.toNat ∧ c.toNat ≤ 90)) →
      NodeText (.pruned h) (str "Pruned(" ++ s ++ str ")")

/-- The debug text of a tree. -/
inductive TreeText (t : HashTree) : Bytes → Prop
  | mk {a} : NodeText t a → TreeText t (str "HashTree { root: " ++ a ++ str " }")

/-- All labels and all contents of leaves are visible ASCII. -/
def AllVisible : HashTree → Prop
  | .fork l r => AllVisible l ∧ AllVisible r
  | .labeled l t => Visible l ∧ AllVisible t
  | .leaf b => Visible b
  | _ => True

end Verif
