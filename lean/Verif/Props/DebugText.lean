import Verif.Props.LabelText
import Verif.Props.Decimal
import Verif.Spec.DebugText

/-!
# C75: the debug text of hash trees
-/

set_option linter.unusedSimpArgs false

namespace Verif.Props
open Verif

theorem lower_no_capital {n : Nat} (h : n < 16) : ¬ (65 ≤ (hexLower.hexDigit n).toNat ∧ (hexLower.hexDigit n).toNat ≤ 90) := by
  revert n; decide

theorem hexLower_no_capital (b : Bytes) : ∀ c ∈ hexLower b, ¬ (65 ≤ c.toNat ∧ c.toNat ≤ 90) := by
  intro c hc
  simp only [hexLower, List.mem_flatMap, List.mem_cons, List.not_mem_nil, or_false] at hc
  obtain ⟨x, -, rfl | rfl⟩ := hc
  · exact lower_no_capital (by have := x.toNat_lt; omega)
  · exact lower_no_capital (by omega)

theorem contentText (b : Bytes) : ContentText b (readablePrint b) := by
  unfold readablePrint
  by_cases hv : Visible b
  · rw [if_pos ((isReadable_iff b).2 hv)]; exact .visible hv
  · rw [if_neg (fun h => hv ((isReadable_iff b).1 h))]
    by_cases hl : b.length ≤ 32
    · rw [if_pos hl]; exact .short hv hl (hexLower_hexOf b) (hexLower_no_capital b)
    · rw [if_neg hl]
      obtain ⟨ds, h1, h2, h3, -⟩ := C46_decimal b.length
      have : str (Nat.repr b.length) = utf8 ds := h1
      rw [this]
      exact .long hv (by omega) h2 (h3 (by omega))

theorem escaped (s : Bytes) : Escaped s (s.flatMap (fun x => if x = 0x22 ∨ x = 0x5C then [0x5C, x] else [x])) := by
  induction s with
  | nil => exact .nil
  | cons c s ih =>
    rw [List.flatMap_cons]
    by_cases h : c = 0x22 ∨ c = 0x5C
    · rw [if_pos h]; exact .mark h ih
    · rw [if_neg h]; exact .plain (fun e => h (.inl e)) (fun e => h (.inr e)) ih

theorem nodeText (t : HashTree) : NodeText t (nodeDebug t) := by
  induction t with
  | empty => exact .empty
  | fork l r ihl ihr => exact .fork ihl ihr
  | leaf b => exact .leaf (contentText b)
  | labeled l t ih =>
    have : nodeDebug (.labeled l t) = str "Label(\"" ++
        (readablePrint l).flatMap (fun x => if x = 0x22 ∨ x = 0x5C then [0x5C, x] else [x]) ++ str "\", " ++ nodeDebug t ++ str ")" := by
      have h1 : str "Label(\"" = str "Label(" ++ str "\"" := by decide
      have h2 : str "\", " = str "\"" ++ str ", " := by decide
      rw [nodeDebug, quoted, h1, h2]
      simp only [List.append_assoc]
    rw [this]
    exact .labeled (contentText l) (escaped _) ih
  | pruned h => exact .pruned (hexLower_hexOf _) (hexLower_no_capital _)

/-- **C75.** The debug text of a tree is the documented one. -/
theorem C75_debug_text (t : HashTree) : TreeText t (treeDebug t) := .mk (nodeText t)

/-! ### Trees of visible ASCII can be told apart -/

theorem split_space : ∀ {a b z z' : Bytes}, (∀ x ∈ a, x ≠ 32) → (∀ x ∈ b, x ≠ 32) → a ++ 32 :: z = b ++ 32 :: z' → a = b ∧ z = z'
  | [], [], _, _, _, _, h => ⟨rfl, by simpa using h⟩
  | [], y :: b, _, _, _, hb, h => by
    simp only [List.nil_append, List.cons_append, List.cons.injEq] at h
    exact absurd h.1.symm (hb y (by simp))
  | x :: a, [], _, _, ha, _, h => by
    simp only [List.nil_append, List.cons_append, List.cons.injEq] at h
    exact absurd h.1 (ha x (by simp))
  | x :: a, y :: b, _, _, ha, hb, h => by
    simp only [List.cons_append, List.cons.injEq] at h
    obtain ⟨h1, h2⟩ := split_space (fun z hz => ha z (by simp [hz])) (fun z hz => hb z (by simp [hz])) h.2
    exact ⟨by rw [h.1, h1], h2⟩

theorem escape_inj : ∀ {a b : Bytes}, a.flatMap (fun x => if x = 0x22 ∨ x = 0x5C then [0x5C, x] else [x]) =
    b.flatMap (fun x => if x = 0x22 ∨ x = 0x5C then [0x5C, x] else [x]) → a = b
  | [], [], _ => rfl
  | [], y :: b, h => by
    rw [List.flatMap_cons] at h
    split at h <;> simp at h
  | x :: a, [], h => by
    rw [List.flatMap_cons] at h
    split at h <;> simp at h
  | x :: a, y :: b, h => by
    rw [List.flatMap_cons, List.flatMap_cons] at h
    by_cases hx : x = 0x22 ∨ x = 0x5C
    · by_cases hy : y = 0x22 ∨ y = 0x5C
      · rw [if_pos hx, if_pos hy] at h
        simp only [List.cons_append, List.nil_append, List.cons.injEq, true_and] at h
        rw [h.1, escape_inj h.2]
      · rw [if_pos hx, if_neg hy] at h
        simp only [List.cons_append, List.nil_append, List.cons.injEq] at h
        exact absurd (.inr h.1.symm) hy
    · by_cases hy : y = 0x22 ∨ y = 0x5C
      · rw [if_neg hx, if_pos hy] at h
        simp only [List.cons_append, List.nil_append, List.cons.injEq] at h
        exact absurd (.inr h.1) hx
      · rw [if_neg hx, if_neg hy] at h
        simp only [List.cons_append, List.nil_append, List.cons.injEq] at h
        rw [h.1, escape_inj h.2]

/-- What follows a node in the text: parentheses that close, then the comma of a fork or the end. -/
def afterNode (k : Nat) (inFork : Bool) (z : Bytes) : Bytes :=
  List.replicate k 41 ++ (if inFork then [44] else []) ++ 32 :: z

theorem afterNode_succ (k : Nat) (f : Bool) (z : Bytes) : str ")" ++ afterNode k f z = afterNode (k + 1) f z := by
  have : str ")" = [41] := by decide
  rw [this, afterNode, afterNode, List.replicate_succ]; simp

theorem afterNode_comma (x : Bytes) : str ", " ++ x = afterNode 0 true x := by
  have : str ", " = [44, 32] := by decide
  rw [this, afterNode]; simp

theorem run_inj {c c' : Bytes} (hc : Visible c) (hc' : Visible c') {k : Nat} {f : Bool} {z z' : Bytes}
    (h : c ++ afterNode k f z = c' ++ afterNode k f z') : c = c' ∧ z = z' := by
  have clean : ∀ c : Bytes, Visible c → ∀ x ∈ c ++ (List.replicate k 41 ++ (if f then [44] else [])), x ≠ 32 := by
    intro c hc x hx
    simp only [List.mem_append, List.mem_replicate] at hx
    rcases hx with hx | ⟨-, rfl⟩ | hx
    · rintro rfl; exact absurd (hc _ hx) (by decide)
    · decide
    · split at hx
      · simp only [List.mem_singleton] at hx; subst hx; decide
      · cases hx
  unfold afterNode at h
  rw [← List.append_assoc, ← List.append_assoc c'] at h
  obtain ⟨h1, h2⟩ := split_space (clean c hc) (clean c' hc') h
  exact ⟨List.append_cancel_right h1, h2⟩

theorem quoted_visible {l : Bytes} (h : Visible l) : Visible (quoted l) := by
  intro x hx
  have hq : str "\"" = [34] := by decide
  simp only [quoted, hq, List.mem_append, List.mem_singleton, List.mem_flatMap] at hx
  rcases hx with (rfl | ⟨y, hy, hx⟩) | rfl
  · decide
  · split at hx
    · simp only [List.mem_cons, List.not_mem_nil, or_false] at hx
      rcases hx with rfl | rfl
      · decide
      · exact h _ hy
    · simp only [List.mem_singleton] at hx; subst hx; exact h _ hy
  · decide

theorem quoted_inj {l l' : Bytes} (h : quoted l = quoted l') : l = l' := by
  unfold quoted at h
  exact escape_inj (List.append_cancel_left (List.append_cancel_right h))

theorem readable_visible {b : Bytes} (h : Visible b) : readablePrint b = b := by
  unfold readablePrint
  rw [if_pos ((isReadable_iff b).2 h)]

theorem head_empty (x : Bytes) : str "Empty" ++ x = 69 :: 109 :: 112 :: 116 :: 121 :: x := by
  have : str "Empty" = [69, 109, 112, 116, 121] := by decide
  rw [this]; rfl
theorem head_fork (x : Bytes) : str "Fork(" ++ x = 70 :: 111 :: 114 :: 107 :: 40 :: x := by
  have : str "Fork(" = [70, 111, 114, 107, 40] := by decide
  rw [this]; rfl
theorem head_leaf (x : Bytes) : str "Leaf(" ++ x = 76 :: 101 :: 97 :: 102 :: 40 :: x := by
  have : str "Leaf(" = [76, 101, 97, 102, 40] := by decide
  rw [this]; rfl
theorem head_label (x : Bytes) : str "Label(" ++ x = 76 :: 97 :: 98 :: 101 :: 108 :: 40 :: x := by
  have : str "Label(" = [76, 97, 98, 101, 108, 40] := by decide
  rw [this]; rfl
theorem head_pruned (x : Bytes) : str "Pruned(" ++ x = 80 :: 114 :: 117 :: 110 :: 101 :: 100 :: 40 :: x := by
  have : str "Pruned(" = [80, 114, 117, 110, 101, 100, 40] := by decide
  rw [this]; rfl

theorem nodeDebug_inj : ∀ (t t' : HashTree), AllVisible t → AllVisible t' → ∀ (k : Nat) (f : Bool) (z z' : Bytes),
    nodeDebug t ++ afterNode k f z = nodeDebug t' ++ afterNode k f z' → t = t' ∧ z = z' := by
  intro t
  induction t with
  | empty =>
    intro t' _ _ k f z z' h
    cases t' <;> simp only [nodeDebug, List.append_assoc, head_empty, head_fork, head_leaf, head_label, head_pruned] at h <;> first | exact absurd (List.cons.inj h).1 (by decide) | skip
    refine ⟨rfl, (run_inj (c := []) (c' := []) ?_ ?_ (k := k) (f := f) ?_).2⟩
    · intro x hx; cases hx
    · intro x hx; cases hx
    · exact (List.cons.inj (List.cons.inj (List.cons.inj (List.cons.inj (List.cons.inj h).2).2).2).2).2
  | fork l r ihl ihr =>
    intro t' hv hv' k f z z' h
    cases t' <;> simp only [nodeDebug, List.append_assoc, head_empty, head_fork, head_leaf, head_label, head_pruned] at h <;> first | exact absurd (List.cons.inj h).1 (by decide) | skip
    have h := (List.cons.inj (List.cons.inj (List.cons.inj (List.cons.inj (List.cons.inj h).2).2).2).2).2
    rw [afterNode_succ, afterNode_succ, afterNode_comma, afterNode_comma] at h
    obtain ⟨rfl, h2⟩ := ihl _ hv.1 hv'.1 0 true _ _ h
    obtain ⟨rfl, h3⟩ := ihr _ hv.2 hv'.2 (k + 1) f _ _ h2
    exact ⟨rfl, h3⟩
  | leaf b =>
    intro t' hv hv' k f z z' h
    cases t' <;> simp only [nodeDebug, List.append_assoc, head_empty, head_fork, head_leaf, head_label, head_pruned] at h <;> first | exact absurd (List.cons.inj h).1 (by decide) | exact absurd (List.cons.inj (List.cons.inj h).2).1 (by decide) | skip
    rename_i b'
    have h := (List.cons.inj (List.cons.inj (List.cons.inj (List.cons.inj (List.cons.inj h).2).2).2).2).2
    rw [readable_visible hv, readable_visible hv', afterNode_succ, afterNode_succ] at h
    obtain ⟨rfl, h2⟩ := run_inj hv hv' h
    exact ⟨rfl, h2⟩
  | labeled l t ih =>
    intro t' hv hv' k f z z' h
    cases t' <;> simp only [nodeDebug, List.append_assoc, head_empty, head_fork, head_leaf, head_label, head_pruned] at h <;> first | exact absurd (List.cons.inj h).1 (by decide) | exact absurd (List.cons.inj (List.cons.inj h).2).1 (by decide) | skip
    rename_i l' t'
    have h := (List.cons.inj (List.cons.inj (List.cons.inj (List.cons.inj (List.cons.inj (List.cons.inj h).2).2).2).2).2).2
    rw [readable_visible hv.1, readable_visible hv'.1, afterNode_succ, afterNode_succ, afterNode_comma, afterNode_comma] at h
    obtain ⟨hl, h2⟩ := run_inj (quoted_visible hv.1) (quoted_visible hv'.1) h
    obtain rfl := quoted_inj hl
    obtain ⟨rfl, h3⟩ := ih _ hv.2 hv'.2 (k + 1) f _ _ h2
    exact ⟨rfl, h3⟩
  | pruned d =>
    intro t' hv hv' k f z z' h
    cases t' <;> simp only [nodeDebug, List.append_assoc, head_empty, head_fork, head_leaf, head_label, head_pruned] at h <;> first | exact absurd (List.cons.inj h).1 (by decide) | skip
    rename_i d'
    have h := (List.cons.inj (List.cons.inj (List.cons.inj (List.cons.inj (List.cons.inj (List.cons.inj (List.cons.inj h).2).2).2).2).2).2).2
    have hlen : (hexLower d.1).length = (hexLower d'.1).length := by
      rw [(hexLower_hexOf d.1).length, (hexLower_hexOf d'.1).length, d.2, d'.2]
    obtain ⟨h1, h2⟩ := List.append_inj h hlen
    have hd : d = d' := Subtype.ext ((hexLower_hexOf d.1).inj (h1 ▸ hexLower_hexOf d'.1))
    subst hd
    rw [afterNode_succ, afterNode_succ] at h2
    refine ⟨rfl, (run_inj (c := []) (c' := []) ?_ ?_ (k := k + 1) (f := f) h2).2⟩
    · intro x hx; cases hx
    · intro x hx; cases hx

/-- **C75.** Trees whose labels and contents are visible ASCII are equal if their debug texts are. -/
theorem C75_debug_faithful {t t' : HashTree} (h : AllVisible t) (h' : AllVisible t') (he : treeDebug t = treeDebug t') : t = t' := by
  have hend : str " }" = afterNode 0 false [125] := by decide
  unfold treeDebug at he
  rw [List.append_assoc, List.append_assoc, hend] at he
  exact (nodeDebug_inj t t' h h' 0 false _ _ (List.append_cancel_left he)).1

/-! ### The hypotheses are met -/

/-- The tree of the comment in the code (hash_tree/mod.rs:326-342), without its pruned nodes. -/
def exShownTree : HashTree :=
  .fork (.labeled (str "a") (.labeled (str "y") (.leaf (str "world")))) (.labeled (str "d") (.leaf (str "m),\"x")))

example : AllVisible exShownTree := by
  simp only [exShownTree, AllVisible, Visible]
  decide

end Verif.Props
