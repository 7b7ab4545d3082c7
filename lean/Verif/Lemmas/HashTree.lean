import Verif.Spec.HashTree

set_option linter.unusedSimpArgs false
set_option linter.unusedSectionVars false

namespace Verif
namespace HashTree

theorem WF.full {b : Bool} {t : HashTree} (h : WF b t) : t.Full := by
  induction t generalizing b with
  | empty => trivial
  | leaf _ => trivial
  | pruned _ => exact h
  | labeled _ t ih => exact ih h
  | fork l r ihl ihr => exact ⟨ihl h.1, ihr h.2.1⟩

theorem WF.weaken {b : Bool} {t : HashTree} (h : WF b t) : WF true t := by
  cases t <;> simp_all [WF]

section
variable [SHA]

theorem Prunes.refl (t : HashTree) : Prunes t t := by
  induction t with
  | empty => exact .empty
  | leaf b => exact .leaf b
  | pruned h => exact .prune (.pruned h)
  | labeled _ _ ih => exact .labeled ih
  | fork _ _ ihl ihr => exact .fork ihl ihr

theorem Prunes.digest_eq {w t : HashTree} (h : Prunes w t) : w.digest = t.digest := by
  induction h with
  | prune t => rfl
  | empty => rfl
  | leaf b => rfl
  | labeled _ ih => simp [HashTree.digest, ih]
  | fork _ _ ih1 ih2 => simp [HashTree.digest, ih1, ih2]

theorem Prunes.trans {a b c : HashTree} (h1 : Prunes a b) (h2 : Prunes b c) : Prunes a c := by
  induction h1 generalizing c with
  | prune t => rw [h2.digest_eq]; exact .prune c
  | empty => exact h2
  | leaf b => exact h2
  | labeled _ ih => cases h2 with | labeled h => exact .labeled (ih h)
  | fork _ _ ih1 ih2 => cases h2 with | fork h h' => exact .fork (ih1 h) (ih2 h')

theorem append_right_inj32 {a b : Bytes} {h k : Hash} (e : a ++ h.1 = b ++ k.1) :
    a = b ∧ h = k := by
  have hl : h.1.length = k.1.length := by rw [h.2, k.2]
  have := List.append_inj' e hl
  exact ⟨this.1, Subtype.ext this.2⟩

theorem digest_eq_prunes {w t : HashTree} (ht : t.Full) (h : w.digest = t.digest) :
    Prunes w t ∨ CollisionIn w.hashed t.hashed := by
  induction w generalizing t with
  | pruned d => left; simp only [HashTree.digest] at h; subst h; exact .prune t
  | empty =>
    cases t with
    | empty => exact .inl .empty
    | pruned _ => exact ht.elim
    | _ =>
      right
      simp only [HashTree.digest] at h
      refine ⟨_, by simp [hashed], _, by simp [hashed], ?_, h⟩
      simp [sepEmpty, sepFork, sepLabeled, sepLeaf, domainSep, str]
  | leaf b =>
    cases t with
    | leaf b' =>
      by_cases e : b = b'
      · subst e; exact .inl (.leaf b)
      · right
        simp only [HashTree.digest] at h
        exact ⟨_, by simp [hashed], _, by simp [hashed], by simpa using e, h⟩
    | pruned _ => exact ht.elim
    | empty =>
      right
      simp only [HashTree.digest] at h
      refine ⟨_, by simp [hashed], _, by simp [hashed], ?_, h⟩
      simp [sepEmpty, sepFork, sepLabeled, sepLeaf, domainSep, str]
    | _ =>
      right
      simp only [HashTree.digest] at h
      refine ⟨_, by simp [hashed], _, by simp [hashed], ?_, h⟩
      simp [sepEmpty, sepFork, sepLabeled, sepLeaf, domainSep, str]
  | labeled lab w ih =>
    cases t with
    | labeled lab' t =>
      by_cases e : sepLabeled ++ lab ++ w.digest.1 = sepLabeled ++ lab' ++ t.digest.1
      · have := append_right_inj32 e
        have h1 : lab = lab' := by simpa using this.1
        subst h1
        rcases ih (t := t) ht this.2 with hp | hc
        · exact .inl (.labeled hp)
        · exact .inr (hc.mono (by simp +contextual [hashed]) (by simp +contextual [hashed]))
      · exact .inr ⟨_, by simp [hashed], _, by simp [hashed], e, h⟩
    | pruned _ => exact ht.elim
    | empty =>
      right
      simp only [HashTree.digest] at h
      refine ⟨_, by simp [hashed], _, by simp [hashed], ?_, h⟩
      simp [sepEmpty, sepFork, sepLabeled, sepLeaf, domainSep, str]
    | leaf _ =>
      right
      simp only [HashTree.digest] at h
      refine ⟨_, by simp [hashed], _, by simp [hashed], ?_, h⟩
      simp [sepEmpty, sepFork, sepLabeled, sepLeaf, domainSep, str]
    | fork _ _ =>
      right
      simp only [HashTree.digest] at h
      refine ⟨_, by simp [hashed], _, by simp [hashed], ?_, h⟩
      simp [sepEmpty, sepFork, sepLabeled, sepLeaf, domainSep, str]
  | fork w₁ w₂ ih₁ ih₂ =>
    cases t with
    | fork t₁ t₂ =>
      by_cases e : sepFork ++ w₁.digest.1 ++ w₂.digest.1 = sepFork ++ t₁.digest.1 ++ t₂.digest.1
      · have h2 := append_right_inj32 e
        have h1 := append_right_inj32 h2.1
        rcases ih₁ (t := t₁) ht.1 h1.2 with hp1 | hc
        · rcases ih₂ (t := t₂) ht.2 h2.2 with hp2 | hc
          · exact .inl (.fork hp1 hp2)
          · exact .inr (hc.mono (by simp +contextual [hashed]) (by simp +contextual [hashed]))
        · exact .inr (hc.mono (by simp +contextual [hashed]) (by simp +contextual [hashed]))
      · exact .inr ⟨_, by simp [hashed], _, by simp [hashed], e, h⟩
    | pruned _ => exact ht.elim
    | empty =>
      right
      simp only [HashTree.digest] at h
      refine ⟨_, by simp [hashed], _, by simp [hashed], ?_, h⟩
      simp [sepEmpty, sepFork, sepLabeled, sepLeaf, domainSep, str]
    | leaf _ =>
      right
      simp only [HashTree.digest] at h
      refine ⟨_, by simp [hashed], _, by simp [hashed], ?_, h⟩
      simp [sepEmpty, sepFork, sepLabeled, sepLeaf, domainSep, str]
    | labeled _ _ =>
      right
      simp only [HashTree.digest] at h
      refine ⟨_, by simp [hashed], _, by simp [hashed], ?_, h⟩
      simp [sepEmpty, sepFork, sepLabeled, sepLeaf, domainSep, str]

end
end HashTree
end Verif
