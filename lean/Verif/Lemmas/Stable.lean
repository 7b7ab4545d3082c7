import Verif.Lemmas.CertTree

set_option linter.unusedSimpArgs false
set_option linter.unusedSectionVars false

/-! Operations that do not change the content leave the stored tree, and so the root hash, as it is. -/

namespace Verif
namespace Rb
variable {V : Type} [SHA] [AsHashTree V]

theorem balance_ll {c : Color} {l : Rb V} {k : Bytes} {v : V} {r : Rb V} {h : Hash}
    (hll : LL (.node c l k v r h)) : balance (.node c l k v r h) = some (.node c l k v r h) := by
  obtain ⟨h1, h2, h3, h4⟩ := hll
  have e : (l.isRed && l.left.isRed) = false := by
    cases l with
    | nil => rfl
    | node lc ll lk lv lr lh =>
      cases lc with
      | red => simpa [isRed, left] using h3.2.1 rfl
      | black => rfl
  simp [balance, right, left, h1, e]
  intro h1 h2
  cases l <;> simp_all [isRed, left]

theorem insertGo_same {key : Bytes} {val : V} {t : Rb V} (hl : LL t) (hh : HashOK t) (hg : t.get key = some val) :
    t.insertGo key val = some t := by
  induction t with
  | nil => simp [get] at hg
  | node c l k v r h ihl ihr =>
    obtain ⟨e, hh1, hh2⟩ := hh
    have hb := balance_ll hl
    obtain ⟨_, _, l1, l2⟩ := hl
    simp only [get] at hg
    simp only [insertGo]
    cases hc : cmpB key k with
    | eq =>
      simp only [hc, Option.some.injEq] at hg ⊢
      subst hg
      rw [mk, ← e, hb]
    | lt =>
      simp only [hc] at hg ⊢
      rw [ihl l1 hh1 hg]
      simp only [Option.bind_eq_bind, Option.bind_some]
      rw [mk, ← e, hb]
    | gt =>
      simp only [hc] at hg ⊢
      rw [ihr l2 hh2 hg]
      simp only [Option.bind_eq_bind, Option.bind_some]
      rw [mk, ← e, hb]

theorem setColor_black {t : Rb V} (h : t.isRed = false) : t.setColor .black = t := by
  cases t with
  | nil => rfl
  | node c l k v r hh => cases c <;> simp_all [isRed, setColor]

theorem insert_same {key : Bytes} {val : V} {t : Rb V} (hv : Valid t) (hg : t.get key = some val) :
    t.insert key val = some t := by
  simp [insert, insertGo_same hv.ll hv.hash hg, setColor_black hv.black]

theorem modify_same {key : Bytes} {f : V → Option V} {t : Rb V} (hh : HashOK t)
    (hf : ∀ v, t.get key = some v → f v = some v) : t.modify key f = some t := by
  induction t with
  | nil => rfl
  | node c l k v r h ihl ihr =>
    obtain ⟨e, hh1, hh2⟩ := hh
    simp only [get] at hf
    simp only [modify]
    cases hc : cmpB key k with
    | eq =>
      simp only [hc] at hf ⊢
      rw [hf v rfl]
      simp [mk, ← e]
    | lt =>
      simp only [hc] at hf ⊢
      rw [ihl hh1 hf]
      simp [mk, ← e]
    | gt =>
      simp only [hc] at hf ⊢
      rw [ihr hh2 hf]
      simp [mk, ← e]

theorem delete_absent {key : Bytes} {t : Rb V} (hg : t.get key = none) : t.delete key = some t := by
  simp [delete, hg]

end Rb

namespace NTree
variable {V : Type} [SHA] [AsHashTree V]
open Rb

theorem insert_same (p : List Bytes) {v : V} {t : NTree V} (h : NValid t) (hg : get p t = some v) :
    insert p v t = some t := by
  induction p generalizing t with
  | nil =>
    cases t with
    | leaf w => simp [get] at hg; subst hg; rfl
    | nested t => simp [get] at hg
  | cons key rest ih =>
    cases t with
    | leaf w => simp [get] at hg
    | nested t =>
      simp only [get] at hg
      cases hk : t.get key with
      | none => simp [hk] at hg
      | some child =>
        simp only [hk] at hg
        have hm := (get_mem h.valid).1 hk
        simp only [insert, hk]
        rw [modify_same h.valid.hash (fun w hw => ?_)]
        · rfl
        · rw [hk] at hw; cases hw
          exact ih (h.child hm).1 hg

theorem delete_absent (p : List Bytes) {t : NTree V} (h : NValid t) (hg : containsPath p t = false) :
    delete p t = some t := by
  induction p generalizing t with
  | nil => simp [containsPath] at hg
  | cons key rest ih =>
    cases t with
    | leaf w => rfl
    | nested t =>
      simp only [containsPath] at hg
      have : t.modify key (fun child => delete rest child) = some t := by
        refine modify_same h.valid.hash (fun w hw => ?_)
        simp only [hw] at hg
        exact ih (h.child ((get_mem h.valid).1 hw)).1 hg
      simp only [delete, this]
      cases hk : t.get key with
      | none => rfl
      | some child =>
        have := (h.child ((get_mem h.valid).1 hk)).2
        cases child with
        | leaf _ => rfl
        | nested c => cases c with
          | nil => simp at this
          | node => rfl

end NTree
end Verif
