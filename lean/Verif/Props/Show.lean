import Verif.Lemmas.RbSize
import Verif.Spec.Show
import Verif.Props.RbTree
import Verif.Props.Nested
import Verif.Props.CertTree

set_option linter.unusedSimpArgs false
set_option linter.unusedSectionVars false

/-!
# Property C55: what witnesses disclose
-/

namespace Verif
namespace Rb
open HashTree
variable {V : Type} [SHA] [AsHashTree V]

theorem mem_get {t : Rb V} (hs : t.Sorted) {k : Bytes} {v : V} : (k, v) ∈ t.forEach ↔ t.get k = some v := by
  rw [get_eq_lookL hs]; exact ⟨lookL_of_mem hs, lookL_mem⟩

theorem isPred_of {t : Rb V} (hs : t.Sorted) {key x : Bytes} (h : t.lowerBound key = some (.neighbor x)) :
    IsPred t.get key x := by
  have a := lowerBound_spec hs key
  rw [h] at a
  obtain ⟨⟨v, a1⟩, a2, a3, a4⟩ := a
  simp only [KeyBound.key] at a1 a2 a3 a4
  refine ⟨lt_of_le_of_ne a2 (fun e => by simpa using a4.1 e), by simp [(mem_get hs).1 a1], fun y hy hlt => ?_⟩
  obtain ⟨w, hw⟩ := Option.isSome_iff_exists.1 hy
  exact a3 (y, w) ((mem_get hs).2 hw) hlt.le

theorem isSucc_of {t : Rb V} (hs : t.Sorted) {key x : Bytes} (h : t.upperBound key = some (.neighbor x)) :
    IsSucc t.get key x := by
  have a := upperBound_spec hs key
  rw [h] at a
  obtain ⟨⟨v, a1⟩, a2, a3, a4⟩ := a
  simp only [KeyBound.key] at a1 a2 a3 a4
  refine ⟨lt_of_le_of_ne a2 (fun e => by simpa using a4.1 e.symm), by simp [(mem_get hs).1 a1], fun y hy hlt => ?_⟩
  obtain ⟨w, hw⟩ := Option.isSome_iff_exists.1 hy
  exact a3 (y, w) ((mem_get hs).2 hw) hlt.le

theorem isPrefixSucc_of {t : Rb V} (hs : t.Sorted) {pre x : Bytes} (h : t.rightPrefixNeighbor pre = some (.neighbor x)) :
    IsPrefixSucc t.get pre x := by
  have a := rightPrefixNeighbor_spec (t := t) pre
  have b := rightPrefixNeighbor_min hs pre
  rw [h] at a b
  obtain ⟨⟨v, a1⟩, a2, a3, a4⟩ := a
  simp only [KeyBound.key] at a1 a2 a3 a4 b
  refine ⟨a2, a3, by simp [(mem_get hs).1 a1], fun y hy hlt hn => ?_⟩
  obtain ⟨w, hw⟩ := Option.isSome_iff_exists.1 hy
  by_contra hc
  exact hn (b (y, w) ((mem_get hs).2 hw) hlt (not_le.1 hc))

variable {f : Bytes → V → HashTree} {g : V → HashTree}

/-- what a range witness shows -/
theorem show_range (hf : NodeFn f g) {t : Rb V} (hs : t.Sorted) {lo hi : Option KeyBound}
    (hle : ∀ l h, lo = some l → hi = some h → l.key ≤ h.key)
    {x : Bytes} {p : List Bytes} {n : HashTree} (h : HasNode (t.rangeWitnessRelease lo hi f) (x :: p) n) :
    ∃ v, (x, v) ∈ t.forEach ∧ (∀ l, lo = some l → l.key ≤ x) ∧ (∀ h, hi = some h → x ≤ h.key) ∧
      ((HasNode (g v) p n ∧ (lo = some (.neighbor x) → hi = some (.exact x)) ∧ (hi = some (.neighbor x) → lo = some (.exact x))) ∨
        (HasNode (.pruned (rootHash v)) p n ∧ (lo = some (.neighbor x) ∨ hi = some (.neighbor x)))) := by
  cases lo with
  | none =>
    cases hi with
    | none =>
      obtain ⟨v, h1, h2⟩ := (show_full hf).1 h
      exact ⟨v, h1, by simp, by simp, .inl ⟨h2, by simp, by simp⟩⟩
    | some b =>
      obtain ⟨v, h1, h2, h3⟩ := show_below hf hs h
      refine ⟨v, h1, by simp, by simpa using h2, ?_⟩
      rcases h3 with ⟨h3, h4⟩ | ⟨h3, h4⟩
      · exact .inl ⟨h3, by simp, fun e => absurd (Option.some.inj e) h4⟩
      · exact .inr ⟨h3, .inr (by rw [h4])⟩
  | some a =>
    cases hi with
    | none =>
      obtain ⟨v, h1, h2, h3⟩ := show_above hf hs h
      refine ⟨v, h1, by simpa using h2, by simp, ?_⟩
      rcases h3 with ⟨h3, h4⟩ | ⟨h3, h4⟩
      · exact .inl ⟨h3, fun e => absurd (Option.some.inj e) h4, by simp⟩
      · exact .inr ⟨h3, .inl (by rw [h4])⟩
    | some b =>
      obtain ⟨v, h1, h2, h2', h3⟩ := show_between hf hs (hle a b rfl rfl) h
      refine ⟨v, h1, by simpa using h2, by simpa using h2', ?_⟩
      rcases h3 with ⟨h3, h4, h5⟩ | ⟨h3, h4⟩
      · refine .inl ⟨h3, fun e => ?_, fun e => ?_⟩
        · rcases h4 with h4 | h4
          · exact absurd (Option.some.inj e) h4
          · rw [h4]
        · rcases h5 with h5 | h5
          · exact absurd (Option.some.inj e) h5
          · rw [h5]
      · exact .inr ⟨h3, by simpa using h4⟩

theorem show_api (hf : NodeFn f g) {t : Rb V} (hs : t.Sorted) {a b : Bytes} (hab : a ≤ b)
    {x : Bytes} {p : List Bytes} {n : HashTree}
    (h : HasNode (t.rangeWitnessRelease (t.lowerBound a) (t.upperBound b) f) (x :: p) n) :
    ∃ v, t.get x = some v ∧ ((a ≤ x ∧ x ≤ b ∧ HasNode (g v) p n) ∨
      ((IsPred t.get a x ∨ IsSucc t.get b x) ∧ p = [] ∧ n = .pruned (rootHash v))) := by
  obtain ⟨v, h1, h2, h3, h4⟩ := show_range hf hs (fun l h e1 e2 => bounds_le hs hab e1 e2) h
  refine ⟨v, (mem_get hs).1 h1, ?_⟩
  rcases h4 with ⟨h4, h5, h6⟩ | ⟨h4, h5⟩
  · left
    refine ⟨?_, ?_, h4⟩
    · by_contra hc
      have hc := not_le.1 hc
      -- x is below a, so x is the lower bound
      have sp := lowerBound_spec hs a
      cases e : t.lowerBound a with
      | none => rw [e] at sp; exact lt_asymm hc (sp _ h1)
      | some l =>
        rw [e] at sp
        obtain ⟨_, _, s3, s4⟩ := sp
        have hx : l.key = x := le_antisymm (h2 l e) (s3 _ h1 hc.le)
        have hl : l = .neighbor x := by
          cases l with
          | exact y =>
            have hlow := lowerBound_spec hs a
            have : y = x := hx
            subst this
            have := lowerBound_exact e
            exact absurd hc (by rw [this]; exact lt_irrefl _)
          | neighbor y => rw [← hx]; rfl
        have := h5 (by rw [e, hl])
        have e2 := upperBound_exact this
        exact absurd hc (not_lt.2 (by rw [e2]; exact hab))
    · by_contra hc
      have hc := not_le.1 hc
      have sp := upperBound_spec hs b
      cases e : t.upperBound b with
      | none => rw [e] at sp; exact lt_asymm hc (sp _ h1)
      | some l =>
        rw [e] at sp
        obtain ⟨_, _, s3, s4⟩ := sp
        have hx : l.key = x := le_antisymm (s3 _ h1 hc.le) (h3 l e)
        have hl : l = .neighbor x := by
          cases l with
          | exact y =>
            have : y = x := hx
            subst this
            have := upperBound_exact e
            exact absurd hc (by rw [this]; exact lt_irrefl _)
          | neighbor y => rw [← hx]; rfl
        have := h6 (by rw [e, hl])
        have e2 := lowerBound_exact this
        exact absurd hc (not_lt.2 (by rw [e2]; exact hab))
  · right
    obtain ⟨rfl, rfl⟩ := hasNode_pruned_iff.1 h4
    refine ⟨?_, rfl, rfl⟩
    rcases h5 with h5 | h5
    · exact .inl (isPred_of hs h5)
    · exact .inr (isSucc_of hs h5)

end Rb

namespace Props
open Verif HashTree Rb
variable {V : Type} [SHA] [AsHashTree V]

/-- **C55**, a key that is present: the witness shows that key alone, with its value, and not even the name of
another key. -/
theorem C55_present {ops : List (RbOp V)} {t : Rb V} (h : rbRun ops = some t) {key : Bytes} {v : V} {w : HashTree}
    (hg : t.get key = some v) (hw : t.witness key = some w) (x : Bytes) (p : List Bytes) (n : HashTree) :
    HasNode w (x :: p) n ↔ x = key ∧ HasNode (asHashTree v) p n := by
  have hv := rbRun_valid h
  constructor
  · intro hn
    unfold Rb.witness Rb.nestedWitness at hw
    cases e : t.lookupWitness key (fun v => some (asHashTree v)) with
    | none => simp [e] at hw
    | some o =>
      cases o with
      | none => rw [lookupWitness_none_iff hv.sorted e] at hg; simp at hg
      | some w' =>
        simp only [e, Option.bind_eq_bind, Option.bind_some, Option.some.injEq] at hw
        subst hw
        obtain ⟨h1, v', m, h2, h3, h4⟩ := show_lookup e hn
        subst h1
        rw [(mem_get hv.sorted).1 h2] at hg
        simp only [Option.some.injEq] at hg h3
        subst hg; subst h3
        exact ⟨rfl, h4⟩
  · rintro ⟨rfl, hn⟩
    obtain ⟨w', h1, h2, _⟩ := C10_witness_decides h x
    rw [h1] at hw; obtain rfl := Option.some.inj hw
    exact HasNode.append (p := [x]) (lookupSubtree_found (h2 v hg)) hn

/-- **C55**, a key that is absent: the witness names at most its two neighbours, and no value. -/
theorem C55_absent {ops : List (RbOp V)} {t : Rb V} (h : rbRun ops = some t) {key : Bytes} {w : HashTree}
    (hg : t.get key = none) (hw : t.witness key = some w) (x : Bytes) (p : List Bytes) (n : HashTree)
    (hn : HasNode w (x :: p) n) :
    (IsPred t.get key x ∨ IsSucc t.get key x) ∧ p = [] ∧ ∃ v, t.get x = some v ∧ n = .pruned (rootHash v) := by
  have hv := rbRun_valid h
  unfold Rb.witness Rb.nestedWitness at hw
  cases e : t.lookupWitness key (fun v => some (asHashTree v)) with
  | none => simp [e] at hw
  | some o =>
    cases o with
    | some w' =>
      simp only [e, Option.bind_eq_bind, Option.bind_some, Option.some.injEq] at hw
      subst hw
      obtain ⟨h1, v', m, h2, h3, h4⟩ := show_lookup e hn
      subst h1
      rw [(mem_get hv.sorted).1 h2] at hg; simp at hg
    | none =>
      simp only [e, Option.bind_eq_bind, Option.bind_some] at hw
      rw [rangeWitness_ok hv.sorted (le_refl key)] at hw
      obtain rfl := Option.some.inj hw
      obtain ⟨v, h1, h2⟩ := show_api nodeFn_witness hv.sorted (le_refl key) hn
      rcases h2 with ⟨h2, h3, _⟩ | ⟨h2, rfl, rfl⟩
      · rw [le_antisymm h3 h2, hg] at h1; simp at h1
      · exact ⟨h2, rfl, v, h1, rfl⟩

/-- **C55**, ranges of keys and of values, keys with a prefix, and all keys: only the keys asked for and the
nearest key on either side are named; values are shown only by `value_range`, and only in the range. -/
theorem C55_ranges {ops : List (RbOp V)} {t : Rb V} (h : rbRun ops = some t) :
    (∀ a b w, a ≤ b → t.keyRange a b = some w → ∀ x p n, HasNode w (x :: p) n →
      ((a ≤ x ∧ x ≤ b) ∨ IsPred t.get a x ∨ IsSucc t.get b x) ∧
      p = [] ∧ ∃ v, t.get x = some v ∧ n = .pruned (rootHash v)) ∧
    (∀ a b w, a ≤ b → t.valueRange a b = some w → ∀ x p n, HasNode w (x :: p) n →
      ∃ v, t.get x = some v ∧ ((a ≤ x ∧ x ≤ b ∧ HasNode (asHashTree v) p n) ∨
        ((IsPred t.get a x ∨ IsSucc t.get b x) ∧ p = [] ∧ n = .pruned (rootHash v)))) ∧
    (∀ pre w, t.keysWithPrefix pre = some w → ∀ x p n, HasNode w (x :: p) n →
      (pre <+: x ∨ IsPred t.get pre x ∨ IsPrefixSucc t.get pre x) ∧
      p = [] ∧ ∃ v, t.get x = some v ∧ n = .pruned (rootHash v)) ∧
    (∀ x p n, HasNode t.keys (x :: p) n → p = [] ∧ ∃ v, t.get x = some v ∧ n = .pruned (rootHash v)) := by
  have hv := rbRun_valid h
  have hs := hv.sorted
  refine ⟨fun a b w hab hw x p n hn => ?_, fun a b w hab hw x p n hn => ?_, fun pre w hw x p n hn => ?_,
    fun x p n hn => ?_⟩
  · unfold keyRange at hw
    rw [rangeWitness_ok hs hab] at hw
    obtain rfl := Option.some.inj hw
    obtain ⟨v, h1, h2⟩ := show_api nodeFn_witness hs hab hn
    rcases h2 with ⟨h2, h3, h4⟩ | ⟨h2, rfl, rfl⟩
    · obtain ⟨rfl, rfl⟩ := hasNode_pruned_iff.1 h4
      exact ⟨.inl ⟨h2, h3⟩, rfl, v, h1, rfl⟩
    · exact ⟨.inr h2, rfl, v, h1, rfl⟩
  · unfold valueRange at hw
    rw [rangeWitness_ok hs hab] at hw
    obtain rfl := Option.some.inj hw
    exact show_api nodeFn_data hs hab hn
  · unfold keysWithPrefix at hw
    rw [prefixWitness_ok hs pre] at hw
    obtain rfl := Option.some.inj hw
    have sp1 := lowerBound_spec hs pre
    have sp2 := rightPrefixNeighbor_spec (t := t) pre
    have sp3 := rightPrefixNeighbor_min hs pre
    have hle : ∀ l h, t.lowerBound pre = some l → t.rightPrefixNeighbor pre = some h → l.key ≤ h.key := by
      intro l h e1 e2
      rw [e1] at sp1; rw [e2] at sp2
      exact le_trans sp1.2.1 sp2.2.1.le
    obtain ⟨v, h1, h2, h3, h4⟩ := show_range nodeFn_witness hs hle hn
    have hpn : p = [] ∧ n = .pruned (rootHash v) := by
      rcases h4 with ⟨h4, _⟩ | ⟨h4, _⟩ <;> exact hasNode_pruned_iff.1 h4
    obtain ⟨rfl, rfl⟩ := hpn
    refine ⟨?_, rfl, v, (mem_get hs).1 h1, rfl⟩
    by_cases hp : pre <+: x
    · exact .inl hp
    · right
      rcases lt_trichotomy x pre with hlt | heq | hgt
      · left
        cases e : t.lowerBound pre with
        | none => rw [e] at sp1; exact absurd hlt (lt_asymm (sp1 _ h1))
        | some l =>
          rw [e] at sp1
          have hx : l.key = x := le_antisymm (h2 l e) (sp1.2.2.1 _ h1 hlt.le)
          cases l with
          | exact y =>
            have hx : y = x := hx
            rw [lowerBound_exact e] at hx
            rw [hx] at hlt; exact absurd hlt (lt_irrefl _)
          | neighbor y =>
            have hx : y = x := hx
            subst hx
            exact isPred_of hs e
      · exact absurd (heq ▸ List.prefix_refl _) hp
      · right
        cases e : t.rightPrefixNeighbor pre with
        | none => rw [e] at sp3; exact absurd (sp3 _ h1 hgt) hp
        | some b =>
          rw [e] at sp3 sp2
          have hx : b.key = x := by
            refine le_antisymm (not_lt.1 fun hc => hp (sp3 _ h1 hgt hc)) (h3 b e)
          have := sp2.2.2.2
          rw [hx] at this
          subst this
          exact isPrefixSucc_of hs e
  · obtain ⟨v, h1, h2⟩ := (show_full nodeFn_witness).1 hn
    obtain ⟨rfl, rfl⟩ := hasNode_pruned_iff.1 h2
    exact ⟨rfl, v, (mem_get hs).1 h1, rfl⟩

end Props

namespace NTree
open HashTree Rb
variable {V : Type} [SHA] [AsHashTree V]

theorem show_nested [LeafValue V] (p : List Bytes) {t : NTree V} (h : NValid t) {w : HashTree}
    (hw : witness p t = some w) {q : List Bytes} {n : HashTree} (hn : HasNode w q n) :
    OnPath p q ∨ ∃ q0 k rest x s, p = q0 ++ k :: rest ∧ q = q0 ++ [x] ∧ sub (q0 ++ [k]) t = none ∧
      sub (q0 ++ [x]) t = some s ∧ n = .pruned (rootHash s) ∧
      (IsPred (fun y => sub (q0 ++ [y]) t) k x ∨ IsSucc (fun y => sub (q0 ++ [y]) t) k x) := by
  induction p generalizing t w q with
  | nil => exact .inl (.inl (List.nil_prefix))
  | cons key rest ih =>
    cases q with
    | nil => exact .inl (.inr List.nil_prefix)
    | cons x q =>
      cases t with
      | leaf v =>
        simp [witness] at hw; subst hw
        obtain ⟨b, hb⟩ := LeafValue.isLeaf v
        rw [hb] at hn; cases hn
      | nested t =>
        have hs := h.valid.sorted
        have hsub : ∀ y r, sub (y :: r) (.nested t) = match t.get y with
          | none => none
          | some c => sub r c := fun y r => sub_cons h.valid y r
        have hsub1 : (fun y => sub ([] ++ [y]) (.nested t)) = fun y => t.get y := by
          funext y
          rw [List.nil_append, hsub]
          cases t.get y <;> rfl
        simp only [witness, Rb.nestedWitness] at hw
        cases e : t.lookupWitness key (fun child => witness rest child) with
        | none => simp [e] at hw
        | some o =>
          cases o with
          | some w' =>
            simp only [e, Option.bind_eq_bind, Option.bind_some, Option.some.injEq] at hw
            subst hw
            obtain ⟨h1, c, m, h2, h3, h4⟩ := show_lookup e hn
            subst h1
            have hg := (mem_get hs).1 h2
            rcases ih (h.child h2).1 h3 h4 with (hp | hp) | ⟨q0, k, rest', y, s, r1, r2, r3, r4, r5, r6⟩
            · exact .inl (.inl (List.cons_prefix_cons.2 ⟨rfl, hp⟩))
            · exact .inl (.inr (List.cons_prefix_cons.2 ⟨rfl, hp⟩))
            · refine .inr ⟨x :: q0, k, rest', y, s, by rw [r1]; rfl, by rw [r2]; rfl, ?_, ?_, r5, ?_⟩
              · rw [List.cons_append, hsub, hg]; exact r3
              · rw [List.cons_append, hsub, hg]; exact r4
              · have : (fun y => sub (x :: q0 ++ [y]) (.nested t)) = fun y => sub (q0 ++ [y]) c := by
                  funext y
                  rw [List.cons_append, hsub, hg]
                rw [this]; exact r6
          | none =>
            simp only [e, Option.bind_eq_bind, Option.bind_some] at hw
            rw [rangeWitness_ok hs (le_refl key)] at hw
            obtain rfl := Option.some.inj hw
            have hg := lookupWitness_none_iff hs e
            obtain ⟨v, h1, h2⟩ := show_api nodeFn_witness hs (le_refl key) hn
            rcases h2 with ⟨h2, h3, _⟩ | ⟨h2, rfl, rfl⟩
            · rw [le_antisymm h3 h2, hg] at h1; simp at h1
            · refine .inr ⟨[], key, rest, x, v, rfl, rfl, ?_, ?_, rfl, ?_⟩
              · rw [List.nil_append, hsub, hg]
              · rw [List.nil_append, hsub, h1]; rfl
              · rw [hsub1]; exact h2

end NTree

/-- merging discloses nothing that was in neither tree -/
theorem merge_shows (a b m : HashTree) (h : mergeHashTrees a b = some m) {q : List Bytes} {v : Bytes}
    (hl : HashTree.HasLeaf m q v) : HashTree.HasLeaf a q v ∨ HashTree.HasLeaf b q v := by
  unfold HashTree.HasLeaf at *
  fun_induction mergeHashTrees a b generalizing m q with
  | case1 l => simp at h; subst h; exact .inl hl
  | case2 l r hlr => simp at h
  | case3 l r hr => simp at h; subst h; exact .inr hl
  | case4 l r hr => simp at h; subst h; exact .inl hl
  | case5 l1 l2 r1 r2 ih1 ih2 =>
    simp only [Option.bind_eq_bind, Option.bind_eq_some_iff, Option.some.injEq] at h
    obtain ⟨x, hx, y, hy, rfl⟩ := h
    cases hl with
    | left hl =>
      rcases ih1 _ hx hl with h | h
      · exact .inl (.left h)
      · exact .inr (.left h)
    | right hl =>
      rcases ih2 _ hy hl with h | h
      · exact .inl (.right h)
      · exact .inr (.right h)
  | case6 la l r ih =>
    simp only [Option.map_eq_some_iff] at h
    obtain ⟨x, hx, rfl⟩ := h
    cases hl with
    | down hl =>
      rcases ih _ hx hl with h | h
      · exact .inl (.down h)
      · exact .inr (.down h)
  | case7 => simp at h
  | case8 => simp at h; subst h; exact .inl hl
  | case9 => simp at h; subst h; exact .inr hl
  | case10 => simp at h; subst h; exact .inl hl
  | case11 => simp at h; subst h; exact .inl hl
  | case12 => simp at h
  | case13 => simp at h

namespace Props
open Verif HashTree Rb

/-- **C55**, nested trees: the witness for a path shows only what lies on the path or below it, and, where the path
leaves the tree, the names of the two neighbours of the missing label with everything under them pruned. -/
theorem C55_nested {V : Type} [SHA] [AsHashTree V] [LeafValue V] {ops : List (NOp V)} {t : NTree V} (h : nRun ops = some t) {p : List Bytes}
    {w : HashTree} (hw : t.witness p = some w) {q : List Bytes} {n : HashTree} (hn : HasNode w q n) :
    OnPath p q ∨ ∃ q0 k rest x s, p = q0 ++ k :: rest ∧ q = q0 ++ [x] ∧ NTree.sub (q0 ++ [k]) t = none ∧
      NTree.sub (q0 ++ [x]) t = some s ∧ n = .pruned (rootHash s) ∧
      (IsPred (fun y => NTree.sub (q0 ++ [y]) t) k x ∨ IsSucc (fun y => NTree.sub (q0 ++ [y]) t) k x) :=
  NTree.show_nested p (NTree.nRun_valid h) hw hn

/-- **C55**, nested trees: no value off the path is ever disclosed. -/
theorem C55_nested_values {V : Type} [SHA] [AsHashTree V] [LeafValue V] {ops : List (NOp V)} {t : NTree V} (h : nRun ops = some t)
    {p : List Bytes} {w : HashTree} (hw : t.witness p = some w) {q : List Bytes} {b : Bytes} (hn : HasLeaf w q b) :
    OnPath p q := by
  rcases C55_nested h hw hn with h | ⟨_, _, _, _, _, _, _, _, _, h, _⟩
  · exact h
  · cases h

/-- **C55**, HTTP certification: the witness for a certified entry discloses no response that is certified for
a path other than the entry's, the requested URL's and the wildcards between the two. -/
theorem C55_http [SHA] {ops : List CtOp} {t : CertTree} (h : ctRun ops = some t) {e : CertEntry} {url : Bytes} {w : HashTree}
    (hw : t.witness e url = some (.ok w)) {q : List Bytes} {b : Bytes} (hn : HasLeaf w q b) :
    ∃ q', q = str "http_expr" :: q' ∧
      match e.path with
      | .exact _ => OnPath e.toTreePath q'
      | .wildcard _ => OnPath e.path.toTreePath q' ∨ OnPath (HttpPath.exact url).toTreePath q' ∨
          ∃ ws, moreSpecificWildcards (HttpPath.exact url).toTreePath e.path.toTreePath = some ws ∧
            ∃ v ∈ ws, OnPath v q' := by
  have hv := (ctRun_valid h).2
  have key : ∀ {p : List Bytes} {w : HashTree}, t.tree.witness p = some w → ∀ {q : List Bytes} {b : Bytes}, HasLeaf w q b → OnPath p q := by
    intro p w hw q b hn
    rcases NTree.show_nested p hv hw hn with h | ⟨_, _, _, _, _, _, _, _, _, h, _⟩
    · exact h
    · cases h
  unfold CertTree.witness at hw
  cases hp : e.path with
  | exact p =>
    simp only [hp, Option.bind_eq_bind, Option.bind_eq_some_iff, Option.some.injEq, Except.ok.injEq] at hw
    obtain ⟨w', h1, rfl⟩ := hw
    cases hn with
    | down hn => exact ⟨_, rfl, key h1 hn⟩
  | wildcard p =>
    simp only [hp] at hw
    split at hw
    · simp at hw
    · simp only [Option.bind_eq_bind, Option.bind_eq_some_iff, Option.some.injEq, Except.ok.injEq] at hw
      obtain ⟨w0, h0, w1, h1, m, hm, ws, hws, m', hm', rfl⟩ := hw
      cases hn with
      | down hn =>
        refine ⟨_, rfl, ?_⟩
        have fold : ∀ (ws : List (List Bytes)) (m m' : HashTree),
            ws.foldlM (fun acc path => Option.bind (t.tree.witness path) fun w => mergeHashTrees acc w) m = some m' →
            ∀ {q : List Bytes} {b : Bytes}, HasLeaf m' q b → HasLeaf m q b ∨ ∃ v ∈ ws, OnPath v q := by
          intro ws
          induction ws with
          | nil => intro m m' h q b hl; simp at h; subst h; exact .inl hl
          | cons v ws ih =>
            intro m m' h q b hl
            simp only [List.foldlM_cons, Option.bind_eq_bind, Option.bind_eq_some_iff] at h
            obtain ⟨a, ⟨wv, hwv, ha⟩, h⟩ := h
            rcases ih a m' h hl with hl | ⟨v', hv', hp⟩
            · rcases merge_shows _ _ _ ha hl with hl | hl
              · exact .inl hl
              · exact .inr ⟨v, by simp, key hwv hl⟩
            · exact .inr ⟨v', by simp [hv'], hp⟩
        rcases fold ws m m' hm' hn with hl | ⟨v, hv', hp⟩
        · rcases merge_shows _ _ _ hm hl with hl | hl
          · exact .inr (.inl (key h0 hl))
          · exact .inl (key h1 hl)
        · exact .inr (.inr ⟨ws, hws, v, hv', hp⟩)

/-- **C55**, size: the witness for a key has at most `10 log2 (n + 1) + 1` nodes besides the nodes of the value's tree,
where `n` is the number of keys stored, whether the key is present or not. -/
theorem C55_small {V : Type} [SHA] [AsHashTree V] {ops : List (RbOp V)} {t : Rb V} (h : rbRun ops = some t) {key : Bytes} {w : HashTree}
    (hw : t.witness key = some w) :
    w.nodes ≤ 10 * Nat.log2 (t.forEach.length + 1) + 1 +
      (match t.get key with | some v => (asHashTree v).nodes | none => 0) := by
  obtain ⟨t', h', _, _, hd⟩ := C07_no_panic_balanced ops
  rw [h] at h'; obtain rfl := Option.some.inj h'
  have hv := rbRun_valid h
  unfold Rb.witness Rb.nestedWitness at hw
  cases e : t.lookupWitness key (fun v => some (asHashTree v)) with
  | none => simp [e] at hw
  | some o =>
    cases o with
    | none =>
      simp only [e, Option.bind_eq_bind, Option.bind_some] at hw
      rw [rangeWitness_ok hv.sorted (le_refl key)] at hw
      obtain rfl := Option.some.inj hw
      have hg := lookupWitness_none_iff hv.sorted e
      have := nodes_absent hv.sorted hg
      omega
    | some w' =>
      simp only [e, Option.bind_eq_bind, Option.bind_some, Option.some.injEq] at hw
      subst hw
      obtain ⟨v, m, h1, h2, h3⟩ := nodes_lookup e
      rw [(mem_get hv.sorted).1 h1]
      simp only [Option.some.injEq] at h2
      subst h2
      dsimp only
      omega

/-! ### Concrete instances -/

section examples
attribute [local instance] toySHA

/-- four keys with distinct values -/
def exShowOps : List (RbOp Bytes) :=
  [.insert [1] [10], .insert [3] [30], .insert [5] [50], .insert [7] [70]]

/-- the witness of a present key and of an absent one: both exist, with both kinds of neighbours -/
example : ∃ t w, rbRun exShowOps = some t ∧ t.get [3] = some [30] ∧ t.witness [3] = some w ∧ w.nodes ≤ 20 := by
  obtain ⟨t, ht, hm⟩ := C06_map exShowOps
  obtain ⟨w, hw, _⟩ := C10_witness_decides ht [3]
  refine ⟨t, w, ht, ?_, hw, ?_⟩
  · rw [hm]; decide
  · have e : (rbRun exShowOps).bind (fun t => (t.witness [3]).map (fun w => decide (w.nodes ≤ 20))) = some true := by
      decide +kernel
    rw [ht, Option.bind_some, hw] at e
    simpa using e

/-- labels visible at the top of the witnesses of `[3]` (present) and `[4]` (absent) -/
example : (rbRun exShowOps).bind (fun t => (t.witness [3]).map HashTree.labels) = some [[3]] ∧
    (rbRun exShowOps).bind (fun t => (t.witness [4]).map HashTree.labels) = some [[3], [5]] ∧
    (rbRun exShowOps).bind (fun t => (t.valueRange [2] [4]).map HashTree.labels) = some [[1], [3], [5]] ∧
    (rbRun exShowOps).bind (fun t => (t.keysWithPrefix [5]).map HashTree.labels) = some [[5], [7]] := by
  decide +kernel

/-- both neighbours of an absent path are named, their values are not shown -/
example : (nRun [NOp.insert [[1], [2]] ([9] : Bytes), .insert [[1], [6]] [8], .insert [[4], [4]] [7]]).bind
    (fun t => (t.witness [[1], [4]]).map (fun w => (w.lookupPath [[1], [2]], w.lookupPath [[1], [4]], w.lookupPath [[4], [4]]))) =
    some (.unknown, .absent, .unknown) := by decide +kernel

end examples

end Props
end Verif
