import Verif.Spec.Normal
import Verif.Lemmas.AssetServe

/-!
# Normal paths
-/

namespace Verif

/-- The text of a shape. -/
def PathShape.render (s : PathShape) : Bytes :=
  s.segs.flatMap (fun x => slashByte :: x) ++ (if s.slash then [slashByte] else [])

theorem pathSegments_cons (b : Bytes) : pathSegments (slashByte :: b) = pathSegments b := by
  have := pathSegments_append [] b
  rwa [List.nil_append, pathSegments_nil, List.nil_append] at this

theorem pathSegments_plain {s : Bytes} (h : slashByte ∉ s) : pathSegments s = if s = [] then [] else [s] := by
  unfold pathSegments
  rw [splitOn_none h]
  by_cases hs : s = []
  · simp [hs]
  · simp [hs]

theorem normal_render {p : Bytes} (hp : NormalPath p) : p = (PathShape.ofPath p).render := by
  induction hn : p.length using Nat.strongRecOn generalizing p with
  | _ n ih =>
    obtain ⟨h1, h2⟩ := hp
    cases p with
    | nil => simp at h1
    | cons c q =>
      simp only [List.head?_cons, Option.some.injEq] at h1
      subst h1
      have hsplit := List.takeWhile_append_dropWhile (p := fun c => decide (c ≠ slashByte)) (l := q)
      generalize hs : q.takeWhile (fun c => decide (c ≠ slashByte)) = s at hsplit
      generalize hr : q.dropWhile (fun c => decide (c ≠ slashByte)) = rest at hsplit
      have hns : slashByte ∉ s := by
        intro hm
        rw [← hs] at hm
        have := List.mem_takeWhile_imp hm
        simp at this
      cases rest with
      | nil =>
        rw [List.append_nil] at hsplit
        subst hsplit
        by_cases he : s = []
        · subst he
          rfl
        · have hl : endsWithSlash (slashByte :: s) = false := by
            unfold endsWithSlash
            rw [List.getLast?_cons]
            cases hg : s.getLast? with
            | none => rw [List.getLast?_eq_none_iff] at hg; exact absurd hg he
            | some d =>
              have := List.mem_of_getLast? hg
              simp only [Option.getD_some, beq_eq_false_iff_ne, ne_eq, Option.some.injEq]
              rintro rfl
              exact hns this
          unfold PathShape.render PathShape.ofPath
          simp only [hl, pathSegments_cons, pathSegments_plain hns, if_neg he]
          simp
      | cons d rest' =>
        have hd : d = slashByte := by
          have := List.head?_dropWhile_not (p := fun c => decide (c ≠ slashByte)) q
          rw [hr] at this
          simpa using this
        subst hd
        have he : s ≠ [] := by
          rintro rfl
          exact h2 [] rest' (by rw [← hsplit]; rfl)
        have hnorm : NormalPath (slashByte :: rest') := by
          refine ⟨rfl, fun a b hab => ?_⟩
          apply h2 (slashByte :: s ++ a) b
          rw [← hsplit, List.append_assoc, ← hab]
          rfl
        have hlen : (slashByte :: rest').length < n := by
          rw [← hn, ← hsplit]
          have : 0 < s.length := List.length_pos_of_ne_nil he
          simp; omega
        have hrec := ih _ hlen hnorm rfl
        have e1 : pathSegments (slashByte :: q) = s :: pathSegments rest' := by
          rw [← hsplit]
          have : slashByte :: (s ++ slashByte :: rest') = (slashByte :: s) ++ slashByte :: rest' := rfl
          rw [this, pathSegments_append, pathSegments_cons, pathSegments_plain hns, if_neg he]
          rfl
        have e2 : endsWithSlash (slashByte :: q) = endsWithSlash (slashByte :: rest') := by
          unfold endsWithSlash
          rw [← hsplit]
          have : slashByte :: (s ++ slashByte :: rest') = (slashByte :: s) ++ slashByte :: rest' := rfl
          rw [this, List.getLast?_append_of_ne_nil _ (by simp)]
        unfold PathShape.render PathShape.ofPath at hrec ⊢
        simp only at hrec ⊢
        rw [e1, e2, List.flatMap_cons]
        rw [pathSegments_cons] at hrec
        rw [← hsplit, List.append_assoc, ← hrec]
        rfl

theorem normal_inj {p q : Bytes} (hp : NormalPath p) (hq : NormalPath q) (h : PathShape.ofPath p = PathShape.ofPath q) :
    p = q := by
  rw [normal_render hp, normal_render hq, h]

/-- For normal paths, a matching wildcard is an enclosing scope, or the path itself. -/
theorem matches_encloses {v path : Bytes} (hv : NormalPath v) (hp : NormalPath path)
    (h : PathShape.Matches (PathShape.ofPath v) (PathShape.ofPath path)) :
    Encloses v path ∨ (v = path ∧ v.getLast? ≠ some slashByte) := by
  obtain ⟨⟨t, ht⟩, h2⟩ := h
  have ev := normal_render hv
  have ep := normal_render hp
  unfold PathShape.render at ev ep
  rw [← ht, List.flatMap_append] at ep
  have hflag : ∀ q : Bytes, (PathShape.ofPath q).slash = true ↔ q.getLast? = some slashByte := by
    intro q
    show (q.getLast? == some slashByte) = true ↔ _
    simp
  by_cases hs : (PathShape.ofPath v).slash = true
  · rw [if_pos hs] at ev
    left
    cases t with
    | nil =>
      rw [List.append_nil] at ht
      have hps := h2 hs ht
      rw [if_pos hps] at ep
      simp only [List.flatMap_nil, List.append_nil] at ep
      exact ⟨[], by rw [List.append_nil, ep, ← ev], .inl ((hflag v).1 hs)⟩
    | cons x t =>
      refine ⟨x ++ t.flatMap (fun x => slashByte :: x) ++ (if (PathShape.ofPath path).slash = true then [slashByte] else []), ?_,
        .inl ((hflag v).1 hs)⟩
      refine ep.trans (Eq.trans ?_ (congrArg (· ++ _) ev.symm))
      simp
  · rw [if_neg hs, List.append_nil] at ev
    rw [← ev] at ep
    have hlast : v.getLast? ≠ some slashByte := fun h => hs ((hflag v).2 h)
    cases t with
    | nil =>
      simp only [List.flatMap_nil, List.append_nil] at ep
      by_cases hps : (PathShape.ofPath path).slash = true
      · rw [if_pos hps] at ep
        exact .inl ⟨[slashByte], ep, .inr rfl⟩
      · rw [if_neg hps, List.append_nil] at ep
        exact .inr ⟨ep.symm, hlast⟩
    | cons x t =>
      rw [List.append_assoc] at ep
      exact .inl ⟨_, ep, .inr (by simp)⟩

/-- For normal scopes of the same path, more specific means longer. -/
theorem specific_longer {v s path : Bytes} (hv : NormalPath v) (hs : NormalPath s)
    (h1 : PathShape.Matches (PathShape.ofPath v) (PathShape.ofPath path))
    (h2 : PathShape.Matches (PathShape.ofPath s) (PathShape.ofPath path))
    (h : PathShape.MoreSpecific (PathShape.ofPath v) (PathShape.ofPath s)) : s.length < v.length := by
  have ev := normal_render hv
  have es := normal_render hs
  unfold PathShape.render at ev es
  have hpre : (PathShape.ofPath s).segs.length ≤ (PathShape.ofPath v).segs.length →
      (PathShape.ofPath s).segs <+: (PathShape.ofPath v).segs :=
    fun hl => List.prefix_of_prefix_length_le h2.1 h1.1 hl
  have hne : ∀ x ∈ (PathShape.ofPath v).segs, x ≠ [] := by
    intro x hx
    have := (List.mem_filter.1 hx).2
    simpa using this
  rcases h with h | ⟨h, hf1, hf2⟩
  · obtain ⟨t, ht⟩ := hpre (Nat.le_of_lt h)
    cases t with
    | nil => rw [List.append_nil] at ht; rw [ht] at h; omega
    | cons x t =>
      have hx : 0 < x.length := List.length_pos_of_ne_nil (hne x (by rw [← ht]; simp))
      rw [ev, es, ← ht, List.flatMap_append, List.flatMap_cons]
      simp only [List.length_append, List.length_cons]
      split <;> split <;> simp <;> omega
  · have hseg : (PathShape.ofPath s).segs = (PathShape.ofPath v).segs := (hpre (Nat.le_of_eq h)).eq_of_length h
    rw [ev, es, hseg, hf1, hf2]
    simp

end Verif
