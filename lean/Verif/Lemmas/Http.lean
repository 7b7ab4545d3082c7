import Verif.Lemmas.Rih
import Verif.Spec.Http

set_option linter.unusedSimpArgs false
set_option linter.unusedSectionVars false

namespace Verif

theorem eqIgnoreCase_iff {a b : Bytes} : eqIgnoreCase a b = true ↔ SameName a b := by
  simp [eqIgnoreCase, SameName]

theorem any_eqIgnore {l : List Bytes} {n : Bytes} : l.any (fun i => eqIgnoreCase i n) = true ↔ ∃ i ∈ l, SameName i n := by
  simp [List.any_eq_true, eqIgnoreCase_iff]

theorem filterMap_if {α β : Type} (p : α → Prop) [DecidablePred p] (f : α → β) (xs : List α) :
    xs.filterMap (fun x => if p x then some (f x) else none) = (xs.filter p).map f := by
  induction xs with
  | nil => rfl
  | cons x xs ih =>
    by_cases h : p x
    · simp [h, ih]
    · simp [h, ih]

theorem filteredReqHeaders_eq (hs : List Header) (c : ReqCert) :
    filteredReqHeaders hs c = (certifiedReqHeaders c hs).map (fun h => (h.1, RValue.string h.2)) := by
  unfold filteredReqHeaders certifiedReqHeaders
  rw [List.map_map]
  rw [← filterMap_if]
  congr 1
  funext h
  by_cases hh : ∃ n ∈ c.headers, SameName n h.1
  · rw [if_pos hh, if_pos (any_eqIgnore.2 hh)]; rfl
  · rw [if_neg hh, if_neg (fun h' => hh (any_eqIgnore.1 h'))]

theorem splitOn_head_takeWhile (a : UInt8) (s : Bytes) : (s.splitOn a).head? = some (s.takeWhile (· ≠ a)) := by
  induction s with
  | nil => simp
  | cons x xs ih =>
    rw [List.splitOn_cons_eq_if_modifyHead]
    by_cases h : x = a
    · simp [h]
    · have hb : (x == a) = false := by simp [h]
      rw [hb]
      cases hs : xs.splitOn a with
      | nil => rw [hs] at ih; simp at ih
      | cons y ys =>
        rw [hs] at ih
        simp at ih
        simp [h, ih]

theorem filteredQuery_eq (q : Bytes) (c : ReqCert) : filteredQuery q c = [0x26].intercalate (certifiedParams c q) := by
  unfold filteredQuery certifiedParams
  simp only
  congr 1
  apply List.filter_congr
  intro f _
  rw [splitOn_head_takeWhile]
  simp only
  by_cases hh : ∃ n ∈ c.queryParams, SameName n (paramName f)
  · rw [decide_eq_true hh]; exact any_eqIgnore.2 hh
  · rw [decide_eq_false hh]
    apply Bool.eq_false_iff.2
    intro h'; exact hh (any_eqIgnore.1 h')

theorem filterRespHeaders_eq (r : HttpResponse) (c : RespCert) :
    (filterResponseHeaders r c).headers = certifiedRespHeaders c r.headers := by
  unfold filterResponseHeaders certifiedRespHeaders RespCert.Certifies
  simp only
  rw [← filterMap_if]
  congr 1
  funext h
  have e1 : eqIgnoreCase h.1 certHeaderName = true ↔ SameName h.1 (str "ic-certificate") := by
    rw [eqIgnoreCase_iff]; unfold SameName; rw [show lower certHeaderName = lower (str "ic-certificate") by decide]
  have e2 : eqIgnoreCase h.1 certExprHeaderName = true ↔ SameName h.1 (str "ic-certificateexpression") := by
    rw [eqIgnoreCase_iff]; unfold SameName
    rw [show lower certExprHeaderName = lower (str "ic-certificateexpression") by decide]
  have e3 : c.filter h.1 = true ↔ (match c with
    | .certifiedHeaders l => ∃ n ∈ l, SameName n h.1
    | .headerExclusions l => ¬ ∃ n ∈ l, SameName n h.1) := by
    cases c with
    | certifiedHeaders l => exact any_eqIgnore
    | headerExclusions l =>
      simp only [RespCert.filter]
      rw [Bool.not_eq_true', ← Bool.not_eq_true, any_eqIgnore]
  simp only [e1, e2, e3]
  by_cases h1 : SameName h.1 (str "ic-certificate")
  · simp [h1]
  · by_cases h2 : SameName h.1 (str "ic-certificateexpression")
    · simp [h1, h2]
    · simp only [h1, h2, if_false]
      by_cases h3 : c.filter h.1 = true
      · rw [if_pos h3, if_pos ⟨h1, .inr (e3.1 h3)⟩]
      · rw [if_neg h3, if_neg]
        rintro ⟨_, h4 | h4⟩
        · exact h2 h4
        · exact h3 (e3.2 h4)

/-- aligned lists with equal raw values -/
theorem forall₂_string {l1 l2 : List (Bytes × RValue)} [SHA]
    (h : List.Forall₂ (fun a b => a.1 = b.1 ∧ a.2.raw = b.2.raw) l1 l2) :
    l1.map (fun e => (e.1, e.2.raw)) = l2.map (fun e => (e.1, e.2.raw)) := by
  induction h with
  | nil => rfl
  | cons h1 _ ih => simp [h1.1, h1.2, ih]

/-- what two equal representation-independent hashes of flat maps say -/
theorem rih_inj_raw [SHA] {m1 m2 : List (Bytes × RValue)} (h : rih m1 = rih m2) :
    (m1.map (fun e => (e.1, e.2.raw))).Perm (m2.map (fun e => (e.1, e.2.raw))) ∨
      CollisionIn (rihHashed m1) (rihHashed m2) := by
  rcases rih_inj h with ⟨m', hp, hf⟩ | h
  · left
    rw [forall₂_string hf]
    exact hp.map _
  · exact .inr h

/-- two hashes of the form `sha (a ++ b)` with 32-byte parts -/
theorem sha_pair_inj [SHA] {a b c d : Hash} (h : sha (a.1 ++ b.1) = sha (c.1 ++ d.1)) :
    (a = c ∧ b = d) ∨ (a.1 ++ b.1 ≠ c.1 ++ d.1 ∧ sha (a.1 ++ b.1) = sha (c.1 ++ d.1)) := by
  by_cases e : a.1 ++ b.1 = c.1 ++ d.1
  · have := List.append_inj e (by rw [a.2, c.2])
    exact .inl ⟨Subtype.ext this.1, Subtype.ext this.2⟩
  · exact .inr ⟨e, h⟩

/-- splitting a permutation of tagged lists: entries named `k` and the others -/
theorem perm_split {α β : Type} [DecidableEq α] {l1 l2 : List (α × β)} (h : l1.Perm l2) (P : α → Prop) [DecidablePred P] :
    (l1.filter (fun e => P e.1)).Perm (l2.filter (fun e => P e.1)) ∧
    (l1.filter (fun e => ¬ P e.1)).Perm (l2.filter (fun e => ¬ P e.1)) :=
  ⟨h.filter _, h.filter _⟩

end Verif
