import Verif.Lemmas.Nested
import Verif.Lemmas.HttpPath
import Verif.Spec.CertTree

set_option linter.unusedSimpArgs false
set_option linter.unusedSectionVars false

namespace Verif
open HashTree NTree PathShape

theorem HashTree.lookupSubtree_append (p q : List Bytes) (t : HashTree) :
    t.lookupSubtree (p ++ q) = match t.lookupSubtree p with
      | .found n => n.lookupSubtree q
      | .absent => .absent
      | .unknown => .unknown := by
  induction p generalizing t with
  | nil => rfl
  | cons x p ih =>
    simp only [List.cons_append, lookupSubtree]
    cases t.lookupLabel x with
    | found n => exact ih n
    | absent => rfl
    | unknown => rfl
    | less => rfl
    | greater => rfl

section
variable [SHA]

namespace HashTree

theorem Reveals.mono {w m T : HashTree} {p : List Bytes} (hT : WF true T) (h : Reveals w T p) (h1 : Prunes w m)
    (h2 : Prunes m T) : Reveals m T p := by
  have hm := lookupSubtree_mono hT h1 h2 p
  refine ⟨fun n hn => ?_, fun hn => ?_⟩
  · rw [h.1 n hn] at hm
    obtain ⟨n', e, hp⟩ := hm
    rw [e, prunes_full_eq (hn.wf hT).full hp]
  · rw [h.2 hn] at hm; exact hm

theorem Reveals.below {w T : HashTree} {p : List Bytes} (hT : WF true T) (h : Reveals w T p) (q : List Bytes) :
    Reveals w T (p ++ q) := by
  have key := lookupSubtree_append p q w
  by_cases hex : ∃ n, HasNode T p n
  · obtain ⟨n, hn⟩ := hex
    rw [h.1 n hn] at key
    simp only at key
    refine ⟨fun m hm => ?_, fun hm => ?_⟩
    · obtain ⟨n', h1, h2⟩ := hm.split
      have := HasNode.unique hT h1 hn
      subst this
      rw [key, (lookupSubtree_eq_found_iff (hn.wf hT)).2 h2]
    · rw [key, lookupSubtree_eq_absent_iff (hn.wf hT)]
      rintro ⟨m, hm'⟩
      exact hm ⟨m, hn.append hm'⟩
  · rw [h.2 hex] at key
    refine ⟨fun m hm => ?_, fun _ => key⟩
    obtain ⟨n', h1, _⟩ := hm.split
    exact absurd ⟨n', h1⟩ hex

theorem lookupSubtree_labeled (l : Bytes) (t : HashTree) (p : List Bytes) :
    (HashTree.labeled l t).lookupSubtree (l :: p) = t.lookupSubtree p := by
  simp only [lookupSubtree, lookupLabel, cmpB_eq.2 rfl]

theorem hasNode_labeled {l : Bytes} {t n : HashTree} {p : List Bytes} :
    HasNode (.labeled l t) (l :: p) n ↔ HasNode t p n :=
  ⟨fun h => by cases h; assumption, fun h => .down h⟩

theorem Reveals.labeled {w T : HashTree} {p : List Bytes} (h : Reveals w T p) (l : Bytes) :
    Reveals (.labeled l w) (.labeled l T) (l :: p) := by
  refine ⟨fun n hn => ?_, fun hn => ?_⟩
  · rw [lookupSubtree_labeled]; exact h.1 n (hasNode_labeled.1 hn)
  · rw [lookupSubtree_labeled]
    exact h.2 (fun ⟨n, h'⟩ => hn ⟨n, hasNode_labeled.2 h'⟩)

end HashTree

theorem NTree.witness_reveals [AsHashTree V] [LeafValue V] (p : List Bytes) {t : NTree V} (h : NValid t) :
    ∃ w, t.witness p = some w ∧ Prunes w (asHashTree t) ∧ Reveals w (asHashTree t) p := by
  obtain ⟨w, h1, h2⟩ := witness_prunes p h
  have hd := witness_decides p h h1
  refine ⟨w, h1, h2, fun n hn => ?_, fun hn => ?_⟩
  · obtain ⟨s, hs, rfl⟩ := (hasNode_iff_sub p h n).1 hn
    rw [hd, hs]
  · cases hs : sub p t with
    | none => rw [hd, hs]
    | some s => exact absurd ⟨_, (hasNode_iff_sub p h _).2 ⟨s, hs, rfl⟩⟩ hn

/-- folding the merge over witnesses of further paths -/
theorem fold_witness {t : NTree Bytes} (h : NValid t) (paths : List (List Bytes)) {w : HashTree}
    (hw : Prunes w (asHashTree t)) :
    ∃ m, paths.foldlM (fun acc path => do mergeHashTrees acc (← t.witness path)) w = some m ∧
      Prunes m (asHashTree t) ∧ Prunes w m ∧ ∀ p ∈ paths, Reveals m (asHashTree t) p := by
  have hT := wf_tree h
  induction paths generalizing w with
  | nil => exact ⟨w, rfl, hw, Prunes.refl _, by simp⟩
  | cons p ps ih =>
    obtain ⟨v, h1, h2, h3⟩ := witness_reveals p h
    obtain ⟨m, g1, g2, g3, g4⟩ := merge_spec hw h2
    obtain ⟨m', k1, k2, k3, k4⟩ := ih g2
    refine ⟨m', ?_, k2, g3.trans k3, ?_⟩
    · simp only [List.foldlM_cons, h1, Option.bind_eq_bind, Option.bind_some, g1]
      exact k1
    · intro q hq
      simp at hq
      rcases hq with rfl | hq
      · exact h3.mono hT (g4.trans k3) k2
      · exact k4 q hq

/-! ### histories -/

def CtOp.toNOp : CtOp → NOp Bytes
  | .insert e => .insert e.toTreePath []
  | .delete e => .delete e.toTreePath
  | .clear => .clear

theorem ctop_run (t : CertTree) (o : CtOp) : o.run t = (o.toNOp.run t.tree).map .mk := by
  cases o <;> rfl

theorem ct_fold (ops : List CtOp) (t : CertTree) :
    ops.foldlM (fun t o => o.run t) t = ((ops.map CtOp.toNOp).foldlM (fun t (o : NOp Bytes) => o.run t) t.tree).map .mk := by
  induction ops generalizing t with
  | nil => rfl
  | cons o ops ih =>
    rw [List.foldlM_cons, List.map_cons, List.foldlM_cons, ctop_run]
    cases h : o.toNOp.run t.tree with
    | none => rfl
    | some t' => simpa [-ctop_run] using ih ⟨t'⟩

theorem ctRun_eq (ops : List CtOp) : ctRun ops = (nRun (ops.map CtOp.toNOp)).map .mk := ct_fold ops _

theorem ctRun_valid {ops : List CtOp} {t : CertTree} (h : ctRun ops = some t) :
    nRun (ops.map CtOp.toNOp) = some t.tree ∧ NValid t.tree := by
  rw [ctRun_eq] at h
  simp at h
  obtain ⟨t', h1, rfl⟩ := h
  exact ⟨h1, nRun_valid h1⟩

/-- the set of entries is what the path map holds, if comparable paths are equal -/
theorem ct_spec_aux {p : List Bytes} (ops : List CtOp)
    (hc : ∀ o ∈ ops, ∀ e, o.entry? = some e → (e.toTreePath <+: p ∨ p <+: e.toTreePath) → e.toTreePath = p)
    (m : List Bytes → Option Bytes) (s : List Bytes → Prop) (h0 : s p ↔ m p = some []) (h1 : m p = none ∨ m p = some []) :
    ((ops.foldl CtOp.spec s) p ↔ (ops.map CtOp.toNOp).foldl NOp.spec m p = some []) ∧
    ((ops.map CtOp.toNOp).foldl NOp.spec m p = none ∨ (ops.map CtOp.toNOp).foldl NOp.spec m p = some []) := by
  induction ops generalizing m s with
  | nil => exact ⟨h0, h1⟩
  | cons o ops ih =>
    simp only [List.foldl_cons, List.map_cons]
    apply ih (fun o' ho' => hc o' (by simp [ho']))
    · cases o with
      | insert e =>
        have := hc (.insert e) (by simp) e rfl
        simp only [CtOp.spec, CtOp.toNOp, NOp.spec]
        by_cases he : p = e.toTreePath
        · simp [he]
        · rw [if_neg he, if_neg]
          · simp [he, h0]
          · rintro (h | h)
            · exact he (this (.inr h)).symm
            · exact he (this (.inl h)).symm
      | delete e =>
        have := hc (.delete e) (by simp) e rfl
        simp only [CtOp.spec, CtOp.toNOp, NOp.spec]
        by_cases he : p = e.toTreePath
        · simp [he]
        · rw [if_neg]
          · simp [he, h0]
          · intro h
            exact he (this (.inl h)).symm
      | clear => simp [CtOp.spec, CtOp.toNOp, NOp.spec]
    · cases o with
      | insert e =>
        simp only [CtOp.toNOp, NOp.spec]
        split
        · exact .inr rfl
        · split
          · exact .inl rfl
          · exact h1
      | delete e =>
        simp only [CtOp.toNOp, NOp.spec]
        split
        · exact .inl rfl
        · exact h1
      | clear => exact .inl rfl

end

/-! ### when entry paths are comparable -/

theorem cut_at_term {A B : List Bytes} {t u : Bytes} {c d : List Bytes} {S : Bytes → Prop} (ht : S t) (hu : S u)
    (hA : ∀ x ∈ A, ¬ S x) (hB : ∀ x ∈ B, ¬ S x) (h : A ++ t :: c <+: B ++ u :: d) :
    A = B ∧ t = u ∧ c <+: d := by
  induction A generalizing B with
  | nil =>
    cases B with
    | nil => simpa using h
    | cons b B =>
      simp at h
      have := hB b (by simp)
      rw [← h.1] at this
      exact absurd ht this
  | cons a A ih =>
    cases B with
    | nil =>
      simp at h
      have := hA a (by simp)
      rw [h.1] at this
      exact absurd hu this
    | cons b B =>
      simp at h
      obtain ⟨rfl, h⟩ := h
      obtain ⟨rfl, h2, h3⟩ := ih (fun x hx => hA x (by simp [hx])) (fun x hx => hB x (by simp [hx])) h
      exact ⟨rfl, h2, h3⟩

theorem clean_labels {p : HttpPath} (h : p.Clean) : ∀ x ∈ (ofPath p.url).labels, ¬ (x = exactTerm ∨ x = wildTerm) := by
  intro x hx
  simp only [PathShape.labels, List.mem_append] at hx
  rcases hx with hx | hx
  · rintro (rfl | rfl)
    · exact h.1 hx
    · exact h.2 hx
  · split at hx
    · simp at hx; subst hx; decide
    · simp at hx

theorem entryPath_eq (e : CertEntry) : ∃ t, (t = exactTerm ∨ t = wildTerm) ∧
    e.path.toTreePath = (ofPath e.path.url).labels ++ [t] ∧
    e.toTreePath = (ofPath e.path.url).labels ++ t :: e.cert.toTreePath := by
  obtain ⟨p, c⟩ := e
  cases p with
  | exact p => exact ⟨exactTerm, .inl rfl, rfl, by simp [CertEntry.toTreePath, toTreePath_exact, exactLabels, HttpPath.url]⟩
  | wildcard p => exact ⟨wildTerm, .inr rfl, rfl, by simp [CertEntry.toTreePath, toTreePath_wild, wildLabels, HttpPath.url]⟩

theorem CertEntry.not_imitates {f : CertEntry} (h : f.path.Clean) (e : CertEntry) : ¬ f.Imitates e := by
  rintro ⟨pre, m, post, hm, hs⟩
  have : m ∈ pathSegments f.path.url := by rw [hs]; simp
  rcases hm with rfl | rfl
  · exact h.1 this
  · exact h.2 this

theorem HttpPath.not_hides {p : HttpPath} (h : p.Clean) (x : Hash) : ¬ p.Hides x := by
  rintro ⟨pre, m, post, hm, hs⟩
  have : m ∈ pathSegments p.url := by rw [hs]; simp
  rcases hm with rfl | rfl
  · exact h.1 this
  · exact h.2 this

theorem cert_path_head (c : HttpCert) : ∃ r, c.toTreePath = c.celHash.1 :: r := by
  cases c <;> exact ⟨_, rfl⟩

theorem hash_len32 (h : Hash) : h.1.length = 32 := h.2

theorem cert_path_len (c : HttpCert) : ∀ x ∈ c.toTreePath, x.length = 32 ∨ x = [] := by
  intro x hx
  cases c <;> simp [HttpCert.toTreePath] at hx
  · subst hx; exact .inl (hash_len32 _)
  · rcases hx with rfl | rfl | rfl
    · exact .inl (hash_len32 _)
    · exact .inr rfl
    · exact .inl (hash_len32 _)
  · rcases hx with rfl | rfl | rfl <;> exact .inl (hash_len32 _)

/-- where a path with a terminator and a hash can lead in the path of an entry that does not hide the hash -/
theorem entry_cut {f : CertEntry} {L : List Bytes} {u : Bytes} {x : Hash} (hu : u = exactTerm ∨ u = wildTerm)
    (hi : ¬ f.path.Hides x) (h : L ++ u :: [x.1] <+: f.toTreePath) :
    f.path.toTreePath = L ++ [u] ∧ f.cert.celHash = x := by
  obtain ⟨w, hw, g1, g2⟩ := entryPath_eq f
  have hu3 : u.length = 3 := by rcases hu with rfl | rfl <;> rfl
  have hw3 : w.length = 3 := by rcases hw with rfl | rfl <;> rfl
  have hx := x.2
  obtain ⟨y, hy⟩ := cert_path_head f.cert
  rw [g2] at h
  obtain ⟨r, hr⟩ := h
  rw [List.append_assoc, List.append_eq_append_iff] at hr
  rcases hr with ⟨a, h3, h4⟩ | ⟨a, h3, h4⟩
  · cases a with
    | nil =>
      simp only [List.nil_append, List.cons_append, List.cons.injEq, List.append_nil, hy] at h3 h4
      exact ⟨by rw [g1, h3, h4.1], Subtype.ext h4.2.1.symm⟩
    | cons b a =>
      simp only [List.cons_append, List.cons.injEq] at h4
      obtain ⟨rfl, h4⟩ := h4
      cases a with
      | nil =>
        simp only [List.nil_append, List.cons.injEq] at h4
        have := congrArg List.length h4.1
        rw [hw3, hx] at this
        simp at this
      | cons c a =>
        simp only [List.cons_append, List.cons.injEq] at h4
        obtain ⟨rfl, h4⟩ := h4
        refine absurd ?_ hi
        refine ⟨L, u, ?_⟩
        simp only [PathShape.labels] at h3
        split at h3
        · rcases List.eq_nil_or_concat a with rfl | ⟨a', z, rfl⟩
          · exfalso
            have h5 := congrArg List.getLast? h3
            simp at h5
            simp [h5] at hx
          · refine ⟨a', hu, ?_⟩
            have h5 : ((ofPath f.path.url).segs : List Bytes) ++ [[]] = (L ++ u :: x.1 :: a') ++ [z] := by
              rw [h3, List.concat_eq_append]; simp
            exact (List.append_inj' h5 rfl).1
        · refine ⟨a, hu, ?_⟩
          rw [List.append_nil] at h3
          exact h3
  · cases a with
    | nil =>
      simp only [List.nil_append, List.cons_append, List.cons.injEq, List.append_nil, hy] at h3 h4
      exact ⟨by rw [g1, h3, h4.1], Subtype.ext h4.2.1⟩
    | cons b a =>
      simp only [List.cons_append, List.cons.injEq] at h4
      have := cert_path_len f.cert u (by rw [h4.2]; simp)
      rcases this with h | h
      · omega
      · rw [h] at hu3; simp at hu3

/-- two entries with comparable, different tree paths, neither imitating the other: a skip certification shares its
expression hash with another certification -/
theorem entry_comparable {e f : CertEntry} (hi : ¬ f.Imitates e) (h : e.toTreePath <+: f.toTreePath) :
    e.toTreePath = f.toTreePath ∨ (e.cert.isSkip = true ∧ f.cert.isSkip = false ∧ e.cert.celHash = f.cert.celHash) := by
  obtain ⟨t, ht, _, h1⟩ := entryPath_eq e
  obtain ⟨u, hu, _, h2⟩ := entryPath_eq f
  have ht3 : t.length = 3 := by rcases ht with rfl | rfl <;> rfl
  have hu3 : u.length = 3 := by rcases hu with rfl | rfl <;> rfl
  obtain ⟨y, hy⟩ := cert_path_head e.cert
  rw [h1, h2] at h
  have hcut : (ofPath e.path.url).labels = (ofPath f.path.url).labels ∧ t = u ∧ e.cert.toTreePath <+: f.cert.toTreePath := by
    obtain ⟨r, hr⟩ := h
    rw [List.append_assoc, List.append_eq_append_iff] at hr
    rcases hr with ⟨a, h3, h4⟩ | ⟨a, h3, h4⟩
    · cases a with
      | nil =>
        simp only [List.nil_append, List.cons_append, List.cons.injEq, List.append_nil] at h3 h4
        exact ⟨h3.symm, h4.1, ⟨r, h4.2⟩⟩
      | cons b a =>
        simp only [List.cons_append, List.cons.injEq, hy] at h4
        obtain ⟨rfl, h4⟩ := h4
        cases a with
        | nil =>
          simp only [List.nil_append, List.cons.injEq] at h4
          have := congrArg List.length h4.1
          rw [hu3, e.cert.celHash.2] at this
          simp at this
        | cons c a =>
          simp only [List.cons_append, List.cons.injEq] at h4
          obtain ⟨rfl, h4⟩ := h4
          refine absurd ?_ hi
          refine ⟨(ofPath e.path.url).labels, t, ?_⟩
          simp only [PathShape.labels] at h3 ⊢
          split at h3
          · rcases List.eq_nil_or_concat a with rfl | ⟨a', z, rfl⟩
            · exfalso
              have h5 := congrArg List.getLast? h3
              simp at h5
              have := e.cert.celHash.2
              simp [h5] at this
            · refine ⟨a', ht, ?_⟩
              have h5 : ((ofPath f.path.url).segs : List Bytes) ++ [[]] = ((ofPath e.path.url).labels ++
                  t :: e.cert.celHash.1 :: a') ++ [z] := by
                rw [h3, List.concat_eq_append]; simp [PathShape.labels]
              exact (List.append_inj' h5 rfl).1
          · refine ⟨a, ht, ?_⟩
            rw [List.append_nil] at h3
            exact h3
    · cases a with
      | nil =>
        simp only [List.nil_append, List.cons_append, List.cons.injEq, List.append_nil] at h3 h4
        exact ⟨h3, h4.1.symm, ⟨r, h4.2.symm⟩⟩
      | cons b a =>
        simp only [List.cons_append, List.cons.injEq] at h4
        have := cert_path_len f.cert t (by rw [h4.2]; simp)
        rcases this with h | h
        · omega
        · rw [h] at ht3; simp at ht3
  obtain ⟨h3, h4, h5⟩ := hcut
  rw [h1, h2, h3, h4]
  by_cases hc : e.cert.toTreePath = f.cert.toTreePath
  · left; rw [hc]
  · right
    cases ec : e.cert <;> cases fc : f.cert <;> rw [ec, fc] at h5 hc <;>
      simp [HttpCert.toTreePath, HttpCert.isSkip, HttpCert.celHash] at h5 hc ⊢
    all_goals first
      | exact Subtype.ext h5
      | exact absurd h5 hc
      | (obtain ⟨a, b, c⟩ := h5; exact hc a b c)
      | exact hc h5.1 h5.2

end Verif
