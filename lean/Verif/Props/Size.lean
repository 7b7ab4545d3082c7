import Verif.Lemmas.NestedSize
import Verif.Lemmas.RangeSize
import Verif.Lemmas.FullSize
import Verif.Props.HttpPath
import Verif.Props.Base64
import Verif.Lemmas.RbShow
import Verif.Props.CertTree
import Verif.Props.RbTree
import Verif.Spec.Toy

set_option linter.unusedSimpArgs false
set_option linter.unusedSectionVars false

/-!
# Property C74: witnesses and certificate headers stay small
-/

namespace Verif.Props
open Verif HashTree PathShape

section
variable {V : Type} [SHA] [AsHashTree V]

/-! ### range witnesses -/

theorem weight_le_two {es : List (Bytes × V)} (hnd : (es.map Prod.fst).Nodup) {wt base : Bytes → V → Nat}
    {x y : Option Bytes} (h : ∀ e ∈ es, wt e.1 e.2 ≤ base e.1 e.2 + (if some e.1 = x then 5 else 0) + (if some e.1 = y then 5 else 0)) :
    (es.map (fun e => wt e.1 e.2)).sum ≤ (es.map (fun e => base e.1 e.2)).sum + 10 := by
  have one : ∀ {es : List (Bytes × V)} {x : Option Bytes}, (es.map Prod.fst).Nodup →
      (es.map (fun e => if some e.1 = x then 5 else 0)).sum ≤ 5 := by
    intro es x
    induction es with
    | nil => simp
    | cons e es ih =>
      intro hn
      simp only [List.map_cons, List.nodup_cons, List.sum_cons] at hn ⊢
      by_cases he : some e.1 = x
      · rw [if_pos he]
        have : (es.map (fun e => if some e.1 = x then 5 else 0)).sum = 0 := by
          have : es.map (fun e => if some e.1 = x then 5 else 0) = es.map (fun _ => 0) := by
            apply List.map_congr_left
            intro e' he'
            rw [if_neg]
            intro h'
            rw [← he] at h'
            simp only [Option.some.injEq] at h'
            exact hn.1 (by rw [← h']; exact List.mem_map_of_mem he')
          rw [this]; simp
        omega
      · rw [if_neg he]
        have := ih hn.2
        omega
  have a := one (es := es) (x := x) hnd
  have b := one (es := es) (x := y) hnd
  have key : (es.map (fun e => wt e.1 e.2)).sum ≤ (es.map (fun e => base e.1 e.2)).sum +
      (es.map (fun e => if some e.1 = x then 5 else 0)).sum + (es.map (fun e => if some e.1 = y then 5 else 0)).sum := by
    clear a b hnd
    induction es with
    | nil => simp
    | cons e es ih =>
      have h1 := h e (by simp)
      have h2 := ih (fun e' he' => h e' (by simp [he']))
      simp only [List.map_cons, List.sum_cons]
      omega
  omega

theorem sum_if (es : List (Bytes × V)) (p : Bytes → Bool) (c : Nat) :
    (es.map (fun e => if p e.1 then c else 0)).sum = c * countKeys p es := by
  induction es with
  | nil => simp [countKeys]
  | cons e es ih =>
    simp only [List.map_cons, List.sum_cons, ih, countKeys, List.countP_cons]
    by_cases h : p e.1 <;> simp [h, Nat.mul_add]
    omega

theorem keys_nodup {t : Rb V} (hs : t.Sorted) : (t.forEach.map Prod.fst).Nodup := by
  unfold Rb.Sorted Rb.SortedL at hs
  exact (List.pairwise_map.2 (hs.imp (fun h => h))).imp (fun h => ne_of_lt h)

theorem range_bound {t : Rb V} (hv : Rb.Valid t) {f : Bytes → V → HashTree} {lo hi : Option Rb.KeyBound} {w : HashTree}
    (hw : t.rangeWitness lo hi f = some w) {p : Bytes → Bool} {c : Nat} (_hc : 2 ≤ c) (hf : ∀ e ∈ t.forEach, (f e.1 e.2).nodes ≤ c)
    (h : ∀ e ∈ t.forEach, (∀ b, lo = some b → b.key < e.1) → (∀ b, hi = some b → e.1 < b.key) → p e.1 = true)
    (hlo : ∀ k, lo = some (.exact k) → p k = true) (hhi : ∀ k, hi = some (.exact k) → p k = true) :
    w.nodes ≤ 16 * Nat.log2 (t.forEach.length + 1) + (c + 3) * countKeys p t.forEach + 11 := by
  have hd := hv.depth_le
  have hbound : ∀ (b : Rb.KeyBound), (∀ k, b = .exact k → p k = true) → ∀ e ∈ t.forEach, e.1 = b.key →
      (Rb.boundTree f b e.1 e.2).nodes + 3 ≤ (if p e.1 = true then c + 3 else 0) + 5 := by
    intro b hb e he hk
    cases b with
    | exact k =>
      simp only [Rb.KeyBound.key] at hk
      rw [hk, hb k rfl, if_pos rfl]
      have := hf e he
      rw [hk] at this
      simp only [Rb.boundTree]
      omega
    | neighbor k => simp [Rb.boundTree, Rb.witnessTree, HashTree.nodes]
  have key := Rb.size_range (wt := fun k _ => (if p k = true then c + 3 else 0) + (if some k = lo.map Rb.KeyBound.key then 5 else 0) +
      (if some k = hi.map Rb.KeyBound.key then 5 else 0)) hv.sorted hw ?_ ?_ ?_
  · have := weight_le_two (base := fun k _ => if p k = true then c + 3 else 0)
      (wt := fun k _ => (if p k = true then c + 3 else 0) + (if some k = lo.map Rb.KeyBound.key then 5 else 0) +
      (if some k = hi.map Rb.KeyBound.key then 5 else 0))
      (x := lo.map Rb.KeyBound.key) (y := hi.map Rb.KeyBound.key) (keys_nodup hv.sorted) (by intro e _; simp)
    rw [sum_if] at this
    unfold Rb.weight at key
    dsimp only at key this
    omega
  · intro e he h1 h2
    have := hf e he
    simp only [h e he h1 h2, if_true]
    omega
  · intro b hb e he hk
    have := hbound b (fun k hk => hlo k (by rw [hb, hk])) e he hk
    rw [if_pos (show some e.1 = lo.map Rb.KeyBound.key by rw [hb, hk]; rfl)]
    omega
  · intro b hb e he hk
    have := hbound b (fun k hk => hhi k (by rw [hb, hk])) e he hk
    rw [if_pos (show some e.1 = hi.map Rb.KeyBound.key by rw [hb, hk]; rfl)]
    omega

theorem lowerBound_exact {t : Rb V} {a k : Bytes} (h : t.lowerBound a = some (.exact k)) : k = a := by
  induction t with
  | nil => simp [Rb.lowerBound] at h
  | node c l x v r hh ihl ihr =>
    simp only [Rb.lowerBound] at h
    cases hc : cmpB x a with
    | lt =>
      rw [hc] at h
      cases hr : r.lowerBound a with
      | none => rw [hr] at h; simp at h
      | some b => rw [hr] at h ihr; exact ihr h
    | eq =>
      rw [hc] at h
      simp only [Option.some.injEq, Rb.KeyBound.exact.injEq] at h
      rw [← h]; exact cmpB_eq.1 hc
    | gt => rw [hc] at h; exact ihl h

theorem upperBound_exact {t : Rb V} {a k : Bytes} (h : t.upperBound a = some (.exact k)) : k = a := by
  induction t with
  | nil => simp [Rb.upperBound] at h
  | node c l x v r hh ihl ihr =>
    simp only [Rb.upperBound] at h
    cases hc : cmpB x a with
    | gt =>
      rw [hc] at h
      cases hr : l.upperBound a with
      | none => rw [hr] at h; simp at h
      | some b => rw [hr] at h ihl; exact ihl h
    | eq =>
      rw [hc] at h
      simp only [Option.some.injEq, Rb.KeyBound.exact.injEq] at h
      rw [← h]; exact cmpB_eq.1 hc
    | lt => rw [hc] at h; exact ihr h

theorem inside_bounds {t : Rb V} (hs : t.Sorted) {a b : Bytes} (hab : a ≤ b) :
    (∀ e ∈ t.forEach, (∀ x, t.lowerBound a = some x → x.key < e.1) → (∀ x, t.upperBound b = some x → e.1 < x.key) →
      decide (a ≤ e.1 ∧ e.1 ≤ b) = true) ∧
    (∀ k, t.lowerBound a = some (.exact k) → decide (a ≤ k ∧ k ≤ b) = true) ∧
    (∀ k, t.upperBound b = some (.exact k) → decide (a ≤ k ∧ k ≤ b) = true) := by
  have hl := Rb.lowerBound_spec hs a
  have hu := Rb.upperBound_spec hs b
  refine ⟨?_, ?_, ?_⟩
  · intro e he h1 h2
    rw [decide_eq_true_iff]
    constructor
    · by_contra hn
      rw [not_le] at hn
      cases ho : t.lowerBound a with
      | none => rw [ho] at hl; exact absurd (lt_trans hn (hl e he)) (lt_irrefl _)
      | some x =>
        rw [ho] at hl
        exact absurd (hl.2.2.1 e he (le_of_lt hn)) (not_le.2 (h1 x ho))
    · by_contra hn
      rw [not_le] at hn
      cases ho : t.upperBound b with
      | none => rw [ho] at hu; exact absurd (lt_trans hn (hu e he)) (lt_irrefl _)
      | some x =>
        rw [ho] at hu
        exact absurd (hu.2.2.1 e he (le_of_lt hn)) (not_le.2 (h2 x ho))
  · intro k hk
    have h3 := lowerBound_exact hk
    rw [decide_eq_true_iff, h3]; exact ⟨le_refl _, hab⟩
  · intro k hk
    have h3 := upperBound_exact hk
    rw [decide_eq_true_iff, h3]; exact ⟨hab, le_refl _⟩

/-- **C74**, key ranges: the witness of the keys from `a` to `b` has at most `5` nodes for every stored key in the range,
and besides that at most `16 log2 (n + 1) + 11`, where `n` is the number of keys stored. -/
theorem C74_key_range {ops : List (RbOp V)} {t : Rb V} (h : rbRun ops = some t) {a b : Bytes} (hab : a ≤ b) {w : HashTree}
    (hw : t.keyRange a b = some w) :
    w.nodes ≤ 16 * Nat.log2 (t.forEach.length + 1) + 5 * countKeys (fun k => a ≤ k ∧ k ≤ b) t.forEach + 11 := by
  have hv := Rb.rbRun_valid h
  obtain ⟨h1, h2, h3⟩ := inside_bounds hv.sorted hab
  exact range_bound hv hw (Nat.le_refl 2) (fun e _ => by simp [Rb.witnessTree, HashTree.nodes]) h1 h2 h3

/-- **C74**, value ranges: the same, with as many more nodes for every key in the range as its value has. -/
theorem C74_value_range {ops : List (RbOp V)} {t : Rb V} (h : rbRun ops = some t) {a b : Bytes} (hab : a ≤ b) {w : HashTree}
    (hw : t.valueRange a b = some w) {m : Nat} (hm : ∀ v : V, (asHashTree v).nodes ≤ m) :
    w.nodes ≤ 16 * Nat.log2 (t.forEach.length + 1) + (m + 4) * countKeys (fun k => a ≤ k ∧ k ≤ b) t.forEach + 11 := by
  have hv := Rb.rbRun_valid h
  obtain ⟨h1, h2, h3⟩ := inside_bounds hv.sorted hab
  by_cases hm0 : t = .nil
  · subst hm0
    simp [Rb.valueRange, Rb.rangeWitness, Rb.lowerBound, Rb.upperBound, Rb.fullWitnessTree] at hw
    subst hw
    simp [HashTree.nodes]
  have h0 : 1 ≤ m := by
    cases t with
    | nil => exact absurd rfl hm0
    | node _ _ _ v _ _ => exact Nat.le_trans (nodes_pos _) (hm v)
  exact range_bound hv hw (c := m + 1) (by omega) (fun e _ => by have := hm e.2; simp [Rb.dataTree, HashTree.nodes]; omega) h1 h2 h3

/-- **C74**, prefixes: the same for the keys that begin with a prefix. -/
theorem C74_prefix {ops : List (RbOp V)} {t : Rb V} (h : rbRun ops = some t) {pre : Bytes} {w : HashTree}
    (hw : t.keysWithPrefix pre = some w) :
    w.nodes ≤ 16 * Nat.log2 (t.forEach.length + 1) + 5 * countKeys (fun k => pre <+: k) t.forEach + 11 := by
  have hv := Rb.rbRun_valid h
  have hl := Rb.lowerBound_spec hv.sorted pre
  have hr := Rb.rightPrefixNeighbor_spec (t := t) pre
  have hm := Rb.rightPrefixNeighbor_min hv.sorted pre
  refine range_bound hv hw (Nat.le_refl 2) (fun e _ => by simp [Rb.witnessTree, HashTree.nodes]) ?_ ?_ ?_
  · intro e he h1 h2
    rw [decide_eq_true_iff]
    have g : pre ≤ e.1 := by
      by_contra hn
      rw [not_le] at hn
      cases ho : t.lowerBound pre with
      | none => rw [ho] at hl; exact absurd (lt_trans hn (hl e he)) (lt_irrefl _)
      | some x =>
        rw [ho] at hl
        exact absurd (hl.2.2.1 e he (le_of_lt hn)) (not_le.2 (h1 x ho))
    rcases eq_or_lt_of_le g with g | g
    · rw [← g]
    · cases ho : t.rightPrefixNeighbor pre with
      | none => rw [ho] at hm; exact hm e he g
      | some x => rw [ho] at hm; exact hm e he g (h2 x ho)
  · intro k hk
    rw [decide_eq_true_iff, lowerBound_exact hk]
  · intro k hk
    rw [hk] at hr
    exact absurd hr.2.2.2 (by simp)

end

/-! ### nested trees -/

section
variable {V : Type} [SHA] [AsHashTree V] [LeafValue V]

/-- **C74**, nested trees: after any history, the witness of a path has at most `perLevel k` nodes per label of the path,
where `k` is the number of stored paths, and besides that what is stored below the path: at most `5` nodes for every label
of a stored path behind it. (`L`: any list that mentions all stored paths; `B`: any list that mentions all continuations of
the path that are stored. For a path that is stored, or below which nothing is stored, `B` is `[[]]` and the last summand `0`.) -/
theorem C74_nested {ops : List (NOp V)} {t : NTree V} (h : nRun ops = some t) {p : List Bytes} {w : HashTree}
    (hw : NTree.witness p t = some w) {L B : List (List Bytes)} (hL : ∀ q v, nSpec ops q = some v → q ∈ L)
    (hB : ∀ q v, nSpec ops (p ++ q) = some v → q ∈ B) :
    w.nodes ≤ p.length * perLevel L.length + 1 + 5 * (B.map List.length).sum := by
  obtain ⟨t', h1, h2, h3⟩ := NTree.nRun_ok ops
  rw [h1] at h
  simp only [Option.some.injEq] at h
  subst h
  exact nodes_path h2 (fun q v hq => hL q v (by rw [← h3]; exact hq)) (fun q v hq => hB q v (by rw [← h3]; exact hq)) hw

end

/-! ### the certification tree -/

section
variable [SHA]

omit [SHA] in
theorem certified_of_stored (ops : List CtOp) (m : List Bytes → Option Bytes) (s : List Bytes → Prop)
    (h : ∀ q v, m q = some v → s q ∧ v = []) :
    ∀ q v, (ops.map CtOp.toNOp).foldl NOp.spec m q = some v → (ops.foldl CtOp.spec s) q ∧ v = [] := by
  induction ops generalizing m s with
  | nil => exact h
  | cons o ops ih =>
    simp only [List.map_cons, List.foldl_cons]
    apply ih
    intro q v hq
    cases o with
    | insert e =>
      simp only [CtOp.toNOp, NOp.spec, CtOp.spec] at hq ⊢
      split at hq
      · rename_i he
        simp only [Option.some.injEq] at hq
        exact ⟨.inl he, hq.symm⟩
      · split at hq
        · cases hq
        · exact ⟨.inr (h q v hq).1, (h q v hq).2⟩
    | delete e =>
      simp only [CtOp.toNOp, NOp.spec, CtOp.spec] at hq ⊢
      split at hq
      · cases hq
      · rename_i he
        exact ⟨⟨fun h' => he (h' ▸ List.prefix_rfl), (h q v hq).1⟩, (h q v hq).2⟩
    | clear => simp [CtOp.toNOp, NOp.spec] at hq

theorem stored_certified {ops : List CtOp} {t : CertTree} (h : ctRun ops = some t) {q : List Bytes} {v : Bytes}
    (hq : NTree.get q t.tree = some v) : ctSpec ops q ∧ v = [] := by
  obtain ⟨h1, h2⟩ := ctRun_valid h
  obtain ⟨t', g1, -, g3⟩ := NTree.nRun_ok (ops.map CtOp.toNOp)
  rw [h1] at g1
  simp only [Option.some.injEq] at g1
  rw [g1, g3] at hq
  exact certified_of_stored ops (fun _ => none) (fun _ => False) (by simp) q v hq

/-- **C74**, exact entries: the witness for an exact entry has at most `perLevel k` nodes per label of its tree path,
where `k` is the number of certified entries. (The path of another entry does not continue the path of this one: see C20.) -/
theorem C74_exact {ops : List CtOp} {t : CertTree} (h : ctRun ops = some t) {p : Bytes} {c : HttpCert} {url : Bytes} {w : HashTree}
    (hw : t.witness ⟨.exact p, c⟩ url = some (.ok w)) {L : List (List Bytes)} (hL : ∀ q, ctSpec ops q → q ∈ L)
    (happ : ∀ q, ctSpec ops ((CertEntry.mk (.exact p) c).toTreePath ++ q) → q = []) :
    w.nodes ≤ 2 + (CertEntry.mk (.exact p) c).toTreePath.length * perLevel L.length := by
  simp only [CertTree.witness, Option.bind_eq_bind, Option.bind_eq_some_iff, Option.some.injEq, Except.ok.injEq] at hw
  obtain ⟨w', h1, rfl⟩ := hw
  have := nodes_path (ctRun_valid h).2 (L := L) (B := [[]]) (fun q v hq => hL q (stored_certified h hq).1)
    (fun q v hq => by rw [happ q (stored_certified h hq).1]; simp) h1
  simp only [HashTree.nodes]
  simp at this
  omega

omit [SHA] in
theorem emit_length (q : PathShape) (j n : Nat) : (emit q j n).length = n := by
  induction n with
  | zero => rfl
  | succ n ih => simp [emit, ih]

theorem nodes_fold {t : NTree Bytes} {b : Nat} (ps : List (List Bytes)) (hb : ∀ p ∈ ps, ∀ w, NTree.witness p t = some w → w.nodes ≤ b)
    {w0 w : HashTree} (h : ps.foldlM (fun acc path => do mergeHashTrees acc (← NTree.witness path t)) w0 = some w) :
    w.nodes ≤ w0.nodes + ps.length * b := by
  induction ps generalizing w0 with
  | nil => simp at h; subst h; simp
  | cons p ps ih =>
    simp only [List.foldlM_cons, Option.bind_eq_bind, Option.bind_eq_some_iff] at h
    obtain ⟨w1, ⟨x, hx, hm⟩, h⟩ := h
    have a := ih (fun q hq => hb q (by simp [hq])) h
    have b' := hb p (by simp) x hx
    have c := nodes_merge hm
    rw [List.length_cons, Nat.add_mul, Nat.one_mul]
    omega

/-- **C74**, wildcard entries: when no entry answers the URL more specifically than the wildcard path `p`, the witness
for an entry at `p` has at most `2 n (n · perLevel k + 1) + 1` nodes, where `n` is the number of labels of the URL's tree path
and `k` is the number of certified entries, and besides that at most `5` nodes for every label behind `p` (there are at most
three per entry). -/
theorem C74_wildcard {ops : List CtOp} {t : CertTree} (h : ctRun ops = some t) {p : Bytes} {c : HttpCert} {url : Bytes} {w : HashTree}
    (hw : t.witness ⟨.wildcard p, c⟩ url = some (.ok w)) (hm : Matches (ofPath p) (ofPath url))
    (hstart : (pathSegments url).head? ≠ some (str "http_expr"))
    {L B : List (List Bytes)} (hL : ∀ q, ctSpec ops q → q ∈ L)
    (hexact : ∀ q, ¬ ctSpec ops ((HttpPath.exact url).toTreePath ++ q))
    (hmore : ∀ v, Matches v (ofPath url) → MoreSpecific v (ofPath p) → ∀ q, ¬ ctSpec ops (v.labels ++ [str "<*>"] ++ q))
    (hB : ∀ q, ctSpec ops ((HttpPath.wildcard p).toTreePath ++ q) → q ∈ B) :
    w.nodes ≤ 2 * (HttpPath.exact url).toTreePath.length * ((HttpPath.exact url).toTreePath.length * perLevel L.length + 1) + 1 +
      5 * (B.map List.length).sum := by
  have hv := (ctRun_valid h).2
  have hLt : ∀ q v, NTree.get q t.tree = some v → q ∈ L := fun q v hq => hL q (stored_certified h hq).1
  simp only [CertTree.witness] at hw
  split at hw
  · simp at hw
  rename_i hlen
  simp only [Option.bind_eq_bind, Option.bind_eq_some_iff, Option.some.injEq, Except.ok.injEq] at hw
  obtain ⟨w0, h0, w1, h1, m, hmg, ws, hws, w', hf, rfl⟩ := hw
  have hplain : (ofPath p).PlainStart := by
    intro h'
    apply hstart
    obtain ⟨t, ht⟩ := hm.1
    have e : pathSegments url = (ofPath p).segs ++ t := ht.symm
    rw [e]
    cases hs : (ofPath p).segs with
    | nil => rw [hs] at h'; simp at h'
    | cons a b => rw [hs] at h'; exact h'
  have hq := enum_eq (ofPath_proper url) (ofPath_proper p) (strip_exact (ofPath_proper url) hstart)
    (strip_wild (ofPath_proper p) hplain)
  rw [if_pos hm.1, if_neg (by
    rintro ⟨h1, h2, h3⟩
    have := hm.2 h1 h2
    rw [h3] at this; simp at this)] at hq
  have e1 : (HttpPath.exact url).toTreePath = (ofPath url).exactLabels := rfl
  have e2 : (HttpPath.wildcard p).toTreePath = (ofPath p).wildLabels := rfl
  simp only [e1, e2] at *
  rw [hws] at hq
  simp only [Option.some.injEq] at hq
  have hn : (ofPath url).exactLabels.length = ((ofPath url).ord + 1) / 2 + 1 := by
    unfold exactLabels
    rw [List.length_append, labels_length]; rfl
  have hr : (ofPath p).wildLabels.length = ((ofPath p).ord + 1) / 2 + 1 := by
    unfold wildLabels
    rw [List.length_append, labels_length]; rfl
  have hcount : ws.length + 2 ≤ 2 * (ofPath url).exactLabels.length := by
    rw [hq, emit_length, hn]; omega
  generalize hK : perLevel L.length = K
  have a := nodes_path hv hLt (p := (ofPath url).exactLabels) (B := []) (fun q v hq => absurd (stored_certified h hq).1 (hexact q)) h0
  have b := nodes_path hv hLt (B := B) (fun q v hq => hB q (stored_certified h hq).1) h1
  have cc := nodes_merge hmg
  have d := nodes_fold (b := (ofPath url).exactLabels.length * K + 1) ws (by
    intro r hr w hw
    rw [hq] at hr
    obtain ⟨v, hv1, hv2, rfl⟩ := (mem_enum hm).1 hr
    have := nodes_path hv hLt (p := v.wildLabels) (B := []) (fun q u hq => absurd (stored_certified h hq).1 (hmore v hv1 hv2 q)) hw
    rw [hK] at this
    have hl : v.wildLabels.length ≤ (ofPath url).exactLabels.length := by
      obtain ⟨i, hi, rfl⟩ := matches_iff.1 hv1
      unfold wildLabels
      rw [hn, List.length_append, labels_length, ord_at hi]
      simp; omega
    have := Nat.mul_le_mul_right K hl
    simp at *
    omega) hf
  have hl : (ofPath p).wildLabels.length ≤ (ofPath url).exactLabels.length := by omega
  have hmul := Nat.mul_le_mul_right K hl
  rw [hK] at a b
  generalize hX0 : (ofPath url).exactLabels.length * K + 1 = X at *
  have hX := Nat.mul_le_mul_right X hcount
  rw [Nat.add_mul] at hX
  simp only [HashTree.nodes]
  simp at a
  omega

end

/-! ### bytes -/

section
variable [SHA]

theorem Rb.full_within {V : Type} [AsHashTree V] {m : Nat} {f : Bytes → V → HashTree} {t : Rb V}
    (h : ∀ e ∈ t.forEach, (f e.1 e.2).Within m) : (t.fullWitnessTree f).Within m := by
  induction t with
  | nil => simp [Rb.fullWitnessTree, HashTree.Within]
  | node c l k v r hh ihl ihr =>
    have a := ihl (fun e he => h e (by simp [Rb.forEach, he]))
    have b := ihr (fun e he => h e (by simp [Rb.forEach, he]))
    have k0 := h (k, v) (by simp [Rb.forEach])
    simp only [Rb.fullWitnessTree, Rb.threeWayFork]
    split <;> simp_all [HashTree.Within]

theorem nfull_within {m : Nat} {s : NTree Bytes} (h : NTree.NValid s)
    (hL : ∀ q v, NTree.get q s = some v → v.length ≤ m ∧ ∀ x ∈ q, x.length ≤ m) : (asHashTree s).Within m := by
  induction h with
  | leaf v => rw [NTree.asHashTree_leaf]; exact (hL [] v rfl).1
  | nested t hv h1 h2 ih =>
    rw [NTree.asHashTree_nested]
    refine Rb.full_within ?_
    rintro ⟨k, c⟩ hm
    have g : ∀ q v, NTree.get q c = some v → NTree.get (k :: q) (.nested t) = some v := by
      intro q v hq
      simp only [NTree.get]
      rw [(NTree.get_mem hv).2 hm]
      exact hq
    obtain ⟨q, v, hq⟩ := NTree.exists_leaf (h1 k c hm) (h2 k c hm)
    exact ⟨(hL _ _ (g q v hq)).2 k (by simp), ih k c hm (fun q v hq => ⟨(hL _ _ (g q v hq)).1, fun x hx => (hL _ _ (g q v hq)).2 x (by simp [hx])⟩)⟩

/-- **C74**, bytes: the CBOR of every witness has at most `m + 11` bytes per node, where `m` is the length of the longest
certified label, at least 32. -/
theorem C74_bytes {ops : List CtOp} {t : CertTree} (h : ctRun ops = some t) {e : CertEntry} {url : Bytes} {w : HashTree}
    (hw : t.witness e url = some (.ok w)) {m : Nat} (hm : 32 ≤ m) (hlab : ∀ q, ctSpec ops q → ∀ x ∈ q, x.length ≤ m) :
    (encTree w).length ≤ w.nodes * (m + 11) := by
  have hv := (ctRun_valid h).2
  have hp : Prunes w t.full := by
    obtain ⟨path, c⟩ := e
    cases path with
    | exact p =>
      obtain ⟨w', h1, -, h2, -⟩ := C21_exact_witness h p c url
      rw [h1] at hw
      simp only [Option.some.injEq, Except.ok.injEq] at hw
      exact hw ▸ h2
    | wildcard p =>
      by_cases hlen : (pathParts p).length ≤ (pathParts url).length
      · obtain ⟨w', _, h1, -, h2, -⟩ := C21_wildcard_witness h p c url hlen
        rw [h1] at hw
        simp only [Option.some.injEq, Except.ok.injEq] at hw
        exact hw ▸ h2
      · obtain ⟨err, he⟩ := (C21_wildcard_error h p c url).2 (by omega)
        rw [he] at hw
        simp at hw
  apply encTree_len hm
  apply prunes_within hp
  refine ⟨?_, nfull_within hv ?_⟩
  · show 9 ≤ m
    omega
  · intro q v hq
    obtain ⟨g1, rfl⟩ := stored_certified h hq
    exact ⟨by simp, hlab q g1⟩

omit [SHA] in
theorem b64_ascii : ∀ b : Bytes, ∀ c ∈ b64Encode true b, c.toNat < 128 := by
  intro b c hc
  rcases C35_alphabet true b c hc with h | rfl
  · have : b64Alphabet.all (fun c => c.toNat < 128) = true := by decide
    simpa using List.all_eq_true.1 this c h
  · decide

omit [SHA] in
theorem seven_length (a b c d e f g : List Char) : (a ++ b ++ c ++ d ++ e ++ f ++ g).length =
    a.length + b.length + c.length + d.length + e.length + f.length + g.length := by
  simp only [List.length_append]

omit [SHA] in
theorem text_len' (cert : Bytes) (w : HashTree) (path : List Bytes) : (v2HeaderText cert w path).length =
    13 + (b64Encode true cert).length + 9 + (b64Encode true (selfDescribe ++ encTree w)).length + 14 +
      (b64Encode true (selfDescribe ++ encStrings path)).length + 12 := by
  unfold v2HeaderText
  rw [seven_length]
  rfl

omit [SHA] in
theorem text_len (cert : Bytes) (w : HashTree) (path : List Bytes) : (v2HeaderText cert w path).length =
    48 + 4 * ((cert.length + 2) / 3) + 4 * (((encTree w).length + 5) / 3) + 4 * (((encStrings path).length + 5) / 3) := by
  have l0 : selfDescribe.length = 3 := rfl
  rw [text_len', b64_len, b64_len, b64_len, List.length_append, List.length_append, l0]
  have e1 : 3 + (encTree w).length + 2 = (encTree w).length + 5 := by omega
  have e2 : 3 + (encStrings path).length + 2 = (encStrings path).length + 5 := by omega
  rw [e1, e2]
  omega

omit [SHA] in
theorem seven_ascii {a b c d e f g : List Char} (h : ∀ s ∈ [a, b, c, d, e, f, g], ∀ x ∈ s, x.toNat < 128) :
    ∀ x ∈ a ++ b ++ c ++ d ++ e ++ f ++ g, x.toNat < 128 := by
  intro x hx
  simp only [List.mem_append] at hx
  rcases hx with (((((hx | hx) | hx) | hx) | hx) | hx) | hx
  · exact h a (by simp) x hx
  · exact h b (by simp) x hx
  · exact h c (by simp) x hx
  · exact h d (by simp) x hx
  · exact h e (by simp) x hx
  · exact h f (by simp) x hx
  · exact h g (by simp) x hx

omit [SHA] in
theorem lit_ascii {s : List Char} (hs : s.all (fun c => c.toNat < 128) = true) : ∀ x ∈ s, x.toNat < 128 := by
  intro x hx
  simpa using List.all_eq_true.1 hs x hx

omit [SHA] in
theorem text_ascii (cert : Bytes) (w : HashTree) (path : List Bytes) : ∀ x ∈ v2HeaderText cert w path, x.toNat < 128 := by
  unfold v2HeaderText
  apply seven_ascii
  intro s hs
  rcases List.mem_cons.1 hs with rfl | hs
  · exact lit_ascii (by decide)
  rcases List.mem_cons.1 hs with rfl | hs
  · exact b64_ascii _
  rcases List.mem_cons.1 hs with rfl | hs
  · exact lit_ascii (by decide)
  rcases List.mem_cons.1 hs with rfl | hs
  · exact b64_ascii _
  rcases List.mem_cons.1 hs with rfl | hs
  · exact lit_ascii (by decide)
  rcases List.mem_cons.1 hs with rfl | hs
  · exact b64_ascii _
  rcases List.mem_cons.1 hs with rfl | hs
  · exact lit_ascii (by decide)
  simp at hs

omit [SHA] in
/-- **C74**, the header: the value of the certificate header has four characters for every three bytes of the certificate,
of the CBOR of the witness and of the CBOR of the expression path, and 48 besides. -/
theorem C74_header (cert : Bytes) (r : HttpResponse) (w : HashTree) (path : List Bytes) :
    ∃ v, (addV2CertificateHeader cert r w path).headers = r.headers ++ [(str "IC-Certificate", v)] ∧
      v.length = 48 + 4 * ((cert.length + 2) / 3) + 4 * (((encTree w).length + 5) / 3) + 4 * (((encStrings path).length + 5) / 3) := by
  refine ⟨utf8 (v2HeaderText cert w path), ?_, ?_⟩
  · unfold addV2CertificateHeader certHeaderName; with_reducible rfl
  · rw [utf8_ascii (text_ascii cert w path), List.length_map, text_len]

end


/-! ### the hypotheses are met -/

section
attribute [local instance] toySHA

example : (rbRun exOps).bind (fun t => (t.keyRange (str "b") (str "c")).map (fun w =>
      (w.nodes, 16 * Nat.log2 (t.forEach.length + 1) + 5 * countKeys (fun k => str "b" ≤ k ∧ k ≤ str "c") t.forEach + 11))) =
    some (7, 48) := by decide +kernel

example : (rbRun exOps).bind (fun t => (t.valueRange (str "a") (str "c")).map (fun w =>
      (w.nodes, countKeys (fun k => str "a" ≤ k ∧ k ≤ str "c") t.forEach))) = some (7, 2) := by decide +kernel

example : ∀ v : Bytes, (asHashTree v).nodes ≤ 1 := fun _ => le_refl _

example : (rbRun exOps).bind (fun t => (t.keysWithPrefix (str "c")).map (fun w =>
      (w.nodes, countKeys (fun k => str "c" <+: k) t.forEach))) = some (7, 1) := by decide +kernel

/-- the certified paths of the example -/
def exCtPaths : List (List Bytes) :=
  [[str "a", str "<*>", h1.1, [], h0.1], [str "a", str "b", str "<$>", h1.1, h0.1, h1.1]]

theorem exCtPaths_all {q : List Bytes} (h : ctSpec exCtOps q) : q ∈ exCtPaths := by
  have e1 : (CertEntry.mk (.wildcard (str "/a")) (.responseOnly h1 h0)).toTreePath = [str "a", str "<*>", h1.1, [], h0.1] := by decide
  have e2 : (CertEntry.mk (.exact (str "/a/b")) (.full h1 h0 h1)).toTreePath = [str "a", str "b", str "<$>", h1.1, h0.1, h1.1] := by decide
  simp only [ctSpec, exCtOps, List.foldl_cons, List.foldl_nil, CtOp.spec, e1, e2] at h
  obtain ⟨h1, h2⟩ := h
  simp only [exCtPaths, List.mem_cons, List.not_mem_nil, or_false]
  rcases h2 with h2 | h2 | h2 | h2
  · exact absurd h2 h1
  · exact .inr h2
  · exact .inl h2
  · exact h2.elim

theorem exCt_runs : ∃ t, ctRun exCtOps = some t := by
  rw [ctRun_eq]
  obtain ⟨t, h, -⟩ := NTree.nRun_ok (exCtOps.map CtOp.toNOp)
  exact ⟨⟨t⟩, by rw [h]; rfl⟩

/-- an exact entry: two certified paths, six labels -/
example : ∃ t w, ctRun exCtOps = some t ∧ t.witness ⟨.exact (str "/a/b"), .full h1 h0 h1⟩ (str "/a/b") = some (.ok w) ∧
    w.nodes ≤ 2 + 6 * perLevel 2 ∧ (encTree w).length ≤ w.nodes * 43 := by
  obtain ⟨t, ht⟩ := exCt_runs
  obtain ⟨w, hw, -⟩ := C21_exact_witness ht (str "/a/b") (.full h1 h0 h1) (str "/a/b")
  refine ⟨t, w, ht, hw, C74_exact ht hw (L := exCtPaths) (fun _ => exCtPaths_all) ?_, C74_bytes ht hw (m := 32) (by decide) ?_⟩
  · have e2 : (CertEntry.mk (.exact (str "/a/b")) (.full h1 h0 h1)).toTreePath = [str "a", str "b", str "<$>", h1.1, h0.1, h1.1] := by decide
    intro q hq
    have := exCtPaths_all hq
    rw [e2] at this
    simp only [exCtPaths, List.mem_cons, List.not_mem_nil, or_false, List.cons_append, List.nil_append] at this
    rcases this with h | h
    · exact absurd (List.cons.inj (List.cons.inj h).2).1 (by decide)
    · simpa using h
  · intro q hq x hx
    have := exCtPaths_all hq
    have all : exCtPaths.all (fun q => q.all (fun x => x.length ≤ 32)) = true := by decide
    have := List.all_eq_true.1 all q this
    simpa using List.all_eq_true.1 this x hx

/-- a wildcard entry, for a URL that has no exact entry -/
example : ∃ t w, ctRun exCtOps = some t ∧ t.witness ⟨.wildcard (str "/a"), .responseOnly h1 h0⟩ (str "/a/x") = some (.ok w) ∧
    w.nodes ≤ 2 * 3 * (3 * perLevel 2 + 1) + 1 + 5 * 3 := by
  obtain ⟨t, ht⟩ := exCt_runs
  have hm : Matches (ofPath (str "/a")) (ofPath (str "/a/x")) := ⟨by decide, by decide⟩
  obtain ⟨w, _, hw, -⟩ := C21_wildcard_witness ht (str "/a") (.responseOnly h1 h0) (str "/a/x") (by decide)
  refine ⟨t, w, ht, hw, C74_wildcard ht hw hm (by decide) (L := exCtPaths) (B := [[h1.1, [], h0.1]]) (fun _ => exCtPaths_all) ?_ ?_ ?_⟩
  · have e : (HttpPath.exact (str "/a/x")).toTreePath = [str "a", str "x", str "<$>"] := by decide
    intro q hq
    have := exCtPaths_all hq
    rw [e] at this
    simp only [exCtPaths, List.mem_cons, List.not_mem_nil, or_false, List.cons_append, List.nil_append] at this
    rcases this with h | h
    · exact absurd (List.cons.inj (List.cons.inj h).2).1 (by decide)
    · exact absurd (List.cons.inj (List.cons.inj h).2).1 (by decide)
  · intro v hv1 hv2 q hq
    obtain ⟨i, hi, rfl⟩ := matches_iff.1 hv1
    have ho := moreSpecific_iff.1 hv2
    rw [ord_at hi] at ho
    have e1 : (ofPath (str "/a")).ord = 2 := by decide
    have e2 : (ofPath (str "/a/x")).ord = 4 := by decide
    rw [e1] at ho
    rw [e2] at hi
    have := exCtPaths_all hq
    have hcase : i = 3 ∨ i = 4 := by omega
    have e3 : ((ofPath (str "/a/x")).at_ 3).labels = [str "a", []] := by decide
    have e4 : ((ofPath (str "/a/x")).at_ 4).labels = [str "a", str "x"] := by decide
    rcases hcase with rfl | rfl
    · rw [e3] at this
      simp only [exCtPaths, List.mem_cons, List.not_mem_nil, or_false, List.cons_append, List.nil_append] at this
      rcases this with h | h
      · exact absurd (List.cons.inj (List.cons.inj h).2).1 (by decide)
      · exact absurd (List.cons.inj (List.cons.inj h).2).1 (by decide)
    · rw [e4] at this
      simp only [exCtPaths, List.mem_cons, List.not_mem_nil, or_false, List.cons_append, List.nil_append] at this
      rcases this with h | h
      · exact absurd (List.cons.inj (List.cons.inj h).2).1 (by decide)
      · exact absurd (List.cons.inj (List.cons.inj h).2).1 (by decide)
  · have e : (HttpPath.wildcard (str "/a")).toTreePath = [str "a", str "<*>"] := by decide
    intro q hq
    have := exCtPaths_all hq
    rw [e] at this
    simp only [exCtPaths, List.mem_cons, List.not_mem_nil, or_false, List.cons_append, List.nil_append] at this
    rcases this with h | h
    · simp only [List.mem_singleton]
      exact (List.cons.inj (List.cons.inj h).2).2
    · exact absurd (List.cons.inj (List.cons.inj h).2).1 (by decide)

end
end Verif.Props
