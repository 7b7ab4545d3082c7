import Verif.Lemmas.AssetState
import Verif.Lemmas.Header
import Verif.Props.CertTree

set_option linter.unusedSimpArgs false
set_option linter.unusedSectionVars false

/-!
# Lemmas about the asset router: serving
-/

namespace Verif
open HashTree Verif.Props

/-! ## Headers and accepted encodings -/

theorem firstHeader_iff {hs : List Header} {name v : Bytes} (hn : lower name = name) :
    firstHeader hs name = some v ↔ FirstHeader hs name v := by
  unfold firstHeader FirstHeader SameName
  rw [Option.map_eq_some_iff]
  constructor
  · rintro ⟨⟨n, v'⟩, h1, rfl⟩
    rw [List.find?_eq_some_iff_append] at h1
    obtain ⟨h1, as, bs, h2, h3⟩ := h1
    refine ⟨as, n, bs, h2, by rw [hn]; simpa using h1, ?_⟩
    intro h hh
    have := h3 h hh
    rw [hn]; simpa using this
  · rintro ⟨pre, n, post, h1, h2, h3⟩
    refine ⟨(n, v), ?_, rfl⟩
    rw [List.find?_eq_some_iff_append]
    refine ⟨by rw [hn] at h2; simpa using h2, pre, post, h1, ?_⟩
    intro h hh
    have := h3 h hh
    rw [hn] at this; simpa using this

theorem firstHeader_none {hs : List Header} {name : Bytes} (hn : lower name = name) :
    firstHeader hs name = none ↔ ∀ h ∈ hs, ¬ SameName h.1 name := by
  unfold firstHeader SameName
  rw [Option.map_eq_none_iff, List.find?_eq_none, hn]
  simp

theorem splitOn_head_char (a : Char) (s : List Char) : (s.splitOn a).headD [] = s.takeWhile (· ≠ a) := by
  induction s with
  | nil => simp
  | cons x xs ih =>
    rw [List.splitOn_cons_eq_if_modifyHead]
    by_cases h : x = a
    · simp [h]
    · have hb : (x == a) = false := by simp [h]
      rw [hb]
      cases hs : xs.splitOn a with
      | nil => exact absurd hs (splitOn_ne_nil a xs)
      | cons y ys =>
        rw [hs] at ih
        simp at ih
        simp [h, ih]

theorem name_chars (e : AssetEncoding) : ∃ cs : List Char, utf8 cs = e.token ∧
    (∀ c, cs.head? = some c → ¬ isWs c) ∧ (∀ c, cs.getLast? = some c → ¬ isWs c) ∧ ';' ∉ cs := by
  cases e
  · exact ⟨"identity".toList, by decide, by decide, by decide, by decide⟩
  · exact ⟨"br".toList, by decide, by decide, by decide, by decide⟩
  · exact ⟨"zstd".toList, by decide, by decide, by decide, by decide⟩
  · exact ⟨"gzip".toList, by decide, by decide, by decide, by decide⟩
  · exact ⟨"deflate".toList, by decide, by decide, by decide, by decide⟩

theorem ws_not_semicolon {w : List Char} (h : ∀ c ∈ w, isWs c) : ';' ∉ w := by
  intro hc
  have := h _ hc
  exact absurd this (by decide)

theorem item_name (item : List Char) (e : AssetEncoding) :
    utf8 (trim ((item.splitOn ';').headD [])) = e.token ↔
    ∃ w w' name rest, item = w ++ name ++ w' ++ rest ∧ w.all isWs ∧ w'.all isWs ∧ utf8 name = e.token ∧
      (rest = [] ∨ rest.head? = some ';') := by
  rw [splitOn_head_char]
  constructor
  · intro h
    obtain ⟨a, b, h1, h2, h3, -, -⟩ := trim_spec (item.takeWhile (· ≠ ';'))
    refine ⟨a, b, trim (item.takeWhile (· ≠ ';')), item.dropWhile (· ≠ ';'), ?_, by simpa using h2, by simpa using h3, h, ?_⟩
    · rw [← h1, List.takeWhile_append_dropWhile]
    · cases hd : item.dropWhile (· ≠ ';') with
      | nil => exact .inl rfl
      | cons x xs =>
        right
        have := List.head?_dropWhile_not (fun c : Char => decide (c ≠ ';')) item
        rw [hd] at this
        simp at this
        simp [this]
  · rintro ⟨w, w', name, rest, rfl, h1, h2, h3, h4⟩
    obtain ⟨cs, c1, c2, c3, c4⟩ := name_chars e
    have hn : name = cs := utf8_inj (h3.trans c1.symm)
    subst hn
    have hw : ∀ c ∈ w, isWs c := by simpa using h1
    have hw' : ∀ c ∈ w', isWs c := by simpa using h2
    have hall : ∀ c ∈ w ++ name ++ w', decide (c ≠ ';') = true := by
      intro c hc
      simp only [List.mem_append] at hc
      simp only [ne_eq, decide_not, Bool.not_eq_true', decide_eq_false_iff_not]
      rintro rfl
      rcases hc with (hc | hc) | hc
      · exact ws_not_semicolon hw hc
      · exact c4 hc
      · exact ws_not_semicolon hw' hc
    have : (w ++ name ++ w' ++ rest).takeWhile (· ≠ ';') = w ++ name ++ w' := by
      rcases h4 with rfl | h4
      · rw [List.append_nil]
        exact List.takeWhile_eq_self_iff.2 hall
      · cases rest with
        | nil => simp at h4
        | cons x xs =>
          simp at h4
          subst h4
          exact (takeWhile_append_stop hall (by simp)).1
    rw [this, trim_unique hw hw' c2 c3, h3]

section
variable [UnstableSort]

theorem mem_prioritized (v : List Char) (n : Bytes) :
    n ∈ (prioritizedEncodings v).map Prod.fst ↔ n ∈ encodingNames v := by
  unfold prioritizedEncodings
  rw [((UnstableSort.perm _).map Prod.fst).mem_iff, List.map_map]
  simp [Function.comp_def]

theorem accepts_iff (req : HttpRequest) (e : AssetEncoding) : Accepts req e ↔ e.token ∈ preferredEncodings req := by
  unfold Accepts preferredEncodings
  have hl : lower (str "accept-encoding") = str "accept-encoding" := by decide
  cases hf : firstHeader req.headers (str "accept-encoding") with
  | none =>
    simp only [List.not_mem_nil, iff_false, not_exists]
    rintro text item ⟨h, _⟩
    rw [← firstHeader_iff hl, hf] at h
    cases h
  | some v =>
    simp only
    rw [mem_prioritized]
    unfold encodingNames
    rw [List.mem_map]
    constructor
    · rintro ⟨text, item, h1, h2, h3⟩
      rw [← firstHeader_iff hl, hf] at h1
      simp only [Option.some.injEq] at h1
      subst h1
      rw [chars_utf8]
      exact ⟨item, h2, (item_name item e).2 h3⟩
    · rintro ⟨item, h1, h2⟩
      cases hc : chars v with
      | none =>
        rw [hc] at h1
        simp at h1
        subst h1
        cases e <;> exact absurd h2 (by decide)
      | some text =>
        rw [hc] at h1
        refine ⟨text, item, ?_, h1, (item_name item e).1 h2⟩
        rw [utf8_chars hc, ← firstHeader_iff hl, hf]

theorem preferred_sorted (req : HttpRequest) :
    (preferredEncodings req).Pairwise (fun a b => encodingQuality b ≤ encodingQuality a) := by
  unfold preferredEncodings
  split
  · exact .nil
  · rename_i v _
    rw [List.pairwise_map]
    unfold prioritizedEncodings
    refine (UnstableSort.sorted _).imp_of_mem ?_
    intro a b ha hb h
    have key : ∀ x ∈ UnstableSort.sort ((encodingNames ((chars v).getD [])).map (fun n => (n, encodingQuality n))),
        x.2 = encodingQuality x.1 := by
      intro x hx
      rw [(UnstableSort.perm _).mem_iff, List.mem_map] at hx
      obtain ⟨n, _, rfl⟩ := hx
      rfl
    rw [← key a ha, ← key b hb]
    exact h

end

theorem quality_rank (a b : AssetEncoding) : encodingQuality a.token ≤ encodingQuality b.token → a.rank ≤ b.rank := by
  cases a <;> cases b <;> decide

theorem rank_inj {a b : AssetEncoding} (h : a.rank = b.rank) : a = b := by
  cases a <;> cases b <;> first | rfl | simp [AssetEncoding.rank] at h

theorem name_inj {a b : AssetEncoding} (h : a.token = b.token) : a = b := by
  cases a <;> cases b <;> first | rfl | exact absurd h (by decide)

/-- There is at most one choice. -/
theorem chooses_unique {accepts : AssetEncoding → Prop} {av : Option AssetEncoding → Option CertifiedResponse}
    {x y : CertifiedResponse} (hx : Chooses accepts av x) (hy : Chooses accepts av y) : x = y := by
  cases hx with
  | @encoded e _ h1 h2 h3 =>
    cases hy with
    | @encoded e' _ g1 g2 g3 =>
      have a := h3 e' g1 (by rw [g2]; simp)
      have b := g3 e h1 (by rw [h2]; simp)
      have : e = e' := rank_inj (by omega)
      subst this
      rw [h2] at g2; simpa using g2
    | plain g1 g2 => rw [g1 e h1] at h2; cases h2
  | plain h1 h2 =>
    cases hy with
    | encoded g1 g2 g3 => rw [h1 _ g1] at g2; cases g2
    | plain g1 g2 => rw [h2] at g2; simpa using g2

/-! ## One URL -/

/-- The first response in a list of names, if any. -/
theorem first_choice {av : Option AssetEncoding → Option CertifiedResponse} {g : Bytes → Option CertifiedResponse}
    (hg : ∀ n x, g n = some x → ∃ e : AssetEncoding, n = e.token) (hav : ∀ e : AssetEncoding, g e.token = av (some e))
    (prefs : List Bytes) (hs : prefs.Pairwise (fun a b => encodingQuality b ≤ encodingQuality a)) :
    (∃ x e, prefs.findSome? g = some x ∧ e.token ∈ prefs ∧ av (some e) = some x ∧
      ∀ e' : AssetEncoding, e'.token ∈ prefs → av (some e') ≠ none → e'.rank ≤ e.rank) ∨
    (prefs.findSome? g = none ∧ ∀ e : AssetEncoding, e.token ∈ prefs → av (some e) = none) := by
  induction prefs with
  | nil => right; simp
  | cons n prefs ih =>
    obtain ⟨hn, hs'⟩ := List.pairwise_cons.1 hs
    rw [List.findSome?_cons]
    cases hgn : g n with
    | some x =>
      left
      obtain ⟨e, rfl⟩ := hg n x hgn
      refine ⟨x, e, rfl, by simp, by rw [← hav]; exact hgn, ?_⟩
      intro e' he' _
      rcases List.mem_cons.1 he' with he' | he'
      · rw [name_inj he']
      · exact quality_rank _ _ (hn _ he')
    | none =>
      rcases ih hs' with ⟨x, e, h1, h2, h3, h4⟩ | ⟨h1, h2⟩
      · left
        refine ⟨x, e, h1, by simp [h2], h3, ?_⟩
        intro e' he' hne
        rcases List.mem_cons.1 he' with he' | he'
        · rw [← hav, he', hgn] at hne
          exact absurd rfl hne
        · exact h4 e' he' hne
      · right
        refine ⟨h1, ?_⟩
        intro e he
        rcases List.mem_cons.1 he with he | he
        · rw [← hav, he, hgn]
        · exact h2 e he

theorem choice_iff {av : Option AssetEncoding → Option CertifiedResponse} {g : Bytes → Option CertifiedResponse}
    (hg : ∀ n x, g n = some x → ∃ e : AssetEncoding, n = e.token) (hav : ∀ e : AssetEncoding, g e.token = av (some e))
    {prefs : List Bytes} (hs : prefs.Pairwise (fun a b => encodingQuality b ≤ encodingQuality a))
    {accepts : AssetEncoding → Prop} (ha : ∀ e, accepts e ↔ e.token ∈ prefs) (x : CertifiedResponse) :
    (prefs.findSome? g).or (av none) = some x ↔ Chooses accepts av x := by
  have fwd : ∀ x, (prefs.findSome? g).or (av none) = some x → Chooses accepts av x := by
    intro x h
    rcases first_choice hg hav prefs hs with ⟨y, e, h1, h2, h3, h4⟩ | ⟨h1, h2⟩
    · rw [h1] at h
      simp at h
      subst h
      exact .encoded ((ha e).2 h2) h3 (fun e' he' => h4 e' ((ha e').1 he'))
    · rw [h1] at h
      simp at h
      exact .plain (fun e he => h2 e ((ha e).1 he)) h
  refine ⟨fwd x, fun h => ?_⟩
  cases hr : (prefs.findSome? g).or (av none) with
  | some y => rw [chooses_unique h (fwd y hr)]
  | none =>
    exfalso
    rw [Option.or_eq_none_iff] at hr
    cases h with
    | @encoded e _ h1 h2 h3 =>
      have := List.findSome?_eq_none_iff.1 hr.1 _ ((ha e).1 h1)
      rw [hav, h2] at this; cases this
    | plain h1 h2 => rw [hr.2] at h2; cases h2

section
variable [SHA] [UriLib]

theorem item_encoding {i : Item} {x : CertifiedResponse} (_h : i.Answer x) : ∀ n, i.key.encoding = some n →
    ∃ e : AssetEncoding, n = e.token := by
  intro n hn
  cases i with
  | whole u p => cases he : p.encoding <;> simp [Item.key, he] at hn; exact ⟨_, hn.symm⟩
  | chunk u p j => cases he : p.encoding <;> simp [Item.key, he] at hn; exact ⟨_, hn.symm⟩
  | fallback s st u p => cases he : p.encoding <;> simp [Item.key, he] at hn; exact ⟨_, hn.symm⟩
  | redirect s d k => simp [Item.key] at hn

/-- Large responses are whole pages, whose first chunk is held too. -/
theorem large_held {m : RespMap} (hm : RespInv m) {k : RequestKey} {x : CertifiedResponse} (h : m k = some x)
    (hl : 2000000 < x.response.body.length) : ∃ u p y, Item.Answer (.whole u p) x ∧ (Item.whole u p).key = k ∧
      2000000 < p.content.length ∧ m ⟨u, p.encoding.map AssetEncoding.token, some 0⟩ = some y ∧
      Item.Answer (.chunk u p 0) y := by
  obtain ⟨i, i1, i2, i3, i4⟩ := hm k x h
  have hb : x.response.body = i.body := by rw [i3.response]; rfl
  rw [hb] at hl
  cases i with
  | whole u p =>
    obtain ⟨y, y1, y2⟩ := i4 u p rfl hl
    refine ⟨u, p, y, i3, i2, hl, ?_, y2⟩
    simpa [Item.key] using y1
  | chunk u p j =>
    simp only [Item.body, slice_length] at hl
    omega
  | fallback s st u p => simp [Item.isFallback] at i1
  | redirect s d k => simp [Item.body] at hl

theorem held_ne_none {r : Router} (hm : RespInv r.responses) {path : Bytes} {range : Option Nat} {e : Option AssetEncoding} :
    r.held path range e = none ↔ r.responses ⟨path, e.map AssetEncoding.token, range⟩ = none := by
  unfold Router.held
  cases h : r.responses ⟨path, e.map AssetEncoding.token, range⟩ with
  | none => simp
  | some x =>
    simp only [reduceCtorEq, iff_false]
    split
    · rename_i hl
      obtain ⟨u, p, y, -, h2, -, h3, -⟩ := large_held hm h hl
      simp only [Item.key, RequestKey.mk.injEq] at h2
      rw [← h2.1, ← h2.2.1, h3]; simp
    · simp

theorem encodedAsset_eq {r : Router} (hm : RespInv r.responses) (path : Bytes) (range : Option Nat) (prefs : List Bytes) :
    r.encodedAsset path range prefs = prefs.findSome? (fun n =>
      match r.responses ⟨path, some n, range⟩ with
      | some x => if x.response.body.length > 2000000 then r.responses ⟨path, some n, some 0⟩ else some x
      | none => none) := by
  induction prefs with
  | nil => rfl
  | cons n prefs ih =>
    rw [Router.encodedAsset, List.findSome?_cons]
    cases h : r.responses ⟨path, some n, range⟩ with
    | none => exact ih
    | some x =>
      simp only [chunkSize]
      by_cases hl : x.response.body.length > 2000000
      · obtain ⟨u, p, y, -, h2, -, h3, -⟩ := large_held hm h hl
        simp only [Item.key, RequestKey.mk.injEq] at h2
        rw [h2.1, h2.2.1] at h3
        simp only [hl, if_true, h3]
      · simp only [hl, if_false]

theorem exactAsset_iff {r : Router} (hm : RespInv r.responses) {path : Bytes} {range : Option Nat} {prefs : List Bytes}
    (hs : prefs.Pairwise (fun a b => encodingQuality b ≤ encodingQuality a)) {accepts : AssetEncoding → Prop}
    (ha : ∀ e, accepts e ↔ e.token ∈ prefs) (x : CertifiedResponse) :
    r.exactAsset path prefs range = some x ↔ Chooses accepts (r.held path range) x := by
  rw [← choice_iff (g := fun n => match r.responses ⟨path, some n, range⟩ with
      | some x => if x.response.body.length > 2000000 then r.responses ⟨path, some n, some 0⟩ else some x
      | none => none) ?_ ?_ hs ha x]
  · unfold Router.exactAsset
    rw [encodedAsset_eq hm]
    cases List.findSome? _ prefs with
    | some y => simp
    | none =>
      simp only [Option.none_or]
      unfold Router.held
      simp only [chunkSize, Option.map_none]
      cases r.responses ⟨path, none, range⟩ <;> rfl
  · intro n y h
    cases h' : r.responses ⟨path, some n, range⟩ with
    | none => rw [h'] at h; cases h
    | some z =>
      obtain ⟨i, i1, i2, i3, i4⟩ := hm _ _ h'
      exact item_encoding i3 n (by rw [i2])
  · intro e; rfl

theorem encodedFallback_eq (r : Router) (scope : Bytes) (prefs : List Bytes) :
    r.encodedFallback scope prefs = prefs.findSome? (fun n => r.fallbacks ⟨scope, some n, none⟩) := by
  induction prefs with
  | nil => rfl
  | cons n prefs ih =>
    rw [Router.encodedFallback, List.findSome?_cons]
    cases h : r.fallbacks ⟨scope, some n, none⟩ with
    | none => exact ih
    | some x => rfl

theorem scopeFallback_iff {r : Router} (hm : FallbackInv r.fallbacks) {scope : Bytes} {prefs : List Bytes}
    (hs : prefs.Pairwise (fun a b => encodingQuality b ≤ encodingQuality a)) {accepts : AssetEncoding → Prop}
    (ha : ∀ e, accepts e ↔ e.token ∈ prefs) (x : CertifiedResponse) :
    r.scopeFallback prefs scope = some x ↔ Chooses accepts (r.heldFallback scope) x := by
  rw [← choice_iff (g := fun n => r.fallbacks ⟨scope, some n, none⟩) ?_ ?_ hs ha x]
  · unfold Router.scopeFallback
    rw [encodedFallback_eq]
    cases List.findSome? _ prefs with
    | some y => simp
    | none => simp [Router.heldFallback]
  · intro n y h
    obtain ⟨i, i1, i2, i3⟩ := hm _ _ h
    exact item_encoding i3 n (by rw [i2])
  · intro e; rfl

end

/-! ## The scopes of a path -/

/-- The scopes tried, in order, for the reversed list of segments. -/
def scopeCandidates : List Bytes → List Bytes
  | [] => []
  | s :: rest =>
    let scope := [slashByte].intercalate (s :: rest).reverse
    (scope ++ [slashByte]) :: scope :: scopeCandidates rest

theorem fallbackLoop_eq (r : Router) (prefs : List Bytes) (L : List Bytes) :
    r.fallbackLoop prefs L = (scopeCandidates L).findSome? (r.scopeFallback prefs) := by
  induction L with
  | nil => rfl
  | cons s rest ih =>
    rw [Router.fallbackLoop, scopeCandidates]
    simp only [List.findSome?_cons, ih]
    cases r.scopeFallback prefs ([slashByte].intercalate (s :: rest).reverse ++ [slashByte]) with
    | some x => rfl
    | none => cases r.scopeFallback prefs ([slashByte].intercalate (s :: rest).reverse) <;> rfl

theorem mem_scopeCandidates {L : List Bytes} {s : Bytes} :
    s ∈ scopeCandidates L ↔ ∃ l1 l2, L = l1 ++ l2 ∧ l2 ≠ [] ∧
      (s = [slashByte].intercalate l2.reverse ++ [slashByte] ∨ s = [slashByte].intercalate l2.reverse) := by
  induction L with
  | nil =>
    simp only [scopeCandidates, List.not_mem_nil, false_iff, not_exists, not_and]
    intro l1 l2 h hne
    simp at h
    exact absurd h.2 hne
  | cons x rest ih =>
    simp only [scopeCandidates, List.mem_cons, ih]
    constructor
    · rintro (rfl | rfl | ⟨l1, l2, rfl, h2, h3⟩)
      · exact ⟨[], _, rfl, by simp, .inl rfl⟩
      · exact ⟨[], _, rfl, by simp, .inr rfl⟩
      · exact ⟨x :: l1, l2, rfl, h2, h3⟩
    · rintro ⟨l1, l2, h1, h2, h3⟩
      cases l1 with
      | nil =>
        simp at h1
        subst h1
        rcases h3 with h3 | h3
        · exact .inl h3
        · exact .inr (.inl h3)
      | cons y l1 =>
        simp at h1
        exact .inr (.inr ⟨l1, l2, h1.2, h2, h3⟩)

theorem splitOn_append {α : Type} [DecidableEq α] (a : α) (s t : List α) :
    (s ++ a :: t).splitOn a = s.splitOn a ++ t.splitOn a := by
  induction s with
  | nil => simp [List.splitOn_cons_eq_if_modifyHead]
  | cons x xs ih =>
    rw [List.cons_append, List.splitOn_cons_eq_if_modifyHead, List.splitOn_cons_eq_if_modifyHead, ih]
    split
    · rfl
    · cases hs : xs.splitOn a with
      | nil => exact absurd hs (splitOn_ne_nil a xs)
      | cons y ys => simp

theorem intercalate_append {α : Type} [DecidableEq α] (a : α) (P Q : List (List α)) (hP : P ≠ []) (hQ : Q ≠ []) :
    [a].intercalate (P ++ Q) = [a].intercalate P ++ a :: [a].intercalate Q := by
  induction P with
  | nil => exact absurd rfl hP
  | cons p P ih =>
    cases P with
    | nil =>
      cases Q with
      | nil => exact absurd rfl hQ
      | cons q Q =>
        rw [List.singleton_append, intercalate_cons_cons]
        simp [List.intercalate]
    | cons p' P =>
      rw [List.cons_append, List.cons_append, intercalate_cons_cons, intercalate_cons_cons]
      rw [← List.cons_append, ih (by simp)]
      simp

/-- The scopes tried are the enclosing ones. -/
theorem mem_scopes {path s : Bytes} :
    s ∈ scopeCandidates ((path.splitOn slashByte).dropLast.reverse) ↔ Encloses s path := by
  rw [mem_scopeCandidates]
  unfold Encloses
  constructor
  · rintro ⟨l1, l2, h1, h2, h3⟩
    have hd : (path.splitOn slashByte).dropLast = l2.reverse ++ l1.reverse := by
      have := congrArg List.reverse h1
      simpa using this
    have hne := splitOn_ne_nil slashByte path
    have hsp : path.splitOn slashByte = l2.reverse ++ (l1.reverse ++ [(path.splitOn slashByte).getLast hne]) := by
      rw [← List.append_assoc, ← hd, List.dropLast_append_getLast hne]
    have hp : path = [slashByte].intercalate l2.reverse ++
        slashByte :: [slashByte].intercalate (l1.reverse ++ [(path.splitOn slashByte).getLast hne]) := by
      rw [← intercalate_append _ _ _ (by simpa using h2) (by simp), ← hsp, intercalate_splitOn]
    rcases h3 with h3 | h3
    · refine ⟨[slashByte].intercalate (l1.reverse ++ [(path.splitOn slashByte).getLast hne]), ?_, .inl ?_⟩
      · rw [h3, List.append_assoc]; exact hp
      · rw [h3]; simp
    · refine ⟨slashByte :: [slashByte].intercalate (l1.reverse ++ [(path.splitOn slashByte).getLast hne]), ?_, .inr rfl⟩
      rw [h3]; exact hp
  · rintro ⟨rest, rfl, h⟩
    have key : ∀ s' rest' : Bytes, s ++ rest = s' ++ slashByte :: rest' →
        (s = s' ++ [slashByte] ∨ s = s') →
        ∃ l1 l2, ((s ++ rest).splitOn slashByte).dropLast.reverse = l1 ++ l2 ∧ l2 ≠ [] ∧
          (s = [slashByte].intercalate l2.reverse ++ [slashByte] ∨ s = [slashByte].intercalate l2.reverse) := by
      intro s' rest' he hs
      refine ⟨(rest'.splitOn slashByte).dropLast.reverse, (s'.splitOn slashByte).reverse, ?_, ?_, ?_⟩
      · rw [he, splitOn_append, List.dropLast_append_of_ne_nil (splitOn_ne_nil _ _), List.reverse_append]
      · simpa using splitOn_ne_nil slashByte s'
      · rw [List.reverse_reverse, intercalate_splitOn]; exact hs
    rcases h with h | h
    · have hs : s = s.dropLast ++ [slashByte] := (List.dropLast_append_getLast? _ h).symm
      exact key s.dropLast rest (by rw [hs]; simp) (.inl hs)
    · cases rest with
      | nil => simp at h
      | cons c rest =>
        simp at h
        subst h
        exact key s rest rfl (.inr rfl)

theorem scopes_sorted (L : List Bytes) : (scopeCandidates L).Pairwise (fun a b => b.length ≤ a.length) := by
  induction L with
  | nil => exact .nil
  | cons x rest ih =>
    have hb : ∀ b ∈ scopeCandidates rest, b.length ≤ ([slashByte].intercalate (x :: rest).reverse).length := by
      intro b hb
      obtain ⟨l1, l2, h1, h2, h3⟩ := mem_scopeCandidates.1 hb
      have : (x :: rest).reverse = l2.reverse ++ (l1.reverse ++ [x]) := by rw [h1]; simp
      rw [this, intercalate_append _ _ _ (by simpa using h2) (by simp)]
      rcases h3 with rfl | rfl <;> simp <;> omega
    simp only [scopeCandidates]
    refine .cons ?_ (.cons hb ih)
    intro b hb'
    rcases List.mem_cons.1 hb' with rfl | hb'
    · simp
    · have := hb b hb'
      rw [List.length_append, List.length_singleton]; omega

theorem findSome_sorted {g : Bytes → Option CertifiedResponse} {l : List Bytes} {x : CertifiedResponse}
    (hs : l.Pairwise (fun a b => b.length ≤ a.length)) (h : l.findSome? g = some x) :
    ∃ s ∈ l, g s = some x ∧ ∀ t ∈ l, s.length < t.length → g t = none := by
  induction l with
  | nil => simp at h
  | cons a l ih =>
    obtain ⟨h1, h2⟩ := List.pairwise_cons.1 hs
    rw [List.findSome?_cons] at h
    cases ha : g a with
    | some y =>
      rw [ha] at h
      simp at h
      subst h
      refine ⟨a, by simp, ha, ?_⟩
      intro t ht hl
      rcases List.mem_cons.1 ht with rfl | ht
      · omega
      · have := h1 t ht; omega
    | none =>
      rw [ha] at h
      obtain ⟨s, s1, s2, s3⟩ := ih h2 h
      refine ⟨s, by simp [s1], s2, ?_⟩
      intro t ht hl
      rcases List.mem_cons.1 ht with rfl | ht
      · exact ha
      · exact s3 t ht hl

theorem encloses_eq {s t path : Bytes} (hs : Encloses s path) (ht : Encloses t path) (h : s.length = t.length) : s = t := by
  obtain ⟨a, ha, _⟩ := hs
  obtain ⟨b, hb, _⟩ := ht
  rw [ha] at hb
  exact List.append_inj_left hb h

section
variable [SHA] [UriLib]

theorem answers_unique {r : Router} {path : Bytes} {accepts : AssetEncoding → Prop} {range : Option Nat}
    {x y : CertifiedResponse} (hx : Answers r path accepts range x) (hy : Answers r path accepts range y) : x = y := by
  cases hx with
  | exact h1 =>
    cases hy with
    | exact h2 => exact chooses_unique h1 h2
    | fallback g1 g2 g3 g4 => exact absurd h1 (g1 x)
  | @fallback s _ h1 h2 h3 h4 =>
    cases hy with
    | exact g1 => exact absurd g1 (h1 y)
    | @fallback s' _ g1 g2 g3 g4 =>
      have : s = s' := by
        apply encloses_eq h2 g2
        rcases Nat.lt_trichotomy s.length s'.length with hlt | heq | hlt
        · exact absurd g3 (h4 s' g2 hlt y)
        · exact heq
        · exact absurd h3 (g4 s h2 hlt x)
      subst this
      exact chooses_unique h3 g3

/-- The lookup finds the answer. -/
theorem assetForRequest_iff {r : Router} (hm : RespInv r.responses) (hf : FallbackInv r.fallbacks) {path : Bytes}
    {range : Option Nat} {prefs : List Bytes} (hs : prefs.Pairwise (fun a b => encodingQuality b ≤ encodingQuality a))
    {accepts : AssetEncoding → Prop} (ha : ∀ e, accepts e ↔ e.token ∈ prefs) (x : CertifiedResponse) :
    r.assetForRequest path prefs range = some x ↔ Answers r path accepts range x := by
  have hex := fun y => exactAsset_iff hm (path := path) (range := range) hs ha y
  have hsc := fun s y => scopeFallback_iff hf (scope := s) hs ha y
  have hno : ∀ s, (∀ y, ¬ Chooses accepts (r.heldFallback s) y) ↔ r.scopeFallback prefs s = none := by
    intro s
    rw [Option.eq_none_iff_forall_ne_some]
    constructor
    · intro h y hy; exact h y ((hsc s y).1 hy)
    · intro h y hy; exact h y ((hsc s y).2 hy)
  have fwd : ∀ y, r.assetForRequest path prefs range = some y → Answers r path accepts range y := by
    intro y h
    unfold Router.assetForRequest at h
    cases he : r.exactAsset path prefs range with
    | some z =>
      rw [he] at h
      simp only [Option.some.injEq] at h
      subst h
      exact .exact ((hex _).1 he)
    | none =>
      rw [he] at h
      simp only at h
      rw [fallbackLoop_eq] at h
      obtain ⟨s, s1, s2, s3⟩ := findSome_sorted (scopes_sorted _) h
      refine .fallback (scope := s) ?_ (mem_scopes.1 s1) ((hsc s y).1 s2) ?_
      · intro z hz
        rw [← hex, he] at hz
        cases hz
      · intro t ht hl
        exact (hno t).2 (s3 t (mem_scopes.2 ht) hl)
  refine ⟨fwd x, fun h => ?_⟩
  cases hr : r.assetForRequest path prefs range with
  | some y => rw [answers_unique h (fwd y hr)]
  | none =>
    exfalso
    unfold Router.assetForRequest at hr
    cases he : r.exactAsset path prefs range with
    | some z => rw [he] at hr; cases hr
    | none =>
      rw [he] at hr
      simp only at hr
      rw [fallbackLoop_eq, List.findSome?_eq_none_iff] at hr
      cases h with
      | exact h => rw [← hex, he] at h; cases h
      | fallback h1 h2 h3 h4 =>
        have := hr _ (mem_scopes.2 h2)
        rw [← hsc, this] at h3
        cases h3

end

/-! ## Scopes as wildcards -/

theorem pathSegments_append (a b : Bytes) : pathSegments (a ++ slashByte :: b) = pathSegments a ++ pathSegments b := by
  unfold pathSegments
  rw [splitOn_append, List.filter_append]

theorem pathSegments_nil : pathSegments [] = [] := by simp [pathSegments]

/-- A path without segments is empty or ends in a slash. -/
theorem no_segments {p : Bytes} (h : pathSegments p = []) : p = [] ∨ p.getLast? = some slashByte := by
  rcases List.eq_nil_or_concat p with rfl | ⟨q, c, rfl⟩
  · exact .inl rfl
  · right
    by_contra hc
    have hc' : c ≠ slashByte := by simpa using hc
    have hl := splitOn_ne_nil slashByte (q ++ [c])
    -- the last segment is not empty
    have hlast : ∀ q : Bytes, ∃ l s, (q ++ [c]).splitOn slashByte = l ++ [s ++ [c]] := by
      intro q
      induction q with
      | nil => exact ⟨[], [], by rw [List.nil_append, splitOn_none (by simpa using hc'.symm)]; rfl⟩
      | cons x q ih =>
        obtain ⟨l, s, h⟩ := ih
        rw [List.cons_append, List.splitOn_cons_eq_if_modifyHead, h]
        split
        · exact ⟨[] :: l, s, rfl⟩
        · cases l with
          | nil => exact ⟨[], x :: s, rfl⟩
          | cons y l => exact ⟨(x :: y) :: l, s, rfl⟩
    obtain ⟨l, s, hh⟩ := hlast q
    simp only [List.concat_eq_append] at h
    unfold pathSegments at h
    rw [hh, List.filter_append] at h
    simp at h

/-- An enclosing scope is a matching wildcard. -/
theorem encloses_matches {s path : Bytes} (h : Encloses s path) : PathShape.Matches (PathShape.ofPath s) (PathShape.ofPath path) := by
  obtain ⟨rest, rfl, h⟩ := h
  rcases h with h | h
  · have hs : s = s.dropLast ++ [slashByte] := (List.dropLast_append_getLast? _ h).symm
    have e1 : pathSegments s = pathSegments s.dropLast := by
      conv_lhs => rw [hs]
      rw [pathSegments_append, pathSegments_nil, List.append_nil]
    have e2 : pathSegments (s ++ rest) = pathSegments s ++ pathSegments rest := by
      have : s ++ rest = s.dropLast ++ slashByte :: rest := by conv_lhs => rw [hs, List.append_assoc, List.singleton_append]
      rw [this, pathSegments_append, e1]
    refine ⟨⟨pathSegments rest, e2.symm⟩, ?_⟩
    intro _ heq
    have heq' : pathSegments s = pathSegments s ++ pathSegments rest := by rw [← e2]; exact heq
    have hr : pathSegments rest = [] := by
      have := congrArg List.length heq'
      simp at this
      exact this
    show ((s ++ rest).getLast? == some slashByte) = true
    rcases no_segments hr with rfl | hr
    · simp [h]
    · simp [List.getLast?_append, hr]
  · cases rest with
    | nil => simp at h
    | cons c rest =>
      simp at h
      subst h
      refine ⟨⟨pathSegments rest, (pathSegments_append s rest).symm⟩, ?_⟩
      intro h1 heq
      have heq' : pathSegments s = pathSegments s ++ pathSegments rest := by rw [← pathSegments_append]; exact heq
      have hr : pathSegments rest = [] := by
        have := congrArg List.length heq'
        simp at this
        exact this
      show ((s ++ slashByte :: rest).getLast? == some slashByte) = true
      rcases no_segments hr with rfl | hr
      · simp
      · rw [List.getLast?_append, List.getLast?_cons, hr]; simp

theorem encloses_parts {s path : Bytes} (h : Encloses s path) : (pathParts s).length ≤ (pathParts path).length := by
  rw [pathParts_eq, pathParts_eq, PathShape.labels_length, PathShape.labels_length]
  obtain ⟨j, hj, he⟩ := PathShape.matches_iff.1 (encloses_matches h)
  rw [he, PathShape.ord_at hj]; omega

end Verif
