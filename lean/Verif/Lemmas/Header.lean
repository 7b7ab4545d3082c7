import Verif.Spec.Header
import Mathlib.Data.List.TakeWhile
import Verif.Lemmas.Cbor
import Verif.Props.Base64

set_option linter.unusedSimpArgs false

namespace Verif

/-! ## Splitting -/

section
variable {α : Type} [DecidableEq α]

theorem splitOn_ne_nil (a : α) (s : List α) : s.splitOn a ≠ [] := by
  induction s with
  | nil => simp
  | cons x xs ih =>
    rw [List.splitOn_cons_eq_if_modifyHead]
    split
    · simp
    · cases hs : xs.splitOn a with
      | nil => exact absurd hs ih
      | cons y ys => simp

theorem not_mem_splitOn {a : α} {p s : List α} (h : s ∈ p.splitOn a) : a ∉ s := by
  induction p generalizing s with
  | nil => simp at h; subst h; simp
  | cons x xs ih =>
    rw [List.splitOn_cons_eq_if_modifyHead] at h
    split at h
    · simp at h
      rcases h with rfl | h
      · simp
      · exact ih h
    · rename_i hx
      cases hs : xs.splitOn a with
      | nil => rw [hs] at h; simp at h
      | cons y ys =>
        rw [hs] at h ih
        simp at h
        rcases h with rfl | h
        · have := ih (s := y) (by simp)
          simp only [List.mem_cons, not_or]
          refine ⟨?_, this⟩
          rintro rfl; simp at hx
        · exact ih (by simp [h])

theorem intercalate_cons_cons (a : α) (t u : List α) (ts : List (List α)) :
    [a].intercalate (t :: u :: ts) = t ++ a :: [a].intercalate (u :: ts) := by
  simp [List.intercalate]

theorem intercalate_splitOn (a : α) (s : List α) : [a].intercalate (s.splitOn a) = s := by
  induction s with
  | nil => simp [List.intercalate]
  | cons x xs ih =>
    rw [List.splitOn_cons_eq_if_modifyHead]
    cases hs : xs.splitOn a with
    | nil => exact absurd hs (splitOn_ne_nil a xs)
    | cons y ys =>
      rw [hs] at ih
      split
      · rename_i hx
        have hx' : x = a := by simpa using hx
        rw [intercalate_cons_cons, ih, hx']; rfl
      · cases ys with
        | nil => simp [List.intercalate] at ih ⊢; exact ih
        | cons z zs =>
          simp only [List.modifyHead_cons]
          rw [intercalate_cons_cons] at ih ⊢
          rw [List.cons_append, ih]

theorem splitOn_append_sep {a : α} {t : List α} (ht : a ∉ t) (s : List α) :
    (t ++ a :: s).splitOn a = t :: s.splitOn a := by
  induction t with
  | nil => simp [List.splitOn_cons_eq_if_modifyHead]
  | cons x xs ih =>
    simp at ht
    rw [List.cons_append, List.splitOn_cons_eq_if_modifyHead, ih ht.2]
    have : ¬ (x = a) := fun h => ht.1 h.symm
    simp [this]

theorem splitOn_none {a : α} {t : List α} (ht : a ∉ t) : t.splitOn a = [t] := by
  induction t with
  | nil => simp
  | cons x xs ih =>
    simp at ht
    rw [List.splitOn_cons_eq_if_modifyHead, ih ht.2]
    have : ¬ (x = a) := fun h => ht.1 h.symm
    simp [this]

theorem splitOn_intercalate {a : α} : ∀ (ts : List (List α)), ts ≠ [] → (∀ t ∈ ts, a ∉ t) →
    ([a].intercalate ts).splitOn a = ts
  | [], h, _ => absurd rfl h
  | [t], _, h => by simp [List.intercalate, splitOn_none (h t (by simp))]
  | t :: u :: ts, _, h => by
    rw [intercalate_cons_cons, splitOn_append_sep (h t (by simp)),
      splitOn_intercalate (u :: ts) (by simp) (fun x hx => h x (by simp [hx]))]
end

theorem headerTexts_iff {s : List Char} {texts : List (List Char)} : HeaderTexts s texts ↔ s.splitOn ',' = texts := by
  constructor
  · rintro ⟨h1, h2, rfl⟩
    exact splitOn_intercalate texts h1 h2
  · rintro rfl
    exact ⟨splitOn_ne_nil _ _, fun t ht => not_mem_splitOn ht, (intercalate_splitOn _ _).symm⟩

/-! ## Fields -/

theorem dropWhile_split {α : Type} (p : α → Bool) (s : List α) :
    ∃ a, s = a ++ s.dropWhile p ∧ (∀ c ∈ a, p c) ∧ ∀ c, (s.dropWhile p).head? = some c → ¬ p c := by
  induction s with
  | nil => exact ⟨[], by simp⟩
  | cons x xs ih =>
    rw [List.dropWhile_cons]
    split
    · rename_i hx
      obtain ⟨a, h1, h2, h3⟩ := ih
      exact ⟨x :: a, by rw [List.cons_append, ← h1], by simp [hx]; exact h2, h3⟩
    · rename_i hx
      exact ⟨[], rfl, by simp, by simp; simpa using hx⟩

theorem dropWhile_all {α : Type} {p : α → Bool} {a b : List α} (ha : ∀ c ∈ a, p c) (hb : ∀ c, b.head? = some c → ¬ p c) :
    (a ++ b).dropWhile p = b := by
  induction a with
  | nil =>
    cases b with
    | nil => rfl
    | cons x xs => simp at hb; simp [List.dropWhile_cons, hb]
  | cons x xs ih =>
    rw [List.cons_append, List.dropWhile_cons, if_pos (ha x (by simp))]
    exact ih (fun c hc => ha c (by simp [hc]))

/-- What `trim` does. -/
theorem trim_spec (s : List Char) : ∃ a b, s = a ++ trim s ++ b ∧ (∀ c ∈ a, isWs c) ∧ (∀ c ∈ b, isWs c) ∧
    (∀ c, (trim s).head? = some c → ¬ isWs c) ∧ (∀ c, (trim s).getLast? = some c → ¬ isWs c) := by
  obtain ⟨a, h1, h2, h3⟩ := dropWhile_split isWs s
  obtain ⟨b, h4, h5, h6⟩ := dropWhile_split isWs (s.dropWhile isWs).reverse
  have h7 : s.dropWhile isWs = trim s ++ b.reverse := by
    have := congrArg List.reverse h4
    simpa [trim] using this
  refine ⟨a, b.reverse, by rw [List.append_assoc, ← h7]; exact h1, h2, by simpa using h5, ?_, ?_⟩
  · intro c hc
    apply h3
    rw [h7]
    cases ht : trim s with
    | nil => rw [ht] at hc; simp at hc
    | cons x xs => rw [ht] at hc; simpa using hc
  · intro c hc
    apply h6
    rw [← List.getLast?_reverse]
    exact hc

theorem trim_unique {a t b : List Char} (ha : ∀ c ∈ a, isWs c) (hb : ∀ c ∈ b, isWs c)
    (h1 : ∀ c, t.head? = some c → ¬ isWs c) (h2 : ∀ c, t.getLast? = some c → ¬ isWs c) : trim (a ++ t ++ b) = t := by
  unfold trim
  cases t with
  | nil =>
    have : (a ++ [] ++ b).dropWhile isWs = [] := by
      simp only [List.append_nil]
      exact List.dropWhile_eq_nil_iff.2 (by
        intro c hc; rcases List.mem_append.1 hc with h | h
        · exact ha c h
        · exact hb c h)
    rw [this]; rfl
  | cons x xs =>
    rw [List.append_assoc, dropWhile_all ha (by intro c hc; simp at hc; subst hc; exact h1 _ rfl)]
    rw [List.reverse_append, dropWhile_all (by simpa using hb) (by
      intro c hc; rw [List.head?_reverse] at hc; exact h2 c hc)]
    simp

theorem takeWhile_append_stop {α : Type} {p : α → Bool} {a b : List α} {x : α} (ha : ∀ c ∈ a, p c) (hx : p x = false) :
    (a ++ x :: b).takeWhile p = a ∧ (a ++ x :: b).dropWhile p = x :: b := by
  induction a with
  | nil => simp [hx]
  | cons y ys ih =>
    have h1 := ha y (by simp)
    obtain ⟨h2, h3⟩ := ih (fun c hc => ha c (by simp [hc]))
    simp [List.takeWhile_cons, List.dropWhile_cons, h1, h2, h3]

theorem takeWhile_append_end {α : Type} {p : α → Bool} {a : List α} (ha : ∀ c ∈ a, p c) :
    a.takeWhile p = a ∧ a.dropWhile p = [] := by
  constructor
  · exact List.takeWhile_eq_self_iff.2 ha
  · exact List.dropWhile_eq_nil_iff.2 ha

theorem optChar_spec (v : Char) (s : List Char) : s = optChar v s ∨ s = v :: optChar v s := by
  cases s with
  | nil => simp [optChar]
  | cons c r =>
    simp only [optChar]
    split
    · rename_i h; subst h; simp
    · simp

/-- Exactly what is recognised as a field body. -/
theorem extractHeaderField_iff {s name value : List Char} : extractHeaderField s = some (name, value) ↔
    ∃ o c, s = name ++ '=' :: o ++ value ++ c ∧ '=' ∉ name ∧ ':' ∉ value ∧ name ≠ [] ∧ value ≠ [] ∧
      (o = [] ∨ o = [':']) ∧ (c = [] ∨ c = [':']) := by
  constructor
  · intro h
    unfold extractHeaderField at h
    split at h
    · rename_i hm
      simp only at h
      split at h
      · rename_i hi
        split at h
        · simp at h
        · rename_i hne
          simp only [Option.some.injEq, Prod.mk.injEq] at h
          obtain ⟨h1, h2⟩ := h
          rw [h1, h2] at hne
          push Not at hne
          obtain ⟨a, b, hab⟩ := List.append_of_mem hm
          have hsplit : s = s.takeWhile (· ≠ '=') ++ s.dropWhile (· ≠ '=') := (List.takeWhile_append_dropWhile).symm
          obtain ⟨_, hs1, hs2, hs3⟩ := dropWhile_split (fun c => decide (c ≠ '=')) s
          have hd : ∃ r, s.dropWhile (· ≠ '=') = '=' :: r := by
            cases hdr : s.dropWhile (fun c => decide (c ≠ '=')) with
            | nil =>
              rw [List.dropWhile_eq_nil_iff] at hdr
              have := hdr '=' hm
              simp at this
            | cons x r =>
              have := hs3 x (by rw [hdr]; rfl)
              simp at this
              exact ⟨r, by rw [this]⟩
          obtain ⟨r, hr⟩ := hd
          rw [hr] at hi h2
          simp only [List.drop_succ_cons, List.drop_zero] at hi h2
          have hv : optChar ':' r = value ++ (optChar ':' r).dropWhile (· ≠ ':') := by
            rw [← h2]; exact (List.takeWhile_append_dropWhile).symm
          rw [h1, hr] at hsplit
          have hname : '=' ∉ name := by
            rw [← h1]; intro hx
            have := List.mem_takeWhile_imp hx
            simp at this
          have hval : ':' ∉ value := by
            rw [← h2]; intro hx
            have := List.mem_takeWhile_imp hx
            simp at this
          have hclose : (optChar ':' r).dropWhile (· ≠ ':') = [] ∨ (optChar ':' r).dropWhile (· ≠ ':') = [':'] := by
            rcases optChar_spec ':' ((optChar ':' r).dropWhile (· ≠ ':')) with h | h
            · left; rw [h, hi]
            · right; rw [h, hi]
          rcases optChar_spec ':' r with ho | ho
          · exact ⟨[], _, by rw [hsplit]; rw [← ho] at hv ⊢; simp only [List.append_nil, List.append_assoc, List.cons_append, List.nil_append]; rw [← hv],
              hname, hval, hne.1, hne.2, .inl rfl, hclose⟩
          · refine ⟨[':'], _, ?_, hname, hval, hne.1, hne.2, .inr rfl, hclose⟩
            rw [hsplit]
            simp only [List.append_nil, List.append_assoc, List.cons_append, List.nil_append]
            rw [← hv, ← ho]
      · simp at h
    · simp at h
  · rintro ⟨o, c, rfl, hn, hv, hne, hve, ho, hc⟩
    have hmem : '=' ∈ name ++ '=' :: o ++ value ++ c := by simp
    have hn' : ∀ x ∈ name, (decide (x ≠ '=')) = true := by
      intro x hx; simp; rintro rfl; exact hn hx
    have hv' : ∀ x ∈ value, (decide (x ≠ ':')) = true := by
      intro x hx; simp; rintro rfl; exact hv hx
    have e : name ++ '=' :: o ++ value ++ c = name ++ '=' :: (o ++ value ++ c) := by simp
    obtain ⟨t1, t2⟩ := takeWhile_append_stop (p := fun x => decide (x ≠ '=')) (b := o ++ value ++ c) hn' (x := '=') (by simp)
    have hopen : optChar ':' (o ++ value ++ c) = value ++ c := by
      rcases ho with rfl | rfl
      · cases value with
        | nil => exact absurd rfl hve
        | cons x xs =>
          have : x ≠ ':' := by rintro rfl; exact hv (by simp)
          simp [optChar, this]
      · simp [optChar]
    unfold extractHeaderField
    rw [if_pos hmem, e]
    simp only [t1, t2, List.drop_succ_cons, List.drop_zero, hopen]
    rcases hc with rfl | rfl
    · obtain ⟨t3, t4⟩ := takeWhile_append_end (p := fun x => decide (x ≠ ':')) hv'
      simp only [List.append_nil, t3, t4]
      simp [optChar, hne, hve]
    · obtain ⟨t3, t4⟩ := takeWhile_append_stop (p := fun x => decide (x ≠ ':')) (b := []) hv' (x := ':') (by simp)
      simp only [t3, t4]
      simp [optChar, hne, hve]

theorem headerField_iff {t name value : List Char} : headerField t = some (name, value) ↔ IsField t name value := by
  unfold headerField IsField
  rw [extractHeaderField_iff]
  constructor
  · rintro ⟨o, c, h, h1, h2, h3, h4, h5, h6⟩
    obtain ⟨a, b, g1, g2, g3, g4, g5⟩ := trim_spec t
    refine ⟨a, b, trim t, o, c, by rw [← h]; exact g1, g2, g3, h, g4, g5, h1, h2, h3, h4, h5, h6⟩
  · rintro ⟨a, b, body, o, c, h, g1, g2, hb, g3, g4, h1, h2, h3, h4, h5, h6⟩
    refine ⟨o, c, ?_, h1, h2, h3, h4, h5, h6⟩
    rw [h, ← hb]
    exact trim_unique g1 g2 g3 g4

/-! ## First occurrences -/

/-- The value of the first parsed field with this name. -/
def firstVal (fs : List (List Char × List Char)) (name : List Char) : Option (List Char) :=
  (fs.find? (fun f => f.1 == name)).map Prod.snd

theorem firstVal_filterMap {texts : List (List Char)} {name value : List Char} :
    firstVal (texts.filterMap headerField) name = some value ↔
      ∃ pre t post, texts = pre ++ t :: post ∧ IsField t name value ∧ ∀ u ∈ pre, ∀ v, ¬ IsField u name v := by
  induction texts with
  | nil => simp [firstVal]
  | cons t ts ih =>
    have hstep : ∀ {pre' t' post'}, t :: ts = pre' ++ t' :: post' →
        (pre' = [] ∧ t = t' ∧ ts = post') ∨ ∃ p, pre' = t :: p ∧ ts = p ++ t' :: post' := by
      intro pre' t' post' h
      cases pre' with
      | nil => simp at h; exact .inl ⟨rfl, h.1, h.2⟩
      | cons x xs => simp at h; exact .inr ⟨xs, by rw [h.1], h.2⟩
    have hnot : (∀ v, headerField t ≠ some (name, v)) → firstVal ((t :: ts).filterMap headerField) name =
        firstVal (ts.filterMap headerField) name := by
      intro hno
      cases hf : headerField t with
      | none => rw [List.filterMap_cons_none hf]
      | some f =>
        rw [List.filterMap_cons_some hf]
        obtain ⟨n, v⟩ := f
        have : n ≠ name := by rintro rfl; exact hno v hf
        simp [firstVal, List.find?_cons, this]
    by_cases hyes : ∃ v, headerField t = some (name, v)
    · obtain ⟨v, hf⟩ := hyes
      rw [List.filterMap_cons_some hf]
      have : firstVal ((name, v) :: ts.filterMap headerField) name = some v := by simp [firstVal]
      rw [this]
      constructor
      · intro h
        simp at h; subst h
        exact ⟨[], t, ts, rfl, headerField_iff.1 hf, by simp⟩
      · rintro ⟨pre, t', post, h, h1, h2⟩
        rcases hstep h with ⟨rfl, rfl, rfl⟩ | ⟨p, rfl, rfl⟩
        · have := headerField_iff.2 h1
          rw [hf] at this
          simpa using this
        · exact absurd (headerField_iff.1 hf) (h2 t (by simp) v)
    · have hno : ∀ v, headerField t ≠ some (name, v) := fun v hv => hyes ⟨v, hv⟩
      rw [hnot hno, ih]
      constructor
      · rintro ⟨pre, t', post, rfl, h1, h2⟩
        refine ⟨t :: pre, t', post, rfl, h1, ?_⟩
        intro u hu v
        rcases List.mem_cons.1 hu with rfl | hu
        · exact fun h => hno v (headerField_iff.2 h)
        · exact h2 u hu v
      · rintro ⟨pre, t', post, h, h1, h2⟩
        rcases hstep h with ⟨rfl, rfl, rfl⟩ | ⟨p, rfl, rfl⟩
        · exact absurd (headerField_iff.2 h1) (hno _)
        · exact ⟨p, t', post, rfl, h1, fun u hu => h2 u (by simp [hu])⟩

theorem firstVal_some_iff {s name value : List Char} :
    firstVal ((s.splitOn ',').filterMap headerField) name = some value ↔ FirstField s name value := by
  rw [firstVal_filterMap]
  unfold FirstField
  constructor
  · rintro ⟨pre, t, post, h, h1, h2⟩
    exact ⟨pre, t, post, headerTexts_iff.2 h, h1, h2⟩
  · rintro ⟨pre, t, post, h, h1, h2⟩
    exact ⟨pre, t, post, headerTexts_iff.1 h, h1, h2⟩

theorem firstVal_none_iff {s name : List Char} :
    firstVal ((s.splitOn ',').filterMap headerField) name = none ↔ NoField s name := by
  have h1 : NoField s name ↔ ∀ u ∈ s.splitOn ',', ∀ v, ¬ IsField u name v := by
    constructor
    · rintro ⟨texts, ht, h⟩
      rw [headerTexts_iff.1 ht]; exact h
    · intro h; exact ⟨_, headerTexts_iff.2 rfl, h⟩
  rw [h1]
  unfold firstVal
  rw [Option.map_eq_none_iff, List.find?_eq_none]
  constructor
  · intro h u hu v hv
    have := h (name, v) (List.mem_filterMap.2 ⟨u, hu, headerField_iff.2 hv⟩)
    simp at this
  · intro h f hf
    obtain ⟨u, hu, hfu⟩ := List.mem_filterMap.1 hf
    obtain ⟨n, v⟩ := f
    simp
    rintro rfl
    exact h u hu v (headerField_iff.1 hfu)

/-! ## The loop -/

/-- What a variable of the loop becomes. -/
def Slot {α : Type} (dec : List Char → Out RvError α) (old : Option α) (first : Option (List Char)) (new : Option α) : Prop :=
  match old, first with
  | some x, _ => new = some x
  | none, none => new = none
  | none, some v => ∃ x, dec v = .ok x ∧ new = some x

theorem setOnce_ok {α : Type} {old : Option α} {d : Out RvError α} {new : Option α} :
    setOnce old d = .ok new ↔ (∃ x, old = some x ∧ new = some x) ∨ (old = none ∧ ∃ x, d = .ok x ∧ new = some x) := by
  cases old with
  | some x => simp [setOnce]; exact eq_comm
  | none =>
    simp only [setOnce, Out.bind_ok, Out.ok.injEq]
    simp [eq_comm]

theorem Slot.keep {α : Type} {dec : List Char → Out RvError α} {old new : Option α} {fs : List (List Char × List Char)}
    {f : List Char × List Char} {name : List Char} (h : f.1 ≠ name) :
    Slot dec old (firstVal (f :: fs) name) new ↔ Slot dec old (firstVal fs name) new := by
  simp [firstVal, List.find?_cons, h]

theorem Slot.take {α : Type} {dec : List Char → Out RvError α} {old new : Option α} {fs : List (List Char × List Char)}
    {f : List Char × List Char} {name : List Char} (h : f.1 = name) :
    Slot dec old (firstVal (f :: fs) name) new ↔ ∃ mid, setOnce old (dec f.2) = .ok mid ∧ Slot dec mid (firstVal fs name) new := by
  have e : firstVal (f :: fs) name = some f.2 := by simp [firstVal, h]
  rw [e]
  cases old with
  | some x => simp [Slot, setOnce]
  | none =>
    simp only [setOnce_ok]
    simp [Slot]

theorem headerLoop_ok (m : Machine) : ∀ (fs : List (List Char × List Char)) (acc acc' : HeaderAcc),
    headerLoop m acc fs = .ok acc' ↔
      Slot (decodeCertificate m) acc.certificate (firstVal fs "certificate".toList) acc'.certificate ∧
      Slot (decodeTree m) acc.tree (firstVal fs "tree".toList) acc'.tree ∧
      Slot decodeVersion acc.version (firstVal fs "version".toList) acc'.version ∧
      Slot (decodeExprPath m) acc.exprPath (firstVal fs "expr_path".toList) acc'.exprPath
  | [], acc, acc' => by
    have key : ∀ {α : Type} {dec : List Char → Out RvError α} {a b : Option α}, Slot dec a none b ↔ b = a := by
      intro α dec a b
      cases a <;> simp [Slot]
    have e : ∀ n, firstVal [] n = none := fun n => rfl
    simp only [headerLoop, e, key, Out.ok.injEq]
    obtain ⟨c, t, v, p⟩ := acc
    obtain ⟨c', t', v', p'⟩ := acc'
    simp
    constructor
    · rintro ⟨rfl, rfl, rfl, rfl⟩; simp
    · rintro ⟨rfl, rfl, rfl, rfl⟩; simp
  | f :: fs, acc, acc' => by
    rw [headerLoop, Out.bind_ok]
    simp only [headerLoop_ok m fs]
    unfold headerStep
    split
    · rename_i h
      rw [Slot.take h, Slot.keep (by rw [h]; decide), Slot.keep (by rw [h]; decide), Slot.keep (by rw [h]; decide)]
      simp only [Out.bind_ok, Out.ok.injEq]
      constructor
      · rintro ⟨a, ⟨x, hx, rfl⟩, h1, h2, h3, h4⟩
        exact ⟨⟨x, hx, h1⟩, h2, h3, h4⟩
      · rintro ⟨⟨x, hx, h1⟩, h2, h3, h4⟩
        exact ⟨_, ⟨x, hx, rfl⟩, h1, h2, h3, h4⟩
    · rename_i n1
      rw [Slot.keep n1]
      split
      · rename_i h
        rw [Slot.take h, Slot.keep (by rw [h]; decide), Slot.keep (by rw [h]; decide)]
        simp only [Out.bind_ok, Out.ok.injEq]
        constructor
        · rintro ⟨a, ⟨x, hx, rfl⟩, h1, h2, h3, h4⟩
          exact ⟨h1, ⟨x, hx, h2⟩, h3, h4⟩
        · rintro ⟨h1, ⟨x, hx, h2⟩, h3, h4⟩
          exact ⟨_, ⟨x, hx, rfl⟩, h1, h2, h3, h4⟩
      · rename_i n2
        rw [Slot.keep n2]
        split
        · rename_i h
          rw [Slot.take h, Slot.keep (by rw [h]; decide)]
          simp only [Out.bind_ok, Out.ok.injEq]
          constructor
          · rintro ⟨a, ⟨x, hx, rfl⟩, h1, h2, h3, h4⟩
            exact ⟨h1, h2, ⟨x, hx, h3⟩, h4⟩
          · rintro ⟨h1, h2, ⟨x, hx, h3⟩, h4⟩
            exact ⟨_, ⟨x, hx, rfl⟩, h1, h2, h3, h4⟩
        · rename_i n3
          rw [Slot.keep n3]
          split
          · rename_i h
            rw [Slot.take h]
            simp only [Out.bind_ok, Out.ok.injEq]
            constructor
            · rintro ⟨a, ⟨x, hx, rfl⟩, h1, h2, h3, h4⟩
              exact ⟨h1, h2, h3, ⟨x, hx, h4⟩⟩
            · rintro ⟨h1, h2, h3, ⟨x, hx, h4⟩⟩
              exact ⟨_, ⟨x, hx, rfl⟩, h1, h2, h3, h4⟩
          · rename_i n4
            rw [Slot.keep n4]
            simp only [Out.ok.injEq]
            constructor
            · rintro ⟨a, rfl, h⟩; exact h
            · intro h; exact ⟨_, rfl, h⟩

end Verif
