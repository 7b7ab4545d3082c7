import Verif.Model.Cel

set_option linter.unusedSimpArgs false

namespace Verif

/-! ## The bounds on recursion do not matter -/

theorem skipWs_length (i : List Char) : (skipWs i).length ≤ i.length := by
  unfold skipWs; exact (List.dropWhile_suffix _).length_le

theorem wsChar_length {c : Char} {i r : List Char} (h : wsChar c i = some r) : r.length < i.length := by
  unfold wsChar at h
  have := skipWs_length i
  cases hs : skipWs i with
  | nil => simp [hs] at h
  | cons d t =>
    simp only [hs] at h
    split at h <;> simp_all
    omega

/-- A parser that consumes something whenever it succeeds. -/
def Shrinks {α : Type} (p : List Char → PRes α) : Prop := ∀ i r v, p i = .ok r v → r.length < i.length

theorem dropSep_congr {α : Type} {o c : Char} {p q : List Char → PRes α} {i : List Char}
    (h : ∀ j, j.length < i.length → p j = q j) : dropSep o c p i = dropSep o c q i := by
  unfold dropSep
  cases hw : wsChar o i with
  | none => rfl
  | some i1 => simp only [h i1 (wsChar_length hw)]

theorem sepLoop_fuel {α : Type} {p : List Char → PRes α} (hp : Shrinks p) :
    ∀ (n m : Nat) (i : List Char), i.length < n → i.length < m → sepLoop p n i = sepLoop p m i
  | 0, _, _, h, _ => by omega
  | _, 0, _, _, h => by omega
  | n + 1, m + 1, i, hn, hm => by
    unfold sepLoop
    cases hw : wsChar ',' i with
    | none => rfl
    | some i1 =>
      simp only
      have h1 := wsChar_length hw
      cases hv : p i1 with
      | err => rfl
      | fail => rfl
      | crash => rfl
      | ok i2 v =>
        have h2 := hp _ _ _ hv
        simp only
        rw [sepLoop_fuel hp n m i2 (by omega) (by omega)]

theorem sepLoop_congr {α : Type} {p q : List Char → PRes α} (hp : Shrinks p) :
    ∀ (n : Nat) (i : List Char), (∀ j, j.length < i.length → p j = q j) → sepLoop p n i = sepLoop q n i
  | 0, _, _ => rfl
  | n + 1, i, h => by
    unfold sepLoop
    cases hw : wsChar ',' i with
    | none => rfl
    | some i1 =>
      simp only
      have h1 := wsChar_length hw
      rw [← h i1 h1]
      cases hv : p i1 with
      | err => rfl
      | fail => rfl
      | crash => rfl
      | ok i2 v =>
        have h2 := hp _ _ _ hv
        simp only
        rw [sepLoop_congr hp n i2 (fun j hj => h j (by omega))]

theorem sepList_congr {α : Type} {p q : List Char → PRes α} (hp : Shrinks p) {i : List Char}
    (h : ∀ j, j.length ≤ i.length → p j = q j) : sepList p i = sepList q i := by
  unfold sepList
  rw [← h i le_rfl]
  cases hv : p i with
  | err => rfl
  | fail => rfl
  | crash => rfl
  | ok i2 v =>
    have h2 := hp _ _ _ hv
    simp only
    rw [sepLoop_congr hp _ i2 (fun j hj => h j (by omega))]

theorem ident_length (i : List Char) : (ident i).2.length ≤ i.length := (List.dropWhile_suffix _).length_le

theorem keyValue_shrinks {p : List Char → PRes CelValue} (hp : Shrinks p) : Shrinks (keyValue p) := by
  intro i r v h
  unfold keyValue at h
  simp only at h
  cases hw : wsChar ':' (ident (skipWs i)).2 with
  | none => simp [hw] at h
  | some i2 =>
    simp only [hw] at h
    have h1 := wsChar_length hw
    have h2 := ident_length (skipWs i)
    have h3 := skipWs_length i
    cases hv : p i2 with
    | err => simp [hv, PRes.map] at h
    | fail => simp [hv, PRes.map] at h
    | crash => simp [hv, PRes.map] at h
    | ok i3 v' =>
      simp only [hv, PRes.map, PRes.ok.injEq] at h
      have := hp _ _ _ hv
      have e := congrArg List.length h.1
      omega

theorem keyValue_congr {p q : List Char → PRes CelValue} {i : List Char}
    (h : ∀ j, j.length < i.length → p j = q j) : keyValue p i = keyValue q i := by
  unfold keyValue
  simp only
  cases hw : wsChar ':' (ident (skipWs i)).2 with
  | none => rfl
  | some i2 =>
    have h1 := wsChar_length hw
    have h2 := ident_length (skipWs i)
    have h3 := skipWs_length i
    simp only [h i2 (by omega)]

theorem sepLoop_length {α : Type} {p : List Char → PRes α} (hp : Shrinks p) :
    ∀ (n : Nat) (i r : List Char) (vs : List α), sepLoop p n i = .ok r vs → r.length ≤ i.length
  | 0, _, _, _, h => by simp [sepLoop] at h
  | n + 1, i, r, vs, h => by
    unfold sepLoop at h
    cases hw : wsChar ',' i with
    | none => simp [hw] at h; rw [h.1]
    | some i1 =>
      simp only [hw] at h
      have h1 := wsChar_length hw
      cases hv : p i1 with
      | err => simp [hv] at h; rw [h.1]
      | fail => simp [hv] at h
      | crash => simp [hv] at h
      | ok i2 v =>
        have h2 := hp _ _ _ hv
        simp only [hv] at h
        cases hs : sepLoop p n i2 with
        | err => simp [hs] at h
        | fail => simp [hs] at h
        | crash => simp [hs] at h
        | ok r' vs' =>
          have h3 := sepLoop_length hp n _ _ _ hs
          simp [hs] at h
          rw [← h.1]; omega

theorem sepList_length {α : Type} {p : List Char → PRes α} (hp : Shrinks p) {i r : List Char} {vs : List α}
    (h : sepList p i = .ok r vs) : r.length ≤ i.length := by
  unfold sepList at h
  cases hv : p i with
  | err => simp [hv] at h; rw [h.1]
  | fail => simp [hv] at h
  | crash => simp [hv] at h
  | ok i1 v =>
    have h2 := hp _ _ _ hv
    simp only [hv] at h
    cases hs : sepLoop p (i1.length + 1) i1 with
    | err => simp [hs] at h
    | fail => simp [hs] at h
    | crash => simp [hs] at h
    | ok r' vs' =>
      have h3 := sepLoop_length hp _ _ _ _ hs
      simp [hs] at h
      rw [← h.1]; omega

theorem dropSep_length {α : Type} {o c : Char} {p : List Char → PRes α} {i r : List Char} {v : α}
    (hp : ∀ i r v, p i = .ok r v → r.length ≤ i.length) (h : dropSep o c p i = .ok r v) : r.length < i.length := by
  unfold dropSep at h
  cases hw : wsChar o i with
  | none => simp [hw] at h
  | some i1 =>
    simp only [hw] at h
    have h1 := wsChar_length hw
    cases hv : p i1 with
    | err => simp [hv] at h
    | fail => simp [hv] at h
    | crash => simp [hv] at h
    | ok i2 v' =>
      simp only [hv] at h
      have h2 := hp _ _ _ hv
      cases hc : wsChar c i2 with
      | none => simp [hc] at h
      | some i3 =>
        have h3 := wsChar_length hc
        simp [hc] at h
        rw [← h.1]; omega

theorem map_ok {α β : Type} {f : α → β} {x : PRes α} {r : List Char} {w : β} (h : x.map f = .ok r w) :
    ∃ v, x = .ok r v ∧ f v = w := by
  cases x with
  | ok r' v => simp [PRes.map] at h; exact ⟨v, by simp [h.1], h.2⟩
  | err => simp [PRes.map] at h
  | fail => simp [PRes.map] at h
  | crash => simp [PRes.map] at h

theorem celObject_shrinks {p : List Char → PRes CelValue} (hp : Shrinks p) : Shrinks (celObject p) := by
  intro i r v h
  obtain ⟨fs, h1, -⟩ := map_ok h
  have := dropSep_length (fun _ _ _ => sepList_length (keyValue_shrinks hp)) h1
  have h2 := ident_length i
  simp only [ident] at h2
  omega

theorem celFunction_shrinks {p : List Char → PRes CelValue} (hp : Shrinks p) : Shrinks (celFunction p) := by
  intro i r v h
  obtain ⟨fs, h1, -⟩ := map_ok h
  have := dropSep_length (fun _ _ _ => sepList_length hp) h1
  have h2 := ident_length i
  simp only [ident] at h2
  omega

theorem celArray_shrinks {p : List Char → PRes CelValue} (hp : Shrinks p) : Shrinks (celArray p) := by
  intro i r v h
  obtain ⟨fs, h1, -⟩ := map_ok h
  exact dropSep_length (fun _ _ _ => sepList_length hp) h1

theorem celString_shrinks : Shrinks celString := by
  intro i r v h
  refine dropSep_length (p := parseStr) ?_ h
  intro i r v h
  simp only [parseStr, PRes.ok.injEq] at h
  rw [← h.1]; exact (List.dropWhile_suffix _).length_le

theorem celStep_shrinks {p : List Char → PRes CelValue} (hp : Shrinks p) : Shrinks (celStep p) := by
  intro i r v h
  have hw := skipWs_length i
  have key : r.length < (skipWs i).length := by
    unfold celStep at h
    simp only at h
    split at h
    · split at h
      · split at h
        · obtain ⟨s, h1, -⟩ := map_ok h
          exact celString_shrinks _ _ _ h1
        · exact celArray_shrinks hp _ _ _ h
      · exact celFunction_shrinks hp _ _ _ h
    · exact celObject_shrinks hp _ _ _ h
  omega

theorem celValue_shrinks : ∀ n, Shrinks (celValue n)
  | 0 => by intro i r v h; simp [celValue] at h
  | n + 1 => celStep_shrinks (celValue_shrinks n)

theorem celStep_congr {p q : List Char → PRes CelValue} (hp : Shrinks p) {i : List Char}
    (h : ∀ j, j.length < i.length → p j = q j) : celStep p i = celStep q i := by
  have hw := skipWs_length i
  have hi := ident_length (skipWs i)
  have e1 : celObject p (skipWs i) = celObject q (skipWs i) := by
    unfold celObject
    simp only
    rw [dropSep_congr (q := sepList (keyValue q))]
    intro j hj
    exact sepList_congr (keyValue_shrinks hp) (fun k hk => keyValue_congr (fun l hl => h l (by omega)))
  have e2 : celFunction p (skipWs i) = celFunction q (skipWs i) := by
    unfold celFunction
    simp only
    rw [dropSep_congr (q := sepList q)]
    intro j hj
    exact sepList_congr hp (fun k hk => h k (by omega))
  have e3 : celArray p (skipWs i) = celArray q (skipWs i) := by
    unfold celArray
    rw [dropSep_congr (q := sepList q)]
    intro j hj
    exact sepList_congr hp (fun k hk => h k (by omega))
  unfold celStep
  simp only [e1, e2, e3]

theorem celValue_fuel : ∀ (n m : Nat) (i : List Char), i.length < n → i.length < m → celValue n i = celValue m i
  | 0, _, _, h, _ => by omega
  | _, 0, _, _, h => by omega
  | n + 1, m + 1, i, hn, hm => by
    show celStep (celValue n) i = celStep (celValue m) i
    exact celStep_congr (celValue_shrinks n) (fun j hj => celValue_fuel n m j (by omega) (by omega))

/-- The parser satisfies the recursion of the code, without any bound. -/
theorem celParse_eq (i : List Char) : celParse i = celStep celParse i := by
  show celStep (celValue i.length) i = _
  exact celStep_congr (celValue_shrinks _) (fun j hj => celValue_fuel _ _ _ (by omega) (by omega))

theorem celParse_shrinks : Shrinks celParse := fun i r v h => celValue_shrinks _ i r v h

/-! ## What the parser does on printed values -/

theorem skipWs_cons {c : Char} (h : isSpaceChar c = false) (r : List Char) : skipWs (c :: r) = c :: r := by
  simp [skipWs, List.dropWhile_cons, h]

theorem wsChar_self {c : Char} (h : isSpaceChar c = false) (r : List Char) : wsChar c (c :: r) = some r := by
  simp [wsChar, skipWs_cons h]

theorem wsChar_ne {c d : Char} (h : isSpaceChar c = false) (hd : c ≠ d) (r : List Char) : wsChar d (c :: r) = none := by
  simp [wsChar, skipWs_cons h, hd]

theorem takeWhile_stop {p : Char → Bool} {n : List Char} (hn : ∀ c ∈ n, p c = true) {d : Char} (hd : p d = false)
    (r : List Char) : (n ++ d :: r).takeWhile p = n ∧ (n ++ d :: r).dropWhile p = d :: r := by
  induction n with
  | nil => simp [List.takeWhile_cons, List.dropWhile_cons, hd]
  | cons c n ih =>
    have h1 := hn c (by simp)
    have h2 := ih (fun x hx => hn x (by simp [hx]))
    simp [List.takeWhile_cons, List.dropWhile_cons, h1, h2]

theorem ident_stop {n : List Char} (hn : ∀ c ∈ n, identChar c = true) {d : Char} (hd : identChar d = false)
    (r : List Char) : ident (n ++ d :: r) = (n, d :: r) := by
  have := takeWhile_stop hn hd r
  simp [ident, this]

/-- `t` is read as the value `v` whatever follows it. -/
def Reads {α : Type} (p : List Char → PRes α) (t : List Char) (v : α) : Prop := ∀ rest, p (t ++ rest) = .ok rest v

theorem identChar_not_space {c : Char} (h : identChar c = true) : isSpaceChar c = false := by
  by_contra hc
  simp only [Bool.not_eq_false, isSpaceChar, Bool.or_eq_true, beq_iff_eq] at hc
  rcases hc with ((rfl | rfl) | rfl) | rfl <;> revert h <;> decide

theorem skipWs_ident {n : List Char} (hn : ∀ c ∈ n, identChar c = true) {d : Char} (hd : isSpaceChar d = false)
    (r : List Char) : skipWs (n ++ d :: r) = n ++ d :: r := by
  cases n with
  | nil => exact skipWs_cons hd r
  | cons c n => exact skipWs_cons (identChar_not_space (hn c (by simp))) _

theorem sepLoop_reads {α : Type} {p : List Char → PRes α} {c : Char} (hc : isSpaceChar c = false) (hc' : c ≠ ',') :
    ∀ (l : List (List Char × α)) (n : Nat) (rest : List Char), (∀ x ∈ l, Reads p x.1 x.2) →
      ((l.flatMap (fun x => ',' :: x.1)) ++ c :: rest).length < n →
      sepLoop p n ((l.flatMap (fun x => ',' :: x.1)) ++ c :: rest) = .ok (c :: rest) (l.map Prod.snd)
  | [], 0, _, _, h => by simp at h
  | [], n + 1, rest, _, _ => by simp [sepLoop, wsChar_ne hc hc']
  | x :: l, 0, _, _, h => by simp at h
  | x :: l, n + 1, rest, hl, h => by
    have e : (((x :: l).flatMap (fun x => ',' :: x.1)) ++ c :: rest) =
        ',' :: (x.1 ++ ((l.flatMap (fun x => ',' :: x.1)) ++ c :: rest)) := by simp
    rw [e] at h ⊢
    have ih := sepLoop_reads hc hc' l n rest (fun y hy => hl y (by simp [hy])) (by
      simp only [List.length_cons, List.length_append] at h ⊢; omega)
    rw [sepLoop, wsChar_self (by decide)]
    simp only
    rw [hl x (by simp)]
    simp only
    rw [ih]
    simp

/-- Texts joined by commas. -/
def commaJoin (ts : List (List Char)) : List Char := [','].intercalate ts

theorem commaJoin_cons (t : List Char) (ts : List (List Char)) :
    commaJoin (t :: ts) = t ++ ts.flatMap (fun x => ',' :: x) := by
  unfold commaJoin
  induction ts generalizing t with
  | nil => simp
  | cons u ts ih => rw [List.intercalate_cons_cons]; simp [ih]

theorem sepList_reads {α : Type} {p : List Char → PRes α} {c : Char} (hc : isSpaceChar c = false) (hc' : c ≠ ',')
    {l : List (List Char × α)} (hl : ∀ x ∈ l, Reads p x.1 x.2) {rest : List Char} (he : p (c :: rest) = .err) :
    sepList p (commaJoin (l.map Prod.fst) ++ c :: rest) = .ok (c :: rest) (l.map Prod.snd) := by
  cases l with
  | nil => simp [sepList, commaJoin, List.intercalate, he]
  | cons x l =>
    have e : commaJoin ((x :: l).map Prod.fst) ++ c :: rest =
        x.1 ++ ((l.flatMap (fun x => ',' :: x.1)) ++ c :: rest) := by
      rw [List.map_cons, commaJoin_cons]; simp [List.flatMap_map]
    rw [e, sepList, hl x (by simp)]
    simp only
    rw [sepLoop_reads hc hc' l _ rest (fun y hy => hl y (by simp [hy])) (by omega)]
    simp

theorem dropSep_reads {α : Type} {o c : Char} {p : List Char → PRes α} {t rest : List Char} {v : α}
    (ho : isSpaceChar o = false) (hc : isSpaceChar c = false) (h : p (t ++ c :: rest) = .ok (c :: rest) v) :
    dropSep o c p (o :: t ++ c :: rest) = .ok rest v := by
  have : o :: t ++ c :: rest = o :: (t ++ c :: rest) := by simp
  rw [this, dropSep, wsChar_self ho]
  simp only
  rw [h]
  simp only
  rw [wsChar_self hc]

theorem dropSep_err {α : Type} {o c d : Char} {p : List Char → PRes α} {r : List Char} (hd : isSpaceChar d = false)
    (h : d ≠ o) : dropSep o c p (d :: r) = .err := by
  simp [dropSep, wsChar_ne hd h]

theorem celObject_err {p : List Char → PRes CelValue} {d : Char} {n r : List Char}
    (hn : ∀ c ∈ n, identChar c = true) (hi : identChar d = false) (hd : isSpaceChar d = false) (h : d ≠ '{') :
    celObject p (n ++ d :: r) = .err := by
  simp [celObject, ident_stop hn hi, dropSep_err hd h, PRes.map]

theorem celFunction_err {p : List Char → PRes CelValue} {d : Char} {n r : List Char}
    (hn : ∀ c ∈ n, identChar c = true) (hi : identChar d = false) (hd : isSpaceChar d = false) (h : d ≠ '(') :
    celFunction p (n ++ d :: r) = .err := by
  simp [celFunction, ident_stop hn hi, dropSep_err hd h, PRes.map]

theorem celArray_err {p : List Char → PRes CelValue} {d : Char} {r : List Char}
    (hd : isSpaceChar d = false) (h : d ≠ '[') : celArray p (d :: r) = .err := by
  simp [celArray, dropSep_err hd h, PRes.map]

theorem reads_string {s : List Char} (hs : ∀ c ∈ s, strChar c = true) :
    Reads celParse ('"' :: s ++ ['"']) (.string s) := by
  intro rest
  have e : '"' :: s ++ ['"'] ++ rest = '"' :: s ++ '"' :: rest := by simp
  rw [e, celParse_eq, celStep]
  have hsk : skipWs ('"' :: s ++ '"' :: rest) = '"' :: s ++ '"' :: rest := skipWs_cons (by decide) _
  rw [hsk]
  have h0 : ∀ r, celObject celParse ('"' :: r) = .err := fun r =>
    celObject_err (n := []) (by simp) (by decide) (by decide) (by decide)
  have h1 : ∀ r, celFunction celParse ('"' :: r) = .err := fun r =>
    celFunction_err (n := []) (by simp) (by decide) (by decide) (by decide)
  have h2 : ∀ r, celArray celParse ('"' :: r) = .err := fun r => celArray_err (by decide) (by decide)
  simp only [List.cons_append, h0, h1, h2]
  have h3 := takeWhile_stop hs (d := '"') (by decide) rest
  have h4 : dropSep '"' '"' parseStr ('"' :: s ++ '"' :: rest) = .ok rest s :=
    dropSep_reads (by decide) (by decide) (by simp [parseStr, h3])
  simp only [List.cons_append] at h4
  simp [celString, h4, PRes.map]

theorem celParse_close {d : Char} (hi : identChar d = false) (hd : isSpaceChar d = false) (h1 : d ≠ '{')
    (h2 : d ≠ '(') (h3 : d ≠ '[') (h4 : d ≠ '"') (r : List Char) : celParse (d :: r) = .err := by
  rw [celParse_eq, celStep]
  rw [skipWs_cons hd]
  have e1 := celObject_err (p := celParse) (n := []) (r := r) (by simp) hi hd h1
  have e2 := celFunction_err (p := celParse) (n := []) (r := r) (by simp) hi hd h2
  simp only [List.nil_append] at e1 e2
  simp [e1, e2, celArray_err hd h3, celString, dropSep_err hd h4, PRes.map]

theorem reads_array {l : List (List Char × CelValue)} (hl : ∀ x ∈ l, Reads celParse x.1 x.2) :
    Reads celParse ('[' :: commaJoin (l.map Prod.fst) ++ [']']) (.array (l.map Prod.snd)) := by
  intro rest
  have e : '[' :: commaJoin (l.map Prod.fst) ++ [']'] ++ rest = '[' :: commaJoin (l.map Prod.fst) ++ ']' :: rest := by
    simp
  rw [e, celParse_eq, celStep]
  have hsk : skipWs ('[' :: commaJoin (l.map Prod.fst) ++ ']' :: rest) =
    '[' :: commaJoin (l.map Prod.fst) ++ ']' :: rest := skipWs_cons (by decide) _
  rw [hsk]
  have h0 : ∀ r, celObject celParse ('[' :: r) = .err := fun r =>
    celObject_err (n := []) (by simp) (by decide) (by decide) (by decide)
  have h1 : ∀ r, celFunction celParse ('[' :: r) = .err := fun r =>
    celFunction_err (n := []) (by simp) (by decide) (by decide) (by decide)
  have h4 : dropSep '[' ']' (sepList celParse) ('[' :: commaJoin (l.map Prod.fst) ++ ']' :: rest) =
      .ok rest (l.map Prod.snd) :=
    dropSep_reads (by decide) (by decide) (sepList_reads (by decide) (by decide) hl
      (celParse_close (by decide) (by decide) (by decide) (by decide) (by decide) (by decide) _))
  simp only [List.cons_append] at h4 ⊢
  simp [h0, h1, celArray, h4, PRes.map]

theorem reads_function {n : List Char} (hn : ∀ c ∈ n, identChar c = true) {l : List (List Char × CelValue)}
    (hl : ∀ x ∈ l, Reads celParse x.1 x.2) :
    Reads celParse (n ++ '(' :: commaJoin (l.map Prod.fst) ++ [')']) (.function n (l.map Prod.snd)) := by
  intro rest
  have e : n ++ '(' :: commaJoin (l.map Prod.fst) ++ [')'] ++ rest =
      n ++ '(' :: (commaJoin (l.map Prod.fst) ++ ')' :: rest) := by simp
  rw [e, celParse_eq, celStep]
  rw [skipWs_ident hn (by decide)]
  have h4 : dropSep '(' ')' (sepList celParse) ('(' :: commaJoin (l.map Prod.fst) ++ ')' :: rest) =
      .ok rest (l.map Prod.snd) :=
    dropSep_reads (by decide) (by decide) (sepList_reads (by decide) (by decide) hl
      (celParse_close (by decide) (by decide) (by decide) (by decide) (by decide) (by decide) _))
  simp only [List.cons_append] at h4
  rw [celObject_err hn (by decide) (by decide) (by decide)]
  simp [celFunction, ident_stop hn (show identChar '(' = false by decide), h4, PRes.map]

theorem reads_keyValue {k t : List Char} {v : CelValue} (hk : ∀ c ∈ k, identChar c = true) (hv : Reads celParse t v) :
    Reads (keyValue celParse) (k ++ ':' :: t) (k, v) := by
  intro rest
  have e : k ++ ':' :: t ++ rest = k ++ ':' :: (t ++ rest) := by simp
  rw [e, keyValue]
  simp only
  rw [skipWs_ident hk (by decide), ident_stop hk (by decide), wsChar_self (by decide)]
  simp only
  rw [hv]
  rfl

theorem reads_object {n : List Char} (hn : ∀ c ∈ n, identChar c = true)
    {l : List (List Char × (List Char × CelValue))} (hl : ∀ x ∈ l, Reads (keyValue celParse) x.1 x.2) :
    Reads celParse (n ++ '{' :: commaJoin (l.map Prod.fst) ++ ['}']) (.object n (l.map Prod.snd)) := by
  intro rest
  have e : n ++ '{' :: commaJoin (l.map Prod.fst) ++ ['}'] ++ rest =
      n ++ '{' :: (commaJoin (l.map Prod.fst) ++ '}' :: rest) := by simp
  rw [e, celParse_eq, celStep]
  rw [skipWs_ident hn (by decide)]
  have hcl : keyValue celParse ('}' :: rest) = .err := by
    have h1 : ident ('}' :: rest) = ([], '}' :: rest) := ident_stop (n := []) (by simp) (by decide) rest
    simp [keyValue, skipWs_cons (show isSpaceChar '}' = false by decide), h1,
      wsChar_ne (show isSpaceChar '}' = false by decide) (show '}' ≠ ':' by decide)]
  have h4 : dropSep '{' '}' (sepList (keyValue celParse)) ('{' :: commaJoin (l.map Prod.fst) ++ '}' :: rest) =
      .ok rest (l.map Prod.snd) :=
    dropSep_reads (by decide) (by decide) (sepList_reads (by decide) (by decide) hl hcl)
  simp only [List.cons_append] at h4
  simp [celObject, ident_stop hn (show identChar '{' = false by decide), h4, PRes.map]

/-! ## Every string the parser returns consists of string characters -/

/-- Every string inside the value consists of `strChar`s. -/
inductive CelValue.Good : CelValue → Prop
  | string {s} : (∀ c ∈ s, strChar c = true) → Good (.string s)
  | array {vs} : (∀ v ∈ vs, Good v) → Good (.array vs)
  | object {n fs} : (∀ f ∈ fs, Good (Prod.snd f)) → Good (.object n fs)
  | function {n vs} : (∀ v ∈ vs, Good v) → Good (.function n vs)

theorem sepLoop_all {α : Type} {p : List Char → PRes α} {P : α → Prop} (hp : ∀ i r v, p i = .ok r v → P v) :
    ∀ (n : Nat) (i r : List Char) (vs : List α), sepLoop p n i = .ok r vs → ∀ v ∈ vs, P v
  | 0, _, _, _, h => by simp [sepLoop] at h
  | n + 1, i, r, vs, h => by
    unfold sepLoop at h
    cases hw : wsChar ',' i with
    | none => simp [hw] at h; simp [h.2]
    | some i1 =>
      simp only [hw] at h
      cases hv : p i1 with
      | err => simp [hv] at h; simp [h.2]
      | fail => simp [hv] at h
      | crash => simp [hv] at h
      | ok i2 v =>
        simp only [hv] at h
        cases hs : sepLoop p n i2 with
        | err => simp [hs] at h
        | fail => simp [hs] at h
        | crash => simp [hs] at h
        | ok r' vs' =>
          have ih := sepLoop_all hp n _ _ _ hs
          simp [hs] at h
          rw [← h.2]
          intro w hw
          rcases List.mem_cons.1 hw with rfl | hw
          · exact hp _ _ _ hv
          · exact ih w hw

theorem sepList_all {α : Type} {p : List Char → PRes α} {P : α → Prop} (hp : ∀ i r v, p i = .ok r v → P v)
    {i r : List Char} {vs : List α} (h : sepList p i = .ok r vs) : ∀ v ∈ vs, P v := by
  unfold sepList at h
  cases hv : p i with
  | err => simp [hv] at h; simp [h.2]
  | fail => simp [hv] at h
  | crash => simp [hv] at h
  | ok i1 v =>
    simp only [hv] at h
    cases hs : sepLoop p (i1.length + 1) i1 with
    | err => simp [hs] at h
    | fail => simp [hs] at h
    | crash => simp [hs] at h
    | ok r' vs' =>
      have ih := sepLoop_all hp _ _ _ _ hs
      simp [hs] at h
      rw [← h.2]
      intro w hw
      rcases List.mem_cons.1 hw with rfl | hw
      · exact hp _ _ _ hv
      · exact ih w hw

theorem dropSep_all {α : Type} {o c : Char} {p : List Char → PRes α} {P : α → Prop}
    (hp : ∀ i r v, p i = .ok r v → P v) {i r : List Char} {v : α} (h : dropSep o c p i = .ok r v) : P v := by
  unfold dropSep at h
  cases hw : wsChar o i with
  | none => simp [hw] at h
  | some i1 =>
    simp only [hw] at h
    cases hv : p i1 with
    | err => simp [hv] at h
    | fail => simp [hv] at h
    | crash => simp [hv] at h
    | ok i2 v' =>
      simp only [hv] at h
      cases hc : wsChar c i2 with
      | none => simp [hc] at h
      | some i3 => simp [hc] at h; rw [← h.2]; exact hp _ _ _ hv

theorem celStep_good {p : List Char → PRes CelValue} (hp : ∀ i r v, p i = .ok r v → v.Good) {i r : List Char}
    {v : CelValue} (h : celStep p i = .ok r v) : v.Good := by
  unfold celStep at h
  simp only at h
  have hkv : ∀ i r v, keyValue p i = .ok r v → v.2.Good := by
    intro i r v h
    unfold keyValue at h
    simp only at h
    split at h
    · simp at h
    · obtain ⟨w, h1, rfl⟩ := map_ok h
      exact hp _ _ _ h1
  split at h
  · split at h
    · split at h
      · obtain ⟨s, h1, rfl⟩ := map_ok h
        refine .string (dropSep_all (P := fun s => ∀ c ∈ s, strChar c = true) ?_ h1)
        intro i r v h c hc
        simp only [parseStr, PRes.ok.injEq] at h
        rw [← h.2] at hc
        exact List.all_eq_true.1 List.all_takeWhile c hc
      · obtain ⟨s, h1, rfl⟩ := map_ok h
        exact .array (dropSep_all (P := fun s => ∀ c ∈ s, CelValue.Good c) (fun i r v h => sepList_all hp h) h1)
    · obtain ⟨s, h1, rfl⟩ := map_ok h
      exact .function (dropSep_all (P := fun s => ∀ c ∈ s, CelValue.Good c) (fun i r v h => sepList_all hp h) h1)
  · obtain ⟨s, h1, rfl⟩ := map_ok h
    exact .object (dropSep_all (P := fun (s : List (List Char × CelValue)) => ∀ c ∈ s, CelValue.Good c.2)
      (fun i r v h => sepList_all hkv h) h1)

theorem celValue_good : ∀ (n : Nat) (i r : List Char) (v : CelValue), celValue n i = .ok r v → v.Good
  | 0, _, _, _, h => by simp [celValue] at h
  | n + 1, i, r, v, h => celStep_good (celValue_good n) h

theorem celParse_good {i r : List Char} {v : CelValue} (h : celParse i = .ok r v) : v.Good := celValue_good _ _ _ _ h

end Verif

namespace Verif

/-! ## A larger stack changes nothing but crashes -/

/-- Where the first parser returns, the second does the same. -/
def Extends {α : Type} (p q : List Char → PRes α) : Prop := ∀ i, p i ≠ .crash → q i = p i

theorem dropSep_extends {α : Type} {o c : Char} {p q : List Char → PRes α} (h : Extends p q) :
    Extends (dropSep o c p) (dropSep o c q) := by
  intro i hi
  unfold dropSep at hi ⊢
  cases hw : wsChar o i with
  | none => rfl
  | some i1 =>
    simp only [hw] at hi ⊢
    have : p i1 ≠ .crash := by intro hc; rw [hc] at hi; simp at hi
    rw [h i1 this]

theorem sepLoop_extends {α : Type} {p q : List Char → PRes α} (h : Extends p q) :
    ∀ n, Extends (sepLoop p n) (sepLoop q n)
  | 0 => fun _ _ => rfl
  | n + 1 => by
    intro i hi
    unfold sepLoop at hi ⊢
    cases hw : wsChar ',' i with
    | none => rfl
    | some i1 =>
      simp only [hw] at hi ⊢
      have h1 : p i1 ≠ .crash := by intro hc; rw [hc] at hi; simp at hi
      rw [h i1 h1]
      cases hv : p i1 with
      | err => rfl
      | fail => rfl
      | crash => rfl
      | ok i2 v =>
        simp only [hv] at hi ⊢
        have h2 : sepLoop p n i2 ≠ .crash := by intro hc; rw [hc] at hi; simp at hi
        rw [sepLoop_extends h n i2 h2]

theorem sepList_extends {α : Type} {p q : List Char → PRes α} (h : Extends p q) : Extends (sepList p) (sepList q) := by
  intro i hi
  unfold sepList at hi ⊢
  have h1 : p i ≠ .crash := by intro hc; rw [hc] at hi; simp at hi
  rw [h i h1]
  cases hv : p i with
  | err => rfl
  | fail => rfl
  | crash => rfl
  | ok i2 v =>
    simp only [hv] at hi ⊢
    have h2 : sepLoop p (i2.length + 1) i2 ≠ .crash := by intro hc; rw [hc] at hi; simp at hi
    rw [sepLoop_extends h _ i2 h2]

theorem map_ne_crash {α β : Type} {f : α → β} {x : PRes α} (h : x.map f ≠ .crash) : x ≠ .crash := by
  rintro rfl; exact h rfl

theorem keyValue_extends {p q : List Char → PRes CelValue} (h : Extends p q) : Extends (keyValue p) (keyValue q) := by
  intro i hi
  unfold keyValue at hi ⊢
  simp only at hi ⊢
  cases hw : wsChar ':' (ident (skipWs i)).2 with
  | none => rfl
  | some i2 =>
    simp only [hw] at hi ⊢
    rw [h i2 (map_ne_crash hi)]

theorem celStep_extends {p q : List Char → PRes CelValue} (h : Extends p q) : Extends (celStep p) (celStep q) := by
  have ho : Extends (celObject p) (celObject q) := by
    intro i hi
    unfold celObject at hi ⊢
    simp only at hi ⊢
    rw [dropSep_extends (sepList_extends (keyValue_extends h)) _ (map_ne_crash hi)]
  have hf : Extends (celFunction p) (celFunction q) := by
    intro i hi
    unfold celFunction at hi ⊢
    simp only at hi ⊢
    rw [dropSep_extends (sepList_extends h) _ (map_ne_crash hi)]
  have ha : Extends (celArray p) (celArray q) := by
    intro i hi
    unfold celArray at hi ⊢
    rw [dropSep_extends (sepList_extends h) _ (map_ne_crash hi)]
  intro i hi
  unfold celStep at hi ⊢
  simp only at hi ⊢
  generalize skipWs i = j at hi ⊢
  have h1 : celObject p j ≠ .crash := by intro hc; rw [hc] at hi; simp at hi
  rw [ho j h1]
  cases e1 : celObject p j with
  | ok r v => rfl
  | fail => rfl
  | crash => rfl
  | err =>
    simp only [e1] at hi ⊢
    have h2 : celFunction p j ≠ .crash := by intro hc; rw [hc] at hi; simp at hi
    rw [hf j h2]
    cases e2 : celFunction p j with
    | ok r v => rfl
    | fail => rfl
    | crash => rfl
    | err =>
      simp only [e2] at hi ⊢
      have h3 : celArray p j ≠ .crash := by intro hc; rw [hc] at hi; simp at hi
      rw [ha j h3]

theorem celValue_extends : ∀ (n k : Nat), Extends (celValue n) (celValue (n + k))
  | 0, _ => fun i h => absurd rfl h
  | n + 1, k => by
    rw [show n + 1 + k = (n + k) + 1 by omega]
    exact celStep_extends (celValue_extends n k)

theorem sepLoop_crash {α : Type} {p : List Char → PRes α} (hp : Shrinks p) : ∀ (n : Nat) (i : List Char), sepLoop p n i = .crash →
    ∃ j, j.length < i.length ∧ p j = .crash
  | 0, _, h => by simp [sepLoop] at h
  | n + 1, i, h => by
    unfold sepLoop at h
    cases hw : wsChar ',' i with
    | none => simp [hw] at h
    | some i1 =>
      simp only [hw] at h
      have h1 := wsChar_length hw
      cases hv : p i1 with
      | err => simp [hv] at h
      | fail => simp [hv] at h
      | crash => exact ⟨i1, h1, hv⟩
      | ok i2 v =>
        have h2 := hp _ _ _ hv
        simp only [hv] at h
        cases hs : sepLoop p n i2 with
        | err => simp [hs] at h
        | fail => simp [hs] at h
        | ok _ _ => simp [hs] at h
        | crash =>
          obtain ⟨j, hj, hc⟩ := sepLoop_crash hp n i2 hs
          exact ⟨j, by omega, hc⟩

theorem sepList_crash {α : Type} {p : List Char → PRes α} (hp : Shrinks p) {i : List Char} (h : sepList p i = .crash) :
    ∃ j, j.length ≤ i.length ∧ p j = .crash := by
  unfold sepList at h
  cases hv : p i with
  | err => simp [hv] at h
  | fail => simp [hv] at h
  | crash => exact ⟨i, le_rfl, hv⟩
  | ok i2 v =>
    have h2 := hp _ _ _ hv
    simp only [hv] at h
    cases hs : sepLoop p (i2.length + 1) i2 with
    | err => simp [hs] at h
    | fail => simp [hs] at h
    | ok _ _ => simp [hs] at h
    | crash =>
      obtain ⟨j, hj, hc⟩ := sepLoop_crash hp _ i2 hs
      exact ⟨j, by omega, hc⟩

theorem dropSep_crash {α : Type} {o c : Char} {p : List Char → PRes α} {i : List Char} (h : dropSep o c p i = .crash) :
    ∃ j, j.length < i.length ∧ p j = .crash := by
  unfold dropSep at h
  cases hw : wsChar o i with
  | none => simp [hw] at h
  | some i1 =>
    simp only [hw] at h
    have h1 := wsChar_length hw
    cases hv : p i1 with
    | err => simp [hv] at h
    | fail => simp [hv] at h
    | crash => exact ⟨i1, h1, hv⟩
    | ok i2 v =>
      simp only [hv] at h
      cases hc : wsChar c i2 <;> simp [hc] at h

theorem map_crash {α β : Type} {f : α → β} {x : PRes α} (h : x.map f = .crash) : x = .crash := by
  cases x <;> simp [PRes.map] at h ⊢

theorem keyValue_crash {p : List Char → PRes CelValue} {i : List Char} (h : keyValue p i = .crash) :
    ∃ j, j.length < i.length ∧ p j = .crash := by
  unfold keyValue at h
  simp only at h
  cases hw : wsChar ':' (ident (skipWs i)).2 with
  | none => simp [hw] at h
  | some i2 =>
    have h1 := wsChar_length hw
    have h2 := ident_length (skipWs i)
    have h3 := skipWs_length i
    simp only [hw] at h
    exact ⟨i2, by omega, map_crash h⟩

theorem celStep_crash {p : List Char → PRes CelValue} (hp : Shrinks p) {i : List Char} (h : celStep p i = .crash) :
    ∃ j, j.length < i.length ∧ p j = .crash := by
  have hsk := skipWs_length i
  have hid := ident_length (skipWs i)
  unfold celStep at h
  simp only at h
  generalize skipWs i = s at h hsk hid
  have hobj : celObject p s = .crash → ∃ j, j.length < i.length ∧ p j = .crash := by
    intro h
    obtain ⟨j, hj, hc⟩ := dropSep_crash (map_crash h)
    obtain ⟨k, hk, hc⟩ := sepList_crash (keyValue_shrinks hp) hc
    obtain ⟨l, hl, hc⟩ := keyValue_crash hc
    simp only [ident] at hid hj
    exact ⟨l, by omega, hc⟩
  have hfun : celFunction p s = .crash → ∃ j, j.length < i.length ∧ p j = .crash := by
    intro h
    obtain ⟨j, hj, hc⟩ := dropSep_crash (map_crash h)
    obtain ⟨k, hk, hc⟩ := sepList_crash hp hc
    simp only [ident] at hid hj
    exact ⟨k, by omega, hc⟩
  have harr : celArray p s = .crash → ∃ j, j.length < i.length ∧ p j = .crash := by
    intro h
    obtain ⟨j, hj, hc⟩ := dropSep_crash (map_crash h)
    obtain ⟨k, hk, hc⟩ := sepList_crash hp hc
    exact ⟨k, by omega, hc⟩
  have hstr : (celString s).map CelValue.string = .crash → ∃ j, j.length < i.length ∧ p j = .crash := by
    intro h
    obtain ⟨j, hj, hc⟩ := dropSep_crash (map_crash h)
    simp [parseStr] at hc
  split at h
  · split at h
    · split at h
      · exact hstr h
      · exact harr h
    · exact hfun h
  · exact hobj h

theorem celValue_no_crash : ∀ (n : Nat) (i : List Char), i.length < n → celValue n i ≠ .crash
  | 0, _, h => by omega
  | n + 1, i, h => by
    intro hc
    obtain ⟨j, hj, hc⟩ := celStep_crash (celValue_shrinks n) hc
    exact celValue_no_crash n j (by omega) hc

theorem celParse_no_crash (i : List Char) : celParse i ≠ .crash := celValue_no_crash _ i (by omega)

theorem celValue_eq_celParse {n : Nat} {i : List Char} (h : celValue n i ≠ .crash) : celValue n i = celParse i := by
  by_cases hn : n ≤ i.length + 1
  · obtain ⟨k, hk⟩ := Nat.exists_eq_add_of_le hn
    unfold celParse
    rw [hk, celValue_extends n k i h]
  · exact celValue_fuel _ _ _ (by omega) (by omega)

/-- Where it returns, the result is that with a sufficient stack. -/
theorem parseCelOn_some {n : Nat} {b : Bytes} {r : Except CelError CelExpr} (h : parseCelOn n b = some r) : parseCel b = r := by
  unfold parseCelOn at h
  unfold parseCel
  cases hc : chars b with
  | none => simpa [hc] using h
  | some cs =>
    simp only [hc] at h ⊢
    by_cases hcr : celValue n cs = .crash
    · simp [hcr] at h
    · rw [celValue_eq_celParse hcr] at h
      cases hp : celParse cs with
      | crash => simp [hp] at h
      | ok _ v => simpa [hp] using h
      | err => simpa [hp] using h
      | fail => simpa [hp] using h

theorem parseCelOn_or {n : Nat} {b : Bytes} : parseCelOn n b = none ∨ parseCelOn n b = some (parseCel b) := by
  cases h : parseCelOn n b with
  | none => left; rfl
  | some r => right; rw [parseCelOn_some h]

end Verif
