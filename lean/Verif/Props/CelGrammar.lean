import Verif.Spec.CelGrammar
import Verif.Lemmas.Header
import Verif.Lemmas.Utf8
import Verif.Props.Cel

set_option linter.unusedSimpArgs false
set_option linter.unusedSectionVars false

/-!
# C78: certification expressions are read by a grammar
-/

namespace Verif.Props
open Verif CelGrammar

theorem blank_iff (w : List Char) : Blank w ↔ ∀ c ∈ w, isSpaceChar c = true := by
  unfold Blank isSpaceChar
  simp [or_assoc]

theorem alnum_iff (c : Char) : alnum c = true ↔ LetterOrDigit c := by
  unfold alnum LetterOrDigit
  simp only [Bool.or_eq_true, Bool.and_eq_true, decide_eq_true_eq]
  constructor
  · intro h
    have hlt : c.toNat % 256 < 256 := Nat.mod_lt _ (by omega)
    have hv : (c.toNat % 256).isValidChar := by left; omega
    have e := ofNat_toNat hv
    refine ⟨Char.ofNat (c.toNat % 256), e.symm, ?_⟩
    have hle : ∀ a b : Char, a ≤ b ↔ a.toNat ≤ b.toNat := by
      intro a b; rw [Char.le_def, UInt32.le_iff_toNat_le]; rfl
    rw [hle, hle, hle, hle, hle, hle, e]
    rcases h with (h | h) | h
    · left; exact h
    · right; left; exact h
    · right; right; exact h
  · rintro ⟨d, h, h2⟩
    rw [h]
    simp only [Char.le_def, UInt32.le_iff_toNat_le] at h2
    rcases h2 with h2 | h2 | h2
    · left; left; exact h2
    · left; right; exact h2
    · right; exact h2

theorem name_iff (n : List Char) : Name n ↔ ∀ c ∈ n, identChar c = true := by
  unfold Name identChar; simp [alnum_iff]

theorem stringText_iff (n : List Char) : StringText n ↔ ∀ c ∈ n, strChar c = true := by
  unfold StringText strChar; simp [alnum_iff]

/-! ## From the parser to the grammar -/

theorem skipWs_split (i : List Char) : ∃ w, Blank w ∧ i = w ++ skipWs i := by
  obtain ⟨a, h1, h2, _⟩ := dropWhile_split isSpaceChar i
  exact ⟨a, (blank_iff _).2 h2, h1⟩

theorem wsChar_some {c : Char} {i r : List Char} (h : wsChar c i = some r) : ∃ w, Blank w ∧ i = w ++ c :: r := by
  obtain ⟨w, hw, hi⟩ := skipWs_split i
  unfold wsChar at h
  split at h
  · simp at h
  · rename_i d r' hs
    split at h
    · rename_i hd
      simp at h
      rw [hs, hd, h] at hi
      exact ⟨w, hw, hi⟩
    · simp at h

theorem dropSep_ok {α : Type} {o c : Char} {p : List Char → PRes α} {i r : List Char} {v : α} (h : dropSep o c p i = .ok r v) :
    ∃ w x y w', Blank w ∧ i = w ++ o :: x ∧ p x = .ok y v ∧ Blank w' ∧ y = w' ++ c :: r := by
  unfold dropSep at h
  cases h1 : wsChar o i with
  | none => rw [h1] at h; simp at h
  | some x =>
    rw [h1] at h
    simp only at h
    cases h2 : p x with
    | err => rw [h2] at h; simp at h
    | fail => rw [h2] at h; simp at h
    | crash => rw [h2] at h; simp at h
    | ok y u =>
      rw [h2] at h
      simp only at h
      cases h3 : wsChar c y with
      | none => rw [h3] at h; simp at h
      | some z =>
        rw [h3] at h
        simp at h
        obtain ⟨rfl, rfl⟩ := h
        obtain ⟨w, hw, hi⟩ := wsChar_some h1
        obtain ⟨w', hw', hy⟩ := wsChar_some h3
        exact ⟨w, x, y, w', hw, hi, h2, hw', hy⟩

/-- The parser reads only texts of the grammar. -/
def Sound {α : Type} (p : List Char → PRes α) (P : α → List Char → Prop) : Prop :=
  ∀ i r v, p i = .ok r v → ∃ t, i = t ++ r ∧ P v t

theorem sepLoop_sound {α : Type} {p : List Char → PRes α} {P : α → List Char → Prop} (hp : Sound p P) :
    ∀ (n : Nat) (i r : List Char) (xs : List α), sepLoop p n i = .ok r xs →
      (xs = [] ∧ i = r) ∨ (xs ≠ [] ∧ ∃ w u, Blank w ∧ i = w ++ ',' :: (u ++ r) ∧ Separated P xs u) := by
  intro n
  induction n with
  | zero => intro i r xs h; simp [sepLoop] at h
  | succ n ih =>
    intro i r xs h
    rw [sepLoop] at h
    cases h1 : wsChar ',' i with
    | none => rw [h1] at h; simp at h; left; exact ⟨h.2, h.1⟩
    | some x =>
      rw [h1] at h
      simp only at h
      cases h2 : p x with
      | err => rw [h2] at h; simp at h; left; exact ⟨h.2, h.1⟩
      | fail => rw [h2] at h; simp at h
      | crash => rw [h2] at h; simp at h
      | ok y v =>
        rw [h2] at h
        simp only at h
        cases h3 : sepLoop p n y with
        | err => rw [h3] at h; simp at h
        | fail => rw [h3] at h; simp at h
        | crash => rw [h3] at h; simp at h
        | ok z vs =>
          rw [h3] at h
          simp at h
          obtain ⟨rfl, rfl⟩ := h
          obtain ⟨w, hw, rfl⟩ := wsChar_some h1
          obtain ⟨t, rfl, ht⟩ := hp _ _ _ h2
          right
          refine ⟨by simp, w, ?_⟩
          rcases ih _ _ _ h3 with ⟨rfl, rfl⟩ | ⟨hne, w2, u, hw2, rfl, hs⟩
          · exact ⟨t, hw, rfl, .one ht⟩
          · exact ⟨t ++ (w2 ++ ',' :: u), hw, by simp, .more ht hw2 hne hs⟩

theorem sepList_sound {α : Type} {p : List Char → PRes α} {P : α → List Char → Prop} (hp : Sound p P) :
    Sound (sepList p) (Separated P) := by
  intro i r xs h
  unfold sepList at h
  cases h1 : p i with
  | err => rw [h1] at h; simp at h; obtain ⟨rfl, rfl⟩ := h; exact ⟨[], rfl, .none⟩
  | fail => rw [h1] at h; simp at h
  | crash => rw [h1] at h; simp at h
  | ok y v =>
    rw [h1] at h
    simp only at h
    cases h3 : sepLoop p (y.length + 1) y with
    | err => rw [h3] at h; simp at h
    | fail => rw [h3] at h; simp at h
    | crash => rw [h3] at h; simp at h
    | ok z vs =>
      rw [h3] at h
      simp at h
      obtain ⟨rfl, rfl⟩ := h
      obtain ⟨t, rfl, ht⟩ := hp _ _ _ h1
      rcases sepLoop_sound hp _ _ _ _ h3 with ⟨rfl, rfl⟩ | ⟨hne, w2, u, hw2, rfl, hs⟩
      · exact ⟨t, rfl, .one ht⟩
      · exact ⟨t ++ (w2 ++ ',' :: u), by simp, .more ht hw2 hne hs⟩

theorem pres_map_ok {α β : Type} {f : α → β} {x : PRes α} {r : List Char} {b : β} (h : x.map f = .ok r b) :
    ∃ a, x = .ok r a ∧ f a = b := by
  cases x with
  | ok r' a => simp [PRes.map] at h; exact ⟨a, by rw [h.1], h.2⟩
  | err => simp [PRes.map] at h
  | fail => simp [PRes.map] at h
  | crash => simp [PRes.map] at h

theorem ident_split (i : List Char) : Name (ident i).1 ∧ i = (ident i).1 ++ (ident i).2 :=
  ⟨(name_iff _).2 (fun _ h => List.mem_takeWhile_imp h), List.takeWhile_append_dropWhile.symm⟩

theorem keyValue_sound {p : List Char → PRes CelValue} {P : CelValue → List Char → Prop} (hp : Sound p P) :
    Sound (keyValue p) (Field P) := by
  intro i r kv h
  unfold keyValue at h
  obtain ⟨hn, he⟩ := ident_split (skipWs i)
  obtain ⟨w, hw, hi⟩ := skipWs_split i
  cases h1 : wsChar ':' (ident (skipWs i)).2 with
  | none => simp only [h1] at h; simp at h
  | some x =>
    simp only [h1] at h
    obtain ⟨v, h2, rfl⟩ := pres_map_ok h
    obtain ⟨t, rfl, ht⟩ := hp _ _ _ h2
    obtain ⟨w', hw', hx⟩ := wsChar_some h1
    refine ⟨w ++ ((ident (skipWs i)).1 ++ (w' ++ ':' :: t)), ?_, .intro hw hn hw' ht⟩
    conv => lhs; rw [hi, he, hx]
    simp

theorem celStep_sound {p : List Char → PRes CelValue} (hp : Sound p Val) : Sound (celStep p) Val := by
  intro i r v h
  unfold celStep at h
  obtain ⟨w, hw, hi⟩ := skipWs_split i
  generalize hj : skipWs i = j at h hi
  obtain ⟨hn, he⟩ := ident_split j
  have hobj : ∀ r v, celObject p j = .ok r v → ∃ t, i = t ++ r ∧ Val v t := by
    intro r v h
    unfold celObject at h
    obtain ⟨fs, h2, rfl⟩ := pres_map_ok h
    obtain ⟨w1, x, y, w', hw1, hx, h3, hw', rfl⟩ := dropSep_ok h2
    obtain ⟨t, rfl, ht⟩ := sepList_sound (keyValue_sound hp) _ _ _ h3
    refine ⟨_, ?_, .object hw hn hw1 ht hw'⟩
    have hx' : (ident j).2 = _ := hx
    conv => lhs; rw [hi, he, hx']
    simp [ident]
  have hfun : ∀ r v, celFunction p j = .ok r v → ∃ t, i = t ++ r ∧ Val v t := by
    intro r v h
    unfold celFunction at h
    obtain ⟨fs, h2, rfl⟩ := pres_map_ok h
    obtain ⟨w1, x, y, w', hw1, hx, h3, hw', rfl⟩ := dropSep_ok h2
    obtain ⟨t, rfl, ht⟩ := sepList_sound hp _ _ _ h3
    refine ⟨_, ?_, .function hw hn hw1 ht hw'⟩
    have hx' : (ident j).2 = _ := hx
    conv => lhs; rw [hi, he, hx']
    simp [ident]
  have hww : ∀ w1, Blank w1 → Blank (w ++ w1) := by
    intro w1 hw1 c hc
    rcases List.mem_append.1 hc with hc | hc
    · exact hw c hc
    · exact hw1 c hc
  have harr : ∀ r v, celArray p j = .ok r v → ∃ t, i = t ++ r ∧ Val v t := by
    intro r v h
    unfold celArray at h
    obtain ⟨fs, h2, rfl⟩ := pres_map_ok h
    obtain ⟨w1, x, y, w', hw1, hx, h3, hw', rfl⟩ := dropSep_ok h2
    obtain ⟨t, rfl, ht⟩ := sepList_sound hp _ _ _ h3
    refine ⟨_, ?_, .array (hww w1 hw1) ht hw'⟩
    rw [hi, hx]
    simp
  have hstr : ∀ r v, (celString j).map CelValue.string = .ok r v → ∃ t, i = t ++ r ∧ Val v t := by
    intro r v h
    unfold celString at h
    obtain ⟨s, h2, rfl⟩ := pres_map_ok h
    obtain ⟨w1, x, y, w', hw1, hx, h3, hw', hy⟩ := dropSep_ok h2
    unfold parseStr at h3
    simp at h3
    refine ⟨w ++ w1 ++ '"' :: (s ++ (w' ++ ['"'])), ?_, .string (hww w1 hw1) ((stringText_iff _).2 ?_) hw'⟩
    · rw [hi, hx]
      have : x = s ++ (w' ++ '"' :: r) := by
        rw [← hy, ← h3.1, ← h3.2, List.takeWhile_append_dropWhile]
      rw [this]; simp
    · rw [← h3.2]; intro c hc; exact List.mem_takeWhile_imp hc
  simp only at h
  split at h
  · split at h
    · split at h
      · exact hstr r v h
      · exact harr r v h
    · exact hfun r v h
  · exact hobj r v h

theorem celValue_sound : ∀ n, Sound (celValue n) Val := by
  intro n
  induction n with
  | zero => intro i r v h; simp [celValue] at h
  | succ n ih => intro i r v h; exact celStep_sound ih i r v h

/-! ## From the grammar to the parser -/

/-- A character that neither starts a value nor continues a name or a string, and is no blank: closing brackets, and others. -/
def Hard (c : Char) : Prop := isSpaceChar c = false ∧ identChar c = false ∧ strChar c = false

theorem skipWs_blank {w : List Char} (hw : Blank w) (x : List Char) : skipWs (w ++ x) = skipWs x := by
  unfold skipWs
  rw [List.dropWhile_append_of_pos ((blank_iff w).1 hw)]

theorem skipWs_hard {c : Char} (hc : isSpaceChar c = false) (x : List Char) : skipWs (c :: x) = c :: x := by
  simp [skipWs, hc]

theorem wsChar_blank {c : Char} (hc : isSpaceChar c = false) {w : List Char} (hw : Blank w) (x : List Char) :
    wsChar c (w ++ c :: x) = some x := by
  unfold wsChar; rw [skipWs_blank hw, skipWs_hard hc]; simp

theorem wsChar_other {c d : Char} (hd : isSpaceChar d = false) (hne : d ≠ c) {w : List Char} (hw : Blank w) (x : List Char) :
    wsChar c (w ++ d :: x) = none := by
  unfold wsChar; rw [skipWs_blank hw, skipWs_hard hd]; simp [hne]

theorem space_not_ident {c : Char} (h : isSpaceChar c = true) : identChar c = false ∧ strChar c = false := by
  have : c = ' ' ∨ c = '\t' ∨ c = '\r' ∨ c = '\n' := by simpa [isSpaceChar, or_assoc] using h
  rcases this with rfl | rfl | rfl | rfl <;> decide

theorem ident_not_space {c : Char} (h : identChar c = true) : isSpaceChar c = false := by
  cases hs : isSpaceChar c with
  | false => rfl
  | true => rw [(space_not_ident hs).1] at h; simp at h

theorem takeDrop_stop {q : Char → Bool} (hq : ∀ c, isSpaceChar c = true → q c = false) {n w : List Char} {c : Char}
    (hn : ∀ c ∈ n, q c = true) (hw : Blank w) (hc : q c = false) (x : List Char) :
    (n ++ (w ++ c :: x)).takeWhile q = n ∧ (n ++ (w ++ c :: x)).dropWhile q = w ++ c :: x := by
  cases w with
  | nil => exact takeWhile_append_stop hn hc
  | cons d w => exact takeWhile_append_stop hn (hq d ((blank_iff _).1 hw d (by simp)))

theorem ident_name {n w : List Char} {c : Char} (hn : Name n) (hw : Blank w) (hc : identChar c = false) (x : List Char) :
    ident (n ++ (w ++ c :: x)) = (n, w ++ c :: x) := by
  have := takeDrop_stop (fun c h => (space_not_ident h).1) ((name_iff n).1 hn) hw hc x
  unfold ident; rw [this.1, this.2]

theorem blank_nil : Blank [] := by intro c hc; simp at hc

/-- Skipping blanks before a name: blanks after an empty name go as well. -/
theorem skip_name {w n w1 : List Char} {c : Char} (hw : Blank w) (hn : Name n) (hw1 : Blank w1) (hc : isSpaceChar c = false)
    (x : List Char) : ∃ w2, Blank w2 ∧ skipWs (w ++ (n ++ (w1 ++ c :: x))) = n ++ (w2 ++ c :: x) := by
  rw [skipWs_blank hw]
  cases n with
  | nil => exact ⟨[], blank_nil, by simp [skipWs_blank hw1, skipWs_hard hc]⟩
  | cons d n =>
    exact ⟨w1, hw1, by
      rw [List.cons_append, skipWs_hard (ident_not_space ((name_iff _).1 hn d (by simp)))]⟩

theorem separated_length {α : Type} {P : α → List Char → Prop} {xs : List α} {u : List Char} (h : Separated P xs u) :
    xs.length ≤ u.length + 1 := by
  induction h with
  | none => simp
  | one _ => simp
  | more _ _ _ _ ih => simp; omega

theorem sepLoop_complete {α : Type} {p : List Char → PRes α} {P : α → List Char → Prop} {N : Nat}
    (hp : ∀ x t, P x t → t.length ≤ N → ∀ r, p (t ++ r) = .ok r x) {tail : List Char} (htail : wsChar ',' tail = none)
    {xs : List α} {u : List Char} (h : Separated P xs u) : xs ≠ [] → u.length ≤ N → ∀ (w : List Char) (k : Nat), Blank w →
      xs.length + 1 ≤ k → sepLoop p k (w ++ ',' :: (u ++ tail)) = .ok tail xs := by
  induction h with
  | none => intro h; exact absurd rfl h
  | @one x t hx =>
    intro _ hN w k hw hk
    obtain ⟨k, rfl⟩ : ∃ j, k = j + 2 := ⟨k - 2, by simp at hk; omega⟩
    rw [sepLoop, wsChar_blank (by decide) hw]
    simp only
    rw [hp x t hx hN]
    simp only
    rw [sepLoop, htail]
  | @more x t w2 xs u hx hw2 hne _ ih =>
    intro _ hN w k hw hk
    obtain ⟨k, rfl⟩ : ∃ j, k = j + 1 := ⟨k - 1, by simp at hk; omega⟩
    simp at hN
    rw [sepLoop, wsChar_blank (by decide) hw]
    simp only
    rw [List.append_assoc, hp x t hx (by omega)]
    simp only [List.append_assoc, List.cons_append]
    rw [ih hne (by omega) w2 k hw2 (by simp at hk; omega)]

theorem sepList_complete {α : Type} {p : List Char → PRes α} {P : α → List Char → Prop} {N : Nat}
    (hp : ∀ x t, P x t → t.length ≤ N → ∀ r, p (t ++ r) = .ok r x) {tail : List Char} (htail : wsChar ',' tail = none)
    (hstop : p tail = .err) {xs : List α} {u : List Char} (h : Separated P xs u) (hN : u.length ≤ N) :
    sepList p (u ++ tail) = .ok tail xs := by
  cases h with
  | none => simp only [sepList, List.nil_append, hstop]
  | one hx =>
    simp only [sepList, hp _ _ hx hN, sepLoop, htail]
  | @more x t w xs u hx hw hne hs =>
    simp at hN
    have hl := separated_length hs
    simp only [sepList]
    rw [List.append_assoc, hp x t hx (by omega)]
    simp only [List.append_assoc, List.cons_append]
    rw [sepLoop_complete hp htail hs hne (by omega) w _ hw (by simp; omega)]

theorem celStep_closer (p : List Char → PRes CelValue) {c : Char} (hc : c = '}' ∨ c = ')' ∨ c = ']') {w : List Char} (hw : Blank w)
    (x : List Char) : celStep p (w ++ c :: x) = .err ∧ keyValue p (w ++ c :: x) = .err ∧ wsChar ',' (w ++ c :: x) = none := by
  have hs : isSpaceChar c = false := by rcases hc with rfl | rfl | rfl <;> decide
  have hi : identChar c = false := by rcases hc with rfl | rfl | rfl <;> decide
  have hsk : skipWs (w ++ c :: x) = c :: x := by rw [skipWs_blank hw, skipWs_hard hs]
  have hid : ident (c :: x) = ([], c :: x) := by simp [ident, hi]
  have hno : ∀ d, d ≠ '}' → d ≠ ')' → d ≠ ']' → wsChar d (c :: x) = none := by
    intro d h1 h2 h3
    refine wsChar_other hs ?_ blank_nil x
    rcases hc with rfl | rfl | rfl
    · exact h1.symm
    · exact h2.symm
    · exact h3.symm
  refine ⟨?_, ?_, wsChar_other hs (by rcases hc with rfl | rfl | rfl <;> decide) hw x⟩
  · unfold celStep celObject celFunction celArray celString dropSep
    simp only [hsk, hid, hno '{' (by decide) (by decide) (by decide), hno '(' (by decide) (by decide) (by decide),
      hno '[' (by decide) (by decide) (by decide), hno '"' (by decide) (by decide) (by decide), PRes.map]
  · unfold keyValue
    simp only [hsk, hid, hno ':' (by decide) (by decide) (by decide)]

theorem celValue_complete : ∀ (n : Nat) (v : CelValue) (t : List Char), Val v t → t.length < n → ∀ r, celValue n (t ++ r) = .ok r v := by
  intro n
  induction n with
  | zero => intro v t _ h; simp at h
  | succ n ih =>
    intro v t hv hlen r
    rw [celValue]
    have hval : ∀ N, N < n → ∀ x t, Val x t → t.length ≤ N → ∀ r, celValue n (t ++ r) = .ok r x :=
      fun N hN x t hx ht r => ih x t hx (by omega) r
    have hkv : ∀ N, N < n → ∀ x t, Field Val x t → t.length ≤ N → ∀ r, keyValue (celValue n) (t ++ r) = .ok r x := by
      intro N hN x t hx ht r
      cases hx with
      | @intro w k w' v t hw hk hw' hv =>
        simp at ht
        obtain ⟨w2, hw2, he⟩ := skip_name hw hk hw' (c := ':') (by decide) (t ++ r)
        have e : w ++ (k ++ (w' ++ ':' :: t)) ++ r = w ++ (k ++ (w' ++ ':' :: (t ++ r))) := by simp
        unfold keyValue
        rw [e, he]
        simp only [ident_name hk hw2 (show identChar ':' = false by decide), wsChar_blank (show isSpaceChar ':' = false by decide) hw2]
        rw [ih v t hv (by omega)]
        rfl
    have hpos : ∀ x, celStep (celValue (n - 1)) x = celValue n x ∨ n = 0 := by
      intro x
      cases n with
      | zero => right; rfl
      | succ n => left; rfl
    have hstop : 0 < n → ∀ c, (c = '}' ∨ c = ')' ∨ c = ']') → ∀ w, Blank w → ∀ x,
        celValue n (w ++ c :: x) = .err ∧ keyValue (celValue n) (w ++ c :: x) = .err ∧ wsChar ',' (w ++ c :: x) = none := by
      intro hn c hc w hw x
      refine ⟨?_, (celStep_closer (celValue n) hc hw x).2⟩
      rcases hpos (w ++ c :: x) with h | h
      · rw [← h]; exact (celStep_closer _ hc hw x).1
      · omega
    cases hv with
    | @object w nm w1 fs t w' hw hnm hw1 ht hw' =>
      simp at hlen
      obtain ⟨w2, hw2, he⟩ := skip_name hw hnm hw1 (c := '{') (by decide) (t ++ (w' ++ '}' :: r))
      have e : w ++ (nm ++ (w1 ++ '{' :: (t ++ (w' ++ ['}'])))) ++ r = w ++ (nm ++ (w1 ++ '{' :: (t ++ (w' ++ '}' :: r)))) := by simp
      unfold celStep
      rw [e, he]
      have hst := hstop (by omega) '}' (by simp) w' hw' r
      have hl := sepList_complete (hkv t.length (by omega)) hst.2.2 hst.2.1 ht (le_refl _)
      have hob : celObject (celValue n) (nm ++ (w2 ++ '{' :: (t ++ (w' ++ '}' :: r)))) = .ok r (.object nm fs) := by
        unfold celObject dropSep
        simp only [ident_name hnm hw2 (show identChar '{' = false by decide),
          wsChar_blank (show isSpaceChar '{' = false by decide) hw2, hl,
          wsChar_blank (show isSpaceChar '}' = false by decide) hw', PRes.map]
      simp only [hob]
    | @function w nm w1 vs t w' hw hnm hw1 ht hw' =>
      simp at hlen
      obtain ⟨w2, hw2, he⟩ := skip_name hw hnm hw1 (c := '(') (by decide) (t ++ (w' ++ ')' :: r))
      have e : w ++ (nm ++ (w1 ++ '(' :: (t ++ (w' ++ [')'])))) ++ r = w ++ (nm ++ (w1 ++ '(' :: (t ++ (w' ++ ')' :: r)))) := by simp
      unfold celStep
      rw [e, he]
      have hst := hstop (by omega) ')' (by simp) w' hw' r
      have hl := sepList_complete (hval t.length (by omega)) hst.2.2 hst.1 ht (le_refl _)
      have hob : celObject (celValue n) (nm ++ (w2 ++ '(' :: (t ++ (w' ++ ')' :: r)))) = .err := by
        unfold celObject dropSep
        simp only [ident_name hnm hw2 (show identChar '(' = false by decide),
          wsChar_other (show isSpaceChar '(' = false by decide) (show '(' ≠ '{' by decide) hw2, PRes.map]
      have hfu : celFunction (celValue n) (nm ++ (w2 ++ '(' :: (t ++ (w' ++ ')' :: r)))) = .ok r (.function nm vs) := by
        unfold celFunction dropSep
        simp only [ident_name hnm hw2 (show identChar '(' = false by decide),
          wsChar_blank (show isSpaceChar '(' = false by decide) hw2, hl,
          wsChar_blank (show isSpaceChar ')' = false by decide) hw', PRes.map]
      simp only [hob, hfu]
    | @array w vs t w' hw ht hw' =>
      simp at hlen
      have e : w ++ '[' :: (t ++ (w' ++ [']'])) ++ r = w ++ '[' :: (t ++ (w' ++ ']' :: r)) := by simp
      unfold celStep
      rw [e, skipWs_blank hw, skipWs_hard (by decide)]
      have hst := hstop (by omega) ']' (by simp) w' hw' r
      have hl := sepList_complete (hval t.length (by omega)) hst.2.2 hst.1 ht (le_refl _)
      have hid := ident_name (n := []) (w := []) (by intro c hc; simp at hc) blank_nil (show identChar '[' = false by decide)
        (t ++ (w' ++ ']' :: r))
      simp only [List.nil_append] at hid
      have hno : ∀ d, '[' ≠ d → wsChar d ('[' :: (t ++ (w' ++ ']' :: r))) = none := fun d hd =>
        wsChar_other (by decide) hd blank_nil _
      have hob : celObject (celValue n) ('[' :: (t ++ (w' ++ ']' :: r))) = .err := by
        unfold celObject dropSep
        simp only [hid, hno '{' (by decide), PRes.map]
      have hfu : celFunction (celValue n) ('[' :: (t ++ (w' ++ ']' :: r))) = .err := by
        unfold celFunction dropSep
        simp only [hid, hno '(' (by decide), PRes.map]
      have har : celArray (celValue n) ('[' :: (t ++ (w' ++ ']' :: r))) = .ok r (.array vs) := by
        unfold celArray dropSep
        have h1 : wsChar '[' ('[' :: (t ++ (w' ++ ']' :: r))) = some (t ++ (w' ++ ']' :: r)) :=
          wsChar_blank (by decide) blank_nil _
        simp only [h1, hl, wsChar_blank (show isSpaceChar ']' = false by decide) hw', PRes.map]
      simp only [hob, hfu, har]
    | @string w s w' hw hs hw' =>
      have e : w ++ '"' :: (s ++ (w' ++ ['"'])) ++ r = w ++ '"' :: (s ++ (w' ++ '"' :: r)) := by simp
      unfold celStep
      rw [e, skipWs_blank hw, skipWs_hard (by decide)]
      have hid := ident_name (n := []) (w := []) (by intro c hc; simp at hc) blank_nil (show identChar '"' = false by decide)
        (s ++ (w' ++ '"' :: r))
      simp only [List.nil_append] at hid
      have hno : ∀ d, '"' ≠ d → wsChar d ('"' :: (s ++ (w' ++ '"' :: r))) = none := fun d hd =>
        wsChar_other (by decide) hd blank_nil _
      have hob : celObject (celValue n) ('"' :: (s ++ (w' ++ '"' :: r))) = .err := by
        unfold celObject dropSep
        simp only [hid, hno '{' (by decide), PRes.map]
      have hfu : celFunction (celValue n) ('"' :: (s ++ (w' ++ '"' :: r))) = .err := by
        unfold celFunction dropSep
        simp only [hid, hno '(' (by decide), PRes.map]
      have har : celArray (celValue n) ('"' :: (s ++ (w' ++ '"' :: r))) = .err := by
        unfold celArray dropSep
        simp only [hno '[' (by decide), PRes.map]
      have hst : celString ('"' :: (s ++ (w' ++ '"' :: r))) = .ok r s := by
        have h1 : wsChar '"' ('"' :: (s ++ (w' ++ '"' :: r))) = some (s ++ (w' ++ '"' :: r)) :=
          wsChar_blank (by decide) blank_nil _
        have h2 := takeDrop_stop (fun c h => (space_not_ident h).2) ((stringText_iff s).1 hs) hw' (show strChar '"' = false by decide) r
        unfold celString dropSep parseStr
        simp only [h1, h2.1, h2.2, wsChar_blank (show isSpaceChar '"' = false by decide) hw']
      simp only [hob, hfu, har, hst, PRes.map]

/-- C78: the parser reads exactly the texts of the grammar, and leaves exactly the rest. -/
theorem C78_parse (i r : List Char) (v : CelValue) : celParse i = .ok r v ↔ ∃ t, i = t ++ r ∧ Val v t := by
  constructor
  · exact celValue_sound _ i r v
  · rintro ⟨t, rfl, hv⟩
    exact celValue_complete _ v t hv (by simp; omega) r

/-- C78: the grammar is unambiguous: a text begins with at most one value, of one length. -/
theorem C78_unambiguous {t t' r r' : List Char} {v v' : CelValue} (h : Val v t) (h' : Val v' t') (he : t ++ r = t' ++ r') :
    v = v' ∧ t = t' := by
  have h1 := (C78_parse (t ++ r) r v).2 ⟨t, rfl, h⟩
  have h2 := (C78_parse (t ++ r) r' v').2 ⟨t', he, h'⟩
  rw [h1] at h2
  simp at h2
  obtain ⟨rfl, rfl⟩ := h2
  exact ⟨rfl, List.append_cancel_right he⟩

/-- C78: an expression is accepted with a meaning exactly if its text is UTF-8, begins with a value of the grammar, and this value
means it. -/
theorem C78_accepts (b : Bytes) (e : CelExpr) :
    parseCel b = .ok e ↔ ∃ text v, b = utf8 text ∧ Begins text v ∧ Means v e := by
  unfold parseCel
  constructor
  · intro h
    cases hc : chars b with
    | none => rw [hc] at h; simp at h
    | some cs =>
      rw [hc] at h
      simp only at h
      cases hp : celParse cs with
      | err => rw [hp] at h; simp at h
      | fail => rw [hp] at h; simp at h
      | crash => rw [hp] at h; simp at h
      | ok r v =>
        rw [hp] at h
        obtain ⟨t, ht, hv⟩ := (C78_parse _ _ _).1 hp
        exact ⟨cs, v, (utf8_chars hc).symm, ⟨t, r, ht, hv⟩, (C33_accepts_exactly_documented _ _).1 h⟩
  · rintro ⟨text, v, rfl, ⟨t, r, ht, hv⟩, hm⟩
    rw [chars_utf8]
    simp only
    rw [(C78_parse _ _ _).2 ⟨t, ht, hv⟩]
    exact (C33_accepts_exactly_documented _ _).2 hm

/-- C78: what follows the value does not matter. -/
theorem C78_rest (b : Bytes) (e : CelExpr) (h : parseCel b = .ok e) (more : List Char) : parseCel (b ++ utf8 more) = .ok e := by
  obtain ⟨text, v, rfl, ⟨t, r, rfl, hv⟩, hm⟩ := (C78_accepts b e).1 h
  exact (C78_accepts _ _).2 ⟨t ++ r ++ more, v, by simp [utf8_append], ⟨t, r ++ more, by simp, hv⟩, hm⟩

theorem bind_syntax {α β : Type} {x : Except CelError α} {f : α → Except CelError β} (hx : x ≠ .error .syntax)
    (hf : ∀ a, f a ≠ .error .syntax) : (x >>= f) ≠ .error .syntax := by
  cases x with
  | error e => simpa [bind, Except.bind] using hx
  | ok a => exact hf a

theorem stringElems_syntax : ∀ vs, stringElems vs ≠ .error .syntax
  | [] => by simp [stringElems]
  | .string s :: vs => by
    rw [stringElems]
    exact bind_syntax (stringElems_syntax vs) (fun a => by simp [pure, Except.pure])
  | .array _ :: _ => by simp [stringElems]
  | .object _ _ :: _ => by simp [stringElems]
  | .function _ _ :: _ => by simp [stringElems]

theorem validateObject_syntax (v : CelValue) (n : String) : validateObject v n ≠ .error .syntax := by
  unfold validateObject; split
  · split <;> simp
  · simp

theorem validateFunction_syntax (v : CelValue) (n : String) : validateFunction v n ≠ .error .syntax := by
  unfold validateFunction; split
  · split <;> simp
  · simp

theorem validateStringArray_syntax (v : CelValue) : validateStringArray v ≠ .error .syntax := by
  unfold validateStringArray; split
  · exact stringElems_syntax _
  · simp

theorem validateRequest_syntax (c : List (List Char × CelValue)) : validateRequest c ≠ .error .syntax := by
  unfold validateRequest
  split
  · simp
  · simp
  · simp
  · refine bind_syntax (validateObject_syntax _ _) fun r => ?_
    split
    · simp
    · refine bind_syntax (validateStringArray_syntax _) fun hs => ?_
      split
      · simp
      · exact bind_syntax (validateStringArray_syntax _) fun qs => by simp [pure, Except.pure]

theorem responseHeaderList_syntax (r : List (List Char × CelValue)) (k : String) : responseHeaderList r k ≠ .error .syntax := by
  unfold responseHeaderList
  split
  · simp
  · refine bind_syntax (validateObject_syntax _ _) fun o => ?_
    split
    · simp [pure, Except.pure]
    · exact bind_syntax (validateStringArray_syntax _) fun qs => by simp [pure, Except.pure]

theorem validateResponse_syntax (c : List (List Char × CelValue)) : validateResponse c ≠ .error .syntax := by
  unfold validateResponse
  split
  · simp
  · refine bind_syntax (validateObject_syntax _ _) fun r => ?_
    refine bind_syntax (responseHeaderList_syntax _ _) fun a => ?_
    refine bind_syntax (responseHeaderList_syntax _ _) fun b => ?_
    split <;> simp [pure, Except.pure]

theorem mapCelAst_syntax (v : CelValue) : mapCelAst v ≠ .error .syntax := by
  unfold mapCelAst
  refine bind_syntax (validateFunction_syntax _ _) fun args => ?_
  split
  · simp
  · refine bind_syntax (validateObject_syntax _ _) fun a => ?_
    split
    · simp
    · simp
    · simp [pure, Except.pure]
    · refine bind_syntax (validateObject_syntax _ _) fun c => ?_
      refine bind_syntax (validateRequest_syntax _) fun q => ?_
      refine bind_syntax (validateResponse_syntax _) fun p => ?_
      split <;> simp [pure, Except.pure]

/-- C78: it is a syntax error exactly if it is not UTF-8 or does not begin with a value. -/
theorem C78_syntax (b : Bytes) :
    parseCel b = .error .syntax ↔ ∀ text, b = utf8 text → ¬ ∃ v, Begins text v := by
  unfold parseCel
  constructor
  · rintro h text rfl ⟨v, t, r, ht, hv⟩
    rw [chars_utf8] at h
    simp only at h
    rw [(C78_parse _ _ _).2 ⟨t, ht, hv⟩] at h
    exact mapCelAst_syntax v h
  · intro h
    cases hc : chars b with
    | none => rfl
    | some cs =>
      simp only
      cases hp : celParse cs with
      | err => rfl
      | fail => rfl
      | crash => rfl
      | ok r v =>
        obtain ⟨t, ht, hv⟩ := (C78_parse _ _ _).1 hp
        exact absurd ⟨v, t, r, ht, hv⟩ (h cs (utf8_chars hc).symm)

/-! ## The stack -/

theorem sepLoop_deep {α : Type} {p : List Char → PRes α} {P : List Char → Prop} {D : Nat → List Char → Prop} {n : Nat}
    (hp : ∀ i r v, p i = .ok r v → ∃ t, i = t ++ r ∧ P t) (hd : ∀ i, p i = .crash → D n i) :
    ∀ (k : Nat) (i : List Char), sepLoop p k i = .crash → ∃ w u, Blank w ∧ i = w ++ ',' :: u ∧ After P D n u := by
  intro k
  induction k with
  | zero => intro i h; simp [sepLoop] at h
  | succ k ih =>
    intro i h
    rw [sepLoop] at h
    cases h1 : wsChar ',' i with
    | none => rw [h1] at h; simp at h
    | some x =>
      rw [h1] at h
      simp only at h
      obtain ⟨w, hw, rfl⟩ := wsChar_some h1
      refine ⟨w, x, hw, rfl, ?_⟩
      cases h2 : p x with
      | err => rw [h2] at h; simp at h
      | fail => rw [h2] at h; simp at h
      | crash => exact .now (hd _ h2)
      | ok y v =>
        rw [h2] at h
        simp only at h
        obtain ⟨t, rfl, ht⟩ := hp _ _ _ h2
        cases h3 : sepLoop p k y with
        | err => rw [h3] at h; simp at h
        | fail => rw [h3] at h; simp at h
        | ok _ _ => rw [h3] at h; simp at h
        | crash =>
          obtain ⟨w2, u, hw2, rfl, ha⟩ := ih y h3
          exact .item ht hw2 ha

theorem sepList_deep {α : Type} {p : List Char → PRes α} {P : List Char → Prop} {D : Nat → List Char → Prop} {n : Nat}
    (hp : ∀ i r v, p i = .ok r v → ∃ t, i = t ++ r ∧ P t) (hd : ∀ i, p i = .crash → D n i) (i : List Char)
    (h : sepList p i = .crash) : After P D n i := by
  unfold sepList at h
  cases h2 : p i with
  | err => rw [h2] at h; simp at h
  | fail => rw [h2] at h; simp at h
  | crash => exact .now (hd _ h2)
  | ok y v =>
    rw [h2] at h
    simp only at h
    obtain ⟨t, rfl, ht⟩ := hp _ _ _ h2
    cases h3 : sepLoop p (y.length + 1) y with
    | err => rw [h3] at h; simp at h
    | fail => rw [h3] at h; simp at h
    | ok _ _ => rw [h3] at h; simp at h
    | crash =>
      obtain ⟨w2, u, hw2, rfl, ha⟩ := sepLoop_deep hp hd _ y h3
      exact .item ht hw2 ha

theorem dropSep_deep {α : Type} {o c : Char} {p : List Char → PRes α} {i : List Char} (h : dropSep o c p i = .crash) :
    ∃ w x, Blank w ∧ i = w ++ o :: x ∧ p x = .crash := by
  unfold dropSep at h
  cases hw : wsChar o i with
  | none => simp [hw] at h
  | some i1 =>
    simp only [hw] at h
    obtain ⟨w, hb, hi⟩ := wsChar_some hw
    cases hv : p i1 with
    | err => simp [hv] at h
    | fail => simp [hv] at h
    | crash => exact ⟨w, i1, hb, hi, hv⟩
    | ok i2 v =>
      simp only [hv] at h
      cases hc : wsChar c i2 <;> simp [hc] at h

theorem keyValue_deep {p : List Char → PRes CelValue} {D : Nat → List Char → Prop} {n : Nat} (hd : ∀ i, p i = .crash → D n i)
    (i : List Char) (h : keyValue p i = .crash) : InField D n i := by
  unfold keyValue at h
  obtain ⟨hn, he⟩ := ident_split (skipWs i)
  obtain ⟨w, hw, hi⟩ := skipWs_split i
  cases h1 : wsChar ':' (ident (skipWs i)).2 with
  | none => simp only [h1] at h; simp at h
  | some x =>
    simp only [h1] at h
    obtain ⟨w', hw', hx⟩ := wsChar_some h1
    have := InField.intro (D := D) hw hn hw' (hd x (map_crash h))
    rwa [← hx, ← he, ← hi] at this

theorem celValue_deep : ∀ (n : Nat) (i : List Char), celValue n i = .crash → Deep n i := by
  intro n
  induction n with
  | zero => intro i _; exact .zero i
  | succ n ih =>
    intro i h
    rw [celValue] at h
    unfold celStep at h
    obtain ⟨w, hw, hi⟩ := skipWs_split i
    generalize hj : skipWs i = j at h hi
    obtain ⟨hn, he⟩ := ident_split j
    have hs : ∀ i r v, celValue n i = .ok r v → ∃ t, i = t ++ r ∧ ∃ v, Val v t := by
      intro i r v h
      obtain ⟨t, h1, h2⟩ := celValue_sound n i r v h
      exact ⟨t, h1, v, h2⟩
    have hsk : ∀ i r v, keyValue (celValue n) i = .ok r v → ∃ t, i = t ++ r ∧ ∃ f, Field Val f t := by
      intro i r v h
      obtain ⟨t, h1, h2⟩ := keyValue_sound (celValue_sound n) i r v h
      exact ⟨t, h1, v, h2⟩
    have hww : ∀ w1, Blank w1 → Blank (w ++ w1) := by
      intro w1 hw1 c hc
      rcases List.mem_append.1 hc with hc | hc
      · exact hw c hc
      · exact hw1 c hc
    have hobj : celObject (celValue n) j = .crash → Deep (n + 1) i := by
      intro h
      obtain ⟨w1, x, hw1, hx, h3⟩ := dropSep_deep (map_crash h)
      have hx' : (ident j).2 = w1 ++ '{' :: x := hx
      have := Deep.object hw hn hw1 (sepList_deep hsk (keyValue_deep ih) x h3)
      rwa [← hx', ← he, ← hi] at this
    have hfun : celFunction (celValue n) j = .crash → Deep (n + 1) i := by
      intro h
      obtain ⟨w1, x, hw1, hx, h3⟩ := dropSep_deep (map_crash h)
      have hx' : (ident j).2 = w1 ++ '(' :: x := hx
      have := Deep.function hw hn hw1 (sepList_deep hs ih x h3)
      rwa [← hx', ← he, ← hi] at this
    have harr : celArray (celValue n) j = .crash → Deep (n + 1) i := by
      intro h
      obtain ⟨w1, x, hw1, hx, h3⟩ := dropSep_deep (map_crash h)
      have := Deep.array (hww w1 hw1) (sepList_deep hs ih x h3)
      rwa [List.append_assoc, ← hx, ← hi] at this
    have hstr : (celString j).map CelValue.string = .crash → Deep (n + 1) i := by
      intro h
      obtain ⟨w1, x, hw1, hx, h3⟩ := dropSep_deep (map_crash h)
      simp [parseStr] at h3
    simp only at h
    split at h
    · split at h
      · split at h
        · exact hstr h
        · exact harr h
      · exact hfun h
    · exact hobj h

theorem sepLoop_after {α : Type} {p : List Char → PRes α} {P : List Char → Prop} {D : Nat → List Char → Prop} {n : Nat}
    (hp : ∀ t, P t → ∀ r, (∃ v, p (t ++ r) = .ok r v) ∨ p (t ++ r) = .crash) (hd : ∀ i, D n i → p i = .crash)
    {u : List Char} (h : After P D n u) : ∀ (k : Nat) (w : List Char), Blank w → u.length + 1 ≤ k → sepLoop p k (w ++ ',' :: u) = .crash := by
  induction h with
  | now h =>
    intro k w hw hk
    obtain ⟨k, rfl⟩ : ∃ j, k = j + 1 := ⟨k - 1, by omega⟩
    rw [sepLoop, wsChar_blank (by decide) hw]
    simp only [hd _ h]
  | @item n t w2 u ht hw2 _ ih =>
    intro k w hw hk
    obtain ⟨k, rfl⟩ : ∃ j, k = j + 1 := ⟨k - 1, by omega⟩
    rw [sepLoop, wsChar_blank (by decide) hw]
    simp at hk
    rcases hp t ht (w2 ++ ',' :: u) with ⟨v, h⟩ | h
    · simp only [h]
      rw [ih hd k w2 hw2 (by omega)]
    · simp only [h]

theorem sepList_after {α : Type} {p : List Char → PRes α} {P : List Char → Prop} {D : Nat → List Char → Prop} {n : Nat}
    (hp : ∀ t, P t → ∀ r, (∃ v, p (t ++ r) = .ok r v) ∨ p (t ++ r) = .crash) (hd : ∀ i, D n i → p i = .crash)
    {u : List Char} (h : After P D n u) : sepList p u = .crash := by
  cases h with
  | now h => simp only [sepList, hd _ h]
  | @item n t w2 u ht hw2 h' =>
    unfold sepList
    rcases hp t ht (w2 ++ ',' :: u) with ⟨v, h⟩ | h
    · simp only [h]
      rw [sepLoop_after hp hd h' _ w2 hw2 (by simp; omega)]
    · simp only [h]

theorem deep_celValue : ∀ (n : Nat) (i : List Char), Deep n i → celValue n i = .crash := by
  intro n
  induction n with
  | zero => intro i _; rfl
  | succ n ih =>
    intro i h
    rw [celValue]
    have hval : ∀ t, (∃ v, Val v t) → ∀ r, (∃ v, celValue n (t ++ r) = .ok r v) ∨ celValue n (t ++ r) = .crash := by
      rintro t ⟨v, hv⟩ r
      by_cases hc : celValue n (t ++ r) = .crash
      · right; exact hc
      · left; rw [celValue_eq_celParse hc]; exact ⟨v, (C78_parse _ _ _).2 ⟨t, rfl, hv⟩⟩
    have hkv : ∀ t, (∃ f, Field Val f t) → ∀ r, (∃ f, keyValue (celValue n) (t ++ r) = .ok r f) ∨ keyValue (celValue n) (t ++ r) = .crash := by
      rintro t ⟨f, hf⟩ r
      cases hf with
      | @intro w k w' v t hw hk hw' hv =>
        obtain ⟨w2, hw2, he⟩ := skip_name hw hk hw' (c := ':') (by decide) (t ++ r)
        have e : w ++ (k ++ (w' ++ ':' :: t)) ++ r = w ++ (k ++ (w' ++ ':' :: (t ++ r))) := by simp
        unfold keyValue
        rw [e, he]
        simp only [ident_name hk hw2 (show identChar ':' = false by decide), wsChar_blank (show isSpaceChar ':' = false by decide) hw2]
        rcases hval t ⟨v, hv⟩ r with ⟨v', h⟩ | h
        · left; rw [h]; exact ⟨_, rfl⟩
        · right; rw [h]; rfl
    have hdf : ∀ i, InField Deep n i → keyValue (celValue n) i = .crash := by
      intro i hi
      cases hi with
      | @intro n w k w' t hw hk hw' hd =>
        obtain ⟨w2, hw2, he⟩ := skip_name hw hk hw' (c := ':') (by decide) t
        unfold keyValue
        rw [he]
        simp only [ident_name hk hw2 (show identChar ':' = false by decide), wsChar_blank (show isSpaceChar ':' = false by decide) hw2]
        rw [ih t hd]
        rfl
    cases h with
    | @object n w nm w1 t hw hnm hw1 ht =>
      obtain ⟨w2, hw2, he⟩ := skip_name hw hnm hw1 (c := '{') (by decide) t
      unfold celStep
      rw [he]
      have hob : celObject (celValue n) (nm ++ (w2 ++ '{' :: t)) = .crash := by
        unfold celObject dropSep
        simp only [ident_name hnm hw2 (show identChar '{' = false by decide),
          wsChar_blank (show isSpaceChar '{' = false by decide) hw2, sepList_after hkv hdf ht, PRes.map]
      simp only [hob]
    | @function n w nm w1 t hw hnm hw1 ht =>
      obtain ⟨w2, hw2, he⟩ := skip_name hw hnm hw1 (c := '(') (by decide) t
      unfold celStep
      rw [he]
      have hob : celObject (celValue n) (nm ++ (w2 ++ '(' :: t)) = .err := by
        unfold celObject dropSep
        simp only [ident_name hnm hw2 (show identChar '(' = false by decide),
          wsChar_other (show isSpaceChar '(' = false by decide) (show '(' ≠ '{' by decide) hw2, PRes.map]
      have hfu : celFunction (celValue n) (nm ++ (w2 ++ '(' :: t)) = .crash := by
        unfold celFunction dropSep
        simp only [ident_name hnm hw2 (show identChar '(' = false by decide),
          wsChar_blank (show isSpaceChar '(' = false by decide) hw2, sepList_after hval ih ht, PRes.map]
      simp only [hob, hfu]
    | @array n w t hw ht =>
      unfold celStep
      rw [skipWs_blank hw, skipWs_hard (by decide)]
      have hid := ident_name (n := []) (w := []) (by intro c hc; simp at hc) blank_nil (show identChar '[' = false by decide) t
      simp only [List.nil_append] at hid
      have hno : ∀ d, '[' ≠ d → wsChar d ('[' :: t) = none := fun d hd => wsChar_other (by decide) hd blank_nil _
      have hob : celObject (celValue n) ('[' :: t) = .err := by
        unfold celObject dropSep
        simp only [hid, hno '{' (by decide), PRes.map]
      have hfu : celFunction (celValue n) ('[' :: t) = .err := by
        unfold celFunction dropSep
        simp only [hid, hno '(' (by decide), PRes.map]
      have har : celArray (celValue n) ('[' :: t) = .crash := by
        unfold celArray dropSep
        have h1 : wsChar '[' ('[' :: t) = some t := wsChar_blank (by decide) blank_nil _
        simp only [h1, sepList_after hval ih ht, PRes.map]
      simp only [hob, hfu, har]

/-- C78: reading an expression overflows a stack that holds `n` nested values exactly if its text begins with `n` nested arrays, calls
and objects, closed or not; otherwise the result is that of `C78_accepts` and `C78_syntax`. -/
theorem C78_stack (n : Nat) (b : Bytes) :
    (parseCelOn n b = none ↔ ∃ text, b = utf8 text ∧ Deep n text) ∧
    ((¬ ∃ text, b = utf8 text ∧ Deep n text) → parseCelOn n b = some (parseCel b)) := by
  have key : parseCelOn n b = none ↔ ∃ text, b = utf8 text ∧ Deep n text := by
    unfold parseCelOn
    constructor
    · intro h
      cases hc : chars b with
      | none => rw [hc] at h; simp at h
      | some cs =>
        simp only [hc] at h
        refine ⟨cs, (utf8_chars hc).symm, celValue_deep _ _ ?_⟩
        cases hp : celValue n cs <;> simp [hp] at h ⊢
    · rintro ⟨text, rfl, h⟩
      rw [chars_utf8]
      simp only [deep_celValue _ _ h]
  refine ⟨key, fun h => ?_⟩
  rcases parseCelOn_or (n := n) (b := b) with h' | h'
  · exact absurd (key.1 h') h
  · exact h'

/-- The opening brackets of a text. -/
def openChars (t : List Char) : Nat := t.countP (fun c => c == '(' || c == '[' || c == '{')

theorem openChars_append (a b : List Char) : openChars (a ++ b) = openChars a + openChars b := List.countP_append

theorem after_open {P : List Char → Prop} {D : Nat → List Char → Prop} {n : Nat} {u : List Char}
    (h : After P D n u) : (∀ t, D n t → n ≤ openChars t) → n ≤ openChars u := by
  induction h with
  | now h => intro hd; exact hd _ h
  | @item n t w u _ _ _ ih =>
    intro hd
    have ih := ih hd
    rw [openChars_append, openChars_append]
    have : openChars u ≤ openChars (',' :: u) := by unfold openChars; rw [List.countP_cons]; omega
    omega

theorem deep_open : ∀ (n : Nat) (t : List Char), Deep n t → n ≤ openChars t := by
  intro n
  induction n with
  | zero => intro t _; omega
  | succ n ih =>
    have hcons : ∀ (c : Char) (t : List Char), (c = '(' ∨ c = '[' ∨ c = '{') → openChars (c :: t) = openChars t + 1 := by
      rintro c t (rfl | rfl | rfl) <;> simp [openChars]
    have hf : ∀ t, InField Deep n t → n ≤ openChars t := by
      intro t h
      cases h with
      | @intro n w k w' t _ _ _ hd =>
        have := ih t hd
        rw [openChars_append, openChars_append, openChars_append]
        have : openChars t ≤ openChars (':' :: t) := by unfold openChars; rw [List.countP_cons]; omega
        omega
    intro t h
    cases h with
    | array hw ht =>
      have := after_open ht ih
      rw [openChars_append, hcons _ _ (by simp)]; omega
    | function hw hn hw1 ht =>
      have := after_open ht ih
      rw [openChars_append, openChars_append, openChars_append, hcons _ _ (by simp)]; omega
    | object hw hn hw1 ht =>
      have := after_open ht hf
      rw [openChars_append, openChars_append, openChars_append, hcons _ _ (by simp)]; omega

theorem opening_append (a b : Bytes) : opening (a ++ b) = opening a + opening b := List.countP_append

theorem openChars_le : ∀ t : List Char, openChars t ≤ opening (utf8 t) := by
  intro t
  induction t with
  | nil => simp [openChars]
  | cons c t ih =>
    have e : utf8 (c :: t) = String.utf8EncodeChar c ++ utf8 t := by simp [utf8]
    rw [e, opening_append]
    unfold openChars at ih ⊢
    rw [List.countP_cons]
    split
    · rename_i hc
      have : c = '(' ∨ c = '[' ∨ c = '{' := by simpa [or_assoc] using hc
      have h1 : opening (String.utf8EncodeChar c) = 1 := by
        rcases this with rfl | rfl | rfl <;> decide
      omega
    · omega

/-- C78: a text overflows the stack only if it has as many opening brackets. -/
theorem C78_brackets (n : Nat) (b : Bytes) (h : parseCelOn n b = none) : n ≤ opening b := by
  obtain ⟨text, rfl, hd⟩ := (C78_stack n b).1.1 h
  exact le_trans (deep_open n text hd) (openChars_le text)

theorem carried_opening {n : Bytes} (h : CarriedName n) : opening n = 0 := by
  obtain ⟨cs, rfl, hc⟩ := h
  unfold opening
  rw [List.countP_eq_zero]
  intro b hb
  unfold utf8 at hb
  obtain ⟨c, hcs, hbc⟩ := List.mem_flatMap.1 hb
  intro hop
  have hop : b = 0x28 ∨ b = 0x5B ∨ b = 0x7B := by simpa [or_assoc] using hop
  have hlt : b.toNat < 128 := by rcases hop with rfl | rfl | rfl <;> decide
  have hcb := ascii_mem_encode hlt hbc
  have hh := hc c hcs
  have hv : b.toNat = 0x28 ∨ b.toNat = 0x5B ∨ b.toNat = 0x7B := by
    rcases hop with rfl | rfl | rfl <;> decide
  rcases hh with rfl | hh
  · have : '-'.toNat = 45 := rfl
    omega
  · omega

theorem celNames_opening : ∀ {ns : List Bytes}, (∀ n ∈ ns, CarriedName n) → opening (celNames ns) = 0 := by
  intro ns h
  unfold celNames
  split
  · rfl
  · rw [opening_append, opening_append]
    have : opening ((str "\",\"").intercalate ns) = 0 := by
      induction ns with
      | nil => rfl
      | cons a ns ih =>
        cases ns with
        | nil => simpa using carried_opening (h a (by simp))
        | cons b ns =>
          rw [List.intercalate_cons_cons, opening_append, opening_append, ih (fun n hn => h n (List.mem_cons_of_mem _ hn)) (by simp), carried_opening (h a (by simp))]
          rfl
    rw [this]; rfl

/-- C78: the expressions that the library writes, for names that can be written, never overflow the stack. -/
theorem C78_written (m : Machine) (e : CelExpr) (h : ∀ n ∈ e.names, CarriedName n) :
    parseCelOn m.celStack e.toBytes = some (.ok e) := by
  rcases parseCelOn_or (n := m.celStack) (b := e.toBytes) with hn | hn
  · exfalso
    have h1 := C78_brackets _ _ hn
    have h2 := m.celStack_ok
    have hresp : ∀ r : RespCert, (∀ n ∈ (match r with | .certifiedHeaders l => l | .headerExclusions l => l), CarriedName n) →
        opening (celResponse r) = 3 := by
      intro r hr
      unfold celResponse
      cases r with
      | certifiedHeaders l => simp only [opening_append, celNames_opening hr]; decide
      | headerExclusions l => simp only [opening_append, celNames_opening hr]; decide
    have h3 : opening e.toBytes ≤ 9 := by
      cases e with
      | skip => decide
      | responseOnly r =>
        unfold CelExpr.toBytes
        simp only [opening_append]
        rw [hresp r (by cases r <;> exact h)]
        decide
      | full q r =>
        unfold CelExpr.toBytes celRequest
        simp only [opening_append]
        rw [hresp r (by cases r <;> exact fun n hn => h n (by simp [CelExpr.names, hn])),
          celNames_opening (fun n hq => h n (by cases r <;> simp [CelExpr.names, hq])),
          celNames_opening (fun n hq => h n (by cases r <;> simp [CelExpr.names, hq]))]
        decide
    omega
  · rw [hn, (C32_roundtrip e).2 h]

/-! ## Concrete cases -/

/-- Blanks, an array with two strings, an empty name, and something after the value. -/
example : Val (.object "a".toList [("k".toList, .array [.string "x-1".toList, .string []]), ([], .function [] [])])
    " a\t{ k :[\"x-1\" ,\"\"], : ( ) }".toList := by
  obtain ⟨t, h, hv⟩ := (C78_parse _ [] _).1 (show celParse " a\t{ k :[\"x-1\" ,\"\"], : ( ) }".toList = .ok [] _ by rfl)
  rw [List.append_nil] at h
  exact h ▸ hv

/-- A trailing comma is no list. -/
example : parseCel (str "f(\"a\",)") = .error .syntax := by rfl

/-- What follows the value is not looked at. -/
example : parseCel (CelExpr.skip.toBytes ++ str ") nonsense") = .ok .skip := by decide +kernel

/-- However large the stack, a short text overflows it. -/
theorem C78_counterexample_stack (n : Nat) : parseCelOn n (List.replicate n 0x5B) = none := by
  rw [(C78_stack _ _).1]
  refine ⟨List.replicate n '[', ?_, ?_⟩
  · induction n with
    | zero => rfl
    | succ n ih => rw [List.replicate_succ, List.replicate_succ, ih]; rfl
  · induction n with
    | zero => exact .zero _
    | succ n ih => rw [List.replicate_succ]; exact .array (w := []) blank_nil (.now ih)

end Verif.Props
