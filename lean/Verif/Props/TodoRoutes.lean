import Verif.Model.TodoApi

set_option linter.unusedSimpArgs false
set_option linter.unusedSectionVars false

/-!
# Property C60: which calls are repeated as update calls
-/

namespace Verif.Props
open Verif

/-- The method name `a`, in upper or lower case letters, is `b` in upper case letters. -/
def SameLetters (a b : Bytes) : Prop :=
  List.Forall₂ (fun x y => (x = y ∧ ¬ (0x61 ≤ x ∧ x ≤ 0x7A)) ∨ (0x61 ≤ x ∧ x ≤ 0x7A ∧ x = y + 0x20)) a b

theorem upper_iff (a b : Bytes) : upper a = b ↔ SameLetters a b := by
  have step : ∀ x y : UInt8, upperByte x = y ↔
      ((x = y ∧ ¬ (0x61 ≤ x ∧ x ≤ 0x7A)) ∨ (0x61 ≤ x ∧ x ≤ 0x7A ∧ x = y + 0x20)) := by
    intro x y
    unfold upperByte
    by_cases h : 0x61 ≤ x ∧ x ≤ 0x7A
    · rw [if_pos h]
      constructor
      · rintro rfl; exact .inr ⟨h.1, h.2, by simp⟩
      · rintro (⟨_, h'⟩ | ⟨_, _, h'⟩)
        · exact absurd h h'
        · rw [h']; simp
    · rw [if_neg h]
      constructor
      · rintro rfl; exact .inl ⟨rfl, h⟩
      · rintro (⟨h', _⟩ | ⟨h1, h2, _⟩)
        · exact h'
        · exact absurd ⟨h1, h2⟩ h
  induction a generalizing b with
  | nil =>
    constructor
    · rintro rfl; exact .nil
    · intro h; cases h; rfl
  | cons x a ih =>
    constructor
    · rintro rfl; exact .cons ((step _ _).1 rfl) ((ih _).1 rfl)
    · intro h
      cases h with
      | cons h1 h2 => rw [upper, List.map_cons, (step _ _).2 h1]; exact congrArg _ ((ih _).2 h2)

/-- `path` is `/todos/{id}`, with one nonempty segment after `/todos/`. -/
def IsTodoPath (path : Bytes) : Prop := ∃ id, path = str "/todos/" ++ id ∧ id ≠ [] ∧ (0x2F : UInt8) ∉ id

theorem todoIdParam_iff (path id : Bytes) :
    todoIdParam path = some id ↔ path = str "/todos/" ++ id ∧ id ≠ [] ∧ (0x2F : UInt8) ∉ id := by
  unfold todoIdParam
  simp only
  constructor
  · intro h
    split at h
    · next hp =>
      split at h
      · cases h
      · next hc =>
        simp only [Option.some.injEq] at h
        obtain ⟨r, rfl⟩ := hp
        rw [List.drop_left] at h hc
        subst h
        exact ⟨rfl, fun e => hc (.inl e), fun e => hc (.inr e)⟩
    · cases h
  · rintro ⟨rfl, h1, h2⟩
    rw [if_pos (List.prefix_append _ _), List.drop_left, if_neg (by simp [h1, h2])]

theorem todoIdParam_isSome (path : Bytes) : (∃ id, todoIdParam path = some id) ↔ IsTodoPath path :=
  exists_congr fun _ => todoIdParam_iff _ _

section
variable [SHA] [UriLib]

/-- **C60**, which requests are to be repeated as update calls: exactly POST to `/todos` and PATCH and DELETE to `/todos/{id}`,
the method in any case. -/
theorem C60_upgrade (s : Todo) (dataCert : Bytes) (req : HttpRequest) :
    todoHttpRequest s dataCert req = some .upgrade ↔
      ∃ path, req.getPath = .ok path ∧ ((SameLetters req.method (str "POST") ∧ path = str "/todos") ∨
        ((SameLetters req.method (str "PATCH") ∨ SameLetters req.method (str "DELETE")) ∧ IsTodoPath path)) := by
  simp only [← upper_iff, ← todoIdParam_isSome]
  unfold todoHttpRequest
  cases hp : req.getPath with
  | error e => simp [Except.toOption]
  | ok path =>
    generalize upper req.method = m
    simp only [Except.toOption, Option.bind_eq_bind, Option.bind_some, Except.ok.injEq, exists_eq_left']
    by_cases h1 : m = str "POST"
    · subst h1
      have a : str "POST" ≠ str "PATCH" := by decide
      have b : str "POST" ≠ str "DELETE" := by decide
      by_cases h2 : path = str "/todos" <;> simp [a, b, h2, todosPath]
    · rw [if_neg h1]
      by_cases h2 : m = str "PATCH" ∨ m = str "DELETE"
      · rw [if_pos h2]
        simp [h1, h2, Option.map_eq_some_iff]
      · rw [if_neg h2]
        simp only [h1, h2, false_and, or_self, iff_false]
        split
        · cases todoQuery s dataCert req <;> simp
        · simp

/-- **C60**, an update call that changes anything was announced: `http_request` answers the same request with the order to repeat it
as an update call. -/
theorem C60_changes_announced [TodoJson] (checks : Bool) (s s' : Todo) (enum : List TodoItem → List TodoItem) (dataCert : Bytes)
    (req : HttpRequest) (h : todoUpdateCall checks s enum req = some s') (hne : s' ≠ s) :
    todoHttpRequest s dataCert req = some .upgrade := by
  rw [C60_upgrade]
  simp only [← upper_iff, ← todoIdParam_isSome]
  unfold todoUpdateCall at h
  cases hp : req.getPath with
  | error e => simp [hp, Except.toOption] at h
  | ok path =>
    refine ⟨path, rfl, ?_⟩
    rw [hp] at h
    generalize upper req.method = m at h ⊢
    simp only [Except.toOption, Option.bind_eq_bind, Option.bind_some] at h
    by_cases h1 : m = str "POST"
    · rw [if_pos h1] at h
      split at h
      · next hpath => exact .inl ⟨h1, hpath⟩
      · cases h
    · rw [if_neg h1] at h
      by_cases h2 : m = str "PATCH"
      · rw [if_pos h2, Option.bind_eq_some_iff] at h
        obtain ⟨id, hid, _⟩ := h
        exact .inr ⟨.inl h2, id, hid⟩
      · rw [if_neg h2] at h
        by_cases h3 : m = str "DELETE"
        · rw [if_pos h3, Option.bind_eq_some_iff] at h
          obtain ⟨id, hid, _⟩ := h
          exact .inr ⟨.inr h3, id, hid⟩
        · rw [if_neg h3] at h
          split at h
          · exact absurd (Option.some.inj h).symm hne
          · cases h

/-- **C60**, the other methods: a request is answered with a response only for the methods GET, HEAD, PUT, OPTIONS, TRACE and CONNECT,
in any case, and a path longer than `/`. -/
theorem C60_answered (s : Todo) (dataCert : Bytes) (req : HttpRequest) (res : HttpResponse)
    (h : todoHttpRequest s dataCert req = some (.response res)) :
    ∃ m ∈ [str "GET", str "HEAD", str "PUT", str "OPTIONS", str "TRACE", str "CONNECT"], SameLetters req.method m ∧
      ∃ a path, req.getPath = .ok (0x2F :: a :: path) := by
  unfold todoHttpRequest at h
  cases hp : req.getPath with
  | error e => simp [hp, Except.toOption] at h
  | ok path =>
    rw [hp] at h
    simp only [Except.toOption, Option.bind_eq_bind, Option.bind_some] at h
    split at h
    · split at h <;> cases h
    · split at h
      · cases hid : todoIdParam path <;> simp [hid] at h
      · split at h
        · next hm =>
          refine ⟨upper req.method, hm.1, (upper_iff _ _).1 rfl, ?_⟩
          have := hm.2
          unfold catchAllMatches at this
          split at this
          · exact ⟨_, _, rfl⟩
          · cases this
        · cases h

end

/-- A method in mixed case. -/
example : SameLetters (str "pAtch") (str "PATCH") := (upper_iff _ _).1 (by decide)
example : IsTodoPath (str "/todos/7") ∧ ¬ IsTodoPath (str "/todos/7/8") ∧ ¬ IsTodoPath (str "/todos/") := by
  simp only [← todoIdParam_isSome]
  exact ⟨⟨str "7", by decide⟩, by simp [show todoIdParam (str "/todos/7/8") = none by decide],
    by simp [show todoIdParam (str "/todos/") = none by decide]⟩

/-! ### Identifiers in paths -/

/-- The bytes are decimal digits, at least one, with the given value. -/
inductive DecimalText : Bytes → Nat → Prop
  | one {c : UInt8} : 48 ≤ c → c ≤ 57 → DecimalText [c] (c.toNat - 48)
  | snoc {ds n} {c : UInt8} : DecimalText ds n → 48 ≤ c → c ≤ 57 → DecimalText (ds ++ [c]) (10 * n + (c.toNat - 48))

theorem decimalText_iff (ds : Bytes) (n : Nat) : DecimalText ds n ↔
    ds ≠ [] ∧ ds.all (fun c => 0x30 ≤ c && c ≤ 0x39) = true ∧ ds.foldl (fun acc c => acc * 10 + (c.toNat - 0x30)) 0 = n := by
  constructor
  · intro h
    induction h with
    | one h1 h2 => simp [h1, h2]
    | snoc _ h1 h2 ih =>
      obtain ⟨_, i2, i3⟩ := ih
      refine ⟨by simp, by simp only [List.all_append, i2, Bool.true_and]; simp [h1, h2], ?_⟩
      rw [List.foldl_append, i3]
      simp only [List.foldl_cons, List.foldl_nil]
      omega
  · induction ds using List.reverseRecOn generalizing n with
    | nil => intro h; exact absurd rfl h.1
    | append_singleton ds c ih =>
      rintro ⟨-, h2, rfl⟩
      simp only [List.all_append, List.all_cons, List.all_nil, Bool.and_true, Bool.and_eq_true, decide_eq_true_eq] at h2
      obtain ⟨h2, h3, h4⟩ := h2
      cases hd : ds with
      | nil =>
        have := DecimalText.one h3 h4
        simpa using this
      | cons a t =>
        rw [← hd]
        have := (ih _ ⟨by simp [hd], h2, rfl⟩).snoc h3 h4
        rw [List.foldl_append]
        simp only [List.foldl_cons, List.foldl_nil]
        rw [Nat.mul_comm] at this
        exact this

/-- **C60**, the identifiers in paths: decimal digits, perhaps after a plus sign, of a number below 2^32; anything else is refused. -/
theorem C60_ids (s : Bytes) (n : UInt32) : parseU32 s = some n ↔
    ∃ ds, (s = ds ∨ s = str "+" ++ ds) ∧ DecimalText ds n.toNat := by
  have hp : str "+" = [0x2B] := by decide
  simp only [decimalText_iff, hp]
  have core : ∀ d : Bytes, (if d = [] then none else
      if d.all (fun c => 0x30 ≤ c && c ≤ 0x39) then
        (if d.foldl (fun acc c => acc * 10 + (c.toNat - 0x30)) 0 < 2 ^ 32 then
          some (UInt32.ofNat (d.foldl (fun acc c => acc * 10 + (c.toNat - 0x30)) 0)) else none) else none) = some n ↔
      d ≠ [] ∧ d.all (fun c => 0x30 ≤ c && c ≤ 0x39) = true ∧
        d.foldl (fun acc c => acc * 10 + (c.toNat - 0x30)) 0 = n.toNat := by
    intro d
    by_cases h1 : d = []
    · simp [h1]
    · rw [if_neg h1]
      by_cases h2 : d.all (fun c => 0x30 ≤ c && c ≤ 0x39) = true
      · rw [if_pos h2]
        generalize d.foldl (fun acc c => acc * 10 + (c.toNat - 0x30)) 0 = v
        by_cases h3 : v < 2 ^ 32
        · rw [if_pos h3]
          simp only [Option.some.injEq, ne_eq, h1, not_false_eq_true, h2, true_and]
          constructor
          · rintro rfl; exact (UInt32.toNat_ofNat_of_lt h3).symm
          · rintro rfl; exact UInt32.ofNat_toNat
        · rw [if_neg h3]
          have := n.toNat_lt
          constructor
          · intro h; cases h
          · rintro ⟨-, -, rfl⟩; exact absurd this h3
      · rw [if_neg h2]; simp [h2]
  constructor
  · intro h
    unfold parseU32 at h
    split at h
    · exact ⟨_, .inr rfl, (core _).1 h⟩
    · exact ⟨_, .inl rfl, (core _).1 h⟩
  · rintro ⟨ds, hs, hd⟩
    unfold parseU32
    split
    · next r =>
      rcases hs with rfl | hs
      · exact absurd hd.2.1 (by simp)
      · obtain rfl : r = ds := by simpa using hs
        exact (core _).2 hd
    · next hne =>
      rcases hs with rfl | rfl
      · exact (core _).2 hd
      · exact absurd rfl (hne _)

example : parseU32 (str "+42") = some 42 ∧ parseU32 (str "4294967296") = none ∧ parseU32 (str "-1") = none := by decide

end Verif.Props
