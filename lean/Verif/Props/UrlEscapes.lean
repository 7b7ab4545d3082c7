import Verif.Spec.Uri
import Verif.Props.Asset
import Verif.Props.AssetVerifyExamples

set_option linter.unusedSimpArgs false
set_option linter.unusedSectionVars false

/-!
# C80: escapes in URLs
-/

namespace Verif.Props
open Verif Router

theorem hex_roundtrip (c : UInt8) : hexDigitValue (hexDigit (c / 16)) = some (c / 16) ∧
    hexDigitValue (hexDigit (c % 16)) = some (c % 16) ∧ 16 * (c / 16) + c % 16 = c := by
  have : ∀ n : Fin 256, hexDigitValue (hexDigit (UInt8.ofNat n / 16)) = some (UInt8.ofNat n / 16) ∧
    hexDigitValue (hexDigit (UInt8.ofNat n % 16)) = some (UInt8.ofNat n % 16) ∧ 16 * (UInt8.ofNat n / 16) + UInt8.ofNat n % 16 = UInt8.ofNat n := by
    decide +kernel
  have h := this ⟨c.toNat, c.toNat_lt⟩
  simpa using h

theorem pctDecode_plain {c : UInt8} (hc : c ≠ 0x25) (r : Bytes) : pctDecode (c :: r) = c :: pctDecode r := by
  match r with
  | [] => rfl
  | [d] => simp [pctDecode]
  | a :: b :: r =>
    rw [pctDecode]
    have : (c == 0x25) = false := by simpa using hc
    rw [this]

theorem pctDecode_escape (c : UInt8) (r : Bytes) :
    pctDecode (0x25 :: hexDigit (c / 16) :: hexDigit (c % 16) :: r) = c :: pctDecode r := by
  obtain ⟨h1, h2, h3⟩ := hex_roundtrip c
  rw [pctDecode, h1, h2]
  simp [h3]

theorem pctDecode_encode (p : Bytes) : pctDecode (pctEncode p) = p := by
  induction p with
  | nil => rfl
  | cons c p ih =>
    unfold pctEncode at ih ⊢
    rw [List.flatMap_cons]
    by_cases h : PathChar c
    · rw [if_pos h]
      have : c ≠ 0x25 := by
        rintro rfl
        revert h; decide
      rw [List.singleton_append, pctDecode_plain this, ih]
    · rw [if_neg h]
      simp only [List.cons_append, List.nil_append]
      rw [pctDecode_escape, ih]

theorem hexDigit_pathChar (c : UInt8) : PathChar (hexDigit (c / 16)) ∧ PathChar (hexDigit (c % 16)) := by
  have : ∀ n : Fin 256, PathChar (hexDigit (UInt8.ofNat n / 16)) ∧ PathChar (hexDigit (UInt8.ofNat n % 16)) := by
    decide +kernel
  have h := this ⟨c.toNat, c.toNat_lt⟩
  simpa using h

theorem pctEncode_chars (p : Bytes) : ∀ c ∈ pctEncode p, PathChar c ∨ c = 0x25 := by
  intro c hc
  obtain ⟨d, -, hd⟩ := List.mem_flatMap.1 hc
  split at hd
  · next h => rw [List.mem_singleton.1 hd]; exact .inl h
  · simp only [List.mem_cons, List.not_mem_nil, or_false] at hd
    rcases hd with rfl | rfl | rfl
    · exact .inr rfl
    · exact .inl (hexDigit_pathChar d).1
    · exact .inl (hexDigit_pathChar d).2

theorem pctEncode_head {p : Bytes} (h : p.head? = some 0x2F) : (pctEncode p).head? = some 0x2F := by
  cases p with
  | nil => cases h
  | cons c p =>
    simp only [List.head?_cons, Option.some.injEq] at h
    subst h
    rfl

theorem pctEncode_length (p : Bytes) : (pctEncode p).length ≤ 3 * p.length := by
  induction p with
  | nil => simp [pctEncode]
  | cons c p ih =>
    unfold pctEncode at ih ⊢
    rw [List.flatMap_cons, List.length_append, List.length_cons]
    split <;> simp only [List.length_cons, List.length_nil] <;> omega

section
variable [UriLib]

/-- **C80** Every path can be requested: the URL that is its percent-encoding has this path. -/
theorem C80_reachable (std : StandardUri) {p : Bytes} (hp : p.head? = some 0x2F) (hutf : (chars p).isSome)
    (hlen : 3 * p.length < 65534) (method : Bytes) (headers : List Header) (body : Bytes) :
    HttpRequest.getPath ⟨method, pctEncode p, headers, body⟩ = .ok p := by
  have := pctEncode_length p
  unfold HttpRequest.getPath
  simp only
  rw [std.path _ (pctEncode_head hp) (pctEncode_chars p) (by omega)]
  simp only
  rw [std.decode, pctDecode_encode, if_pos hutf]

/-- **C80** Escapes are decoded once: the path of a URL is what is escaped in it, even if that has escapes itself. -/
theorem C80_once (std : StandardUri) {p : Bytes} (hp : p.head? = some 0x2F)
    (hlen : 9 * p.length < 65534) (hutf : (chars (pctEncode p)).isSome) (method : Bytes) (headers : List Header) (body : Bytes) :
    HttpRequest.getPath ⟨method, pctEncode (pctEncode p), headers, body⟩ = .ok (pctEncode p) ∧
    (pctEncode p = p ↔ ∀ c ∈ p, PathChar c) := by
  have h1 := pctEncode_length p
  refine ⟨C80_reachable std (pctEncode_head hp) hutf (by omega) _ _ _, ?_, ?_⟩
  · intro h c hc
    clear h1 hp hlen hutf
    have key : ∀ p : Bytes, p.length ≤ (pctEncode p).length ∧ ((pctEncode p).length = p.length → ∀ c ∈ p, PathChar c) := by
      intro p
      induction p with
      | nil => simp [pctEncode]
      | cons c p ih =>
        unfold pctEncode at ih ⊢
        rw [List.flatMap_cons, List.length_append, List.length_cons]
        by_cases h : PathChar c
        · rw [if_pos h]
          refine ⟨by simp only [List.length_cons, List.length_nil]; omega, fun e => ?_⟩
          have := ih.2 (by simp only [List.length_cons, List.length_nil] at e; omega)
          intro d hd
          rcases List.mem_cons.1 hd with rfl | hd
          · exact h
          · exact this d hd
        · rw [if_neg h]
          refine ⟨by simp only [List.length_cons, List.length_nil]; omega, fun e => ?_⟩
          exfalso
          have := ih.1
          simp only [List.length_cons, List.length_nil] at e
          omega
    exact (key p).2 (by rw [h]) c hc
  · intro h
    clear h1 hp hlen hutf
    induction p with
    | nil => rfl
    | cons c p ih =>
      unfold pctEncode at ih ⊢
      rw [List.flatMap_cons, if_pos (h c List.mem_cons_self), ih (fun d hd => h d (List.mem_cons_of_mem _ hd))]
      rfl

end

section
variable [SHA] [UriLib] [GlobLib] [UnstableSort]

/-- **C80** The asset router can publish nothing at a path with a space, whatever is done with it: a request for such a path is answered with a
fallback or not at all. -/
theorem C80_spaces (std : StandardUri) {calls : List RouterCall} {r : Router} (hr : routerRun calls = some r) (m : Machine) (dataCert : Bytes)
    {req : HttpRequest} (hutf : ∀ h ∈ req.headers, (chars h.2).isSome) {path : Bytes} {range : Option Nat}
    (hpath : req.getPath = .ok path) (hrange : AsksFrom m req range)
    (h1 : path.head? = some 0x2F) (h2 : 0x20 ∈ path) (h3 : 0x23 ∉ path) :
    (∀ x, Answers r path (Accepts req) range x → ∃ scope e, Encloses scope path ∧ r.heldFallback scope e = some x) ∧
    ((∀ scope e, Encloses scope path → r.heldFallback scope e = none) →
      r.serveAsset m dataCert req = some (.error (.noAsset path))) := by
  have hnone : ∀ e b, r.responses ⟨path, e, b⟩ = none := by
    intro e b
    cases hx : r.responses ⟨path, e, b⟩ with
    | none => rfl
    | some x =>
      obtain ⟨i, i1, i2, i3, -⟩ := (C45_held hr _ _).1 hx
      have hp : (UriLib.parse i.url).isSome := (Item.prepare_isOk.1 ⟨x, Item.prepare_ok.2 i3⟩).2
      have hu : i.url = path := by
        cases i <;> first | (cases i1; done) | (exact congrArg RequestKey.path i2)
      rw [hu, std.space path h1 h2 h3] at hp
      cases hp
  have hheld : ∀ e, r.held path range e = none := by
    intro e
    unfold Router.held
    rw [hnone]
  have key : ∀ x, Answers r path (Accepts req) range x →
      ∃ scope e, Encloses scope path ∧ r.heldFallback scope e = some x := by
    intro x hx
    cases hx with
    | exact h =>
      cases h with
      | encoded _ h2 _ => rw [hheld] at h2; cases h2
      | plain _ h2 => rw [hheld] at h2; cases h2
    | @fallback scope _ h1 h2 h3 h4 =>
      cases h3 with
      | @encoded e _ _ h5 _ => exact ⟨scope, some e, h2, h5⟩
      | plain _ h5 => exact ⟨scope, none, h2, h5⟩
  refine ⟨key, fun hfb => ?_⟩
  rcases C45_serve hr m dataCert hutf hpath hrange with ⟨x, w, g1, -⟩ | ⟨-, h⟩
  · obtain ⟨s, e, g2, g3⟩ := key x g1
    rw [hfb s e g2] at g3
    cases g3
  · exact h

/-- **C80** `certify_assets` refuses an asset, alias or redirect whose URL has a space. -/
theorem C80_refused (std : StandardUri) {assets values : List Asset} {configs : List AssetConfig} (hv : IsValues assets values)
    {i : Item} (hi : Announces assets configs i) (h1 : i.url.head? = some 0x2F) (h2 : 0x20 ∈ i.url) (h3 : 0x23 ∉ i.url) :
    ¬ (RouterCall.certify assets values configs).Succeeds := by
  intro h
  have := (((C45_certify_succeeds hv).1 h).2 i hi).1
  rw [std.space _ h1 h2 h3] at this
  cases this

/-- **C80** An asset that is published at an escaped URL is not what a request of this URL gets: such a request is for the decoded path, and
the answer is a response held for that path, or a fallback. -/
theorem C80_escaped (std : StandardUri) {r : Router} {req : HttpRequest} {path : Bytes} {range : Option Nat} {x : CertifiedResponse}
    (h1 : req.url.head? = some 0x2F) (h2 : ∀ c ∈ req.url, PathChar c ∨ c = 0x25) (h3 : req.url.length < 65534)
    (hpath : req.getPath = .ok path) (hx : Answers r path (Accepts req) range x) :
    path = pctDecode req.url ∧ ((∃ e, r.held (pctDecode req.url) range e = some x) ∨
      ∃ scope e, Encloses scope (pctDecode req.url) ∧ r.heldFallback scope e = some x) := by
  have hp : path = pctDecode req.url := by
    unfold HttpRequest.getPath at hpath
    rw [std.path _ h1 h2 h3] at hpath
    simp only [std.decode] at hpath
    split at hpath
    · cases hpath
    · next h =>
      split at h
      · cases h; cases hpath; rfl
      · cases h
  subst hp
  refine ⟨rfl, ?_⟩
  cases hx with
  | exact h =>
    cases h with
    | @encoded e _ _ h2 _ => exact .inl ⟨some e, h2⟩
    | plain _ h2 => exact .inl ⟨none, h2⟩
  | @fallback scope _ h1 h2 h3 h4 =>
    cases h3 with
    | @encoded e _ _ h5 _ => exact .inr ⟨scope, some e, h2, h5⟩
    | plain _ h5 => exact .inr ⟨scope, none, h2, h5⟩

end

/-! ### A library that meets the assumptions -/

section
/-- `http::Uri` for URLs that begin with a slash, and `urlencoding::decode`. -/
@[instance_reducible] def stdUri : UriLib :=
  ⟨fun u =>
    let v := u.takeWhile (· ≠ 0x23)
    if u.head? = some 0x2F ∧ 0x20 ∉ v ∧ u.length < 65534 then
      some (v.takeWhile (· ≠ 0x3F), if 0x3F ∈ v then some ((v.dropWhile (· ≠ 0x3F)).drop 1) else none)
    else none,
   fun b => if (chars (pctDecode b)).isSome then some (pctDecode b) else none⟩

attribute [local instance] stdUri

theorem takeWhile_of_not_mem {c : UInt8} {u : Bytes} (h : c ∉ u) : u.takeWhile (· ≠ c) = u := by
  rw [List.takeWhile_eq_self_iff]
  intro d hd
  have : d ≠ c := fun e => h (e ▸ hd)
  simpa using this

theorem stdUri_standard : StandardUri := by
  have hnot : ∀ c : UInt8, c = 0x20 ∨ c = 0x23 ∨ c = 0x3F → ¬ (PathChar c ∨ c = 0x25) := by
    rintro c (rfl | rfl | rfl) <;> decide
  refine ⟨?_, ?_, fun _ => rfl⟩
  · intro u h1 h2 h3
    have a1 : 0x23 ∉ u := fun h => hnot _ (.inr (.inl rfl)) (h2 _ h)
    have a2 : 0x20 ∉ u := fun h => hnot _ (.inl rfl) (h2 _ h)
    have a3 : 0x3F ∉ u := fun h => hnot _ (.inr (.inr rfl)) (h2 _ h)
    show (if _ then _ else _) = _
    simp only [takeWhile_of_not_mem a1, takeWhile_of_not_mem a3]
    rw [if_pos ⟨h1, a2, h3⟩, if_neg a3]
  · intro u h1 h2 h3
    show (if _ then _ else _) = _
    simp only [takeWhile_of_not_mem h3]
    rw [if_neg (fun h => h.2.1 h2)]

def exSpacePath : Bytes := str "/a b"

example : pctEncode exSpacePath = str "/a%20b" ∧ pctEncode (pctEncode exSpacePath) = str "/a%2520b" := by decide

/-- All hypotheses of `C80_reachable` and `C80_once` are met. -/
example : HttpRequest.getPath ⟨str "GET", str "/a%20b", [], []⟩ = .ok (str "/a b") ∧
    HttpRequest.getPath ⟨str "GET", str "/a%2520b", [], []⟩ = .ok (str "/a%20b") := by
  have h1 := C80_reachable stdUri_standard (p := exSpacePath) rfl (by decide) (by decide) (str "GET") [] []
  have h2 := (C80_once stdUri_standard (p := exSpacePath) rfl (by decide) (by decide) (str "GET") [] []).1
  exact ⟨h1, h2⟩

end
section
attribute [local instance] toySHA stdUri toyGlob mergeSorting

/-- An asset at `/a%20b` is published, but only requests of `/a%2520b` find it. -/
def exEscaped : List Asset := [Asset.new (str "a%20b") (str "hello")]

example : ∃ r, routerRun [.certify exEscaped exEscaped []] = some r ∧
    r.serveAsset exMachine [] ⟨str "GET", str "/a%20b", [], []⟩ = some (.error (.noAsset (str "/a b"))) ∧
    ∃ res, r.serveAsset exMachine [] ⟨str "GET", str "/a%2520b", [], []⟩ = some (.ok res) ∧ res.body = str "hello" := by
  obtain ⟨r, hr⟩ := routerRun_some [.certify exEscaped exEscaped []]
  have h1 : ((routerRun [.certify exEscaped exEscaped []]).bind (fun r => r.serveAsset exMachine [] ⟨str "GET", str "/a%20b", [], []⟩)).map
      (fun x => match x with | .error (.noAsset p) => decide (p = str "/a b") | _ => false) = some true := by decide +kernel
  have h2 : ((routerRun [.certify exEscaped exEscaped []]).bind (fun r => r.serveAsset exMachine [] ⟨str "GET", str "/a%2520b", [], []⟩)).map
      (fun x => match x with | .ok res => decide (res.body = str "hello") | _ => false) = some true := by decide +kernel
  rw [hr, Option.bind_some] at h1 h2
  refine ⟨r, hr, ?_, ?_⟩
  · revert h1
    rcases hs : r.serveAsset exMachine [] ⟨str "GET", str "/a%20b", [], []⟩ with _ | (e | x)
    · intro h; cases h
    · cases e <;> intro h <;> simp at h
      rw [h]
    · intro h; simp at h
  · revert h2
    rcases hs : r.serveAsset exMachine [] ⟨str "GET", str "/a%2520b", [], []⟩ with _ | (e | x)
    · intro h; cases h
    · intro h; simp at h
    · intro h; exact ⟨x, rfl, by simpa using h⟩

/-- All hypotheses of `C80_spaces` are met. -/
example : ∃ r, routerRun [.certify exEscaped exEscaped []] = some r ∧
    ((∀ scope e, Encloses scope (str "/a b") → r.heldFallback scope e = none) →
      r.serveAsset exMachine [] ⟨str "GET", str "/a%20b", [], []⟩ = some (.error (.noAsset (str "/a b")))) := by
  obtain ⟨r, hr⟩ := routerRun_some [.certify exEscaped exEscaped []]
  exact ⟨r, hr, (C80_spaces stdUri_standard hr exMachine [] (req := ⟨str "GET", str "/a%20b", [], []⟩) (by simp) (range := none)
    (by decide +kernel) (.noHeader (by simp)) rfl (by decide) (by decide)).2⟩

/-- The hypotheses of `C80_refused` are met. -/
example : ¬ (RouterCall.certify [Asset.new (str "a b") (str "hello")] [Asset.new (str "a b") (str "hello")] []).Succeeds := by
  intro h
  have : (certifyAssets [Asset.new (str "a b") (str "hello")] [Asset.new (str "a b") (str "hello")] []).2 = .ok () := h
  revert this
  decide +kernel

end
end Verif.Props
