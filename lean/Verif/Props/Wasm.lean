import Verif.Lemmas.Wasm
import Verif.Props.Complete

/-!
# The JavaScript bindings of response verification (C61)
-/

set_option linter.unusedSimpArgs false
set_option linter.unusedSectionVars false

namespace Verif.Props
open Verif HashTree

section
variable [SHA] [UriLib] [Bls] [Inflate]

/-- The headers in the result of a verification are headers of the response, with lower case name, or its certificate. -/
theorem info_headers {env : Env} {q : HttpRequest} {r : HttpResponse} {minV : Nat} {info : VerificationInfo}
    (h : verifyPair env q r minV = .ok info) {vr : VerifiedResponse} (hv : info.response = some vr) :
    ∀ x ∈ vr.headers, ∃ y ∈ r.headers, (x.1 = lower y.1 ∨ x.1 = str "IC-Certificate") ∧ x.2 = y.2 := by
  have hfin : ∀ {t p e c rh rc}, v2Verification.finish r t p e c rh rc = .ok info →
      ∀ x ∈ vr.headers, ∃ y ∈ r.headers, (x.1 = lower y.1 ∨ x.1 = str "IC-Certificate") ∧ x.2 = y.2 := by
    intro t p e c rh rc hf
    unfold v2Verification.finish at hf
    simp only at hf
    split at hf
    · split at hf
      · simp at hf
      · rename_i v hcv
        simp only [Out.ok.injEq] at hf
        subst hf
        simp only [Option.some.injEq] at hv
        subst hv
        intro x hx
        simp only [List.mem_append, List.mem_singleton] at hx
        rcases hx with hx | rfl
        · unfold filterResponseHeaders at hx
          simp only [List.mem_filterMap] at hx
          obtain ⟨y, hy, hx⟩ := hx
          refine ⟨y, hy, ?_⟩
          split at hx
          · simp at hx
          · split at hx
            · simp only [Option.some.injEq] at hx; subst hx; exact ⟨.inl rfl, rfl⟩
            · split at hx
              · simp only [Option.some.injEq] at hx; subst hx; exact ⟨.inl rfl, rfl⟩
              · simp at hx
        · unfold filterResponseHeaders at hcv
          simp only at hcv
          have key : ∀ (l : List Header) (acc : Option Bytes),
              l.foldl (fun acc h => if eqIgnoreCase h.1 certHeaderName then some h.2 else acc) acc = some v →
              acc = some v ∨ ∃ y ∈ l, v = y.2 := by
            intro l
            induction l with
            | nil => intro acc h; exact .inl h
            | cons y l ih =>
              intro acc h
              rcases ih _ h with h1 | ⟨z, hz, h1⟩
              · simp only at h1
                split at h1
                · exact .inr ⟨y, by simp, (Option.some.inj h1).symm⟩
                · exact .inl h1
              · exact .inr ⟨z, by simp [hz], h1⟩
          rcases key _ _ hcv with h1 | ⟨y, hy, h1⟩
          · simp at h1
          · exact ⟨y, hy, .inr rfl, h1⟩
    · simp at hf
  unfold verifyPair at h
  split at h
  · simp at h
  · rw [Out.bind_ok] at h
    obtain ⟨hd, -, h⟩ := h
    split at h
    · simp at h
    · split at h
      · unfold v1Verification at h
        simp only [Out.bind_ok] at h
        obtain ⟨_, -, _, -, _, -, h⟩ := h
        split at h
        · simp at h
        · rw [ite_eq_iff] at h
          rcases h with ⟨-, h⟩ | ⟨-, h⟩
          · simp at h
          · simp only [Out.ok.injEq] at h
            subst h
            simp only [Option.some.injEq] at hv
            subst hv
            simp
      · split at h
        · split at h
          · simp at h
          · split at h
            · simp at h
            · rw [Out.bind_ok] at h
              obtain ⟨cel, -, h⟩ := h
              unfold v2Verification at h
              simp only [Out.bind_ok] at h
              obtain ⟨_, -, _, -, h⟩ := h
              split at h
              · simp at h
              · rw [Out.bind_ok] at h
                obtain ⟨_, -, h⟩ := h
                split at h
                · split at h
                  · simp only [Out.ok.injEq] at h
                    subst h
                    simp at hv
                  · simp at h
                · exact hfin h
                · rw [Out.bind_ok] at h
                  obtain ⟨_, -, h⟩ := h
                  exact hfin h
        · simp at h

theorem infoToJs_is {info : VerificationInfo}
    (h : ∀ vr, info.response = some vr → ∀ x ∈ vr.headers, (∃ cs, x.1 = utf8 cs) ∧ ∃ cs, x.2 = utf8 cs) :
    IsInfo (infoToJs info) info := by
  refine ⟨match info.response with | some r => verifiedToJs r | none => .undef, ⟨_, rfl, ?_, ?_⟩, ?_⟩
  · exact List.Perm.refl _
  · simp only [List.map_cons, List.map_nil]
    decide
  · cases hr : info.response with
    | none => rfl
    | some r =>
      have hh := headers_of_utf8 (h r hr)
      refine ⟨_, hh, ?_⟩
      show HasExactly (verifiedToJs r) _
      obtain ⟨st, hs, b⟩ := r
      cases st with
      | none =>
        refine ⟨_, rfl, List.Perm.refl _, ?_⟩
        show [jsText "body", jsText "headers"].Nodup
        decide
      | some s =>
        refine ⟨_, rfl, List.Perm.refl _, ?_⟩
        show [jsText "statusCode", jsText "body", jsText "headers"].Nodup
        decide

/-- **C61** `verifyRequestResponsePair` of the JavaScript package, called with objects that stand for a request and a response,
behaves as verification of these: it returns the object of the result, or throws the error of the code of the Rust error. -/
theorem C61_agrees {m : Machine} {checks : Bool} {o p : JsVal} {canisterId rootKey : Bytes} {now offset minV : Nat}
    {q : HttpRequest} {r : HttpResponse} (ho : IsRequest o q) (hm : IsMethod q.method)
    (hp : IsResponse p (.fin r.status.toNat) r.headers r.body) (hs : 100 ≤ r.status.toNat ∧ r.status.toNat ≤ 999)
    (hn : now < 2 ^ 64) (hf : offset < 2 ^ 64) (hv : minV < 256) :
    match verifyPair ⟨m, checks, canisterId, now, offset, rootKey⟩ q r minV,
      verifyJs m checks o p canisterId now offset rootKey minV with
    | .ok info, .ok v => IsInfo v info
    | .err e, .err c => c = jsErrorCode e
    | .crash, .crash => True
    | _, _ => False := by
  have h1 := requestFromJs_is ho
  rw [methodFromStr_iff hm] at h1
  have h1 : requestFromJs o = some q := h1
  have hst : JsNum.asU16 (.fin (r.status.toNat : Rat)) = r.status := by
    unfold JsNum.asU16
    simp only [truncRat_natCast]
    have : r.status.toNat < 65536 := r.status.toNat_lt
    rw [if_neg (by omega), if_neg (by omega)]
    simp
  have h2 := responseFromJs_is hp
  rw [hst, if_pos] at h2
  swap
  · simp only [UInt16.le_iff_toNat_le, UInt16.lt_iff_toNat_lt]
    have e1 : (100 : UInt16).toNat = 100 := rfl
    have e2 : (1000 : UInt16).toNat = 1000 := rfl
    omega
  have h2 : responseFromJs p = some r := h2
  unfold verifyJs
  rw [h1, h2]
  have e1 : ((now : Int) % 2 ^ 64).toNat = now := by omega
  have e2 : ((offset : Int) % 2 ^ 64).toNat = offset := by omega
  have e3 : ((minV : Int) % 256).toNat = minV := by omega
  simp only [e1, e2, e3]
  cases hvp : verifyPair ⟨m, checks, canisterId, now, offset, rootKey⟩ q r minV with
  | err e => rfl
  | crash => trivial
  | ok info =>
    apply infoToJs_is
    intro vr hvr x hx
    obtain ⟨y, hy, hn, hv⟩ := info_headers hvp hvr x hx
    obtain ⟨h, b, -, hh, -⟩ := hp
    have := headers_utf8 hh y hy
    refine ⟨?_, hv ▸ this.2⟩
    rcases hn with hn | hn
    · rw [hn]; exact lower_text this.1
    · rw [hn]; exact ⟨"IC-Certificate".toList, str_eq_utf8 (by decide)⟩

end

/-- **C61** The object describes one result only: whoever reads it knows the version, the status, the headers and the body that
were verified. -/
theorem C61_result_unique {v : JsVal} {i j : VerificationInfo} (hi : IsInfo v i) (hj : IsInfo v j) : i = j := by
  have hprop : ∀ {o : JsVal} {l k : List (String × JsVal)} {s : String} {x y : JsVal}, HasExactly o l → HasExactly o k →
      (s, x) ∈ l → (s, y) ∈ k → x = y := by
    rintro o l k s x y ⟨p, rfl, h1, h2⟩ ⟨p', he, h1', _⟩ hx hy
    cases he
    have a : (utf16 s.toList, x) ∈ p := h1.mem_iff.2 (List.mem_map.2 ⟨_, hx, rfl⟩)
    have b : (utf16 s.toList, y) ∈ p := h1'.mem_iff.2 (List.mem_map.2 ⟨_, hy, rfl⟩)
    exact (nodup_value h2 a b rfl).symm
  have hnat : ∀ {a b : Nat}, JsVal.num (.fin (a : Rat)) = JsVal.num (.fin (b : Rat)) → a = b := by
    intro a b h
    simp only [JsVal.num.injEq, JsNum.fin.injEq] at h
    exact_mod_cast h
  have htext : ∀ {v : JsVal} {a b : Bytes}, IsText v a → IsText v b → a = b := by
    rintro v a b ⟨c, rfl, rfl⟩ ⟨d, h, rfl⟩
    rw [utf16_inj (JsVal.str.inj h)]
  have hhs : ∀ {v : JsVal} {a b : List Header}, IsHeaders v a → IsHeaders v b → a = b := by
    intro v a b ha hb
    have := asHeaders_is ha
    rw [asHeaders_is hb] at this
    exact (Option.some.inj this).symm
  obtain ⟨x, h1, h2⟩ := hi
  obtain ⟨y, k1, k2⟩ := hj
  have e1 := hprop h1 k1 (s := "response") (x := x) (y := y) (by simp) (by simp)
  have e2 := hnat (hprop h1 k1 (s := "verificationVersion") (x := .num (.fin i.version)) (y := .num (.fin j.version)) (by simp) (by simp))
  subst e1
  obtain ⟨ri, vi⟩ := i
  obtain ⟨rj, vj⟩ := j
  simp only at e2 h2 k2
  subst e2
  have hex : ∀ r, IsVerified x r → x ≠ .undef := by
    rintro r ⟨h, -, p, rfl, -⟩ h
    cases h
  congr 1
  cases ri with
  | none =>
    simp only at h2
    cases rj with
    | none => rfl
    | some r => exact absurd h2 (hex r k2)
  | some r =>
    cases rj with
    | none => exact absurd k2 (hex r h2)
    | some r' =>
      simp only at h2 k2
      obtain ⟨h, a1, a2⟩ := h2
      obtain ⟨h', b1, b2⟩ := k2
      have e3 : h = h' := hprop a2 b2 (s := "headers") (x := h) (y := h') (by simp) (by simp)
      subst e3
      have e4 := hprop a2 b2 (s := "body") (x := .bytes r.body) (y := .bytes r'.body) (by simp) (by simp)
      have e5 := hhs a1 b1
      obtain ⟨s, hs, b⟩ := r
      obtain ⟨s', hs', b'⟩ := r'
      simp only [JsVal.bytes.injEq] at e4 e5
      subst e4 e5
      have hlen : ∀ {o : JsVal} {l k : List (String × JsVal)}, HasExactly o l → HasExactly o k → l.length = k.length := by
        rintro o l k ⟨p, rfl, q1, -⟩ ⟨p', he, q1', -⟩
        cases he
        have := q1.length_eq.symm.trans q1'.length_eq
        simpa using this
      have hl := hlen a2 b2
      cases s with
      | none =>
        cases s' with
        | none => rfl
        | some s' => simp at hl
      | some s =>
        cases s' with
        | none => simp at hl
        | some s' =>
          have e6 := hnat (hprop a2 b2 (s := "statusCode") (x := .num (.fin s.toNat)) (y := .num (.fin s'.toNat)) (by simp) (by simp))
          rw [UInt16.toNat_inj.1 e6]

/-- **C61** Errors of different kinds have different codes. -/
theorem C61_codes {e e' : RvError} : jsErrorCode e = jsErrorCode e' ↔ e.ctorIdx = e'.ctorIdx := by
  cases e <;> cases e' <;> simp [jsErrorCode, RvError.ctorIdx]

section
variable [SHA] [UriLib] [Bls] [Inflate]

/-- **C61** Whatever the number given as status code, if anything is returned or a verification error is thrown, the response
verified is the one with that number rounded towards zero, which is between 100 and 999, and the method is a method name. -/
theorem C61_status {m : Machine} {checks : Bool} {o p : JsVal} {canisterId rootKey : Bytes} {now offset minV : Int}
    {q : HttpRequest} {status : JsNum} {hs : List Header} {body : Bytes} (ho : IsRequest o q) (hp : IsResponse p status hs body)
    (h : verifyJs m checks o p canisterId now offset rootKey minV ≠ .crash) :
    IsMethod q.method ∧ ∃ (x : Rat) (n : Nat), status = .fin x ∧ 100 ≤ n ∧ n ≤ 999 ∧ (n : Rat) ≤ x ∧ x < n + 1 ∧
      requestFromJs o = some q ∧ responseFromJs p = some ⟨n.toUInt16, hs, body⟩ := by
  have h1 := requestFromJs_is ho
  have hm : IsMethod q.method := by
    by_contra hm
    rw [methodFromStr_none hm] at h1
    apply h
    unfold verifyJs
    rw [h1]; rfl
  rw [methodFromStr_iff hm] at h1
  have h1 : requestFromJs o = some q := h1
  have h2 := responseFromJs_is hp
  have hst : 100 ≤ status.asU16 ∧ status.asU16 < 1000 := by
    by_contra hst
    rw [if_neg hst] at h2
    apply h
    unfold verifyJs
    rw [h1, h2]
  rw [if_pos hst] at h2
  refine ⟨hm, ?_⟩
  cases status with
  | nan => exact absurd hst (by decide)
  | inf => exact absurd hst (by decide)
  | negInf => exact absurd hst (by decide)
  | fin x =>
    simp only [UInt16.le_iff_toNat_le, UInt16.lt_iff_toNat_lt] at hst
    have e1 : (100 : UInt16).toNat = 100 := rfl
    have e2 : (1000 : UInt16).toNat = 1000 := rfl
    rw [e1, e2] at hst
    have e3 : truncRat x = (JsNum.asU16 (.fin x)).toNat := by
      unfold JsNum.asU16 at hst ⊢
      simp only at hst ⊢
      split_ifs at hst ⊢ with c1 c2
      · simp at hst
      · simp at hst
      · simp only [Nat.toUInt16_eq, UInt16.toNat_ofNat']
        omega
    refine ⟨x, (JsNum.asU16 (.fin x)).toNat, rfl, hst.1, by omega, ?_, ?_, h1, by rw [h2]; simp⟩
    · have hx : 0 ≤ x := by
        by_contra hx
        unfold truncRat at e3
        rw [if_neg hx] at e3
        have : x.ceil ≤ 0 := Rat.ceil_le_iff.2 (by have := le_of_lt (not_le.1 hx); simpa using this)
        omega
      unfold truncRat at e3
      rw [if_pos hx] at e3
      have := Rat.le_floor_iff.1 (le_of_eq e3.symm)
      exact_mod_cast this
    · have hx : 0 ≤ x := by
        by_contra hx
        unfold truncRat at e3
        rw [if_neg hx] at e3
        have : x.ceil ≤ 0 := Rat.ceil_le_iff.2 (by have := le_of_lt (not_le.1 hx); simpa using this)
        omega
      unfold truncRat at e3
      rw [if_pos hx] at e3
      have : x.floor < (JsNum.asU16 (.fin x)).toNat + 1 := by omega
      have := Rat.floor_lt_iff.1 this
      exact_mod_cast this

end

/-- **C61** Reading a JavaScript string gives its text, or a text with the replacement character U+FFFD in it, the latter if the
string is not the UTF-16 of a text. -/
theorem C61_text (s : List UInt16) : ∃ cs, JsVal.asString (.str s) = some (utf8 cs) ∧
    (s = utf16 cs ∨ (Char.ofNat 0xFFFD ∈ cs ∧ ∀ ds, s ≠ utf16 ds)) := by
  refine ⟨utf16Decode s, rfl, ?_⟩
  have key : ∀ n (s : List UInt16), s.length ≤ n → s = utf16 (utf16Decode s) ∨ Char.ofNat 0xFFFD ∈ utf16Decode s := by
    have hns : ∀ u : UInt16, ¬ (0xD800 ≤ u ∧ u ≤ 0xDFFF) → utf16Char (Char.ofNat u.toNat) = [u] := by
      intro u hu
      have e1 : (0xD800 : UInt16).toNat = 0xD800 := rfl
      have e2 : (0xDFFF : UInt16).toNat = 0xDFFF := rfl
      simp only [UInt16.le_iff_toNat_le, e1, e2] at hu
      have hlt : u.toNat < 65536 := u.toNat_lt
      have hv : (Char.ofNat u.toNat).toNat = u.toNat := by
        unfold Char.ofNat
        rw [dif_pos (show u.toNat.isValidChar by unfold Nat.isValidChar; omega)]
        rfl
      unfold utf16Char
      rw [hv, if_pos hlt]
      simp
    intro n
    induction n with
    | zero =>
      intro s hs
      have : s = [] := List.length_eq_zero_iff.1 (by omega)
      subst this
      exact .inl rfl
    | succ n ih =>
      intro s hs
      match s, hs with
      | [], _ => exact .inl rfl
      | [u], _ =>
        by_cases hu : 0xD800 ≤ u ∧ u ≤ 0xDFFF
        · right
          simp only [utf16Decode, if_pos hu]
          simp
        · left
          simp only [utf16Decode, if_neg hu, utf16, List.flatMap_cons, List.flatMap_nil, List.append_nil]
          exact (hns u hu).symm
      | u :: v :: rest, hs =>
        simp only [List.length_cons] at hs
        have ihv := ih (v :: rest) (by simp only [List.length_cons]; omega)
        have ihr := ih rest (by omega)
        rw [utf16Decode]
        split_ifs with c1 c2 c3
        · rcases ihr with ihr | ihr
          · left
            simp only [utf16, List.flatMap_cons] at ihr ⊢
            rw [← ihr]
            have e1 : (0xD800 : UInt16).toNat = 0xD800 := rfl
            have e2 : (0xDBFF : UInt16).toNat = 0xDBFF := rfl
            have e3 : (0xDC00 : UInt16).toNat = 0xDC00 := rfl
            have e4 : (0xDFFF : UInt16).toNat = 0xDFFF := rfl
            simp only [UInt16.le_iff_toNat_le, e1, e2, e3, e4] at c1 c2
            generalize hN : 65536 + (u.toNat - 55296) * 1024 + (v.toNat - 56320) = N
            have hv : (Char.ofNat N).toNat = N := by
              unfold Char.ofNat
              rw [dif_pos (show N.isValidChar by unfold Nat.isValidChar; omega)]
              rfl
            unfold utf16Char
            rw [hv, if_neg (by omega)]
            have a1 : 55296 + (N - 65536) / 1024 = u.toNat := by omega
            have a2 : 56320 + (N - 65536) % 1024 = v.toNat := by omega
            rw [a1, a2]
            simp
          · right
            exact List.mem_cons_of_mem _ ihr
        · right; simp
        · right; simp
        · have hu : ¬ (0xD800 ≤ u ∧ u ≤ 0xDFFF) := by
            have e1 : (0xD800 : UInt16).toNat = 0xD800 := rfl
            have e2 : (0xDBFF : UInt16).toNat = 0xDBFF := rfl
            have e3 : (0xDC00 : UInt16).toNat = 0xDC00 := rfl
            have e4 : (0xDFFF : UInt16).toNat = 0xDFFF := rfl
            simp only [UInt16.le_iff_toNat_le, e1, e2, e3, e4] at c1 c3 ⊢
            omega
          rcases ihv with ihv | ihv
          · left
            have e : utf16 (Char.ofNat u.toNat :: utf16Decode (v :: rest)) =
              utf16Char (Char.ofNat u.toNat) ++ utf16 (utf16Decode (v :: rest)) := rfl
            rw [e, ← ihv, hns u hu]
            rfl
          · exact .inr (List.mem_cons_of_mem _ ihv)
  by_cases hw : ∃ ds, s = utf16 ds
  · obtain ⟨ds, rfl⟩ := hw
    left
    rw [utf16Decode_utf16]
  · right
    refine ⟨?_, fun ds hd => hw ⟨ds, hd⟩⟩
    rcases key _ s (le_refl _) with h | h
    · exact absurd ⟨_, h⟩ hw
    · exact h

/-! ### A concrete case -/

section
attribute [local instance] toySHA toyUri toyBls toyInflate

/-- A request object: properties in another order, one more property, a body of numbers, a header with a character outside the
Basic Multilingual Plane. -/
def exJsRequest : JsVal :=
  .obj [(jsText "body", .arr [.num (.fin 1), .num (.fin 255)]), (jsText "certificate_version", .arr []), (jsText "url", .str (jsText "/a")),
    (jsText "headers", .arr [.arr [.str (jsText "x"), .str (jsText "𝄞")]]), (jsText "method", .str (jsText "GET"))]

def exJsQ : HttpRequest := ⟨str "GET", str "/a", [(str "x", utf8 "𝄞".toList)], [1, 255]⟩

theorem exJs_request : IsRequest exJsRequest exJsQ := by
  refine ⟨.str (jsText "GET"), .str (jsText "/a"), .arr [.arr [.str (jsText "x"), .str (jsText "𝄞")]],
    .arr [.num (.fin 1), .num (.fin 255)], ⟨_, rfl, by decide +kernel, ?_⟩, ⟨"GET".toList, rfl, by decide⟩, ⟨"/a".toList, rfl, by decide⟩,
    ⟨_, rfl, .cons ⟨_, _, rfl, ⟨"x".toList, rfl, by decide⟩, ⟨"𝄞".toList, rfl, rfl⟩⟩ .nil⟩, .inr ?_⟩
  · intro x hx
    simp only [List.mem_cons, List.not_mem_nil, or_false] at hx
    rcases hx with rfl | rfl | rfl | rfl <;> simp [jsText]
  · rfl

def exJsResponse (n : JsNum) : JsVal :=
  .obj [(jsText "status_code", .num n), (jsText "headers", .arr [.arr [.str (jsText "IC-Certificate"), .str (jsText "?")]]),
    (jsText "body", .bytes [7])]

theorem exJs_response (n : JsNum) : IsResponse (exJsResponse n) n [(str "IC-Certificate", str "?")] [7] := by
  refine ⟨.arr [.arr [.str (jsText "IC-Certificate"), .str (jsText "?")]], .bytes [7], ⟨_, rfl, ?_, ?_⟩,
    ⟨_, rfl, .cons ⟨_, _, rfl, ⟨"IC-Certificate".toList, rfl, by decide⟩, ⟨"?".toList, rfl, by decide⟩⟩ .nil⟩, .inl rfl⟩
  · show [jsText "status_code", jsText "headers", jsText "body"].Nodup
    decide
  · intro x hx
    simp only [List.mem_cons, List.not_mem_nil, or_false] at hx
    rcases hx with rfl | rfl | rfl <;> simp [jsText]

/-- The call on these objects throws the error for a header without certificate. -/
example : (match verifyJs exMachine true exJsRequest (exJsResponse (.fin 200)) [5] 0 0 [] 2 with
    | .err c => c == .missingCertificate | _ => false) = true := by decide +kernel

example : IsMethod exJsQ.method := by unfold IsMethod; decide

/-- 200.5 counts as 200, 1000 makes the call fail, 65636.5 is 65535 and makes it fail. -/
example : (responseFromJs (exJsResponse (.fin (401 / 2)))).map HttpResponse.status = some 200 ∧
    responseFromJs (exJsResponse (.fin 1000)) = none ∧ responseFromJs (exJsResponse (.fin (131273 / 2))) = none ∧
    responseFromJs (exJsResponse .nan) = none := by decide +kernel

/-- A lone surrogate is replaced. -/
example : JsVal.asString (.str [0x61, 0xD834, 0x62]) = some (str "a" ++ [0xEF, 0xBF, 0xBD] ++ str "b") := by decide +kernel

/-- A result with a header outside ASCII, as an object. -/
example : IsInfo (infoToJs ⟨some ⟨some 200, [(str "x", utf8 "𝄞".toList)], [1]⟩, 2⟩) ⟨some ⟨some 200, [(str "x", utf8 "𝄞".toList)], [1]⟩, 2⟩ := by
  apply infoToJs_is
  intro vr h x hx
  cases h
  simp only [List.mem_singleton] at hx
  subst hx
  exact ⟨⟨"x".toList, by decide⟩, _, rfl⟩

end
end Verif.Props
