import Verif.Spec.Wasm
import Mathlib.Tactic.Ring

/-! # Lemmas on the JavaScript bindings -/

set_option linter.unusedSimpArgs false

namespace Verif

theorem utf16Decode_single {u : UInt16} (h : ¬ (0xD800 ≤ u ∧ u ≤ 0xDFFF)) (rest : List UInt16) :
    utf16Decode (u :: rest) = Char.ofNat u.toNat :: utf16Decode rest := by
  have h1 : ¬ (0xD800 ≤ u ∧ u ≤ 0xDBFF) := fun e => h ⟨e.1, by
    have := e.2
    simp only [UInt16.le_iff_toNat_le] at this ⊢
    exact Nat.le_trans this (by decide)⟩
  have h2 : ¬ (0xDC00 ≤ u ∧ u ≤ 0xDFFF) := fun e => h ⟨by
    have := e.1
    simp only [UInt16.le_iff_toNat_le] at this ⊢
    exact Nat.le_trans (by decide) this, e.2⟩
  cases rest with
  | nil => simp only [utf16Decode, if_neg h]
  | cons v rest => rw [utf16Decode, if_neg h1, if_neg h2]

theorem utf16Decode_pair {u v : UInt16} (h1 : 0xD800 ≤ u ∧ u ≤ 0xDBFF) (h2 : 0xDC00 ≤ v ∧ v ≤ 0xDFFF) (rest : List UInt16) :
    utf16Decode (u :: v :: rest) =
      Char.ofNat (0x10000 + (u.toNat - 0xD800) * 0x400 + (v.toNat - 0xDC00)) :: utf16Decode rest := by
  rw [utf16Decode, if_pos h1, if_pos h2]

theorem utf16Decode_char (c : Char) (rest : List UInt16) : utf16Decode (utf16Char c ++ rest) = c :: utf16Decode rest := by
  have hv : c.toNat < 0xD800 ∨ (0xDFFF < c.toNat ∧ c.toNat < 0x110000) := c.valid
  unfold utf16Char
  by_cases hlt : c.toNat < 0x10000
  · rw [if_pos hlt]
    have hn : (c.toNat.toUInt16).toNat = c.toNat := by
      simp [Nat.mod_eq_of_lt hlt]
    simp only [List.cons_append, List.nil_append]
    rw [utf16Decode_single, hn, Char.ofNat_toNat]
    simp only [UInt16.le_iff_toNat_le, hn]
    intro ⟨e1, e2⟩
    have : (0xD800 : UInt16).toNat = 0xD800 := rfl
    have : (0xDFFF : UInt16).toNat = 0xDFFF := rfl
    omega
  · rw [if_neg hlt]
    have hb : c.toNat < 0x110000 := by omega
    have n1 : ((0xD800 + (c.toNat - 0x10000) / 0x400).toUInt16).toNat = 0xD800 + (c.toNat - 0x10000) / 0x400 := by
      simp only [Nat.toUInt16_eq, UInt16.toNat_ofNat']
      omega
    have n2 : ((0xDC00 + (c.toNat - 0x10000) % 0x400).toUInt16).toNat = 0xDC00 + (c.toNat - 0x10000) % 0x400 := by
      simp only [Nat.toUInt16_eq, UInt16.toNat_ofNat']
      omega
    simp only [List.cons_append, List.nil_append]
    rw [utf16Decode_pair, n1, n2]
    · have : 0x10000 + (0xD800 + (c.toNat - 0x10000) / 0x400 - 0xD800) * 0x400 + (0xDC00 + (c.toNat - 0x10000) % 0x400 - 0xDC00) =
          c.toNat := by omega
      rw [this, Char.ofNat_toNat]
    · simp only [UInt16.le_iff_toNat_le, n1]
      have : (0xD800 : UInt16).toNat = 0xD800 := rfl
      have : (0xDBFF : UInt16).toNat = 0xDBFF := rfl
      omega
    · simp only [UInt16.le_iff_toNat_le, n2]
      have : (0xDC00 : UInt16).toNat = 0xDC00 := rfl
      have : (0xDFFF : UInt16).toNat = 0xDFFF := rfl
      omega

theorem utf16Decode_utf16 (cs : List Char) : utf16Decode (utf16 cs) = cs := by
  induction cs with
  | nil => rfl
  | cons c cs ih =>
    show utf16Decode (utf16Char c ++ utf16 cs) = _
    rw [utf16Decode_char, ih]

theorem utf16_inj {a b : List Char} (h : utf16 a = utf16 b) : a = b := by
  have := congrArg utf16Decode h
  simpa [utf16Decode_utf16] using this

theorem jsText_inj {a b : String} (h : jsText a = jsText b) : a = b := String.toList_inj.1 (utf16_inj h)

theorem asString_text {v : JsVal} {b : Bytes} (h : IsText v b) : v.asString = some b := by
  obtain ⟨cs, rfl, rfl⟩ := h
  simp [JsVal.asString, utf16Decode_utf16]

theorem asHeaders_is {v : JsVal} {hs : List Header} (h : IsHeaders v hs) : v.asHeaders = some hs := by
  obtain ⟨l, rfl, h⟩ := h
  show l.mapM JsVal.asHeader = some hs
  induction h with
  | nil => rfl
  | @cons x h l hs hx _ ih =>
    obtain ⟨a, b, rfl, h1, h2⟩ := hx
    rw [List.mapM_cons, ih]
    simp [JsVal.asHeader, asString_text h1, asString_text h2]

theorem truncRat_natCast (n : Nat) : truncRat (n : Rat) = n := by
  unfold truncRat
  have : (0 : Rat) ≤ (n : Rat) := by exact_mod_cast Nat.zero_le n
  rw [if_pos this]
  exact Rat.floor_intCast n

theorem toUint8_byte (x : UInt8) : JsNum.toUint8 (.fin (x.toNat : Rat)) = x := by
  unfold JsNum.toUint8
  simp only [truncRat_natCast]
  have : x.toNat < 256 := x.toNat_lt
  have e : ((x.toNat : Int) % 256).toNat = x.toNat := by omega
  rw [e]
  simp

theorem toVec_is {v : JsVal} {b : Bytes} (h : IsBody v b) : v.toVec = some b := by
  rcases h with rfl | rfl
  · rfl
  · show List.mapM _ _ = _
    induction b with
    | nil => rfl
    | cons x b ih =>
      rw [List.map_cons, List.mapM_cons, ih]
      simp [toUint8_byte]

/-- What each entry of a request object may be. -/
def GoodReq (q : HttpRequest) (e : List UInt16 × JsVal) : Prop :=
  (e.1 = jsText "method" → e.2.asString = some q.method) ∧ (e.1 = jsText "url" → e.2.asString = some q.url) ∧
    (e.1 = jsText "headers" → e.2.asHeaders = some q.headers) ∧ (e.1 = jsText "body" → e.2.toVec = some q.body)

open Classical in
theorem jsReq_fold {q : HttpRequest} (props : List (List UInt16 × JsVal)) (h : ∀ e ∈ props, GoodReq q e) (a : JsReqAcc) :
    props.foldlM jsReqEntry a = some
      ⟨if ∃ e ∈ props, e.1 = jsText "method" then q.method else a.method,
       if ∃ e ∈ props, e.1 = jsText "url" then q.url else a.url,
       if ∃ e ∈ props, e.1 = jsText "headers" then q.headers else a.headers,
       if ∃ e ∈ props, e.1 = jsText "body" then q.body else a.body⟩ := by
  induction props generalizing a with
  | nil => simp
  | cons e props ih =>
    obtain ⟨g1, g2, g3, g4⟩ := h e (by simp)
    have ih := ih (fun x hx => h x (by simp [hx]))
    have step : jsReqEntry a e = some ⟨if e.1 = jsText "method" then q.method else a.method,
        if e.1 = jsText "url" then q.url else a.url, if e.1 = jsText "headers" then q.headers else a.headers,
        if e.1 = jsText "body" then q.body else a.body⟩ := by
      unfold jsReqEntry
      have k1 : jsText "method" ≠ jsText "url" := by decide
      have k2 : jsText "method" ≠ jsText "headers" := by decide
      have k3 : jsText "method" ≠ jsText "body" := by decide
      have k4 : jsText "url" ≠ jsText "headers" := by decide
      have k5 : jsText "url" ≠ jsText "body" := by decide
      have k6 : jsText "headers" ≠ jsText "body" := by decide
      by_cases c1 : e.1 = jsText "method"
      · rw [g1 c1]
        simp [c1, k1, k2, k3]
      · by_cases c2 : e.1 = jsText "url"
        · rw [g2 c2]
          simp [c2, k1.symm, k4, k5]
        · by_cases c3 : e.1 = jsText "headers"
          · rw [g3 c3]
            simp [c3, k2.symm, k4.symm, k6]
          · by_cases c4 : e.1 = jsText "body"
            · rw [g4 c4]
              simp [c4, k3.symm, k5.symm, k6.symm]
            · simp [c1, c2, c3, c4]
    rw [List.foldlM_cons, step]
    simp only [Option.bind_eq_bind, Option.bind_some]
    rw [ih]
    simp only [List.mem_cons, exists_eq_or_imp]
    congr 1
    congr 1 <;> split_ifs <;> simp_all

/-- What each entry of a response object may be. -/
def GoodRes (st : JsNum) (hs : List Header) (b : Bytes) (e : List UInt16 × JsVal) : Prop :=
  (e.1 = jsText "status_code" → e.2.asStatus = some st.asU16) ∧
    (e.1 = jsText "headers" → e.2.asHeaders = some hs) ∧ (e.1 = jsText "body" → e.2.toVec = some b)

open Classical in
theorem jsRes_fold {st : JsNum} {hs : List Header} {b : Bytes} (props : List (List UInt16 × JsVal))
    (h : ∀ e ∈ props, GoodRes st hs b e) (a : JsResAcc) :
    props.foldlM jsResEntry a = some
      ⟨if ∃ e ∈ props, e.1 = jsText "status_code" then st.asU16 else a.status,
       if ∃ e ∈ props, e.1 = jsText "headers" then hs else a.headers,
       if ∃ e ∈ props, e.1 = jsText "body" then b else a.body⟩ := by
  induction props generalizing a with
  | nil => simp
  | cons e props ih =>
    obtain ⟨g1, g3, g4⟩ := h e (by simp)
    have ih := ih (fun x hx => h x (by simp [hx]))
    have step : jsResEntry a e = some ⟨if e.1 = jsText "status_code" then st.asU16 else a.status,
        if e.1 = jsText "headers" then hs else a.headers,
        if e.1 = jsText "body" then b else a.body⟩ := by
      unfold jsResEntry
      have k2 : jsText "status_code" ≠ jsText "headers" := by decide
      have k3 : jsText "status_code" ≠ jsText "body" := by decide
      have k6 : jsText "headers" ≠ jsText "body" := by decide
      by_cases c1 : e.1 = jsText "status_code"
      · rw [g1 c1]
        simp [c1, k2, k3]
      · by_cases c3 : e.1 = jsText "headers"
        · rw [g3 c3]
          simp [c3, k2.symm, k6]
        · by_cases c4 : e.1 = jsText "body"
          · rw [g4 c4]
            simp [c4, k3.symm, k6.symm]
          · simp [c1, c3, c4]
    rw [List.foldlM_cons, step]
    simp only [Option.bind_eq_bind, Option.bind_some]
    rw [ih]
    simp only [List.mem_cons, exists_eq_or_imp]
    congr 1
    congr 1 <;> split_ifs <;> simp_all

theorem nodup_value {α β : Type} {l : List (α × β)} (h : (l.map Prod.fst).Nodup) {k : α} {v : β} (hm : (k, v) ∈ l)
    {e : α × β} (he : e ∈ l) (hk : e.1 = k) : e.2 = v := by
  have := List.inj_on_of_nodup_map h he hm hk
  rw [this]

theorem methodFromStr_iff {b : Bytes} : IsMethod b → methodFromStr b = some b := by
  intro ⟨h1, h2⟩
  unfold methodFromStr
  refine if_pos ⟨h1, ?_⟩
  rw [List.all_eq_true]
  intro x hx
  have h3 := h2 x hx
  have h4 : ∀ y ∈ str "!#$%&'*+-.^_`|~0123456789ABCDEFGHIJKLMNOPQRSTUVWXYZabcdefghijklmnopqrstuvwxyz", tokenByte y = true := by
    decide
  exact h4 x h3

theorem methodFromStr_none {b : Bytes} : ¬ IsMethod b → methodFromStr b = none := by
  intro h
  unfold methodFromStr
  rw [if_neg]
  intro ⟨h1, h2⟩
  apply h
  refine ⟨h1, fun x hx => ?_⟩
  have h3 := List.all_eq_true.1 h2 x hx
  have h4 : ∀ n : Fin 256, tokenByte (UInt8.ofNat n.1) = true → UInt8.ofNat n.1 ∈
      str "!#$%&'*+-.^_`|~0123456789ABCDEFGHIJKLMNOPQRSTUVWXYZabcdefghijklmnopqrstuvwxyz" := by decide +kernel
  have h5 := h4 ⟨x.toNat, x.toNat_lt⟩
  simpa using h5 (by simpa using h3)

theorem requestFromJs_is {o : JsVal} {q : HttpRequest} (h : IsRequest o q) :
    requestFromJs o = (methodFromStr q.method).map (fun m => { q with method := m }) := by
  obtain ⟨m, u, hh, b, ⟨props, rfl, nd, hp⟩, h1, h2, h3, h4⟩ := h
  have p1 := hp ("method", m) (by simp)
  have p2 := hp ("url", u) (by simp)
  have p3 := hp ("headers", hh) (by simp)
  have p4 := hp ("body", b) (by simp)
  have good : ∀ e ∈ props, GoodReq q e := by
    intro e he
    refine ⟨fun hk => ?_, fun hk => ?_, fun hk => ?_, fun hk => ?_⟩
    · rw [nodup_value nd p1 he hk]; exact asString_text h1
    · rw [nodup_value nd p2 he hk]; exact asString_text h2
    · rw [nodup_value nd p3 he hk]; exact asHeaders_is h3
    · rw [nodup_value nd p4 he hk]; exact toVec_is h4
  unfold requestFromJs
  have e1 : ∃ e ∈ props, e.1 = jsText "method" := ⟨_, p1, by simp only [jsText]⟩
  have e2 : ∃ e ∈ props, e.1 = jsText "url" := ⟨_, p2, by simp only [jsText]⟩
  have e3 : ∃ e ∈ props, e.1 = jsText "headers" := ⟨_, p3, by simp only [jsText]⟩
  have e4 : ∃ e ∈ props, e.1 = jsText "body" := ⟨_, p4, by simp only [jsText]⟩
  simp only [jsReq_fold props good, Option.bind_eq_bind, Option.bind_some, if_pos e1, if_pos e2, if_pos e3, if_pos e4]
  cases methodFromStr q.method <;> rfl

theorem responseFromJs_is {o : JsVal} {st : JsNum} {hs : List Header} {body : Bytes} (h : IsResponse o st hs body) :
    responseFromJs o = if 100 ≤ st.asU16 ∧ st.asU16 < 1000 then some ⟨st.asU16, hs, body⟩ else none := by
  obtain ⟨hh, b, ⟨props, rfl, nd, hp⟩, h3, h4⟩ := h
  have p1 := hp ("status_code", .num st) (by simp)
  have p3 := hp ("headers", hh) (by simp)
  have p4 := hp ("body", b) (by simp)
  have good : ∀ e ∈ props, GoodRes st hs body e := by
    intro e he
    refine ⟨fun hk => ?_, fun hk => ?_, fun hk => ?_⟩
    · rw [nodup_value nd p1 he hk]; rfl
    · rw [nodup_value nd p3 he hk]; exact asHeaders_is h3
    · rw [nodup_value nd p4 he hk]; exact toVec_is h4
  unfold responseFromJs
  have e1 : ∃ e ∈ props, e.1 = jsText "status_code" := ⟨_, p1, by simp only [jsText]⟩
  have e3 : ∃ e ∈ props, e.1 = jsText "headers" := ⟨_, p3, by simp only [jsText]⟩
  have e4 : ∃ e ∈ props, e.1 = jsText "body" := ⟨_, p4, by simp only [jsText]⟩
  simp only [jsRes_fold props good, Option.bind_eq_bind, Option.bind_some, if_pos e1, if_pos e3, if_pos e4]

/-- Lowering the ASCII letters of UTF-8 text gives UTF-8 text. -/
theorem lower_text {b : Bytes} (h : ∃ cs, b = utf8 cs) : ∃ cs, lower b = utf8 cs := by
  obtain ⟨cs, rfl⟩ := h
  have key : ∀ c : Char, ∃ d : Char, (String.utf8EncodeChar c).map lowerByte = String.utf8EncodeChar d := by
    intro c
    by_cases hc : c.toNat < 128
    · rw [utf8EncodeChar_ascii hc]
      by_cases hu : 0x41 ≤ c.toNat ∧ c.toNat ≤ 0x5A
      · refine ⟨Char.ofNat (c.toNat + 0x20), ?_⟩
        have hv : (Char.ofNat (c.toNat + 0x20)).toNat = c.toNat + 0x20 := by
          unfold Char.ofNat
          rw [dif_pos (show (c.toNat + 0x20).isValidChar from .inl (by omega))]
          rfl
        rw [utf8EncodeChar_ascii (by omega), hv]
        simp only [List.map_cons, List.map_nil, lowerByte]
        have h1 : (c.toNat.toUInt8).toNat = c.toNat := by simp; omega
        have : (65 : UInt8) ≤ c.toNat.toUInt8 ∧ c.toNat.toUInt8 ≤ 90 := by
          simp only [UInt8.le_iff_toNat_le, h1]
          exact ⟨hu.1, hu.2⟩
        rw [if_pos this]
        congr 1
        apply UInt8.toNat_inj.1
        rw [UInt8.toNat_add, h1]
        simp
      · refine ⟨c, ?_⟩
        rw [utf8EncodeChar_ascii hc]
        simp only [List.map_cons, List.map_nil, lowerByte]
        have h1 : (c.toNat.toUInt8).toNat = c.toNat := by simp; omega
        rw [if_neg]
        simp only [UInt8.le_iff_toNat_le, h1]
        exact hu
    · refine ⟨c, ?_⟩
      have hb : ∀ x ∈ String.utf8EncodeChar c, 128 ≤ x.toNat := by
        intro x hx
        unfold String.utf8EncodeChar at hx
        have hc' : ¬ c.val.toNat ≤ 127 := by have : ¬ c.val.toNat < 128 := hc; omega
        simp only [hc', if_false] at hx
        have hv := c.valid
        split_ifs at hx <;> simp only [List.mem_cons, List.not_mem_nil, or_false] at hx
        all_goals
          rcases hx with rfl | rfl | rfl | rfl <;>
            simp only [Nat.toUInt8_eq, UInt8.toNat_ofNat'] <;> omega
      conv => rhs; rw [← List.map_id (String.utf8EncodeChar c)]
      apply List.map_congr_left
      intro x hx
      have := hb x hx
      unfold lowerByte
      rw [if_neg]
      · rfl
      · simp only [UInt8.le_iff_toNat_le]
        have : (90 : UInt8).toNat = 90 := rfl
        omega
  induction cs with
  | nil => exact ⟨[], rfl⟩
  | cons c cs ih =>
    obtain ⟨d, hd⟩ := key c
    obtain ⟨ds, hds⟩ := ih
    refine ⟨d :: ds, ?_⟩
    unfold lower utf8 at hds ⊢
    simp only [List.flatMap_cons, List.map_append, hd, hds]

theorem text_of_utf8 {b : Bytes} (h : ∃ cs, b = utf8 cs) : IsText (jsString b) b := by
  obtain ⟨cs, rfl⟩ := h
  exact ⟨cs, by simp [jsString, chars_utf8], rfl⟩

theorem headers_of_utf8 {hs : List Header} (h : ∀ x ∈ hs, (∃ cs, x.1 = utf8 cs) ∧ ∃ cs, x.2 = utf8 cs) :
    IsHeaders (.arr (hs.map fun h => .arr [jsString h.1, jsString h.2])) hs := by
  refine ⟨_, rfl, ?_⟩
  induction hs with
  | nil => exact .nil
  | cons x hs ih =>
    have := h x (by simp)
    exact .cons ⟨_, _, rfl, text_of_utf8 this.1, text_of_utf8 this.2⟩ (ih fun y hy => h y (by simp [hy]))

theorem headers_utf8 {v : JsVal} {hs : List Header} (h : IsHeaders v hs) :
    ∀ x ∈ hs, (∃ cs, x.1 = utf8 cs) ∧ ∃ cs, x.2 = utf8 cs := by
  obtain ⟨l, -, h⟩ := h
  induction h with
  | nil => simp
  | @cons x h l hs hx _ ih =>
    obtain ⟨a, b, -, ⟨c, -, h1⟩, ⟨d, -, h2⟩⟩ := hx
    intro y hy
    rcases List.mem_cons.1 hy with rfl | hy
    · exact ⟨⟨_, h1⟩, _, h2⟩
    · exact ih y hy

end Verif
