import Verif.Model.Candid

set_option linter.unusedSimpArgs false

/-! # C69: requests and responses as Candid values -/

namespace Verif.Props
open Verif

/-- RFC 9110 `token` characters -/
def IsTokenChar (b : UInt8) : Prop :=
  (∃ c ∈ "ABCDEFGHIJKLMNOPQRSTUVWXYZabcdefghijklmnopqrstuvwxyz0123456789!#$%&'*+-.^_`|~".toList, b = c.toNat.toUInt8)

instance (b : UInt8) : Decidable (IsTokenChar b) := by unfold IsTokenChar; infer_instance

/-- A method text: a nonempty token. -/
def IsMethod (m : Bytes) : Prop := m ≠ [] ∧ ∀ b ∈ m, IsTokenChar b

/-- The value `v` says: the field named `name` holds `x`. -/
def Holds (v : CVal) (name : String) (x : CVal) : Prop :=
  ∃ fs, v = .record fs ∧ fieldOf fs (idlHash (str name)) = some x

/-- The value is a pair of texts, the header `h`. -/
def IsHeader (v : CVal) (h : Header) : Prop :=
  ∃ fs, v = .record fs ∧ fieldOf fs 0 = some (.text h.1) ∧ fieldOf fs 1 = some (.text h.2)

/-- The value is the list of these headers. -/
def IsHeaders (v : CVal) (hs : List Header) : Prop := ∃ vs, v = .vec vs ∧ List.Forall₂ IsHeader vs hs

theorem tokenByte_iff : ∀ b : UInt8, tokenByte b = true ↔ IsTokenChar b := by
  intro b
  have : ∀ n : Fin 256, tokenByte (UInt8.ofBitVec ⟨n⟩) = true ↔ IsTokenChar (UInt8.ofBitVec ⟨n⟩) := by decide +kernel
  exact this b.toBitVec.toFin

/-- **C69**, methods: a text is accepted as a method iff it is a nonempty token, and the method is that text, with its
case. -/
theorem C69_method (b m : Bytes) : methodFromStr b = some m ↔ m = b ∧ IsMethod b := by
  unfold methodFromStr IsMethod
  have hall : b.all tokenByte = true ↔ ∀ x ∈ b, IsTokenChar x := by
    rw [List.all_eq_true]
    exact ⟨fun h x hx => (tokenByte_iff x).1 (h x hx), fun h x hx => (tokenByte_iff x).2 (h x hx)⟩
  split
  · next h => exact ⟨fun e => ⟨(Option.some.inj e).symm, h.1, hall.1 h.2⟩, fun e => congrArg some e.1.symm⟩
  · next h => exact ⟨fun e => (Option.some_ne_none _ e.symm).elim, fun e => (h ⟨e.2.1, hall.2 e.2.2⟩).elim⟩

theorem ids_distinct : [fMethod, fUrl, fHeaders, fBody, fCertificateVersion, fStatusCode, fUpgrade].Nodup := by decide +kernel

theorem decodeHeaders_encode (hs : List Header) : decodeHeaders (encodeHeaders hs) = some hs := by
  simp only [decodeHeaders, encodeHeaders]
  induction hs with
  | nil => rfl
  | cons h t ih =>
    simp only [List.map_cons, List.mapM_cons, ih]
    rfl

theorem fieldOf_cons (id id' : UInt32) (v : CVal) (fs : List (UInt32 × CVal)) :
    fieldOf ((id, v) :: fs) id' = if id = id' then some v else fieldOf fs id' := by
  unfold fieldOf
  by_cases h : id = id'
  · simp [h]
  · simp [h]

theorem fieldOf_nil (id : UInt32) : fieldOf [] id = none := rfl

theorem ids_ne : fUrl ≠ fMethod ∧ fUrl ≠ fHeaders ∧ fUrl ≠ fBody ∧ fUrl ≠ fCertificateVersion ∧
    fMethod ≠ fHeaders ∧ fMethod ≠ fBody ∧ fMethod ≠ fCertificateVersion ∧
    fHeaders ≠ fBody ∧ fHeaders ≠ fCertificateVersion ∧ fBody ≠ fCertificateVersion ∧
    fBody ≠ fStatusCode ∧ fBody ≠ fUpgrade ∧ fHeaders ≠ fStatusCode ∧ fHeaders ≠ fUpgrade ∧ fStatusCode ≠ fUpgrade := by
  decide +kernel

theorem decodeOpt_encode_nat16 (o : Option UInt16) : decodeOpt decodeNat16 (.opt (o.map .nat16)) = o := by
  cases o <;> rfl

theorem decodeOpt_encode_bool (o : Option Bool) : decodeOpt decodeBool (.opt (o.map .bool)) = o := by
  cases o <;> rfl

/-- **C69**, requests: what a request encodes to decodes to the same request; decoded as the argument of an update call it
is the same request without the version; and an update request decodes as a request that asks for no version. -/
theorem C69_request (r : FullRequest) (u : UpdateRequest) (hr : IsMethod r.method) (hu : IsMethod u.method) :
    decodeRequest (encodeRequest r) = some r ∧
    decodeUpdateRequest (encodeUpdateRequest u) = some u ∧
    decodeUpdateRequest (encodeRequest r) = some r.toUpdate ∧
    decodeRequest (encodeUpdateRequest u) = some ⟨u.method, u.url, u.headers, u.body, none⟩ := by
  have h1 : methodFromStr r.method = some r.method := (C69_method _ _).2 ⟨rfl, hr⟩
  have h2 : methodFromStr u.method = some u.method := (C69_method _ _).2 ⟨rfl, hu⟩
  obtain ⟨n1, n2, n3, n4, n5, n6, n7, n8, n9, n10, -⟩ := ids_ne
  simp [decodeRequest, encodeRequest, decodeUpdateRequest, encodeUpdateRequest, fieldOf_cons, fieldOf_nil, n1, n2, n3, n4, n5, n6, n7,
    n8, n9, n10, n1.symm, n2.symm, n3.symm, n4.symm, n5.symm, n6.symm, n7.symm, n8.symm, n9.symm, n10.symm, optField,
    decodeOpt_encode_nat16, decodeHeaders_encode, decodeMethod, encodeMethod, decodeText, decodeBytes, h1, h2, FullRequest.toUpdate]

/-- **C69**, responses: likewise, for every status code an HTTP status can have. -/
theorem C69_response (r : FullResponse) (u : UpdateResponse) (hr : 100 ≤ r.status ∧ r.status ≤ 999)
    (hu : 100 ≤ u.status ∧ u.status ≤ 999) :
    decodeResponse (encodeResponse r) = some r ∧
    decodeUpdateResponse (encodeUpdateResponse u) = some u ∧
    decodeUpdateResponse (encodeResponse r) = some r.toUpdate ∧
    decodeResponse (encodeUpdateResponse u) = some ⟨u.status, u.headers, u.body, none⟩ := by
  have lt : ∀ n : UInt16, n ≤ 999 → n < 1000 := by
    intro n h
    rw [UInt16.le_iff_toNat_le] at h
    rw [UInt16.lt_iff_toNat_lt]
    have h1 : (999 : UInt16).toNat = 999 := rfl
    have h2 : (1000 : UInt16).toNat = 1000 := rfl
    omega
  have h1 : statusFromWire r.status = some r.status := by simp [statusFromWire, hr.1, lt _ hr.2]
  have h2 : statusFromWire u.status = some u.status := by simp [statusFromWire, hu.1, lt _ hu.2]
  obtain ⟨-, -, -, -, -, -, -, n8, -, -, n11, n12, n13, n14, n15⟩ := ids_ne
  simp [decodeResponse, encodeResponse, decodeUpdateResponse, encodeUpdateResponse, fieldOf_cons, fieldOf_nil, n8, n11, n12, n13,
    n14, n15, n8.symm, n11.symm, n12.symm, n13.symm, n14.symm, n15.symm, optField, decodeOpt_encode_bool,
    decodeHeaders_encode, decodeStatus, encodeStatus, decodeNat16, decodeBytes, h1, h2, FullResponse.toUpdate]

theorem decodeText_iff {v : CVal} {b : Bytes} : decodeText v = some b ↔ v = .text b := by
  cases v <;> simp [decodeText]

theorem decodeBytes_iff {v : CVal} {b : Bytes} : decodeBytes v = some b ↔ v = .blob b := by
  cases v <;> simp [decodeBytes]

theorem decodeHeader_iff {v : CVal} {h : Header} : decodeHeader v = some h ↔ IsHeader v h := by
  obtain ⟨n, w⟩ := h
  cases v <;> simp [decodeHeader, IsHeader, Option.bind_eq_some_iff, decodeText_iff]

theorem decodeHeaders_iff {v : CVal} {hs : List Header} : decodeHeaders v = some hs ↔ IsHeaders v hs := by
  have aux : ∀ (xs : List CVal) (hs : List Header), xs.mapM decodeHeader = some hs ↔ List.Forall₂ IsHeader xs hs := by
    intro xs
    induction xs with
    | nil => intro hs; cases hs <;> simp
    | cons x xs ih =>
      intro hs
      simp only [List.mapM_cons, bind, pure, Option.bind_eq_some_iff]
      constructor
      · rintro ⟨h, hh, t, ht, e⟩
        cases e
        exact .cons (decodeHeader_iff.1 hh) ((ih t).1 ht)
      · intro h
        cases h with
        | cons h1 h2 => exact ⟨_, decodeHeader_iff.2 h1, _, (ih _).2 h2, rfl⟩
  unfold IsHeaders
  cases v <;> simp [decodeHeaders, aux]

theorem optField_nat16 {fs : List (UInt32 × CVal)} {id : UInt32} {o : Option UInt16} :
    optField decodeNat16 fs id = o ↔ ∀ n, o = some n ↔
      (fieldOf fs id = some (.opt (some (.nat16 n))) ∨ fieldOf fs id = some (.nat16 n)) := by
  have key : ∀ n, optField decodeNat16 fs id = some n ↔
      (fieldOf fs id = some (.opt (some (.nat16 n))) ∨ fieldOf fs id = some (.nat16 n)) := by
    intro n
    unfold optField
    cases fieldOf fs id with
    | none => simp
    | some v =>
      cases v with
      | opt x =>
        cases x with
        | none => simp [decodeOpt]
        | some y => cases y <;> simp [decodeOpt, decodeNat16]
      | _ => simp [decodeOpt, decodeNat16]
  constructor
  · rintro rfl n; exact key n
  · intro h
    apply Option.ext
    intro n
    rw [key, ← h]

theorem optField_bool {fs : List (UInt32 × CVal)} {id : UInt32} {o : Option Bool} :
    optField decodeBool fs id = o ↔ ∀ n, o = some n ↔
      (fieldOf fs id = some (.opt (some (.bool n))) ∨ fieldOf fs id = some (.bool n)) := by
  have key : ∀ n, optField decodeBool fs id = some n ↔
      (fieldOf fs id = some (.opt (some (.bool n))) ∨ fieldOf fs id = some (.bool n)) := by
    intro n
    unfold optField
    cases fieldOf fs id with
    | none => simp
    | some v =>
      cases v with
      | opt x =>
        cases x with
        | none => simp [decodeOpt]
        | some y => cases y <;> simp [decodeOpt, decodeBool]
      | _ => simp [decodeOpt, decodeBool]
  constructor
  · rintro rfl n; exact key n
  · intro h
    apply Option.ext
    intro n
    rw [key, ← h]

theorem holds_record {fs : List (UInt32 × CVal)} {n : String} {x : CVal} :
    Holds (.record fs) n x ↔ fieldOf fs (idlHash (str n)) = some x := by
  unfold Holds
  constructor
  · rintro ⟨fs', e, h⟩; cases e; exact h
  · intro h; exact ⟨fs, rfl, h⟩

/-- **C69**, what decodes as a request: exactly the records whose fields `method`, `url`, `headers`, `body` hold a method
text, a text, a list of pairs of texts and bytes. The version is the number of 16 bits given there, as an option or not,
and otherwise none: a missing, null or differently typed version is not an error. Other fields and the order of the fields
play no role. -/
theorem C69_decode_request (v : CVal) (r : FullRequest) :
    decodeRequest v = some r ↔
      IsMethod r.method ∧ Holds v "method" (.text r.method) ∧ Holds v "url" (.text r.url) ∧ Holds v "body" (.blob r.body) ∧
      (∃ x, Holds v "headers" x ∧ IsHeaders x r.headers) ∧
      ∀ n, r.certificateVersion = some n ↔
        (Holds v "certificate_version" (.opt (some (.nat16 n))) ∨ Holds v "certificate_version" (.nat16 n)) := by
  obtain ⟨m, u, h, b, c⟩ := r
  cases v with
  | record fs =>
    simp only [decodeRequest, bind, pure, Option.bind_eq_some_iff, Option.some.injEq, FullRequest.mk.injEq, decodeMethod,
      decodeText_iff, decodeBytes_iff, decodeHeaders_iff, C69_method, holds_record, ← optField_nat16]
    constructor
    · rintro ⟨_, ⟨x, hx, y, rfl, rfl, hm⟩, _, ⟨x', hx', rfl⟩, _, hh, _, ⟨x'', hx'', rfl⟩, rfl, rfl, rfl, rfl, rfl⟩
      exact ⟨hm, hx, hx', hx'', hh, rfl⟩
    · rintro ⟨h1, h2, h3, h4, h5, h6⟩
      exact ⟨m, ⟨_, h2, m, rfl, rfl, h1⟩, u, ⟨_, h3, rfl⟩, h, h5, b, ⟨_, h4, rfl⟩, rfl, rfl, rfl, rfl, h6⟩
  | _ => simp [decodeRequest, Holds]

/-- **C69**, what decodes as a response: exactly the records with a status from 100 to 999, headers and a body; `upgrade`
is the boolean given there, as an option or not, and otherwise none. -/
theorem C69_decode_response (v : CVal) (r : FullResponse) :
    decodeResponse v = some r ↔
      (100 ≤ r.status ∧ r.status ≤ 999) ∧ Holds v "status_code" (.nat16 r.status) ∧ Holds v "body" (.blob r.body) ∧
      (∃ x, Holds v "headers" x ∧ IsHeaders x r.headers) ∧
      ∀ b, r.upgrade = some b ↔ (Holds v "upgrade" (.opt (some (.bool b))) ∨ Holds v "upgrade" (.bool b)) := by
  obtain ⟨s, h, b, u⟩ := r
  have st : ∀ x : CVal, decodeStatus x = some s ↔ x = .nat16 s ∧ 100 ≤ s ∧ s ≤ 999 := by
    intro x
    have le : s < 1000 ↔ s ≤ 999 := by
      rw [UInt16.le_iff_toNat_le, UInt16.lt_iff_toNat_lt]
      have h1 : (999 : UInt16).toNat = 999 := rfl
      have h2 : (1000 : UInt16).toNat = 1000 := rfl
      omega
    cases x with
    | nat16 n =>
      simp only [decodeStatus, decodeNat16, Option.bind_some, statusFromWire]
      split
      · next q =>
        simp only [Option.some.injEq, CVal.nat16.injEq]
        constructor
        · rintro rfl; exact ⟨rfl, q.1, le.1 q.2⟩
        · exact fun q => q.1
      · next q =>
        simp only [reduceCtorEq, CVal.nat16.injEq, false_iff]
        rintro ⟨rfl, q1, q2⟩
        exact q ⟨q1, le.2 q2⟩
    | _ => simp [decodeStatus, decodeNat16]
  cases v with
  | record fs =>
    simp only [decodeResponse, bind, pure, Option.bind_eq_some_iff, Option.some.injEq, FullResponse.mk.injEq,
      decodeBytes_iff, decodeHeaders_iff, holds_record, ← optField_bool]
    constructor
    · rintro ⟨_, ⟨x, hx, hs⟩, _, hh, _, ⟨x'', hx'', rfl⟩, rfl, rfl, rfl, rfl⟩
      obtain ⟨rfl, h1⟩ := (st x).1 hs
      exact ⟨h1, hx, hx'', hh, rfl⟩
    · rintro ⟨h1, h2, h4, h5, h6⟩
      exact ⟨s, ⟨_, h2, (st _).2 ⟨rfl, h1⟩⟩, h, h5, b, ⟨_, h4, rfl⟩, rfl, rfl, rfl, h6⟩
  | _ => simp [decodeResponse, Holds]

/-- **C69**, update messages: decoding one is decoding the full message and forgetting the extra field. -/
theorem C69_decode_update (v : CVal) :
    decodeUpdateRequest v = (decodeRequest v).map FullRequest.toUpdate ∧
    decodeUpdateResponse v = (decodeResponse v).map FullResponse.toUpdate := by
  cases v with
  | record fs =>
    constructor
    · simp only [decodeUpdateRequest, decodeRequest, bind, pure]
      cases (fieldOf fs fMethod).bind decodeMethod <;> simp
      cases (fieldOf fs fUrl).bind decodeText <;> simp
      cases (fieldOf fs fHeaders).bind decodeHeaders <;> simp
      cases (fieldOf fs fBody).bind decodeBytes <;> simp [FullRequest.toUpdate]
    · simp only [decodeUpdateResponse, decodeResponse, bind, pure]
      cases (fieldOf fs fStatusCode).bind decodeStatus <;> simp
      cases (fieldOf fs fHeaders).bind decodeHeaders <;> simp
      cases (fieldOf fs fBody).bind decodeBytes <;> simp [FullResponse.toUpdate]
  | _ => exact ⟨rfl, rfl⟩

section examples

/-- A gateway's request with fields of its own, in another order, and a version of the wrong type. -/
def exCandidRequest (version : CVal) : CVal :=
  .record [(7, .other 1), (fBody, .blob [1, 2]), (fHeaders, encodeHeaders [(str "A", str "1")]), (fCertificateVersion, version),
    (fMethod, .text (str "get")), (9, .null), (fUrl, .text (str "/x"))]

example : (decodeRequest (exCandidRequest (.text (str "2")))) =
    some ⟨str "get", str "/x", [(str "A", str "1")], [1, 2], none⟩ := by decide +kernel
example : (decodeRequest (exCandidRequest (.nat16 2))).map (·.certificateVersion) = some (some 2) := by decide +kernel
example : (decodeRequest (exCandidRequest (.opt (some (.nat16 2))))).map (·.certificateVersion) = some (some 2) := by decide +kernel
example : methodFromStr (str "GE T") = none ∧ methodFromStr (str "PURGE") = some (str "PURGE") := by decide +kernel
example : IsMethod (str "M-SEARCH") := by unfold IsMethod; decide +kernel
example : decodeResponse (.record [(fBody, .blob []), (fHeaders, .vec []), (fStatusCode, .nat16 99)]) = none := by decide +kernel
example : decodeResponse (.record [(fBody, .blob []), (fHeaders, .vec []), (fStatusCode, .nat16 999)]) =
    some ⟨999, [], [], none⟩ := by decide +kernel

end examples

end Verif.Props
