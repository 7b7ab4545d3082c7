import Verif.Spec.Cel
import Verif.Lemmas.Cel

set_option linter.unusedSimpArgs false

namespace Verif

/-! ## Helpers -/

theorem celGet_some {fs : List (List Char × CelValue)} {k : String} {v : CelValue} :
    celGet fs k = some v ↔ Property fs k v := by
  unfold celGet Property
  rw [Option.map_eq_some_iff]
  constructor
  · rintro ⟨f, hf, rfl⟩
    obtain ⟨hk, as, bs, e, hn⟩ := List.find?_eq_some_iff_append.1 hf
    refine ⟨bs.reverse, as.reverse, ?_, ?_⟩
    · have := congrArg List.reverse e
      simp at this hk
      rw [this, ← hk]
    · intro g hg
      have := hn g (by simpa using hg)
      simpa using this
  · rintro ⟨pre, post, rfl, hn⟩
    refine ⟨(k.toList, v), List.find?_eq_some_iff_append.2 ⟨by simp, post.reverse, pre.reverse, by simp, ?_⟩, rfl⟩
    intro g hg
    simpa using hn g (by simpa using hg)

theorem celGet_none {fs : List (List Char × CelValue)} {k : String} : celGet fs k = none ↔ NoProp fs k := by
  unfold celGet NoProp
  simp

theorem property_unique {fs : List (List Char × CelValue)} {k : String} {v w : CelValue} (h1 : Property fs k v)
    (h2 : Property fs k w) : v = w := by
  rw [← celGet_some] at h1 h2; simp_all

theorem noProp_property {fs : List (List Char × CelValue)} {k : String} {v : CelValue} (h1 : Property fs k v)
    (h2 : NoProp fs k) : False := by
  rw [← celGet_some] at h1; rw [← celGet_none] at h2; simp_all

theorem stringElems_ok {vs : List CelValue} {ns : List Bytes} :
    stringElems vs = .ok ns ↔ ∃ ss : List (List Char), vs = ss.map .string ∧ ns = ss.map utf8 := by
  induction vs generalizing ns with
  | nil =>
    simp only [stringElems, Except.ok.injEq]
    constructor
    · rintro rfl; exact ⟨[], rfl, rfl⟩
    · rintro ⟨ss, h1, h2⟩; cases ss <;> simp_all
  | cons v vs ih =>
    cases v with
    | string s =>
      cases hr : stringElems vs with
      | error e =>
        simp only [stringElems, hr, bind, Except.bind]
        constructor
        · intro h; simp at h
        · rintro ⟨ss, h1, h2⟩
          cases ss with
          | nil => simp at h1
          | cons s' ss =>
            simp at h1
            have := (ih (ns := ss.map utf8)).2 ⟨ss, h1.2, rfl⟩
            simp [hr] at this
      | ok ms =>
        simp only [stringElems, hr, bind, Except.bind, pure, Except.pure, Except.ok.injEq]
        obtain ⟨ss, h1, h2⟩ := ih.1 hr
        constructor
        · rintro rfl; exact ⟨s :: ss, by simp [h1], by simp [h2]⟩
        · rintro ⟨ss', h3, h4⟩
          cases ss' with
          | nil => simp at h3
          | cons s' ss' =>
            simp at h3
            have := ih.2 ⟨ss', h3.2, rfl⟩
            rw [hr] at this
            simp at this
            simp [h4, h3.1, this]
    | array _ => simp [stringElems]; intro ss; cases ss <;> simp
    | object _ _ => simp [stringElems]; intro ss; cases ss <;> simp
    | function _ _ => simp [stringElems]; intro ss; cases ss <;> simp

theorem validateStringArray_ok {v : CelValue} {ns : List Bytes} : validateStringArray v = .ok ns ↔ IsNames v ns := by
  unfold IsNames
  cases v with
  | array vs => simp [validateStringArray, stringElems_ok]
  | string _ => simp [validateStringArray]
  | object _ _ => simp [validateStringArray]
  | function _ _ => simp [validateStringArray]

theorem validateObject_ok {v : CelValue} {name : String} {fs : List (List Char × CelValue)} :
    validateObject v name = .ok fs ↔ v = .object name.toList fs := by
  cases v with
  | object n gs =>
    simp only [validateObject]
    split
    · rename_i h; simp [h]
    · rename_i h; simp [h]
  | string _ => simp [validateObject]
  | array _ => simp [validateObject]
  | function _ _ => simp [validateObject]

theorem validateFunction_ok {v : CelValue} {name : String} {vs : List CelValue} :
    validateFunction v name = .ok vs ↔ v = .function name.toList vs := by
  cases v with
  | function n gs =>
    simp only [validateFunction]
    split
    · rename_i h; simp [h]
    · rename_i h; simp [h]
  | string _ => simp [validateFunction]
  | array _ => simp [validateFunction]
  | object _ _ => simp [validateFunction]

theorem bind_ok {ε α β : Type} {x : Except ε α} {f : α → Except ε β} {b : β} :
    (x >>= f) = .ok b ↔ ∃ a, x = .ok a ∧ f a = .ok b := by
  cases x <;> simp [bind, Except.bind]

theorem pure_ok {ε α : Type} {a b : α} : (pure a : Except ε α) = .ok b ↔ a = b := by simp [pure, Except.pure]

theorem validateRequest_ok {c : List (List Char × CelValue)} {r : Option ReqCert} :
    validateRequest c = .ok r ↔ MeansRequest c r := by
  unfold validateRequest
  cases h1 : celGet c "no_request_certification" with
  | some v =>
    cases h2 : celGet c "request_certification" with
    | some w =>
      simp only [reduceCtorEq, false_iff]
      intro h
      cases h with
      | none a b => exact noProp_property (celGet_some.1 h2) b
      | some a b => exact noProp_property (celGet_some.1 h1) a
    | none =>
      simp only [Except.ok.injEq]
      constructor
      · rintro rfl; exact .none (celGet_some.1 h1) (celGet_none.1 h2)
      · intro h
        cases h with
        | none a b => rfl
        | some a b => exact (noProp_property (celGet_some.1 h1) a).elim
  | none =>
    cases h2 : celGet c "request_certification" with
    | none =>
      simp only [reduceCtorEq, false_iff]
      intro h
      cases h with
      | none a b => exact noProp_property a (celGet_none.1 h1)
      | some a b => exact noProp_property b (celGet_none.1 h2)
    | some w =>
      simp only [bind_ok, validateObject_ok]
      constructor
      · rintro ⟨r', rfl, h⟩
        split at h
        · simp at h
        · rename_i hs h3
          obtain ⟨hs', h4, h⟩ := bind_ok.1 h
          split at h
          · simp at h
          · rename_i qs h5
            obtain ⟨qs', h6, h⟩ := bind_ok.1 h
            rw [pure_ok] at h
            subst h
            exact .some (celGet_none.1 h1) (celGet_some.1 h2) (celGet_some.1 h3) (validateStringArray_ok.1 h4)
              (celGet_some.1 h5) (validateStringArray_ok.1 h6)
      · intro h
        cases h with
        | none a b => exact (noProp_property a (celGet_none.1 h1)).elim
        | @some r' hs qs hs' qs' a b c1 c2 c3 c4 =>
          have := property_unique (celGet_some.1 h2) b
          refine ⟨r', this, ?_⟩
          simp [celGet_some.2 c1, celGet_some.2 c3, validateStringArray_ok.2 c2, validateStringArray_ok.2 c4, bind,
            Except.bind, pure, Except.pure]

theorem responseHeaderList_some {r : List (List Char × CelValue)} {k : String} {hs : List Bytes} :
    responseHeaderList r k = .ok (some hs) ↔ Lists r k hs := by
  unfold responseHeaderList Lists
  cases h1 : celGet r k with
  | none =>
    simp only [Except.ok.injEq, reduceCtorEq, false_iff]
    rintro ⟨o, a, h, -⟩
    exact noProp_property h (celGet_none.1 h1)
  | some w =>
    simp only [bind_ok, validateObject_ok]
    constructor
    · rintro ⟨o, rfl, h⟩
      split at h
      · simp [pure, Except.pure] at h
      · rename_i a h2
        obtain ⟨hs', h3, h⟩ := bind_ok.1 h
        rw [pure_ok] at h
        simp at h; subst h
        exact ⟨o, a, celGet_some.1 h1, celGet_some.1 h2, validateStringArray_ok.1 h3⟩
    · rintro ⟨o, a, h2, h3, h4⟩
      refine ⟨o, property_unique (celGet_some.1 h1) h2, ?_⟩
      simp [celGet_some.2 h3, validateStringArray_ok.2 h4, bind, Except.bind, pure, Except.pure]

theorem responseHeaderList_none {r : List (List Char × CelValue)} {k : String} :
    responseHeaderList r k = .ok none ↔ ListsNothing r k := by
  unfold responseHeaderList ListsNothing
  cases h1 : celGet r k with
  | none => simp [celGet_none.1 h1]
  | some w =>
    simp only [bind_ok, validateObject_ok]
    constructor
    · rintro ⟨o, rfl, h⟩
      split at h
      · rename_i h2
        exact .inr ⟨o, celGet_some.1 h1, celGet_none.1 h2⟩
      · obtain ⟨hs', h3, h⟩ := bind_ok.1 h
        simp [pure, Except.pure] at h
    · rintro (h | ⟨o, h2, h3⟩)
      · exact (noProp_property (celGet_some.1 h1) h).elim
      · refine ⟨o, property_unique (celGet_some.1 h1) h2, ?_⟩
        simp [celGet_none.2 h3, pure, Except.pure]

theorem validateResponse_ok {c : List (List Char × CelValue)} {r : RespCert} :
    validateResponse c = .ok r ↔ MeansResponse c r := by
  unfold validateResponse
  cases h1 : celGet c "response_certification" with
  | none =>
    simp only [reduceCtorEq, false_iff]
    intro h
    cases h with
    | certified a _ _ => exact noProp_property a (celGet_none.1 h1)
    | excluded a _ _ => exact noProp_property a (celGet_none.1 h1)
  | some w =>
    simp only [bind_ok, validateObject_ok]
    constructor
    · rintro ⟨o, rfl, x, hx, y, hy, h⟩
      cases x with
      | some hs =>
        cases y with
        | some _ => simp at h
        | none =>
          simp [pure, Except.pure] at h
          subst h
          exact .certified (celGet_some.1 h1) (responseHeaderList_some.1 hx) (responseHeaderList_none.1 hy)
      | none =>
        cases y with
        | none => simp at h
        | some hs =>
          simp [pure, Except.pure] at h
          subst h
          exact .excluded (celGet_some.1 h1) (responseHeaderList_some.1 hy) (responseHeaderList_none.1 hx)
    · intro h
      cases h with
      | certified a b d =>
        exact ⟨_, property_unique (celGet_some.1 h1) a, _, responseHeaderList_some.2 b, _,
          responseHeaderList_none.2 d, rfl⟩
      | excluded a b d =>
        exact ⟨_, property_unique (celGet_some.1 h1) a, _, responseHeaderList_none.2 d, _,
          responseHeaderList_some.2 b, rfl⟩

/-! ## C33 -/

/-- **C33.** Whatever syntax tree comes out of a response's certificate expression, the mapping accepts it exactly
when it is one of the documented certification expressions, and gives the documented meaning to it: exactly one of
`no_certification` and `certification`; inside a certification exactly one of `no_request_certification` and a
`RequestCertification` that lists both headers and query parameters, and a `ResponseCertification` that lists names
under exactly one of `certified_response_headers` and `response_header_exclusions`. -/
theorem C33_accepts_exactly_documented (v : CelValue) (e : CelExpr) : mapCelAst v = .ok e ↔ Means v e := by
  unfold mapCelAst
  simp only [bind_ok, validateFunction_ok]
  constructor
  · rintro ⟨args, rfl, h⟩
    cases args with
    | nil => simp at h
    | cons a more =>
      simp only [List.head?_cons, bind_ok, validateObject_ok] at h
      obtain ⟨fs, rfl, h⟩ := h
      split at h
      · simp at h
      · simp at h
      · rename_i h1 h2
        rw [pure_ok] at h; subst h
        exact .skip (celGet_some.1 h1) (celGet_none.1 h2)
      · rename_i c h1 h2
        simp only [bind_ok, validateObject_ok] at h
        obtain ⟨fs', rfl, req, hreq, resp, hresp, h⟩ := h
        rw [validateRequest_ok] at hreq
        rw [validateResponse_ok] at hresp
        cases req with
        | none => rw [pure_ok] at h; subst h; exact .responseOnly (celGet_none.1 h1) (celGet_some.1 h2) hreq hresp
        | some req => rw [pure_ok] at h; subst h; exact .full (celGet_none.1 h1) (celGet_some.1 h2) hreq hresp
  · intro h
    cases h with
    | skip a b =>
      refine ⟨_, rfl, ?_⟩
      simp [validateObject, celGet_some.2 a, celGet_none.2 b, bind, Except.bind, pure, Except.pure]
    | responseOnly a b c d =>
      refine ⟨_, rfl, ?_⟩
      simp [validateObject, celGet_some.2 b, celGet_none.2 a, validateRequest_ok.2 c, validateResponse_ok.2 d, bind,
        Except.bind, pure, Except.pure]
    | full a b c d =>
      refine ⟨_, rfl, ?_⟩
      simp [validateObject, celGet_some.2 b, celGet_none.2 a, validateRequest_ok.2 c, validateResponse_ok.2 d, bind,
        Except.bind, pure, Except.pure]

/-- A documented expression: response-only, one certified header. -/
example : Means (.function "default_certification".toList [.object "ValidationArgs".toList
    [("certification".toList, .object "Certification".toList
      [("no_request_certification".toList, .object "Empty".toList []),
       ("response_certification".toList, .object "ResponseCertification".toList
         [("certified_response_headers".toList, .object "ResponseHeaderList".toList
           [("headers".toList, .array [.string "a".toList])])])])]])
    (.responseOnly (.certifiedHeaders [str "a"])) :=
  (C33_accepts_exactly_documented _ _).1 (by decide)

/-- Not an expression: no_certification together with certification. -/
example : mapCelAst (.function "default_certification".toList [.object "ValidationArgs".toList
    [("certification".toList, .object "Certification".toList []),
     ("no_certification".toList, .object "Empty".toList [])]]) = .error .extraneousValidationArgs := rfl

/-! ## C32 -/

/-- A name between double quotes. -/
def quoteText (s : List Char) : List Char := '"' :: s ++ ['"']

/-- A list of names between brackets. -/
def arrayText (l : List (List Char)) : List Char := '[' :: commaJoin (l.map quoteText) ++ [']']

theorem intercalate_quotes : ∀ (a : Bytes) (l : List Bytes),
    str "\"" ++ (str "\",\"").intercalate (a :: l) ++ str "\"" =
      (str ",").intercalate ((a :: l).map (fun n => str "\"" ++ n ++ str "\""))
  | a, [] => by simp
  | a, b :: l => by
    have ih := intercalate_quotes b l
    rw [List.map_cons, List.map_cons, List.intercalate_cons_cons, List.intercalate_cons_cons]
    rw [List.map_cons] at ih
    rw [← ih]
    have e : str "\",\"" = str "\"" ++ str "," ++ str "\"" := by decide
    rw [e]
    simp

theorem utf8_intercalate (sep : List Char) : ∀ (l : List (List Char)),
    utf8 (sep.intercalate l) = (utf8 sep).intercalate (l.map utf8)
  | [] => rfl
  | [a] => by simp
  | a :: b :: l => by
    have ih := utf8_intercalate sep (b :: l)
    rw [List.intercalate_cons_cons, utf8_append, utf8_append, ih]
    simp [List.intercalate_cons_cons]

theorem celNames_utf8 (l : List (List Char)) : celNames (l.map utf8) = utf8 (commaJoin (l.map quoteText)) := by
  have hq : str "\"" = utf8 ['"'] := by rw [str_eq_utf8 (by decide)]; rfl
  have hc : str "," = utf8 [','] := by rw [str_eq_utf8 (by decide)]; rfl
  unfold celNames commaJoin
  cases l with
  | nil => rfl
  | cons a l =>
    simp only [List.map_cons, List.isEmpty_cons, Bool.false_eq_true, if_false]
    rw [intercalate_quotes, utf8_intercalate, hc, hq]
    simp only [List.map_cons, List.map_map, quoteText]
    have e : ∀ n : List Char, utf8 ['"'] ++ utf8 n ++ utf8 ['"'] = utf8 ('"' :: n ++ ['"']) := by
      intro n; rw [← utf8_append, ← utf8_append]; rfl
    rw [e]
    congr 2
    apply List.map_congr_left
    intro n _
    exact e n

theorem reads_names {l : List (List Char)} (h : ∀ s ∈ l, ∀ c ∈ s, strChar c = true) :
    Reads celParse (arrayText l) (.array (l.map .string)) := by
  have := reads_array (l := l.map (fun s => (quoteText s, CelValue.string s))) (by
    intro x hx
    obtain ⟨s, hs, rfl⟩ := List.mem_map.1 hx
    exact reads_string (h s hs))
  simpa [arrayText, List.map_map, Function.comp_def] using this

theorem ident_lit {s : String} (h : s.toList.all identChar = true) : ∀ c ∈ s.toList, identChar c = true :=
  fun c hc => List.all_eq_true.1 h c hc

theorem commaJoin_one (t : List Char) : commaJoin [t] = t := by simp [commaJoin]

theorem reads_object1 {n k : String} {t : List Char} {v : CelValue} (hn : n.toList.all identChar = true)
    (hk : k.toList.all identChar = true) (hv : Reads celParse t v) :
    Reads celParse (n.toList ++ '{' :: (k.toList ++ ':' :: t) ++ ['}']) (.object n.toList [(k.toList, v)]) := by
  have := reads_object (ident_lit hn) (l := [(k.toList ++ ':' :: t, (k.toList, v))])
    (by simpa using reads_keyValue (ident_lit hk) hv)
  simpa [commaJoin_one] using this

theorem reads_object2 {n k k' : String} {t t' : List Char} {v v' : CelValue} (hn : n.toList.all identChar = true)
    (hk : k.toList.all identChar = true) (hk' : k'.toList.all identChar = true) (hv : Reads celParse t v)
    (hv' : Reads celParse t' v') :
    Reads celParse (n.toList ++ '{' :: (k.toList ++ ':' :: t ++ ',' :: (k'.toList ++ ':' :: t')) ++ ['}'])
      (.object n.toList [(k.toList, v), (k'.toList, v')]) := by
  have := reads_object (ident_lit hn)
    (l := [(k.toList ++ ':' :: t, (k.toList, v)), (k'.toList ++ ':' :: t', (k'.toList, v'))])
    (by simpa using ⟨reads_keyValue (ident_lit hk) hv, reads_keyValue (ident_lit hk') hv'⟩)
  simpa [commaJoin] using this

theorem reads_empty : Reads celParse "Empty{}".toList (.object "Empty".toList []) := by
  have := reads_object (n := "Empty".toList) (ident_lit (by decide)) (l := []) (by simp)
  simpa [commaJoin, List.intercalate] using this

theorem reads_call {t : List Char} {v : CelValue} (hv : Reads celParse t v) :
    Reads celParse ("default_certification(".toList ++ t ++ [')']) (.function "default_certification".toList [v]) := by
  have := reads_function (n := "default_certification".toList) (ident_lit (by decide)) (l := [(t, v)])
    (by simpa using hv)
  simpa [commaJoin_one] using this

/-- The text of the response part. -/
def respText (k : String) (l : List (List Char)) : List Char :=
  "ResponseCertification{".toList ++ (k.toList ++ ":ResponseHeaderList{headers:".toList ++ arrayText l ++ "}".toList) ++ "}".toList

/-- The tree of the response part. -/
def respTree (k : String) (l : List (List Char)) : CelValue :=
  .object "ResponseCertification".toList [(k.toList, .object "ResponseHeaderList".toList
    [("headers".toList, .array (l.map .string))])]

theorem reads_resp {k : String} (hk : k.toList.all identChar = true) {l : List (List Char)}
    (h : ∀ s ∈ l, ∀ c ∈ s, strChar c = true) : Reads celParse (respText k l) (respTree k l) := by
  have h1 := reads_object1 (n := "ResponseHeaderList") (k := "headers") (by decide) (by decide) (reads_names h)
  have h2 := reads_object1 (n := "ResponseCertification") (by decide) hk h1
  unfold respText respTree
  intro rest
  rw [← h2 rest]
  simp

theorem celResponse_certified (l : List (List Char)) : celResponse (.certifiedHeaders (l.map utf8)) =
    utf8 ("response_certification:".toList ++ respText "certified_response_headers" l) := by
  unfold celResponse respText arrayText
  simp only [celNames_utf8]
  rw [str_eq_utf8 (s := "response_certification:ResponseCertification{") (by decide),
    str_eq_utf8 (s := "certified_response_headers") (by decide),
    str_eq_utf8 (s := ":ResponseHeaderList{headers:[") (by decide), str_eq_utf8 (s := "]}}") (by decide)]
  simp only [← utf8_append]
  simp

theorem celResponse_excluded (l : List (List Char)) : celResponse (.headerExclusions (l.map utf8)) =
    utf8 ("response_certification:".toList ++ respText "response_header_exclusions" l) := by
  unfold celResponse respText arrayText
  simp only [celNames_utf8]
  rw [str_eq_utf8 (s := "response_certification:ResponseCertification{") (by decide),
    str_eq_utf8 (s := "response_header_exclusions") (by decide),
    str_eq_utf8 (s := ":ResponseHeaderList{headers:[") (by decide), str_eq_utf8 (s := "]}}") (by decide)]
  simp only [← utf8_append]
  simp

/-- The text of the request part. -/
def reqText (l m : List (List Char)) : List Char :=
  "RequestCertification{certified_request_headers:".toList ++ arrayText l ++ ",certified_query_parameters:".toList ++
    arrayText m ++ "}".toList

/-- The tree of the request part. -/
def reqTree (l m : List (List Char)) : CelValue :=
  .object "RequestCertification".toList [("certified_request_headers".toList, .array (l.map .string)),
    ("certified_query_parameters".toList, .array (m.map .string))]

theorem reads_req {l m : List (List Char)} (hl : ∀ s ∈ l, ∀ c ∈ s, strChar c = true)
    (hm : ∀ s ∈ m, ∀ c ∈ s, strChar c = true) : Reads celParse (reqText l m) (reqTree l m) := by
  have h1 := reads_object2 (n := "RequestCertification") (k := "certified_request_headers")
    (k' := "certified_query_parameters") (by decide) (by decide) (by decide) (reads_names hl) (reads_names hm)
  unfold reqText reqTree
  intro rest
  rw [← h1 rest]
  simp

theorem celRequest_utf8 (l m : List (List Char)) : celRequest ⟨l.map utf8, m.map utf8⟩ =
    utf8 ("request_certification:".toList ++ reqText l m ++ ",".toList) := by
  unfold celRequest reqText arrayText
  simp only [celNames_utf8]
  rw [str_eq_utf8 (s := "request_certification:RequestCertification{certified_request_headers:[") (by decide),
    str_eq_utf8 (s := "],certified_query_parameters:[") (by decide), str_eq_utf8 (s := "]},") (by decide)]
  simp only [← utf8_append]
  simp

theorem parseCel_of_reads {t : List Char} {v : CelValue} {e : CelExpr} {b : Bytes} (hb : b = utf8 t)
    (h : Reads celParse t v) (hm : mapCelAst v = .ok e) : parseCel b = .ok e := by
  have := h []
  simp only [List.append_nil] at this
  simp [parseCel, hb, chars_utf8, this, hm]

theorem stringElems_map (l : List (List Char)) : stringElems (l.map .string) = .ok (l.map utf8) :=
  stringElems_ok.2 ⟨l, rfl, rfl⟩

theorem roundtrip_responseOnly {resp : RespCert} {k : String} {l : List (List Char)}
    (hk : k.toList.all identChar = true) (hb : celResponse resp = utf8 ("response_certification:".toList ++ respText k l))
    (hl : ∀ s ∈ l, ∀ c ∈ s, strChar c = true)
    (hm : validateResponse [("no_request_certification".toList, .object "Empty".toList []),
      ("response_certification".toList, respTree k l)] = .ok resp) :
    parseCel (CelExpr.responseOnly resp).toBytes = .ok (.responseOnly resp) := by
  have h1 := reads_object2 (n := "Certification") (k := "no_request_certification") (k' := "response_certification")
    (by decide) (by decide) (by decide) reads_empty (reads_resp hk hl)
  have h2 := reads_call (reads_object1 (n := "ValidationArgs") (k := "certification") (by decide) (by decide) h1)
  refine parseCel_of_reads ?_ h2 ?_
  · unfold CelExpr.toBytes
    simp only [hb]
    rw [str_eq_utf8 (s := "default_certification(ValidationArgs{") (by decide),
      str_eq_utf8 (s := "certification:Certification{") (by decide),
      str_eq_utf8 (s := "no_request_certification:Empty{},") (by decide), str_eq_utf8 (s := "}") (by decide),
      str_eq_utf8 (s := "})") (by decide)]
    simp only [← utf8_append]
    simp
  · have hreq : validateRequest [("no_request_certification".toList, .object "Empty".toList []),
      ("response_certification".toList, respTree k l)] = .ok none := rfl
    exact (C33_accepts_exactly_documented _ _).2 (.responseOnly (celGet_none.1 rfl) (celGet_some.1 rfl)
      (validateRequest_ok.1 hreq) (validateResponse_ok.1 hm))

theorem roundtrip_full {resp : RespCert} {k : String} {l hs qs : List (List Char)}
    (hk : k.toList.all identChar = true) (hb : celResponse resp = utf8 ("response_certification:".toList ++ respText k l))
    (hl : ∀ s ∈ l, ∀ c ∈ s, strChar c = true) (hhs : ∀ s ∈ hs, ∀ c ∈ s, strChar c = true)
    (hqs : ∀ s ∈ qs, ∀ c ∈ s, strChar c = true)
    (hm : validateResponse [("request_certification".toList, reqTree hs qs),
      ("response_certification".toList, respTree k l)] = .ok resp) :
    parseCel (CelExpr.full ⟨hs.map utf8, qs.map utf8⟩ resp).toBytes =
      .ok (.full ⟨hs.map utf8, qs.map utf8⟩ resp) := by
  have h1 := reads_object2 (n := "Certification") (k := "request_certification") (k' := "response_certification")
    (by decide) (by decide) (by decide) (reads_req hhs hqs) (reads_resp hk hl)
  have h2 := reads_call (reads_object1 (n := "ValidationArgs") (k := "certification") (by decide) (by decide) h1)
  refine parseCel_of_reads ?_ h2 ?_
  · unfold CelExpr.toBytes
    simp only [hb, celRequest_utf8]
    rw [str_eq_utf8 (s := "default_certification(ValidationArgs{") (by decide),
      str_eq_utf8 (s := "certification:Certification{") (by decide), str_eq_utf8 (s := "}") (by decide),
      str_eq_utf8 (s := "})") (by decide)]
    simp only [← utf8_append]
    simp
  · have hreq : validateRequest [("request_certification".toList, reqTree hs qs),
      ("response_certification".toList, respTree k l)] = .ok (some ⟨hs.map utf8, qs.map utf8⟩) := by
      show (stringElems (hs.map .string) >>= fun hs => stringElems (qs.map .string) >>= fun qs => _) = _
      rw [stringElems_map, stringElems_map]
      rfl
    exact (C33_accepts_exactly_documented _ _).2 (.full (celGet_none.1 rfl) (celGet_some.1 rfl)
      (validateRequest_ok.1 hreq) (validateResponse_ok.1 hm))

theorem strChar_iff (c : Char) : strChar c = true ↔ c = '-' ∨
    (0x30 ≤ c.toNat % 256 ∧ c.toNat % 256 ≤ 0x39) ∨ (0x41 ≤ c.toNat % 256 ∧ c.toNat % 256 ≤ 0x5A) ∨
    (0x61 ≤ c.toNat % 256 ∧ c.toNat % 256 ≤ 0x7A) := by
  simp only [strChar, alnum, Bool.or_eq_true, Bool.and_eq_true, decide_eq_true_eq, beq_iff_eq]
  tauto

theorem carried_list {ns : List Bytes} (h : ∀ n ∈ ns, CarriedName n) :
    ∃ l : List (List Char), ns = l.map utf8 ∧ ∀ s ∈ l, ∀ c ∈ s, strChar c = true := by
  induction ns with
  | nil => exact ⟨[], rfl, by simp⟩
  | cons n ns ih =>
    obtain ⟨l, rfl, hl⟩ := ih (fun m hm => h m (by simp [hm]))
    obtain ⟨cs, rfl, hcs⟩ := h n (by simp)
    refine ⟨cs :: l, rfl, ?_⟩
    intro s hs c hc
    rcases List.mem_cons.1 hs with rfl | hs
    · exact (strChar_iff c).2 (hcs c hc)
    · exact hl s hs c hc

theorem validateResponse_certified (x : List Char × CelValue)
    (l : List (List Char)) : validateResponse [x, ("response_certification".toList,
      respTree "certified_response_headers" l)] = .ok (.certifiedHeaders (l.map utf8)) := by
  rw [validateResponse_ok]
  refine .certified (celGet_some.1 ?_) ?_ (.inl ?_) (r := [("certified_response_headers".toList,
    .object "ResponseHeaderList".toList [("headers".toList, .array (l.map .string))])])
  · simp [celGet, respTree]
  · exact ⟨_, _, celGet_some.1 rfl, celGet_some.1 rfl, l, rfl, rfl⟩
  · simp [NoProp]

theorem validateResponse_excluded (x : List Char × CelValue)
    (l : List (List Char)) : validateResponse [x, ("response_certification".toList,
      respTree "response_header_exclusions" l)] = .ok (.headerExclusions (l.map utf8)) := by
  rw [validateResponse_ok]
  refine .excluded (celGet_some.1 ?_) ?_ (.inl ?_) (r := [("response_header_exclusions".toList,
    .object "ResponseHeaderList".toList [("headers".toList, .array (l.map .string))])])
  · simp [celGet, respTree]
  · exact ⟨_, _, celGet_some.1 rfl, celGet_some.1 rfl, l, rfl, rfl⟩
  · simp [NoProp]

theorem parseCel_skip : parseCel CelExpr.skip.toBytes = .ok .skip := by
  have h1 := reads_object1 (n := "ValidationArgs") (k := "no_certification") (by decide) (by decide) reads_empty
  refine parseCel_of_reads ?_ (reads_call h1) rfl
  unfold CelExpr.toBytes
  rw [str_eq_utf8 (s := "default_certification(ValidationArgs{") (by decide),
      str_eq_utf8 (s := "no_certification:Empty{}") (by decide), str_eq_utf8 (s := "})") (by decide)]
  simp only [← utf8_append]
  simp

theorem celParse_names_good {v : CelValue} {names : List Bytes} (hg : v.Good) (h : IsNames v names) :
    ∀ n ∈ names, CarriedName n := by
  obtain ⟨ss, rfl, rfl⟩ := h
  intro n hn
  obtain ⟨s, hs, rfl⟩ := List.mem_map.1 hn
  cases hg with
  | array h =>
    have := h (.string s) (List.mem_map.2 ⟨s, hs, rfl⟩)
    cases this with
    | string hc => exact ⟨s, rfl, fun c hc' => (strChar_iff c).1 (hc c hc')⟩

theorem good_property {fs : List (List Char × CelValue)} {k : String} {v : CelValue}
    (hg : ∀ f ∈ fs, CelValue.Good (Prod.snd f)) (h : Property fs k v) : v.Good := by
  obtain ⟨pre, post, rfl, -⟩ := h
  exact hg (k.toList, v) (by simp)

theorem good_object {n : List Char} {fs : List (List Char × CelValue)} (h : (CelValue.object n fs).Good) :
    ∀ f ∈ fs, CelValue.Good (Prod.snd f) := by
  cases h with
  | object h => exact h

theorem means_carried {v : CelValue} {e : CelExpr} (hg : v.Good) (h : Means v e) : ∀ n ∈ e.names, CarriedName n := by
  have hresp : ∀ {c resp}, (∀ f ∈ c, CelValue.Good (Prod.snd f)) → MeansResponse c resp →
      ∀ n ∈ (CelExpr.responseOnly resp).names, CarriedName n := by
    intro c resp hc h
    cases h with
    | certified a b _ =>
      obtain ⟨o, hs, p1, p2, p3⟩ := b
      have g1 := good_object (good_property hc a)
      exact celParse_names_good (good_property (good_object (good_property g1 p1)) p2) p3
    | excluded a b _ =>
      obtain ⟨o, hs, p1, p2, p3⟩ := b
      have g1 := good_object (good_property hc a)
      exact celParse_names_good (good_property (good_object (good_property g1 p1)) p2) p3
  cases h with
  | skip _ _ => simp [CelExpr.names]
  | responseOnly a b c d =>
    cases hg with
    | function hg =>
      have g0 := good_object (hg _ List.mem_cons_self)
      have g1 := good_object (good_property g0 b)
      exact hresp g1 d
  | full a b c d =>
    cases hg with
    | function hg =>
      have g0 := good_object (hg _ List.mem_cons_self)
      have g1 := good_object (good_property g0 b)
      have r1 := hresp g1 d
      cases c with
      | some c1 c2 c3 c4 c5 c6 =>
        have g2 := good_object (good_property g1 c2)
        have r2 := celParse_names_good (good_property g2 c3) c4
        have r3 := celParse_names_good (good_property g2 c5) c6
        intro n hn
        rename_i resp _ _ _ _ _
        cases resp <;>
        · simp only [CelExpr.names, List.mem_append] at hn r1
          rcases hn with (hn | hn) | hn
          · exact r2 n hn
          · exact r3 n hn
          · exact r1 n hn

/-- **C32.** Parsing the text produced for a certification definition gives back that definition exactly when every
name in it is one that CEL strings can carry. -/
theorem C32_roundtrip (e : CelExpr) : parseCel e.toBytes = .ok e ↔ ∀ n ∈ e.names, CarriedName n := by
  constructor
  · intro h
    unfold parseCel at h
    cases hc : chars e.toBytes with
    | none => simp [hc] at h
    | some cs =>
      simp only [hc] at h
      cases hp : celParse cs with
      | err => simp [hp] at h
      | fail => simp [hp] at h
      | crash => simp [hp] at h
      | ok r v =>
        simp only [hp] at h
        exact means_carried (celParse_good hp) ((C33_accepts_exactly_documented v e).1 h)
  · intro h
    cases e with
    | skip => exact parseCel_skip
    | responseOnly resp =>
      cases resp with
      | certifiedHeaders hs =>
        obtain ⟨l, rfl, hl⟩ := carried_list (ns := hs) h
        exact roundtrip_responseOnly (by decide) (celResponse_certified l) hl (validateResponse_certified _ l)
      | headerExclusions hs =>
        obtain ⟨l, rfl, hl⟩ := carried_list (ns := hs) h
        exact roundtrip_responseOnly (by decide) (celResponse_excluded l) hl (validateResponse_excluded _ l)
    | full req resp =>
      obtain ⟨rh, rq⟩ := req
      cases resp with
      | certifiedHeaders hs =>
        simp only [CelExpr.names, List.mem_append] at h
        obtain ⟨l, rfl, hl⟩ := carried_list (ns := hs) (fun n hn => h n (.inr hn))
        obtain ⟨l1, rfl, hl1⟩ := carried_list (ns := rh) (fun n hn => h n (.inl (.inl hn)))
        obtain ⟨l2, rfl, hl2⟩ := carried_list (ns := rq) (fun n hn => h n (.inl (.inr hn)))
        exact roundtrip_full (by decide) (celResponse_certified l) hl hl1 hl2
          (validateResponse_certified _ l)
      | headerExclusions hs =>
        simp only [CelExpr.names, List.mem_append] at h
        obtain ⟨l, rfl, hl⟩ := carried_list (ns := hs) (fun n hn => h n (.inr hn))
        obtain ⟨l1, rfl, hl1⟩ := carried_list (ns := rh) (fun n hn => h n (.inl (.inl hn)))
        obtain ⟨l2, rfl, hl2⟩ := carried_list (ns := rq) (fun n hn => h n (.inl (.inr hn)))
        exact roundtrip_full (by decide) (celResponse_excluded l) hl hl1 hl2
          (validateResponse_excluded _ l)

theorem ofNat_toNat {n : Nat} (h : n.isValidChar) : (Char.ofNat n).toNat = n := by
  simp [Char.ofNat, h, Char.toNat, Char.ofNatAux]

/-- Names made of ASCII letters, digits and `-` (all registered header names) can be carried. -/
theorem plain_carried {n : Bytes} (h : ∀ b ∈ n, PlainNameByte b) : CarriedName n := by
  refine ⟨n.map (fun b => Char.ofNat b.toNat), ?_, ?_⟩
  · have hlt : ∀ b ∈ n, b.toNat < 128 := by
      intro b hb
      have := h b hb
      simp only [PlainNameByte, UInt8.le_iff_toNat_le, ← UInt8.toNat_inj] at this
      simp at this
      omega
    have hv : ∀ b ∈ n, (Char.ofNat b.toNat).toNat = b.toNat := by
      intro b hb
      have := hlt b hb
      have : b.toNat.isValidChar := Or.inl (by omega)
      exact ofNat_toNat this
    rw [utf8_ascii]
    · rw [List.map_map]
      conv_lhs => rw [← List.map_id n]
      apply List.map_congr_left
      intro b hb
      simp [hv b hb]
    · intro c hc
      obtain ⟨b, hb, rfl⟩ := List.mem_map.1 hc
      rw [hv b hb]; exact hlt b hb
  · intro c hc
    obtain ⟨b, hb, rfl⟩ := List.mem_map.1 hc
    have h1 := h b hb
    simp only [PlainNameByte, UInt8.le_iff_toNat_le] at h1
    have hlt : b.toNat < 256 := b.toNat_lt
    rcases h1 with rfl | h1
    · left; decide
    · right
      have hv : (Char.ofNat b.toNat).toNat = b.toNat := by
        have : b.toNat.isValidChar := Or.inl (by omega)
        exact ofNat_toNat this
      rw [hv, Nat.mod_eq_of_lt hlt]
      simpa using h1

/-- **C32**, for ordinary names: definitions whose names consist of ASCII letters, digits and `-` round-trip. -/
theorem C32_plain_roundtrip (e : CelExpr) (h : ∀ n ∈ e.names, ∀ b ∈ n, PlainNameByte b) :
    parseCel e.toBytes = .ok e := (C32_roundtrip e).2 (fun n hn => plain_carried (h n hn))

/-- **C32**, consequence: two definitions with ordinary names that are written the same are the same, so the hash of
the expression in the tree determines the definition (up to a hash collision). -/
theorem C32_injective {e e' : CelExpr} (h : ∀ n ∈ e.names, ∀ b ∈ n, PlainNameByte b)
    (h' : ∀ n ∈ e'.names, ∀ b ∈ n, PlainNameByte b) (he : e.toBytes = e'.toBytes) : e = e' := by
  have h1 := C32_plain_roundtrip e h
  rw [he, C32_plain_roundtrip e' h'] at h1
  simpa using h1.symm

/-- A definition covered by `C32_plain_roundtrip`. -/
example : ∀ n ∈ (CelExpr.full ⟨[str "Accept-Encoding"], [str "id"]⟩ (.headerExclusions [str "Date", str "X-a1"])).names,
    ∀ b ∈ n, PlainNameByte b := by decide

/-- Without the restriction on names the text is ambiguous: one header named `a","b` is written like the two headers
`a` and `b`. -/
theorem C32_counterexample_quote :
    (CelExpr.responseOnly (.certifiedHeaders [str "a\",\"b"])).toBytes =
      (CelExpr.responseOnly (.certifiedHeaders [str "a", str "b"])).toBytes := rfl

/-- A legal header name with an underscore is accepted by the API but the resulting expression does not parse back. -/
theorem C32_counterexample_underscore :
    parseCel (CelExpr.responseOnly (.certifiedHeaders [str "x_y"])).toBytes ≠
      .ok (.responseOnly (.certifiedHeaders [str "x_y"])) := by
  intro h
  have h1 := (C32_roundtrip _).1 h (str "x_y") (by simp [CelExpr.names])
  obtain ⟨cs, h2, h3⟩ := h1
  have h4 : str "x_y" = utf8 "x_y".toList := str_eq_utf8 (by decide)
  rw [h4] at h2
  have h5 := utf8_inj h2
  subst h5
  exact absurd (h3 '_' (by decide)) (by decide)

end Verif
