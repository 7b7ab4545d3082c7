import Verif.Props.WasmNum
import Verif.Props.WasmText

/-!
# Which JavaScript objects are requests and responses (C61)

What `verifyRequestResponsePair` reads from an arbitrary JavaScript object: exactly when it is accepted as a request or a
response, and as which.
-/

set_option linter.unusedSimpArgs false

namespace Verif.Props
open Verif

/-- `v` is a string that reads as the text `b`. -/
def ReadsText (v : JsVal) (b : Bytes) : Prop := ∃ s cs, v = .str s ∧ UnitsText s cs ∧ b = utf8 cs

/-- `v` is an array of headers: each an array whose first two elements are the name and the value. -/
def ReadsHeaders (v : JsVal) (hs : List Header) : Prop :=
  ∃ l, v = .arr l ∧ List.Forall₂ (fun x h => ∃ a b r, x = .arr (a :: b :: r) ∧ ReadsText a h.1 ∧ ReadsText b h.2) l hs

/-- `v` is a body: a `Uint8Array`, or an array of numbers. -/
def ReadsBody (v : JsVal) (b : Bytes) : Prop :=
  v = .bytes b ∨ ∃ l, v = .arr (l.map .num) ∧ List.Forall₂ IsByteOf l b

/-- The property called `name` of the object reads as `x`; without such a property, `x` is `d`. -/
def ReadsProp {α : Type} (props : List (List UInt16 × JsVal)) (name : String) (read : JsVal → α → Prop) (d x : α) : Prop :=
  (∃ v, (utf16 name.toList, v) ∈ props ∧ read v x) ∨ ((∀ v, (utf16 name.toList, v) ∉ props) ∧ x = d)

theorem asString_reads {v : JsVal} {b : Bytes} : v.asString = some b ↔ ReadsText v b := by
  constructor
  · intro h
    cases v with
    | str s =>
      obtain ⟨cs, h1, h2⟩ := (C61_any_text s b).1 h
      exact ⟨s, cs, rfl, h1, h2⟩
    | _ => simp [JsVal.asString] at h
  · rintro ⟨s, cs, rfl, h1, h2⟩
    exact (C61_any_text s b).2 ⟨cs, h1, h2⟩

theorem mapM_forall₂ {α β : Type} {f : α → Option β} {R : α → β → Prop} (hR : ∀ a b, f a = some b ↔ R a b) :
    ∀ (l : List α) (r : List β), l.mapM f = some r ↔ List.Forall₂ R l r := by
  intro l
  induction l with
  | nil => intro r; simp [eq_comm]
  | cons a l ih =>
    intro r
    simp only [List.mapM_cons, Option.bind_eq_bind, Option.bind_eq_some_iff, Option.pure_def, Option.some.injEq]
    constructor
    · rintro ⟨b, hb, bs, hbs, rfl⟩
      exact .cons ((hR _ _).1 hb) ((ih _).1 hbs)
    · intro h
      cases h with
      | cons h1 h2 => exact ⟨_, (hR _ _).2 h1, _, (ih _).2 h2, rfl⟩

theorem asHeader_reads (x : JsVal) (h : Header) :
    x.asHeader = some h ↔ ∃ a b r, x = .arr (a :: b :: r) ∧ ReadsText a h.1 ∧ ReadsText b h.2 := by
  constructor
  · intro e
    cases x with
    | arr l =>
      simp only [JsVal.asHeader, Option.bind_eq_bind, Option.bind_eq_some_iff, Option.pure_def, Option.some.injEq] at e
      obtain ⟨n, hn, v, hv, rfl⟩ := e
      match l with
      | [] => simp [JsVal.asString] at hn
      | [a] => simp [JsVal.asString] at hv
      | a :: b :: r => exact ⟨a, b, r, rfl, asString_reads.1 (by simpa using hn), asString_reads.1 (by simpa using hv)⟩
    | _ => simp [JsVal.asHeader] at e
  · rintro ⟨a, b, r, rfl, h1, h2⟩
    simp only [JsVal.asHeader, Option.bind_eq_bind, Option.bind_eq_some_iff, Option.pure_def, Option.some.injEq]
    exact ⟨h.1, by simpa using asString_reads.2 h1, h.2, by simpa using asString_reads.2 h2, rfl⟩

theorem asHeaders_reads {v : JsVal} {hs : List Header} : v.asHeaders = some hs ↔ ReadsHeaders v hs := by
  constructor
  · intro e
    cases v with
    | arr l => exact ⟨l, rfl, (mapM_forall₂ asHeader_reads l hs).1 e⟩
    | _ => simp [JsVal.asHeaders] at e
  · rintro ⟨l, rfl, h⟩
    exact (mapM_forall₂ asHeader_reads l hs).2 h

theorem toVec_reads {v : JsVal} {b : Bytes} : v.toVec = some b ↔ ReadsBody v b := by
  constructor
  · intro e
    cases v with
    | bytes x =>
      simp only [JsVal.toVec, Option.some.injEq] at e
      exact .inl (by rw [e])
    | arr l =>
      right
      have : ∃ ns : List JsNum, l = ns.map .num := by
        simp only [JsVal.toVec] at e
        clear * - e
        induction l generalizing b with
        | nil => exact ⟨[], rfl⟩
        | cons x l ih =>
          simp only [List.mapM_cons, Option.bind_eq_bind, Option.bind_eq_some_iff] at e
          obtain ⟨c, hc, bs, hbs, _⟩ := e
          obtain ⟨ns, rfl⟩ := ih hbs
          cases x with
          | num n => exact ⟨n :: ns, rfl⟩
          | _ => simp at hc
      obtain ⟨ns, rfl⟩ := this
      exact ⟨ns, rfl, (C61_body_numbers ns b).1 e⟩
    | _ => simp [JsVal.toVec] at e
  · rintro (rfl | ⟨l, rfl, h⟩)
    · rfl
    · exact (C61_body_numbers l b).2 h

theorem asStatus_reads {v : JsVal} {n : UInt16} (h1 : 100 ≤ n.toNat) (h2 : n.toNat ≤ 999) :
    v.asStatus = some n ↔ ∃ x : Rat, v = .num (.fin x) ∧ (n.toNat : Rat) ≤ x ∧ x < n.toNat + 1 := by
  constructor
  · intro e
    cases v with
    | num y =>
      simp only [JsVal.asStatus, Option.some.injEq] at e
      cases y with
      | fin x =>
        have e3 : truncRat x = n.toNat := by
          unfold JsNum.asU16 at e
          simp only at e
          split_ifs at e with c1 c2
          · subst e; simp at h1
          · subst e; simp at h2
          · subst e
            simp only [Nat.toUInt16_eq, UInt16.toNat_ofNat']
            omega
        have hx : 0 ≤ x := by
          by_contra hx
          unfold truncRat at e3
          rw [if_neg hx] at e3
          have : x.ceil ≤ 0 := Rat.ceil_le_iff.2 (by have := le_of_lt (not_le.1 hx); simpa using this)
          omega
        unfold truncRat at e3
        rw [if_pos hx] at e3
        refine ⟨x, rfl, ?_, ?_⟩
        · have := Rat.le_floor_iff.1 (le_of_eq e3.symm)
          exact_mod_cast this
        · have : x.floor < n.toNat + 1 := by omega
          have := Rat.floor_lt_iff.1 this
          exact_mod_cast this
      | nan => subst e; simp [JsNum.asU16] at h1
      | inf => subst e; simp [JsNum.asU16] at h2
      | negInf => subst e; simp [JsNum.asU16] at h1
    | _ => simp [JsVal.asStatus] at e
  · rintro ⟨x, rfl, h3, h4⟩
    have hx : 0 ≤ x := le_trans (by exact_mod_cast Nat.zero_le _) h3
    have e3 : truncRat x = n.toNat := by
      unfold truncRat
      rw [if_pos hx]
      have a : (n.toNat : Int) ≤ x.floor := Rat.le_floor_iff.2 (by exact_mod_cast h3)
      have b : x.floor < n.toNat + 1 := Rat.floor_lt_iff.2 (by exact_mod_cast h4)
      omega
    simp only [JsVal.asStatus, JsNum.asU16, e3, Option.some.injEq]
    rw [if_neg (by omega), if_neg (by omega)]
    simp

section
variable {α : Type} {read : JsVal → α → Prop} {f : JsVal → Option α}

/-- One property of the loop over the entries. -/
def StepProp (e : List UInt16 × JsVal) (name : String) (read : JsVal → α → Prop) (d x : α) : Prop :=
  (e.1 = utf16 name.toList ∧ read e.2 x) ∨ (e.1 ≠ utf16 name.toList ∧ x = d)

theorem stepProp_iff (hf : ∀ v x, f v = some x ↔ read v x) {e : List UInt16 × JsVal} {name : String} {d x : α} :
    (if e.1 = jsText name then f e.2 else some d) = some x ↔ StepProp e name read d x := by
  have hj : jsText name = utf16 name.toList := rfl
  unfold StepProp
  rw [hj]
  split_ifs with h
  · simp [h, hf]
  · simp [h, eq_comm]

theorem readsProp_cons {e : List UInt16 × JsVal} {p : List (List UInt16 × JsVal)} {name : String} {d x : α}
    (hn : e.1 ∉ p.map Prod.fst) :
    ReadsProp (e :: p) name read d x ↔ ∃ y, StepProp e name read d y ∧ ReadsProp p name read y x := by
  have hnk : ∀ v, e.1 = utf16 name.toList → (utf16 name.toList, v) ∉ p := fun v he hv =>
    hn (by rw [he]; exact List.mem_map.2 ⟨_, hv, rfl⟩)
  obtain ⟨k, w⟩ := e
  simp only at hnk
  constructor
  · rintro (⟨v, hv, hr⟩ | ⟨hno, rfl⟩)
    · rcases List.mem_cons.1 hv with hv | hv
      · simp only [Prod.mk.injEq] at hv
        obtain ⟨rfl, rfl⟩ := hv
        exact ⟨x, .inl ⟨rfl, hr⟩, .inr ⟨fun v => hnk v rfl, rfl⟩⟩
      · exact ⟨d, .inr ⟨fun h => hnk v h hv, rfl⟩, .inl ⟨v, hv, hr⟩⟩
    · refine ⟨x, .inr ⟨fun h => hno w (by simp only at h; subst h; exact List.mem_cons_self), rfl⟩,
        .inr ⟨fun v hv => hno v (List.mem_cons_of_mem _ hv), rfl⟩⟩
  · rintro ⟨y, hs | hs, hr⟩
    · obtain ⟨h1, h2⟩ := hs
      simp only at h1 h2
      rcases hr with ⟨v, hv, _⟩ | ⟨_, rfl⟩
      · exact absurd hv (hnk v h1)
      · exact .inl ⟨w, by rw [h1]; exact List.mem_cons_self, h2⟩
    · obtain ⟨h1, rfl⟩ := hs
      rcases hr with ⟨v, hv, h2⟩ | ⟨h2, rfl⟩
      · exact .inl ⟨v, List.mem_cons_of_mem _ hv, h2⟩
      · refine .inr ⟨fun v hv => ?_, rfl⟩
        rcases List.mem_cons.1 hv with hv | hv
        · simp only [Prod.mk.injEq] at hv
          exact h1 hv.1.symm
        · exact h2 v hv

end

theorem ite_map_eq {α β : Type} {c : Prop} [Decidable c] {o : Option α} {g : α → β} {d : α} {b e : β} (h : g d = b) :
    (if c then o.map g else some b) = some e ↔ ∃ x, (if c then o else some d) = some x ∧ g x = e := by
  subst h
  split_ifs <;> simp

theorem ite_bind_eq {α β γ : Type} {c : Prop} [Decidable c] {o : Option α} {g : α → β} {d : α} {b : β} {k : β → Option γ}
    {e : γ} (h : g d = b) :
    (if c then (o.map g).bind k else (some b).bind k) = some e ↔
      ∃ x, (if c then o else some d) = some x ∧ k (g x) = some e := by
  subst h
  split_ifs <;> simp [Option.bind_eq_some_iff]

theorem jsReqEntry_iff (a b : JsReqAcc) (e : List UInt16 × JsVal) :
    jsReqEntry a e = some b ↔ StepProp e "method" ReadsText a.method b.method ∧ StepProp e "url" ReadsText a.url b.url ∧
      StepProp e "headers" ReadsHeaders a.headers b.headers ∧ StepProp e "body" ReadsBody a.body b.body := by
  rw [← stepProp_iff (f := JsVal.asString) fun _ _ => asString_reads,
    ← stepProp_iff (f := JsVal.asString) fun _ _ => asString_reads,
    ← stepProp_iff (f := JsVal.asHeaders) fun _ _ => asHeaders_reads,
    ← stepProp_iff (f := JsVal.toVec) fun _ _ => toVec_reads]
  unfold jsReqEntry
  simp only [Option.bind_eq_bind]
  constructor
  · intro h
    obtain ⟨m, h1, h⟩ := (ite_bind_eq (d := a.method) rfl).1 h
    obtain ⟨u, h2, h⟩ := (ite_bind_eq (d := a.url) rfl).1 h
    obtain ⟨hs, h3, h4⟩ := (ite_bind_eq (d := a.headers) rfl).1 h
    obtain ⟨o, h5, rfl⟩ := (ite_map_eq (d := a.body) rfl).1 h4
    exact ⟨h1, h2, h3, h5⟩
  · rintro ⟨h1, h2, h3, h4⟩
    exact (ite_bind_eq (d := a.method) rfl).2 ⟨_, h1, (ite_bind_eq (d := a.url) rfl).2 ⟨_, h2,
      (ite_bind_eq (d := a.headers) rfl).2 ⟨_, h3, (ite_map_eq (d := a.body) rfl).2 ⟨_, h4, rfl⟩⟩⟩⟩

theorem jsResEntry_iff (a b : JsResAcc) (e : List UInt16 × JsVal) :
    jsResEntry a e = some b ↔ StepProp e "status_code" (fun v n => v.asStatus = some n) a.status b.status ∧
      StepProp e "headers" ReadsHeaders a.headers b.headers ∧ StepProp e "body" ReadsBody a.body b.body := by
  rw [← stepProp_iff (f := JsVal.asStatus) fun _ _ => Iff.rfl,
    ← stepProp_iff (f := JsVal.asHeaders) fun _ _ => asHeaders_reads,
    ← stepProp_iff (f := JsVal.toVec) fun _ _ => toVec_reads]
  unfold jsResEntry
  simp only [Option.bind_eq_bind]
  constructor
  · intro h
    obtain ⟨m, h1, h⟩ := (ite_bind_eq (d := a.status) rfl).1 h
    obtain ⟨hs, h3, h4⟩ := (ite_bind_eq (d := a.headers) rfl).1 h
    obtain ⟨o, h5, rfl⟩ := (ite_map_eq (d := a.body) rfl).1 h4
    exact ⟨h1, h3, h5⟩
  · rintro ⟨h1, h3, h4⟩
    exact (ite_bind_eq (d := a.status) rfl).2 ⟨_, h1,
      (ite_bind_eq (d := a.headers) rfl).2 ⟨_, h3, (ite_map_eq (d := a.body) rfl).2 ⟨_, h4, rfl⟩⟩⟩

theorem jsReqFold_iff : ∀ (p : List (List UInt16 × JsVal)) (a b : JsReqAcc), (p.map Prod.fst).Nodup →
    (p.foldlM jsReqEntry a = some b ↔ ReadsProp p "method" ReadsText a.method b.method ∧
      ReadsProp p "url" ReadsText a.url b.url ∧ ReadsProp p "headers" ReadsHeaders a.headers b.headers ∧
      ReadsProp p "body" ReadsBody a.body b.body) := by
  intro p
  induction p with
  | nil =>
    intro a b _
    obtain ⟨am, au, ah, ab⟩ := a
    obtain ⟨bm, bu, bh, bb⟩ := b
    simp [ReadsProp, eq_comm]
  | cons e p ih =>
    intro a b hn
    simp only [List.map_cons, List.nodup_cons] at hn
    simp only [List.foldlM_cons, Option.bind_eq_bind, Option.bind_eq_some_iff, readsProp_cons hn.1, jsReqEntry_iff,
      ih _ _ hn.2]
    constructor
    · rintro ⟨c, ⟨a1, a2, a3, a4⟩, b1, b2, b3, b4⟩
      exact ⟨⟨_, a1, b1⟩, ⟨_, a2, b2⟩, ⟨_, a3, b3⟩, ⟨_, a4, b4⟩⟩
    · rintro ⟨⟨c1, a1, b1⟩, ⟨c2, a2, b2⟩, ⟨c3, a3, b3⟩, ⟨c4, a4, b4⟩⟩
      exact ⟨⟨c1, c2, c3, c4⟩, ⟨a1, a2, a3, a4⟩, b1, b2, b3, b4⟩

theorem jsResFold_iff : ∀ (p : List (List UInt16 × JsVal)) (a b : JsResAcc), (p.map Prod.fst).Nodup →
    (p.foldlM jsResEntry a = some b ↔
      ReadsProp p "status_code" (fun v n => v.asStatus = some n) a.status b.status ∧
      ReadsProp p "headers" ReadsHeaders a.headers b.headers ∧ ReadsProp p "body" ReadsBody a.body b.body) := by
  intro p
  induction p with
  | nil =>
    intro a b _
    obtain ⟨am, ah, ab⟩ := a
    obtain ⟨bm, bh, bb⟩ := b
    simp [ReadsProp, eq_comm]
  | cons e p ih =>
    intro a b hn
    simp only [List.map_cons, List.nodup_cons] at hn
    simp only [List.foldlM_cons, Option.bind_eq_bind, Option.bind_eq_some_iff, readsProp_cons hn.1, jsResEntry_iff,
      ih _ _ hn.2]
    constructor
    · rintro ⟨c, ⟨a1, a3, a4⟩, b1, b3, b4⟩
      exact ⟨⟨_, a1, b1⟩, ⟨_, a3, b3⟩, ⟨_, a4, b4⟩⟩
    · rintro ⟨⟨c1, a1, b1⟩, ⟨c3, a3, b3⟩, ⟨c4, a4, b4⟩⟩
      exact ⟨⟨c1, c3, c4⟩, ⟨a1, a3, a4⟩, b1, b3, b4⟩

/-- The object with the properties `p` reads as the request `q`: its `method` property is a string with the method of `q`, which
is a token, and its `url`, `headers` and `body` properties read as those of `q`; a property that is missing is empty, and all
others are ignored. -/
def ReadsRequest (p : List (List UInt16 × JsVal)) (q : HttpRequest) : Prop :=
  IsMethod q.method ∧ (∃ v, (utf16 "method".toList, v) ∈ p ∧ ReadsText v q.method) ∧
  ReadsProp p "url" ReadsText [] q.url ∧ ReadsProp p "headers" ReadsHeaders [] q.headers ∧
  ReadsProp p "body" ReadsBody [] q.body

/-- The object with the properties `p` reads as the response `r`: its `status_code` property is a number that, rounded down, is
the status of `r`, from 100 to 999, and its `headers` and `body` properties read as those of `r`. -/
def ReadsResponse (p : List (List UInt16 × JsVal)) (r : HttpResponse) : Prop :=
  100 ≤ r.status.toNat ∧ r.status.toNat ≤ 999 ∧
  (∃ x : Rat, (utf16 "status_code".toList, JsVal.num (.fin x)) ∈ p ∧ (r.status.toNat : Rat) ≤ x ∧ x < r.status.toNat + 1) ∧
  ReadsProp p "headers" ReadsHeaders [] r.headers ∧ ReadsProp p "body" ReadsBody [] r.body

theorem requestFromJs_reads {p : List (List UInt16 × JsVal)} (hn : (p.map Prod.fst).Nodup) (q : HttpRequest) :
    requestFromJs (.obj p) = some q ↔ ReadsRequest p q := by
  unfold ReadsRequest
  have hm : ∀ b c, methodFromStr b = some c ↔ IsMethod b ∧ c = b := fun b c => by
    by_cases h : IsMethod b
    · rw [methodFromStr_iff h]; simp [h, eq_comm]
    · rw [methodFromStr_none h]; simp [h]
  simp only [requestFromJs, Option.bind_eq_bind, Option.bind_eq_some_iff, Option.pure_def, Option.some.injEq, hm]
  constructor
  · rintro ⟨a, ha, m, ⟨h1, rfl⟩, rfl⟩
    obtain ⟨b1, b2, b3, b4⟩ := (jsReqFold_iff p _ _ hn).1 ha
    refine ⟨h1, ?_, b2, b3, b4⟩
    rcases b1 with b1 | ⟨_, b1⟩
    · exact b1
    · exact absurd b1 h1.1
  · rintro ⟨h1, h2, h3, h4, h5⟩
    exact ⟨⟨q.method, q.url, q.headers, q.body⟩, (jsReqFold_iff p _ _ hn).2 ⟨.inl h2, h3, h4, h5⟩, q.method, ⟨h1, rfl⟩, rfl⟩

theorem responseFromJs_reads {p : List (List UInt16 × JsVal)} (hn : (p.map Prod.fst).Nodup) (r : HttpResponse) :
    responseFromJs (.obj p) = some r ↔ ReadsResponse p r := by
  unfold ReadsResponse
  have hc : ∀ n : UInt16, (100 ≤ n ∧ n < 1000) ↔ 100 ≤ n.toNat ∧ n.toNat ≤ 999 := fun n => by
    have e1 : (100 : UInt16).toNat = 100 := rfl
    have e2 : (1000 : UInt16).toNat = 1000 := rfl
    rw [UInt16.le_iff_toNat_le, UInt16.lt_iff_toNat_lt, e1, e2]
    omega
  simp only [responseFromJs, Option.bind_eq_bind, Option.bind_eq_some_iff, Option.pure_def]
  constructor
  · rintro ⟨a, ha, hr⟩
    split_ifs at hr with hs
    simp only [Option.some.injEq] at hr
    subst hr
    obtain ⟨b1, b3, b4⟩ := (jsResFold_iff p _ _ hn).1 ha
    have hb := (hc _).1 hs
    refine ⟨hb.1, hb.2, ?_, b3, b4⟩
    rcases b1 with ⟨v, hv, b1⟩ | ⟨_, b1⟩
    · obtain ⟨x, rfl, hx⟩ := (asStatus_reads hb.1 hb.2).1 b1
      exact ⟨x, hv, hx⟩
    · have h0 := hb.1
      rw [b1] at h0
      exact absurd h0 (by decide)
  · rintro ⟨h1, h2, ⟨x, hx, hy⟩, h4, h5⟩
    refine ⟨⟨r.status, r.headers, r.body⟩,
      (jsResFold_iff p _ _ hn).2 ⟨.inl ⟨_, hx, (asStatus_reads h1 h2).2 ⟨x, rfl, hy⟩⟩, h4, h5⟩, ?_⟩
    rw [if_pos ((hc _).2 ⟨h1, h2⟩)]

section
variable [SHA] [UriLib] [Bls] [Inflate]

/-- **C61** Called with any two objects, whatever their properties are, `verifyRequestResponsePair` behaves as the verification of
the request and the response they read as; if one of them reads as none, it fails. -/
theorem C61_any_objects (m : Machine) (checks : Bool) {p p' : List (List UInt16 × JsVal)} (hp : (p.map Prod.fst).Nodup)
    (hp' : (p'.map Prod.fst).Nodup) (canisterId rootKey : Bytes) {now offset minV : Nat}
    (hn : now < 2 ^ 64) (hf : offset < 2 ^ 64) (hv : minV < 256) :
    (∀ q r, ReadsRequest p q → ReadsResponse p' r →
      match verifyPair ⟨m, checks, canisterId, now, offset, rootKey⟩ q r minV,
        verifyJs m checks (.obj p) (.obj p') canisterId now offset rootKey minV with
      | .ok info, .ok v => IsInfo v info
      | .err e, .err c => c = jsErrorCode e
      | .crash, .crash => True
      | _, _ => False) ∧
    (¬ ((∃ q, ReadsRequest p q) ∧ ∃ r, ReadsResponse p' r) →
      verifyJs m checks (.obj p) (.obj p') canisterId now offset rootKey minV = .crash) := by
  refine ⟨fun q r hq hr => ?_, fun hno => ?_⟩
  · have h1 := (requestFromJs_reads hp q).2 hq
    have h2 := (responseFromJs_reads hp' r).2 hr
    unfold verifyJs
    rw [h1, h2]
    have e1 : ((now : Int) % 2 ^ 64).toNat = now := by omega
    have e2 : ((offset : Int) % 2 ^ 64).toNat = offset := by omega
    have e3 : ((minV : Int) % 256).toNat = minV := by omega
    simp only [e1, e2, e3]
    cases hvp : verifyPair ⟨m, checks, canisterId, now, offset, rootKey⟩ q r minV with
    | err e => rfl
    | crash => trivial
    | ok info =>
      apply infoToJs_is
      intro vr hvr x hx
      obtain ⟨y, hy, hn, hv⟩ := info_headers hvp hvr x hx
      have : (∃ cs, y.1 = utf8 cs) ∧ ∃ cs, y.2 = utf8 cs := by
        rcases hr.2.2.2.1 with ⟨v, -, l, -, hl⟩ | ⟨-, h0⟩
        · clear * - hl hy
          generalize r.headers = hs at hl hy
          induction hl with
          | nil => simp at hy
          | cons h1 h2 ih =>
            rcases List.mem_cons.1 hy with rfl | hy
            · obtain ⟨a, b, r, -, ⟨_, cs, -, -, e⟩, _, ds, -, -, e'⟩ := h1
              exact ⟨⟨cs, e⟩, ds, e'⟩
            · exact ih hy
        · rw [h0] at hy; simp at hy
      refine ⟨?_, hv ▸ this.2⟩
      rcases hn with hn | hn
      · rw [hn]; exact lower_text this.1
      · rw [hn]; exact ⟨"IC-Certificate".toList, str_eq_utf8 (by decide)⟩
  · unfold verifyJs
    cases h1 : requestFromJs (.obj p) with
    | none => rfl
    | some q =>
      cases h2 : responseFromJs (.obj p') with
      | none => rfl
      | some r => exact absurd ⟨⟨q, (requestFromJs_reads hp q).1 h1⟩, r, (responseFromJs_reads hp' r).1 h2⟩ hno

end

/-- **C61** An object reads as at most one request and at most one response. -/
theorem C61_reads_one {p : List (List UInt16 × JsVal)} (hp : (p.map Prod.fst).Nodup) :
    (∀ q q', ReadsRequest p q → ReadsRequest p q' → q = q') ∧ ∀ r r', ReadsResponse p r → ReadsResponse p r' → r = r' :=
  ⟨fun q q' h h' => Option.some.inj (((requestFromJs_reads hp q).2 h).symm.trans ((requestFromJs_reads hp q').2 h')),
   fun r r' h h' => Option.some.inj (((responseFromJs_reads hp r).2 h).symm.trans ((responseFromJs_reads hp r').2 h'))⟩

/-- An object with its properties in another order, one missing and one that is not known. -/
example : requestFromJs (.obj [(utf16 "extra".toList, .undef), (utf16 "url".toList, .str [0x2F]),
    (utf16 "method".toList, .str [0x47, 0x45, 0x54])]) = some ⟨str "GET", str "/", [], []⟩ := by
  decide +kernel

/-- It reads as the request without headers and body. -/
example : ReadsRequest [(utf16 "extra".toList, .undef), (utf16 "url".toList, .str [0x2F]),
    (utf16 "method".toList, .str [0x47, 0x45, 0x54])] ⟨str "GET", str "/", [], []⟩ :=
  (requestFromJs_reads (by decide) _).1 (by decide +kernel)

/-- So does this one as a response of status 200. -/
example : ReadsResponse [(utf16 "body".toList, .bytes [1, 2]), (utf16 "status_code".toList, .num (.fin (401/2)))]
    ⟨200, [], [1, 2]⟩ :=
  (responseFromJs_reads (by decide) _).1 (by decide +kernel)

/-- A number is no URL: the call fails. -/
example : requestFromJs (.obj [(utf16 "method".toList, .str [0x47, 0x45, 0x54]), (utf16 "url".toList, .num (.fin 1))]) = none := by
  decide +kernel

end Verif.Props
