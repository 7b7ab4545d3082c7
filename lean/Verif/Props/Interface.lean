import Verif.Spec.Interface
import Verif.Lemmas.Http
import Verif.Lemmas.Header
import Verif.Props.CertVerify
import Verif.Props.Hash

set_option linter.unusedSimpArgs false
set_option linter.unusedSectionVars false

/-!
# C77, C43: hashes, signed messages, paths and keys are those of the public specifications
-/

namespace Verif.Props
open Verif HashTree

/-! ## Trees, signatures and keys -/

/-- C43: a key is accepted exactly if it is the DER encoding of a key of 96 bytes, as the specification has it. -/
theorem C43_der (der key : Bytes) : extractDer der = .ok key ↔ key.length = 96 ∧ der = Interface.derKey key := by
  rw [C43_extract_der, IsDerKey, and_comm]
  refine and_congr_right fun hk => ?_
  have hp : Interface.derKey key = derPrefix ++ key := by
    have h1 : (Interface.der 0x03 (0 :: key)) = [0x03, 0x61, 0x00] ++ key := by
      simp only [Interface.der, List.length_cons, hk]; rfl
    rw [Interface.derKey, h1]
    generalize hA : Interface.der 0x30 (Interface.oid 1 3 [6, 1, 4, 1, 44668, 5, 3, 1, 2, 1] ++ Interface.oid 1 3 [6, 1, 4, 1, 44668, 5, 3, 2, 1]) = A
    have hA' : A = [0x30, 0x1d, 0x06, 0x0d, 0x2b, 0x06, 0x01, 0x04, 0x01, 0x82, 0xdc, 0x7c, 0x05, 0x03, 0x01, 0x02,
        0x01, 0x06, 0x0c, 0x2b, 0x06, 0x01, 0x04, 0x01, 0x82, 0xdc, 0x7c, 0x05, 0x03, 0x02, 0x01] := by
      rw [← hA]; decide
    subst hA'
    simp only [Interface.der, List.length_append, List.length_cons, List.length_nil, hk]
    rfl
  rw [hp]

section
variable [SHA]

/-- C77: the digest of a hash tree is what the specification's `reconstruct` gives. -/
theorem C77_digest (t : HashTree) : t.digest = Interface.reconstruct t := by
  induction t with
  | empty => rfl
  | fork l r hl hr => simp only [HashTree.digest, Interface.reconstruct, hl, hr]; rfl
  | labeled l t h => simp only [HashTree.digest, Interface.reconstruct, h]; rfl
  | leaf v => rfl
  | pruned h => rfl

/-- C77: what is checked against the signature is the specification's `domain_sep("ic-state-root") · root hash`, with the key
whose DER encoding is given: the check succeeds exactly if the library accepts this. -/
theorem C77_signed [Bls] (c : Certificate) (der : Bytes) :
    verifyCertSignature c der = .ok () ↔ ∃ key, key.length = 96 ∧ der = Interface.derKey key ∧
      Bls.verify key c.signature (Interface.domainSep "ic-state-root" ++ (Interface.reconstruct c.tree).1) = some true := by
  unfold verifyCertSignature
  rw [Out.bind_ok]
  have hm : stateRootMsg c.tree.digest = Interface.domainSep "ic-state-root" ++ (Interface.reconstruct c.tree).1 := by
    rw [← C77_digest]; rfl
  rw [hm]
  have hv : ∀ key msg, verifySignature key c.signature msg = .ok () ↔ Bls.verify key c.signature msg = some true := by
    intro key msg
    unfold verifySignature
    split <;> simp_all
  constructor
  · rintro ⟨key, h1, h2⟩
    rw [Out.ofExcept_ok, C43_der] at h1
    exact ⟨key, h1.1, h1.2, (hv _ _).1 h2⟩
  · rintro ⟨key, h1, h2, h3⟩
    exact ⟨key, Out.ofExcept_ok.2 ((C43_der _ _).2 ⟨h1, h2⟩), (hv _ _).2 h3⟩

/-! ## Representation-independent hash -/

omit [SHA] in
theorem leb128_iff : ∀ (fuel n : Nat) (b : Bytes), n < 128 ^ (fuel + 1) → (Interface.Leb128 n b ↔ b = lebWrite (fuel + 1) n) := by
  intro fuel
  induction fuel with
  | zero =>
    intro n b hn
    have hn : n < 128 := by simpa using hn
    rw [lebWrite, if_pos hn]
    constructor
    · intro h
      cases h with
      | last h => rfl
      | more h _ => omega
    · rintro rfl; exact .last hn
  | succ f ih =>
    intro n b hn
    rw [lebWrite]
    have hd : n / 128 < 128 ^ (f + 1) := by
      apply Nat.div_lt_of_lt_mul; rw [Nat.mul_comm, ← Nat.pow_succ]; exact hn
    constructor
    · intro h
      cases h with
      | last h => rw [if_pos h]; try rfl
      | more h h2 =>
        rw [if_neg (by omega), (ih _ _ hd).1 h2, Nat.add_comm]; try rfl
    · intro h
      split at h
      · rw [h]; exact .last (by assumption)
      · rw [h, Nat.add_comm]
        exact .more (by omega) ((ih _ _ hd).2 rfl)

omit [SHA] in
theorem lebU64_spec (n : UInt64) (b : Bytes) : Interface.Leb128 n.toNat b ↔ b = lebU64 n := by
  have h1 : n.toNat < 2 ^ 64 := n.toNat_lt
  have h2 : (2:Nat) ^ 64 ≤ 128 ^ (9 + 1) := by decide
  exact leb128_iff 9 _ _ (lt_of_lt_of_le h1 h2)

omit [SHA] in
theorem consB_le {x y : UInt8} {a b : Bytes} : x :: a ≤ y :: b ↔ x < y ∨ x = y ∧ a ≤ b := by
  rw [← not_lt, List.cons_lt_cons_iff, ← not_lt (a := b) (b := a)]
  rcases lt_trichotomy x y with h | h | h
  · simp [h, not_lt_of_gt h, ne_of_gt h]
  · simp [h]
  · simp [h, not_lt_of_gt h, ne_of_gt h]

omit [SHA] in
theorem lowToHigh_iff (a b : Bytes) : Interface.LowToHigh a b ↔ a ≤ b := by
  constructor
  · intro h
    induction h with
    | nil b => exact not_lt.1 (by simp)
    | less a b h => exact consB_le.2 (.inl h)
    | same x h ih => exact consB_le.2 (.inr ⟨rfl, ih⟩)
  · induction a generalizing b with
    | nil => intro _; exact .nil b
    | cons x a ih =>
      intro h
      cases b with
      | nil => exact absurd h (by simp)
      | cons y b =>
        rcases consB_le.1 h with h | ⟨rfl, h'⟩
        · exact .less a b h
        · exact .same x (ih b h')

theorem hashOfValue_iff : ∀ (v : RValue) (h : Hash), Interface.HashOfValue v h ↔ h = v.hash := by
  have key : ∀ (n : Nat) (v : RValue), sizeOf v ≤ n → ∀ h, Interface.HashOfValue v h ↔ h = v.hash := by
    intro n
    induction n with
    | zero => intro v hv; cases v <;> simp at hv
    | succ n ih =>
      intro v hv h
      have hall : ∀ (es : List RValue), (∀ e ∈ es, sizeOf e ≤ n) → ∀ hs : List Hash, List.Forall₂ Interface.HashOfValue es hs ↔ hs = es.map RValue.hash := by
        intro es
        induction es with
        | nil => intro _ hs; simp
        | cons e es ihe =>
          intro hes hs
          cases hs with
          | nil => simp
          | cons x xs =>
            rw [List.forall₂_cons, ih e (hes e (by simp)), ihe (fun e he => hes e (by simp [he]))]
            simp
      cases v with
      | string b => constructor
                    · rintro ⟨⟩; rw [RValue.hash]
                    · rintro rfl; rw [RValue.hash]; exact .text b
      | bytes b => constructor
                   · rintro ⟨⟩; rw [RValue.hash]
                   · rintro rfl; rw [RValue.hash]; exact .blob b
      | number m =>
        constructor
        · intro hh
          cases hh with
          | number hl => rw [(lebU64_spec _ _).1 hl, RValue.hash]
        · rintro rfl; rw [RValue.hash]; exact .number ((lebU64_spec _ _).2 rfl)
      | array es =>
        have hes : ∀ e ∈ es, sizeOf e ≤ n := by
          intro e he
          have := List.sizeOf_lt_of_mem he
          simp at hv; omega
        have hf : ((es.map RValue.hash).map (fun h => h.1)).flatten = RValue.hashes es := by
          rw [RValue.hashes_eq, List.map_map, List.flatMap_def]; rfl
        constructor
        · intro hh
          cases hh with
          | array hl => rw [(hall es hes _).1 hl, hf, RValue.hash]
        · rintro rfl
          rw [RValue.hash, ← hf]
          exact .array ((hall es hes _).2 rfl)
  exact fun v => key _ v le_rfl

theorem fieldPairs_iff (m : List (Bytes × RValue)) (pairs : List Bytes) :
    List.Forall₂ (fun (f : Bytes × RValue) p => ∃ v, Interface.HashOfValue f.2 v ∧ p = (sha f.1).1 ++ v.1) m pairs ↔
      pairs = (m.map (fun e => (sha e.1, e.2.hash))).map pairBytes := by
  induction m generalizing pairs with
  | nil => simp
  | cons e m ih =>
    cases pairs with
    | nil => simp
    | cons p ps =>
      rw [List.forall₂_cons, ih]
      simp [hashOfValue_iff, pairBytes]

theorem pairBytes_le {a b : Hash × Hash} (h : pairLe a b) : pairBytes a ≤ pairBytes b := by
  rw [pairLe_iff] at h
  unfold pairBytes
  rcases h with h | ⟨h, h2⟩
  · have key : ∀ (x y s t : Bytes), x.length = y.length → x < y → x ++ s ≤ y ++ t := by
      intro x
      induction x with
      | nil => intro y s t hl hlt; cases y <;> simp_all
      | cons c x ih =>
        intro y s t hl hlt
        cases y with
        | nil => simp at hl
        | cons d y =>
          rcases List.cons_lt_cons_iff.1 hlt with h | ⟨rfl, h⟩
          · exact consB_le.2 (.inl h)
          · exact consB_le.2 (.inr ⟨rfl, ih y s t (by simpa using hl) h⟩)
    exact key _ _ _ _ (by rw [a.1.2, b.1.2]) h
  · rw [h]
    have key : ∀ (x s t : Bytes), s ≤ t → x ++ s ≤ x ++ t := by
      intro x s t hst
      induction x with
      | nil => exact hst
      | cons c x ih => exact consB_le.2 (.inr ⟨rfl, ih⟩)
    exact key _ _ _ h2

/-- C77: the representation-independent hash of a map is the specification's, and no other hash is. -/
theorem C77_rih (m : List (Bytes × RValue)) (h : Hash) : Interface.HashOfStruct m h ↔ h = rih m := by
  have hsorted : (((m.map (fun e => (sha e.1, e.2.hash))).insertionSort pairLe).map pairBytes).Pairwise (· ≤ ·) := by
    rw [List.pairwise_map]
    exact (List.pairwise_insertionSort pairLe _).imp pairBytes_le
  have hperm := ((List.perm_insertionSort pairLe (m.map (fun e => (sha e.1, e.2.hash)))).map pairBytes)
  have hr : rih m = sha (((m.map (fun e => (sha e.1, e.2.hash))).insertionSort pairLe).map pairBytes).flatten := by
    unfold rih; simp only [List.flatMap_def]
  constructor
  · rintro ⟨h1, h2, h3⟩
    rw [fieldPairs_iff] at h1
    subst h1
    have h3' := h3.imp (fun {a b} h => (lowToHigh_iff a b).1 h)
    rw [hr, (h2.trans hperm.symm).eq_of_pairwise' h3' hsorted]
  · rintro rfl
    rw [hr]
    exact .intro ((fieldPairs_iff _ _).2 rfl) hperm (hsorted.imp (fun {a b} h => (lowToHigh_iff a b).2 h))

end

/-! ## Requests and responses -/

theorem lowerCase_iff (a b : Bytes) : Interface.LowerCase a b ↔ b = lower a := by
  have hb : ∀ x : UInt8, (65 ≤ x.toNat ∧ x.toNat ≤ 90 → lowerByte x = UInt8.ofNat (x.toNat + 32)) ∧
      ((x.toNat < 65 ∨ 90 < x.toNat) → lowerByte x = x) := by
    intro x
    unfold lowerByte
    have e : (0x41 ≤ x ∧ x ≤ 0x5A) ↔ (65 ≤ x.toNat ∧ x.toNat ≤ 90) := by
      rw [UInt8.le_iff_toNat_le, UInt8.le_iff_toNat_le]; rfl
    constructor
    · intro h
      rw [if_pos (e.2 h)]
      apply UInt8.toNat_inj.1
      simp
    · intro h
      rw [if_neg]
      rw [e]; omega
  constructor
  · intro h
    induction h with
    | nil => rfl
    | letter h1 h2 _ ih => rw [ih, lower, lower, List.map_cons, (hb _).1 ⟨h1, h2⟩]
    | other h1 _ ih => rw [ih, lower, lower, List.map_cons, (hb _).2 h1]
  · rintro rfl
    induction a with
    | nil => exact .nil
    | cons x a ih =>
      by_cases h : 65 ≤ x.toNat ∧ x.toNat ≤ 90
      · rw [lower, List.map_cons, (hb _).1 h]; exact .letter h.1 h.2 ih
      · rw [lower, List.map_cons, (hb _).2 (by omega)]; exact .other (by omega) ih

theorem namesListed_iff (names : List Bytes) (name : Bytes) :
    Interface.Listed names name ↔ ∃ n ∈ names, SameName n name := by
  unfold Interface.Listed SameName
  constructor
  · rintro ⟨n, hn, l, h1, h2⟩
    rw [lowerCase_iff] at h1 h2
    exact ⟨n, hn, h1.symm.trans h2⟩
  · rintro ⟨n, hn, h⟩
    exact ⟨n, hn, _, (lowerCase_iff _ _).2 rfl, (lowerCase_iff _ _).2 h⟩

theorem headerFields_iff (chosen : Bytes → Prop) [DecidablePred chosen] (hs : List Header) (fs : List (Bytes × RValue)) :
    Interface.HeaderFields chosen hs fs ↔ fs = (hs.filter (fun h => chosen h.1)).map (fun h => (lower h.1, RValue.string h.2)) := by
  constructor
  · intro h
    induction h with
    | nil => rfl
    | take h1 h2 _ ih => rw [ih, (lowerCase_iff _ _).1 h2]; simp [h1]
    | skip h1 _ ih => rw [ih]; simp [h1]
  · rintro rfl
    induction hs with
    | nil => exact .nil
    | cons h hs ih =>
      obtain ⟨name, value⟩ := h
      by_cases hc : chosen name
      · rw [List.filter_cons_of_pos (by simpa using hc)]
        exact .take hc ((lowerCase_iff _ _).2 rfl) ih
      · rw [List.filter_cons_of_neg (by simpa using hc)]
        exact .skip hc ih

theorem pieces_iff (q : Bytes) (ps : List Bytes) : Interface.Pieces q ps ↔ ps = q.splitOn 38 := by
  constructor
  · intro h
    induction h with
    | one h => rw [splitOn_none h]
    | cons h _ ih => rw [splitOn_append_sep h, ih]
  · rintro rfl
    have hm : ∀ p ∈ q.splitOn 38, (38 : UInt8) ∉ p := fun p hp => not_mem_splitOn hp
    have hi := intercalate_splitOn (38 : UInt8) q
    generalize hs : q.splitOn 38 = ps at hm hi
    have hne : ps ≠ [] := hs ▸ splitOn_ne_nil _ _
    clear hs
    subst hi
    induction ps with
    | nil => exact absurd rfl hne
    | cons p ps ih =>
      cases ps with
      | nil => simpa using Interface.Pieces.one (hm p (by simp))
      | cons p2 ps =>
        rw [intercalate_cons_cons]
        exact .cons (hm p (by simp)) (ih (fun p hp => hm p (by simp [hp])) (by simp))

theorem pieceName_iff (p name : Bytes) : Interface.PieceName p name ↔ name = paramName p := by
  unfold Interface.PieceName paramName
  constructor
  · rintro ⟨h, rfl | ⟨rest, rfl⟩⟩
    · refine (takeWhile_append_end ?_).1.symm
      intro c hc; simp; rintro rfl; exact h hc
    · refine (takeWhile_append_stop ?_ (by simp)).1.symm
      intro c hc; simp; rintro rfl; exact h hc
  · rintro rfl
    constructor
    · intro h; simpa using List.mem_takeWhile_imp h
    · have h1 := (List.takeWhile_append_dropWhile (p := fun c => decide (c ≠ (61 : UInt8))) (l := p)).symm
      cases hd : p.dropWhile (fun c => decide (c ≠ (61 : UInt8))) with
      | nil => left; rw [hd, List.append_nil] at h1; exact h1
      | cons x r =>
        right
        have hx := List.head?_dropWhile_not (fun c => decide (c ≠ (61 : UInt8))) p
        rw [hd] at hx h1
        simp at hx
        subst hx
        exact ⟨r, h1⟩

theorem chosen_iff (chosen : Bytes → Prop) [DecidablePred chosen] (ps qs : List Bytes) :
    Interface.Chosen chosen ps qs ↔ qs = ps.filter (fun f => chosen (paramName f)) := by
  constructor
  · intro h
    induction h with
    | nil => rfl
    | take h1 h2 _ ih => rw [(pieceName_iff _ _).1 h1] at h2; rw [ih]; simp [h2]
    | skip h1 h2 _ ih => rw [(pieceName_iff _ _).1 h1] at h2; rw [ih]; simp [h2]
  · rintro rfl
    induction ps with
    | nil => exact .nil
    | cons p ps ih =>
      by_cases hc : chosen (paramName p)
      · rw [List.filter_cons_of_pos (by simpa using hc)]
        exact .take ((pieceName_iff _ _).2 rfl) hc ih
      · rw [List.filter_cons_of_neg (by simpa using hc)]
        exact .skip ((pieceName_iff _ _).2 rfl) hc ih

theorem queryField_iff (c : ReqCert) (q : Option Bytes) (fs : List (Bytes × RValue)) :
    Interface.QueryField c q fs ↔ fs = (match q with
      | some q => [(str ":ic-cert-query", RValue.string (filteredQuery q c))]
      | none => []) := by
  have hl : Interface.Listed c.queryParams = fun n => ∃ i ∈ c.queryParams, SameName i n := by
    funext n; exact propext (namesListed_iff _ _)
  cases q with
  | none =>
    constructor
    · rintro ⟨⟩; rfl
    · rintro rfl; exact .none
  | some q =>
    constructor
    · intro h
      cases h with
      | some h1 h2 h3 =>
        rw [hl, chosen_iff, (pieces_iff _ _).1 h1] at h2
        simp only [filteredQuery_eq, certifiedParams]
        rw [← h2]
        rcases h3 with ⟨h4, h5⟩ | h3
        · rw [h4, h5]; rfl
        · rw [(pieces_iff _ _).1 h3, intercalate_splitOn]
    · rintro rfl
      refine .some (qs := certifiedParams c q) ((pieces_iff _ _).2 rfl) ?_ ?_
      · rw [hl, chosen_iff]; rfl
      · rw [filteredQuery_eq]
        by_cases hq : certifiedParams c q = []
        · left; rw [hq]; exact ⟨rfl, rfl⟩
        · right
          rw [pieces_iff, splitOn_intercalate _ hq]
          intro t ht
          exact not_mem_splitOn (List.mem_filter.1 ht).1

section
variable [SHA]

/-- C77: the request hash is the specification's, and no other hash is. -/
theorem C77_request_hash [UriLib] (req : HttpRequest) (c : ReqCert) (h : Hash) :
    requestHash req c = .ok h ↔ ∃ path query, UriLib.parse req.url = some (path, query) ∧ Interface.RequestHash c req query h := by
  have hl : Interface.Listed c.headers = fun n => ∃ i ∈ c.headers, SameName i n := by
    funext n; exact propext (namesListed_iff _ _)
  have key : ∀ q, Interface.RequestHash c req q h ↔ h = sha ((rih (requestMap req c q)).1 ++ (sha req.body).1) := by
    intro q
    constructor
    · rintro ⟨h1, h2, h3⟩
      rw [hl, headerFields_iff] at h1
      rw [queryField_iff] at h2
      rw [C77_rih] at h3
      subst h1 h2 h3
      unfold requestMap
      rw [filteredReqHeaders_eq, certifiedReqHeaders, List.map_map]
      simp; rfl
    · rintro rfl
      refine .intro (fs := filteredReqHeaders req.headers c) ?_ ((queryField_iff _ _ _).2 rfl) ((C77_rih _ _).2 ?_)
      · rw [hl, headerFields_iff, filteredReqHeaders_eq, certifiedReqHeaders, List.map_map]; rfl
      · unfold requestMap; simp; rfl
  unfold requestHash HttpRequest.getQuery
  cases hp : UriLib.parse req.url with
  | none => simp
  | some pq =>
    obtain ⟨p, q⟩ := pq
    simp [key]
    exact eq_comm

/-- C77: the response hash is the specification's, and no other hash is. -/
theorem C77_response_hash (res : HttpResponse) (c : RespCert) (h : Hash) :
    Interface.ResponseHash c res h ↔ h = responseHash res c none := by
  have hl : Interface.ResponseHeader c = c.Certifies := by
    funext n; apply propext
    unfold Interface.ResponseHeader RespCert.Certifies
    have e1 : ∀ x y : Bytes, lower x = y → (Interface.Listed [x] n ↔ lower n = y) := by
      intro x y hxy; rw [namesListed_iff]; simp [SameName, hxy, eq_comm]
    rw [e1 (str "IC-Certificate") _ rfl, e1 (str "IC-CertificateExpression") _ rfl]
    refine and_congr (not_congr ?_) (or_congr ?_ ?_)
    · unfold SameName; rw [show lower (str "IC-Certificate") = lower (str "ic-certificate") by decide]
    · unfold SameName; rw [show lower (str "IC-CertificateExpression") = lower (str "ic-certificateexpression") by decide]
    · cases c with
      | certifiedHeaders l => exact namesListed_iff _ _
      | headerExclusions l => exact not_congr (namesListed_iff _ _)
  have hm : ∀ fs, Interface.HeaderFields (Interface.ResponseHeader c) res.headers fs ↔
      fs = (filterResponseHeaders res c).headers.map (fun h => (h.1, RValue.string h.2)) := by
    intro fs
    rw [hl, headerFields_iff, filterRespHeaders_eq, certifiedRespHeaders, List.map_map]; rfl
  unfold responseHash responseHeadersHash responseMap
  constructor
  · rintro ⟨h1, h3⟩
    rw [hm] at h1
    rw [C77_rih] at h3
    subst h1 h3
    rfl
  · rintro rfl
    exact .intro ((hm _).2 rfl) ((C77_rih _ _).2 rfl)

end

/-! ## Paths -/

theorem segments_iff (p : Bytes) (ss : List Bytes) : Interface.Segments p ss ↔ ss = pathSegments p := by
  have hcons : ∀ t r : Bytes, (47 : UInt8) ∉ t → pathSegments (t ++ 47 :: r) = (if t = [] then [] else [t]) ++ pathSegments r := by
    intro t r ht
    unfold pathSegments
    rw [show slashByte = 47 from rfl, splitOn_append_sep ht]
    by_cases h : t = []
    · simp [h]
    · simp [h]
  have hlast : ∀ t : Bytes, (47 : UInt8) ∉ t → pathSegments t = if t = [] then [] else [t] := by
    intro t ht
    unfold pathSegments
    rw [show slashByte = 47 from rfl, splitOn_none ht]
    by_cases h : t = []
    · simp [h]
    · simp [h]
  constructor
  · intro h
    induction h with
    | nil => rfl
    | slash _ ih => rw [ih]; exact (hcons [] _ (by simp)).symm
    | last h1 h2 => rw [hlast _ h2, if_neg h1]
    | cons h1 h2 _ ih => rw [hcons _ _ h2, if_neg h1, ih]; rfl
  · rintro rfl
    have key : ∀ (n : Nat) (p : Bytes), p.length ≤ n → Interface.Segments p (pathSegments p) := by
      intro n
      induction n with
      | zero =>
        intro p hp
        have : p = [] := by simpa using hp
        subst this
        exact .nil
      | succ n ih =>
        intro p hp
        by_cases hm : (47 : UInt8) ∈ p
        · obtain ⟨t, r, rfl, ht⟩ := List.eq_append_cons_of_mem hm
          rw [hcons t r ht]
          simp at hp
          have hr := ih r (by omega)
          by_cases h : t = []
          · subst h; simpa using Interface.Segments.slash hr
          · rw [if_neg h]; exact .cons h ht hr
        · rw [hlast p hm]
          by_cases h : p = []
          · subst h; exact .nil
          · rw [if_neg h]; exact .last h hm
    exact key _ p le_rfl

/-- C77: the path of a URL in the tree is the specification's, and no other path is. -/
theorem C77_path (p : HttpPath) (path : List Bytes) : Interface.ExprPath p path ↔ path = p.toExprPath := by
  constructor
  · intro h
    cases h with
    | exact h | wildcard h =>
      rw [segments_iff] at h
      subst h
      simp [HttpPath.toExprPath, endsWithSlash, slashByte, pathPrefix, exactTerm, wildTerm]
  · rintro rfl
    cases p with
    | exact url =>
      have := Interface.ExprPath.exact ((segments_iff url _).2 rfl)
      simpa [HttpPath.toExprPath, endsWithSlash, slashByte, pathPrefix, exactTerm, wildTerm] using this
    | wildcard url =>
      have := Interface.ExprPath.wildcard ((segments_iff url _).2 rfl)
      simpa [HttpPath.toExprPath, endsWithSlash, slashByte, pathPrefix, exactTerm, wildTerm] using this

/-! ## Times -/

theorem lebReadFrom_iff : ∀ (v : Bytes) (k m : Nat), k ≤ 9 → (lebReadFrom (7 * k) v = some m ↔
    ∃ enc rest n, v = enc ++ rest ∧ Interface.LebNumber enc n ∧ enc.length + k ≤ 10 ∧ n * 2 ^ (7 * k) < 2 ^ 64 ∧ m = n * 2 ^ (7 * k)) := by
  intro v
  induction v with
  | nil =>
    intro k m hk
    simp only [lebReadFrom]
    constructor
    · simp
    · rintro ⟨enc, rest, n, h, h2, _⟩
      have : enc = [] := by cases enc <;> simp_all
      subst this; cases h2
  | cons b r ih =>
    intro k m hk
    rw [lebReadFrom]
    have hb : b < 128 ↔ b.toNat < 128 := by rw [UInt8.lt_iff_toNat_lt]; rfl
    have h01 : (b ≠ 0 ∧ b ≠ 1) ↔ 2 ≤ b.toNat := by
      rw [← UInt8.toNat_inj.ne, ← UInt8.toNat_inj.ne]
      simp; omega
    simp only [h01]
    by_cases hlt : b.toNat < 128
    · rw [if_pos (hb.2 hlt)]
      have e : b.toNat % 128 = b.toNat := Nat.mod_eq_of_lt hlt
      rw [e]
      have hbound : ¬ (7 * k = 63 ∧ 2 ≤ b.toNat) ↔ b.toNat * 2 ^ (7 * k) < 2 ^ 64 := by
        constructor
        · intro h
          by_cases h9 : k = 9
          · subst h9
            have : b.toNat ≤ 1 := by omega
            calc b.toNat * 2 ^ (7 * 9) ≤ 1 * 2 ^ (7 * 9) := Nat.mul_le_mul_right _ this
              _ < 2 ^ 64 := by decide
          · calc b.toNat * 2 ^ (7 * k) ≤ 127 * 2 ^ (7 * 8) :=
                  Nat.mul_le_mul (by omega) (Nat.pow_le_pow_right (by omega) (by omega))
              _ < 2 ^ 64 := by decide
        · rintro h ⟨h1, h2⟩
          rw [h1] at h
          have : 2 * 2 ^ 63 ≤ b.toNat * 2 ^ 63 := Nat.mul_le_mul_right _ h2
          omega
      constructor
      · intro h
        by_cases hc : 7 * k = 63 ∧ 2 ≤ b.toNat
        · rw [if_pos hc] at h; simp at h
        · rw [if_neg hc] at h
          exact ⟨[b], r, b.toNat, rfl, .last hlt, by simp; omega, hbound.1 hc, by simpa using h.symm⟩
      · rintro ⟨enc, rest, n, h1, h2, h3, h4, h5⟩
        cases h2 with
        | last _ =>
          simp at h1
          obtain ⟨rfl, rfl⟩ := h1
          rw [if_neg (hbound.2 h4), h5]
        | more h _ =>
          simp at h1
          obtain ⟨rfl, rfl⟩ := h1
          omega
    · rw [if_neg (fun h => hlt (hb.1 h))]
      have e : b.toNat % 128 = b.toNat - 128 := by have := b.toNat_lt; omega
      have hpow : 2 ^ (7 * (k + 1)) = 2 ^ (7 * k) * 128 := by rw [Nat.mul_add, Nat.pow_add]
      have hsum : ∀ n, (b.toNat - 128 + 128 * n) * 2 ^ (7 * k) = (b.toNat - 128) * 2 ^ (7 * k) + n * 2 ^ (7 * (k + 1)) := by
        intro n; rw [hpow, Nat.add_mul, Nat.mul_comm 128 n, Nat.mul_assoc, Nat.mul_comm 128]
      by_cases h9 : k = 9
      · subst h9
        rw [if_pos ⟨rfl, by omega⟩]
        constructor
        · simp
        · rintro ⟨enc, rest, n, h1, h2, h3, h4, h5⟩
          cases h2 with
          | last h => simp at h1; obtain ⟨rfl, rfl⟩ := h1; omega
          | more h h2 =>
            cases h2 <;> simp at h3
      · rw [if_neg (by omega), show 7 * k + 7 = 7 * (k + 1) by omega, e]
        constructor
        · intro h
          obtain ⟨m', h1, h2⟩ := Option.map_eq_some_iff.1 h
          obtain ⟨enc, rest, n, g1, g2, g3, g4, g5⟩ := (ih (k + 1) m' (by omega)).1 h1
          refine ⟨b :: enc, rest, _, by rw [g1]; rfl, .more (by omega) g2, by simp; omega, ?_, ?_⟩
          · rw [hsum]
            have hdvd : n * 2 ^ (7 * (k + 1)) + 2 ^ (7 * (k + 1)) ≤ 2 ^ 64 := by
              have := lebReadFrom_bound r (k + 1) m' (by omega) h1
              rw [← g5]; exact this
            have : (b.toNat - 128) * 2 ^ (7 * k) < 2 ^ (7 * (k + 1)) := by
              rw [hpow, Nat.mul_comm]
              exact Nat.mul_lt_mul_of_pos_left (by have := b.toNat_lt; omega) (Nat.two_pow_pos _)
            omega
          · rw [hsum, ← h2, g5]
        · rintro ⟨enc, rest, n, h1, h2, h3, h4, h5⟩
          cases h2 with
          | last h => simp at h1; obtain ⟨rfl, rfl⟩ := h1; omega
          | more h h2 =>
            simp at h1
            obtain ⟨rfl, rfl⟩ := h1
            rw [hsum] at h4 h5
            rw [(ih (k + 1) _ (by omega)).2 ⟨_, _, _, rfl, h2, by simp at h3; omega, by omega, rfl⟩]
            simp [h5]

/-- C77: the time of a certificate is read as the specification has it: the bytes begin with a LEB128 number, of at most ten bytes
and below 2^64. -/
theorem C77_time (v : Bytes) (n : Nat) : lebRead v = some n ↔
    ∃ enc rest, v = enc ++ rest ∧ Interface.LebNumber enc n ∧ enc.length ≤ 10 ∧ n < 2 ^ 64 := by
  have h := lebReadFrom_iff v 0 n (by omega)
  simp only [Nat.mul_zero, Nat.pow_zero, Nat.mul_one, Nat.add_zero] at h
  rw [lebRead, h]
  constructor
  · rintro ⟨enc, rest, n', h1, h2, h3, h4, rfl⟩; exact ⟨enc, rest, h1, h2, h3, h4⟩
  · rintro ⟨enc, rest, h1, h2, h3, h4⟩; exact ⟨enc, rest, n, h1, h2, h3, h4, rfl⟩

/-- C77: what is trimmed and skipped as white space is white space by Unicode. -/
theorem C77_white_space (c : Char) : isWs c = true ↔ c.toNat ∈ Interface.whiteSpace := by
  unfold isWs Interface.whiteSpace
  simp
  omega

/-! ## Concrete cases -/

section
attribute [local instance] toySHA toyUri

/-- A request with a query of which one parameter is certified, and one of two headers. -/
def interfaceReq : HttpRequest :=
  { method := str "GET", url := str "/a?x=1&y=2", headers := [(str "Accept", str "*"), (str "Host", str "h")], body := str "b" }

example : ∃ h, requestHash interfaceReq { headers := [str "accept"], queryParams := [str "Y"] } = .ok h ∧
    ∃ path query, UriLib.parse interfaceReq.url = some (path, query) ∧
      Interface.RequestHash { headers := [str "accept"], queryParams := [str "Y"] } interfaceReq query h := by
  have h : ∃ h, requestHash interfaceReq { headers := [str "accept"], queryParams := [str "Y"] } = .ok h := by
    unfold requestHash
    rw [show interfaceReq.getQuery = .ok (some (str "x=1&y=2")) by rfl]
    exact ⟨_, rfl⟩
  obtain ⟨h, hh⟩ := h
  exact ⟨h, hh, (C77_request_hash _ _ _).1 hh⟩

example : Interface.QueryField { headers := [], queryParams := [str "Y"] } (some (str "x=1&y=2"))
    [(str ":ic-cert-query", .string (str "y=2"))] := by
  rw [queryField_iff]
  simp only
  rw [show filteredQuery (str "x=1&y=2") { headers := [], queryParams := [str "Y"] } = str "y=2" by decide +kernel]

example : Interface.ResponseHash (.headerExclusions [str "X"]) { status := 200, headers := [(str "x", str "1")], body := str "b" }
    (responseHash { status := 200, headers := [(str "x", str "1")], body := str "b" } (.headerExclusions [str "X"]) none) :=
  (C77_response_hash _ _ _).2 rfl

example : Interface.ExprPath (.wildcard (str "/a//b/")) [str "http_expr", str "a", str "b", [], str "<*>"] :=
  (C77_path _ _).2 (by decide +kernel)

example : Interface.Leb128 200 [0xc8, 0x01] := .more (by omega) (.last (by omega))

example : lebRead [0xc8, 0x81, 0x00, 0xff] = some 200 :=
  (C77_time _ _).2 ⟨[0xc8, 0x81, 0x00], [0xff], rfl, .more (by decide) (.more (by decide) (.last (by decide))), by decide, by decide⟩

/-- A structure of two fields. -/
example : Interface.HashOfStruct [(str "a", .number 200), (str "b", .array [.string (str "c"), .bytes [1]])]
    (rih [(str "a", .number 200), (str "b", .array [.string (str "c"), .bytes [1]])]) := (C77_rih _ _).2 rfl

example : extractDer (Interface.derKey (List.replicate 96 7)) = .ok (List.replicate 96 7) := (C43_der _ _).2 ⟨by simp, rfl⟩

end

end Verif.Props
