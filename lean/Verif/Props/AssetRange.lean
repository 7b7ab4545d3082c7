import Verif.Props.AssetPlace

set_option linter.unusedSimpArgs false
set_option linter.unusedSectionVars false

/-!
# Property C46: range responses partition the asset
-/

namespace Verif.Props
open Verif HashTree

/-- The number of chunks of a content. -/
def chunkCount (c : Bytes) : Nat := (c.length + 1999999) / 2000000

theorem chunk_lt_iff (c : Bytes) (i : Nat) : i * 2000000 < c.length ↔ i < chunkCount c := by
  unfold chunkCount; omega

/-- **C46.** The bodies of the chunks, in order, make up the content. -/
theorem C46_partition (p : Page) : (List.range (chunkCount p.content)).flatMap p.slice = p.content := by
  have key : ∀ n, (List.range n).flatMap p.slice = p.content.take (n * 2000000) := by
    intro n
    induction n with
    | zero => simp
    | succ n ih =>
      rw [List.range_succ, List.flatMap_append, ih]
      simp only [List.flatMap_cons, List.flatMap_nil, List.append_nil, Page.slice]
      rw [Nat.succ_mul, List.take_add]
  rw [key]
  apply List.take_of_length_le
  unfold chunkCount; omega

/-- **C46.** A chunk has status 206 and a Content-Range header that says, in decimal, which part of the content its
body is; the range lies within the content, the first begins at zero, every other one begins right after the end of
the one before, and the last one ends with the content. The other headers are those of the whole asset. -/
theorem C46_chunk (url : Bytes) (p : Page) (i : Nat) (hi : i * 2000000 < p.content.length) :
    ∃ b e, b ≤ e ∧ e < p.content.length ∧ b = i * 2000000 ∧
      (Item.chunk url p i).response.status = 206 ∧
      (Item.chunk url p i).response.body = (p.content.drop b).take (e + 1 - b) ∧
      (Item.chunk url p i).response.body.length = e + 1 - b ∧
      (Item.chunk url p i).response.headers =
        (str "content-length", decimal (e + 1 - b)) :: p.allHeaders ++
          [(str "content-range", str "bytes " ++ decimal b ++ str "-" ++ decimal e ++ str "/" ++ decimal p.content.length),
           (str "IC-CertificateExpression", (Item.chunk url p i).cel.toBytes)] ∧
      ((i + 1) * 2000000 < p.content.length → e + 1 = (i + 1) * 2000000) ∧
      (p.content.length ≤ (i + 1) * 2000000 → e + 1 = p.content.length) := by
  have hl := slice_length p i
  have hpos : 0 < (p.slice i).length := by rw [hl]; omega
  refine ⟨i * 2000000, i * 2000000 + (p.slice i).length - 1, by omega, by omega, rfl, rfl, ?_, ?_, ?_, by omega, by omega⟩
  · show p.slice i = _
    have : i * 2000000 + (p.slice i).length - 1 + 1 - i * 2000000 = min 2000000 (p.content.length - i * 2000000) := by omega
    rw [this]
    unfold Page.slice
    rcases Nat.le_total 2000000 (p.content.length - i * 2000000) with h | h
    · rw [min_eq_left h]
    · rw [min_eq_right h, List.take_of_length_le (by simp; omega), List.take_of_length_le (by simp)]
  · show (p.slice i).length = _
    omega
  · have e1 : i * 2000000 + (p.slice i).length - 1 + 1 - i * 2000000 = (p.slice i).length := by omega
    rw [e1]
    show (str "content-length", decimal (p.slice i).length) :: (p.allHeaders ++ [_]) ++ [_] = _
    simp

/-! ## Requests -/

theorem digits_repr (n : Nat) : Digits (Nat.repr n).toList n := by
  have hr : (Nat.repr n).toList = Nat.toDigits 10 n := by
    simp [Nat.repr]
  rw [hr]
  induction n using Nat.strongRecOn with
  | _ n ih =>
    by_cases hn : n < 10
    · have : Nat.toDigits 10 n = [Nat.digitChar n] := Nat.toDigits_of_lt_base hn
      rw [this]
      have hd : ∀ k < 10, '0' ≤ Nat.digitChar k ∧ Nat.digitChar k ≤ '9' ∧ (Nat.digitChar k).toNat - '0'.toNat = k := by decide
      obtain ⟨a, b, c⟩ := hd n hn
      have := Digits.one a b
      rwa [c] at this
    · have h : Nat.toDigits 10 n = Nat.toDigits 10 (n / 10) ++ [Nat.digitChar (n % 10)] :=
        Nat.toDigits_of_base_le (by decide) (by omega)
      rw [h]
      have hd : ∀ k < 10, '0' ≤ Nat.digitChar k ∧ Nat.digitChar k ≤ '9' ∧ (Nat.digitChar k).toNat - '0'.toNat = k := by decide
      obtain ⟨a, b, c⟩ := hd (n % 10) (by omega)
      have := Digits.snoc (ih (n / 10) (by omega) (by
        simp [Nat.repr])) a b
      rw [c] at this
      have e : 10 * (n / 10) + n % 10 = n := by omega
      rwa [e] at this

theorem decimal_utf8 (n : Nat) : decimal n = utf8 (Nat.repr n).toList := by
  unfold decimal
  apply str_eq_utf8
  have := (digits_iff.1 (digits_repr n)).2.1
  rw [List.all_eq_true] at this ⊢
  intro c hc
  have := this c hc
  have e2 : '9'.toNat = 57 := rfl
  simp only [Bool.and_eq_true, decide_eq_true_eq, e2] at this
  simp only [decide_eq_true_eq]
  omega

/-- **C46.** The Range headers `bytes=b-` and `bytes=b-e` are understood, for all numbers the machine can represent. -/
theorem C46_ask (m : Machine) (req : HttpRequest) (n : Nat) (h : n < m.usize)
    (hh : FirstHeader req.headers (str "range") (str "bytes=" ++ decimal n ++ str "-") ∨
      ∃ e, n ≤ e ∧ e < m.usize ∧
        FirstHeader req.headers (str "range") (str "bytes=" ++ decimal n ++ str "-" ++ decimal e)) :
    AsksFrom m req (some n) := by
  have e1 : str "bytes=" = utf8 "bytes=".toList := str_eq_utf8 rfl
  have e2 : str "-" = utf8 ['-'] := str_eq_utf8 rfl
  have hnum : ∀ k, k < m.usize → Numeral m (Nat.repr k).toList k := fun k hk => ⟨[], _, rfl, .inl rfl, digits_repr k, hk⟩
  rcases hh with hh | ⟨e, he, heu, hh⟩
  · rw [decimal_utf8, e1, e2, ← utf8_append, ← utf8_append] at hh
    exact .range hh ⟨[], [], 0, _, [], by simp, rfl, rfl, hnum n h, .inl ⟨rfl, rfl⟩⟩
  · rw [decimal_utf8, decimal_utf8, e1, e2, ← utf8_append, ← utf8_append, ← utf8_append] at hh
    exact .range hh ⟨[], [], 0, _, _, by simp, rfl, rfl, hnum n h, .inr ⟨e, hnum e heu, he, rfl⟩⟩

section
variable [SHA] [UriLib] [GlobLib] [UnstableSort]

/-- **C46.** A request for a chunk of a successfully certified large asset is answered with this chunk, until a call
about its place. -/
theorem C46_serve {before later : List RouterCall} {assets values : List Asset} {configs : List AssetConfig} {r : Router}
    (hv : IsValues assets values) (hok : (RouterCall.certify assets values configs).Succeeds)
    (hl : ∀ c ∈ later, c.Faithful) (hr : routerRun (before ++ .certify assets values configs :: later) = some r)
    (m : Machine) (dataCert : Bytes) {req : HttpRequest} (hutf : ∀ h ∈ req.headers, (chars h.2).isSome)
    {url : Bytes} {p : Page} {i : Nat} (hpath : req.getPath = .ok url) (hrange : AsksFrom m req (some (i * 2000000)))
    (hs : Sole assets configs (.chunk url p i)) (hq : ∀ c ∈ later, ¬ c.Touches false (Item.chunk url p i).key)
    (hpref : Prefers r url (Accepts req) (some (i * 2000000)) p.encoding) :
    ∃ w, w.digest = r.rootHash ∧ r.serveAsset m dataCert req = some (.ok
      (addV2CertificateHeader dataCert (Item.chunk url p i).response w (HttpPath.exact url).toExprPath)) := by
  obtain ⟨x, hx, hh⟩ := C45_stays hv hok hl hr hs hq
  simp only [Item.isFallback, Bool.false_eq_true, if_false] at hh
  have hheld : r.held url (some (i * 2000000)) p.encoding = some x := by
    unfold Router.held
    simp only [Item.key] at hh
    rw [hh]
    simp only
    rw [if_neg]
    rw [hx.response]
    show ¬ (p.slice i).length > 2000000
    rw [slice_length]; omega
  obtain ⟨w, w1, w2, -⟩ := serve_chosen hr m dataCert hutf hpath hrange (.exact (chooses_of_prefers hpref hheld))
  refine ⟨w, w2, ?_⟩
  rw [w1, hx.response, hx.path]; rfl

/-- **C46.** A client that asks for the chunks one after the other gets the asset. -/
theorem C46_reassemble {before later : List RouterCall} {assets values : List Asset} {configs : List AssetConfig}
    {r : Router} (hv : IsValues assets values) (hok : (RouterCall.certify assets values configs).Succeeds)
    (hl : ∀ c ∈ later, c.Faithful) (hr : routerRun (before ++ .certify assets values configs :: later) = some r)
    (m : Machine) (dataCert : Bytes) {url : Bytes} {p : Page} {req : Nat → HttpRequest}
    (hutf : ∀ i < chunkCount p.content, ∀ h ∈ (req i).headers, (chars h.2).isSome)
    (hpath : ∀ i < chunkCount p.content, (req i).getPath = .ok url)
    (hrange : ∀ i < chunkCount p.content, AsksFrom m (req i) (some (i * 2000000)))
    (hs : ∀ i < chunkCount p.content, Sole assets configs (.chunk url p i))
    (hq : ∀ i < chunkCount p.content, ∀ c ∈ later, ¬ c.Touches false (Item.chunk url p i).key)
    (hpref : ∀ i < chunkCount p.content, Prefers r url (Accepts (req i)) (some (i * 2000000)) p.encoding) :
    ∃ resp : Nat → HttpResponse,
      (∀ i < chunkCount p.content, r.serveAsset m dataCert (req i) = some (.ok (resp i))) ∧
      (List.range (chunkCount p.content)).flatMap (fun i => (resp i).body) = p.content := by
  have h : ∀ i, ∃ rp : HttpResponse, i < chunkCount p.content →
      r.serveAsset m dataCert (req i) = some (.ok rp) ∧ rp.body = p.slice i := by
    intro i
    by_cases hi : i < chunkCount p.content
    · obtain ⟨w, -, h⟩ := C46_serve hv hok hl hr m dataCert (hutf i hi) (hpath i hi) (hrange i hi) (hs i hi) (hq i hi)
        (hpref i hi)
      exact ⟨_, fun _ => ⟨h, rfl⟩⟩
    · exact ⟨⟨0, [], []⟩, fun h => absurd h hi⟩
  choose resp hresp using h
  refine ⟨resp, fun i hi => (hresp i hi).1, ?_⟩
  conv_rhs => rw [← C46_partition p]
  rw [List.flatMap_def, List.flatMap_def]
  congr 1
  apply List.map_congr_left
  intro i hi
  exact (hresp i (List.mem_range.1 hi)).2

omit [UnstableSort] in
/-- **C46.** After any history, whatever is served for a path it is held for (not as a fallback) has a body of at most
2000000 bytes. -/
theorem C46_bounded {calls : List RouterCall} {r : Router} (hr : routerRun calls = some r) {path : Bytes}
    {accepts : AssetEncoding → Prop} {range : Option Nat} {x : CertifiedResponse}
    (hx : Chooses accepts (r.held path range) x) : x.response.body.length ≤ 2000000 := by
  have key : ∀ e, r.held path range e = some x → x.response.body.length ≤ 2000000 := by
    intro e he
    unfold Router.held at he
    split at he
    · split at he
      · rename_i y hy hlen
        obtain ⟨u, p, z, z1, z2, z3, z4, z5⟩ := large_held (router_inv hr).1 hy hlen
        simp only [Item.key, RequestKey.mk.injEq] at z2
        rw [← z2.1, ← z2.2.1, z4] at he
        simp only [Option.some.injEq] at he
        subst he
        rw [z5.response]
        show (p.slice 0).length ≤ 2000000
        rw [slice_length]; omega
      · rename_i hlen
        simp only [Option.some.injEq] at he
        subst he
        omega
    · cases he
  cases hx with
  | encoded _ h _ => exact key _ h
  | plain _ h => exact key _ h

omit [UnstableSort] in
/-- **C46** (limits). After any history, nothing is held for a range that does not begin at a multiple of 2000000: a
request for such a range is answered only by fallbacks, or not at all. -/
theorem C46_misaligned {calls : List RouterCall} {r : Router} (hr : routerRun calls = some r) {path : Bytes} {b : Nat}
    (hb : b % 2000000 ≠ 0) (e : Option AssetEncoding) : r.held path (some b) e = none := by
  rw [held_ne_none (router_inv hr).1]
  cases h : r.responses ⟨path, e.map AssetEncoding.token, some b⟩ with
  | none => rfl
  | some x =>
    obtain ⟨i, i1, i2, -, -⟩ := (router_inv hr).1 _ _ h
    cases i with
    | whole u p => simp [Item.key] at i2
    | chunk u p n =>
      simp only [Item.key, RequestKey.mk.injEq, Option.some.injEq] at i2
      omega
    | fallback => simp [Item.isFallback] at i1
    | redirect => simp [Item.key] at i2

end
end Verif.Props
