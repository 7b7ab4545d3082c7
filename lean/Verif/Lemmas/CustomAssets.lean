import Verif.Spec.CustomAssets
import Verif.Spec.CertTree
import Verif.Lemmas.AssetState

/-!
# The state of the `custom-assets` example, as a list of what was posted
-/
set_option linter.unusedSectionVars false

namespace Verif
open HashTree

/-- One response that was certified and stored. -/
structure Post where
  treePath : HttpPath
  reqPath : Bytes
  enc : Option Bytes
  type : Bytes
  cache : Bytes
  body : Bytes
deriving DecidableEq

namespace Post

def add (p : Post) : List Header :=
  (p.enc.map (fun e => (str "content-encoding", e))).toList ++ [(str "content-type", p.type), (str "cache-control", p.cache)]

def response (p : Post) : HttpResponse := customResponse p.add p.body (CelExpr.responseOnly customCert).toBytes

variable [SHA]

def cert (p : Post) : HttpCert :=
  match HttpCert.mkResponseOnly customCert p.response none with
  | .ok c => c
  | .error _ => .mkSkip

def stored (p : Post) : StoredResponse := ⟨p.response, p.cert⟩

def entry (p : Post) : CertEntry := ⟨p.treePath, p.cert⟩

omit [SHA] in
theorem validate (p : Post) : validateExprHeader p.response (CelExpr.responseOnly customCert).toBytes = .ok () := by
  have h : ∀ n : Bytes, n ∈ [str "strict-transport-security", str "x-frame-options", str "x-content-type-options",
      str "content-security-policy", str "referrer-policy", str "permissions-policy", str "cross-origin-embedder-policy",
      str "cross-origin-opener-policy", str "content-length", str "content-encoding", str "content-type", str "cache-control"] →
      (lower n == lower certExprHeaderName) = false := by decide
  simp only [List.mem_cons, List.not_mem_nil, or_false, forall_eq_or_imp, forall_eq] at h
  obtain ⟨h1, h2, h3, h4, h5, h6, h7, h8, h9, h10, h11, h12⟩ := h
  unfold Post.response Post.add
  generalize (CelExpr.responseOnly customCert).toBytes = x
  cases p.enc <;>
  simp only [validateExprHeader, customResponse, customHeaders, customSecurityHeaders, List.cons_append, List.nil_append, validateExprHeaderLoop,
    Option.map_none, Option.map_some, Option.toList_none, Option.toList_some,
    h1, h2, h3, h4, h5, h6, h7, h8, h9, h10, h11, h12, beq_self_eq_true, if_true, Bool.false_eq_true, if_false] <;> rfl

theorem cert_ok (p : Post) : HttpCert.mkResponseOnly customCert p.response none = .ok p.cert := by
  have : ∃ c, HttpCert.mkResponseOnly customCert p.response none = .ok c := by
    unfold HttpCert.mkResponseOnly
    simp only [validate]
    exact ⟨_, rfl⟩
  obtain ⟨c, hc⟩ := this
  unfold cert
  rw [hc]

end Post

section
variable [SHA]

/-- The state after posting these. -/
structure Posted (s : CustomSite) (ps : List Post) : Prop where
  run : ctRun (.insert uncertifiedEntry :: ps.map (fun p => .insert p.entry)) = some s.tree
  resp : ∀ k, s.responses k = (ps.reverse.find? (fun p => p.enc = none ∧ p.reqPath = k)).map Post.stored
  enc : ∀ k e, s.encoded (k, e) = (ps.reverse.find? (fun p => p.enc = some e ∧ p.reqPath = k)).map Post.stored

theorem ctRun_snoc {ops : List CtOp} {t : CertTree} (h : ctRun ops = some t) (e : CertEntry) :
    ∃ t', t.insert e = some t' ∧ ctRun (ops ++ [.insert e]) = some t' := by
  obtain ⟨t', h'⟩ := ctRun_some (ops ++ [.insert e])
  refine ⟨t', ?_, h'⟩
  unfold ctRun at h h'
  rw [List.foldlM_append, h] at h'
  simpa [CtOp.run] using h'

theorem posted_plain {s : CustomSite} {ps : List Post} (h : Posted s ps) (p : Post) (hp : p.enc = none) :
    ∃ s', certifyPlain s p.body [(str "content-type", p.type), (str "cache-control", p.cache)] p.treePath p.reqPath = some s' ∧
      Posted s' (ps ++ [p]) := by
  obtain ⟨t', h1, h2⟩ := ctRun_snoc h.run p.entry
  have hr : customResponse [(str "content-type", p.type), (str "cache-control", p.cache)] p.body
      (CelExpr.responseOnly customCert).toBytes = p.response := by
    unfold Post.response Post.add; rw [hp]; rfl
  refine ⟨{ s with tree := t', responses := fun k => if k = p.reqPath then some p.stored else s.responses k }, ?_, ?_, ?_, ?_⟩
  · unfold certifyPlain
    simp only [hr, p.cert_ok, Except.toOption, Option.bind_eq_bind, Option.bind_some]
    have h1' : s.tree.insert ⟨p.treePath, p.cert⟩ = some t' := h1
    rw [h1']
    rfl
  · simpa using h2
  · intro k
    simp only [List.reverse_append, List.reverse_cons, List.reverse_nil, List.nil_append, List.cons_append, List.find?_cons, hp, true_and]
    by_cases e : k = p.reqPath
    · simp [e]
    · have : ¬ p.reqPath = k := fun x => e x.symm
      simp [e, this, h.resp]
  · intro k e
    simp only [List.reverse_append, List.reverse_cons, List.reverse_nil, List.nil_append, List.cons_append, List.find?_cons, hp]
    simp [h.enc]

theorem posted_encoded {d : Front} {s : CustomSite} {ps : List Post} (h : Posted s ps) (filePath : Bytes) (treePath : HttpPath)
    (reqPath encoding ct cc : Bytes) :
    ∃ s', certifyEncoded d s filePath treePath reqPath encoding [(str "content-type", ct), (str "cache-control", cc)] = some s' ∧
      Posted s' (ps ++ ((d.getFile (filePath ++ str "." ++ encoding)).map
        (fun b => (⟨treePath, reqPath, some encoding, ct, cc, b⟩ : Post))).toList) := by
  unfold certifyEncoded
  cases d.getFile (filePath ++ str "." ++ encoding) with
  | none => exact ⟨s, rfl, by simpa using h⟩
  | some b =>
    simp only [Option.map_some, Option.toList_some]
    generalize hp : (⟨treePath, reqPath, some encoding, ct, cc, b⟩ : Post) = p
    have e1 : p.enc = some encoding := by rw [← hp]
    have e2 : p.reqPath = reqPath := by rw [← hp]
    obtain ⟨t', h1, h2⟩ := ctRun_snoc h.run p.entry
    have hr : customResponse ((str "content-encoding", encoding) :: [(str "content-type", ct), (str "cache-control", cc)]) b
        (CelExpr.responseOnly customCert).toBytes = p.response := by rw [← hp]; rfl
    refine ⟨{ s with tree := t', encoded := fun k => if k = (reqPath, encoding) then some p.stored else s.encoded k }, ?_, ?_, ?_, ?_⟩
    · simp only [hr, p.cert_ok, Except.toOption, Option.bind_eq_bind, Option.bind_some]
      have h1' : s.tree.insert ⟨treePath, p.cert⟩ = some t' := by rw [← h1]; unfold Post.entry; rw [← hp]
      rw [h1']
      rfl
    · simpa using h2
    · intro k
      simp only [List.reverse_append, List.reverse_cons, List.reverse_nil, List.nil_append, List.cons_append, List.find?_cons, e1]
      simp [h.resp]
    · intro k e
      simp only [List.reverse_append, List.reverse_cons, List.reverse_nil, List.nil_append, List.cons_append, List.find?_cons, e1, e2]
      by_cases hk : (k, e) = (reqPath, encoding)
      · have hk' := hk
        simp only [Prod.mk.injEq] at hk'
        simp [hk'.1, hk'.2]
      · have : ¬ (some encoding = some e ∧ reqPath = k) := by
          rintro ⟨a, b⟩
          exact hk (by simp at a; rw [a, b])
        rw [if_neg hk, h.enc]
        simp only [this, decide_false]

/-- What one asset posts. -/
def assetPosts (d : Front) (body filePath : Bytes) (treePath : HttpPath) (reqPath ct cc : Bytes) : List Post :=
  ⟨treePath, reqPath, none, ct, cc, body⟩ ::
    ((d.getFile (filePath ++ str "." ++ str "gzip")).map (fun b => (⟨treePath, reqPath, some (str "gzip"), ct, cc, b⟩ : Post))).toList ++
    ((d.getFile (filePath ++ str "." ++ str "br")).map (fun b => (⟨treePath, reqPath, some (str "br"), ct, cc, b⟩ : Post))).toList

theorem posted_asset {d : Front} {s : CustomSite} {ps : List Post} (h : Posted s ps) (body filePath : Bytes) (treePath : HttpPath)
    (reqPath ct cc : Bytes) :
    ∃ s', certifyCustomAsset d s body filePath treePath reqPath [(str "content-type", ct), (str "cache-control", cc)] = some s' ∧
      Posted s' (ps ++ assetPosts d body filePath treePath reqPath ct cc) := by
  obtain ⟨s1, a1, b1⟩ := posted_plain h ⟨treePath, reqPath, none, ct, cc, body⟩ rfl
  obtain ⟨s2, a2, b2⟩ := posted_encoded (d := d) b1 filePath treePath reqPath (str "gzip") ct cc
  obtain ⟨s3, a3, b3⟩ := posted_encoded (d := d) b2 filePath treePath reqPath (str "br") ct cc
  refine ⟨s3, ?_, by simpa [assetPosts] using b3⟩
  unfold certifyCustomAsset
  simp only [a1, a2, a3, Option.bind_eq_bind, Option.bind_some]

def cachedForever : Bytes := str "public, max-age=31536000, immutable"

/-- What one file posts for one type. -/
def filePosts (d : Front) (ct : Bytes) (f : Bytes × Bytes) : List Post :=
  assetPosts d f.2 f.1 (.exact (frontPath f.1)) (frontPath f.1) ct cachedForever

variable [PathGlob]

/-- What one pattern posts. -/
def typePosts (d : Front) (t : Bytes × Bytes) : List Post :=
  (d.files.filter (fun f => PathGlob.hits t.1 f.1)).flatMap (filePosts d t.2)

theorem posted_glob {d : Front} {s : CustomSite} {ps : List Post} (h : Posted s ps) (t : Bytes × Bytes)
    (hd : ∀ p ∈ d.dirs, PathGlob.hits t.1 p = false) :
    ∃ s', certifyGlob d s t.1 t.2 = some s' ∧ Posted s' (ps ++ typePosts d t) := by
  have hfind : d.find t.1 = some (d.files.filter (fun f => PathGlob.hits t.1 f.1)) := by
    unfold Front.find
    rw [if_neg]
    simp only [List.any_eq_true, not_exists, not_and]
    intro p hp
    rw [hd p hp]; simp
  unfold certifyGlob typePosts
  simp only [hfind, Option.bind_eq_bind, Option.bind_some]
  generalize d.files.filter (fun f => PathGlob.hits t.1 f.1) = fs
  induction fs generalizing s ps with
  | nil => exact ⟨s, rfl, by simpa using h⟩
  | cons f fs ih =>
    obtain ⟨s1, a1, b1⟩ := posted_asset (d := d) h f.2 f.1 (.exact (frontPath f.1)) (frontPath f.1) t.2 cachedForever
    obtain ⟨s2, a2, b2⟩ := ih b1
    refine ⟨s2, ?_, ?_⟩
    · rw [List.foldlM_cons]
      unfold cachedForever at a1
      simp only [a1, Option.bind_eq_bind, Option.bind_some]
      exact a2
    · simpa [filePosts] using b2

theorem posted_globs {d : Front} (ts : List (Bytes × Bytes)) (hd : ∀ t ∈ ts, ∀ p ∈ d.dirs, PathGlob.hits t.1 p = false)
    {s : CustomSite} {ps : List Post} (h : Posted s ps) :
    ∃ s', ts.foldlM (fun s t => certifyGlob d s t.1 t.2) s = some s' ∧ Posted s' (ps ++ ts.flatMap (typePosts d)) := by
  induction ts generalizing s ps with
  | nil => exact ⟨s, rfl, by simpa using h⟩
  | cons t ts ih =>
    obtain ⟨s1, a1, b1⟩ := posted_glob h t (hd t (by simp))
    obtain ⟨s2, a2, b2⟩ := ih (fun x hx => hd x (by simp [hx])) b1
    refine ⟨s2, ?_, by simpa using b2⟩
    rw [List.foldlM_cons, a1]
    exact a2

def neverCached : Bytes := str "public, no-cache, no-store"

def indexPosts (d : Front) (body : Bytes) : List Post :=
  assetPosts d body (str "index.html") (.wildcard (str "")) (str "") (str "text/html") neverCached

/-- All that `init` posts. -/
def allPosts (d : Front) (body : Bytes) : List Post := indexPosts d body ++ customTypes.flatMap (typePosts d)

theorem custom_init {d : Front} {body : Bytes} (hb : d.getFile (str "index.html") = some body)
    (hd : ∀ t ∈ customTypes, ∀ p ∈ d.dirs, PathGlob.hits t.1 p = false) :
    ∃ s, CustomSite.init d = some s ∧ Posted s (allPosts d body) ∧ s.certifiedData = s.tree.rootHash.1 := by
  obtain ⟨t0, h0⟩ := ctRun_some [.insert uncertifiedEntry]
  have h0' : CertTree.default.insert uncertifiedEntry = some t0 := by
    simpa [ctRun, CtOp.run] using h0
  have p0 : Posted { tree := t0, encoded := fun _ => none, responses := fun _ => none, certifiedData := [] } [] :=
    ⟨h0, fun _ => rfl, fun _ _ => rfl⟩
  obtain ⟨s1, a1, b1⟩ := posted_asset (d := d) p0 body (str "index.html") (.wildcard (str "")) (str "") (str "text/html") neverCached
  obtain ⟨s2, a2, b2⟩ := posted_globs customTypes hd b1
  refine ⟨{ s2 with certifiedData := s2.tree.rootHash.1 }, ?_, ⟨b2.run, b2.resp, b2.enc⟩, rfl⟩
  unfold neverCached at a1
  unfold CustomSite.init certifyIndex
  simp only [h0', hb, a1, a2, Option.bind_eq_bind, Option.bind_some]
  rfl

end
end Verif
