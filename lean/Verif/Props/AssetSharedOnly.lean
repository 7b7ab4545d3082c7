import Verif.Props.AssetOnly
import Verif.Spec.Shared

set_option linter.unusedSimpArgs false
set_option linter.unusedSectionVars false

/-!
# C62: only what the router announced or the canister inserted verifies against a shared tree
-/

namespace Verif.Props
open Verif HashTree PathShape

section
variable [SHA] [UriLib] [GlobLib]

theorem insert_source {calls : List RouterCall} (hc : ∀ c ∈ calls, c.Faithful) {g : CertEntry}
    (hg : CtOp.insert g ∈ treeLog calls) : (∃ i, MadeEntry calls g i) ∨ Direct calls g := by
  unfold treeLog at hg
  obtain ⟨e, e1, e2⟩ := List.mem_filterMap.1 hg
  obtain ⟨c, c1, c2⟩ := List.mem_flatMap.1 e1
  by_cases hs : ∃ o, c = .shared o
  · obtain ⟨o, rfl⟩ := hs
    right
    simp only [RouterCall.effects, List.mem_singleton] at c2
    subst c2
    cases o with
    | insert f => simp [CtOp.effect, Effect.treeOp?] at e2; subst e2; exact c1
    | delete f => simp [CtOp.effect, Effect.treeOp?] at e2
    | clear => simp [CtOp.effect, Effect.treeOp?] at e2
  · left
    push Not at hs
    have hg' : CtOp.insert g ∈ treeLog [c] := by
      unfold treeLog
      exact List.mem_filterMap.2 ⟨e, by simpa using c2, e2⟩
    obtain ⟨assets, values, configs, h1, i, x, h2, h3, h4⟩ :=
      insert_announced (calls := [c]) (fun c' h' => by simp at h'; subst h'; exact ⟨hc _ c1, hs⟩) hg'
    simp at h1
    subst h1
    exact ⟨i, ⟨assets, values, configs, c1, h2⟩, x, h3, h4⟩

open Classical in
/-- What an entry of the shared tree was made from. -/
noncomputable def sourceOf (calls : List RouterCall) (origin : CertEntry → Origin) (g : CertEntry) : Origin :=
  if h : ∃ i, MadeEntry calls g i then h.choose.origin else origin g

variable [Bls] [Inflate]

/-- **C62** Whatever verifies against a certificate of the shared tree's root hash comes from a source that is certified
now, at the claimed expression path: a response announced in a call of `certify_assets`, or an entry the canister inserted
itself (`origin` says what those were made from). The received request and response agree with the source's in everything
its definition covers. Otherwise a collision is exhibited. -/
theorem C62_only {env : Env} {calls : List RouterCall} {r : Router} {req : HttpRequest} {res : HttpResponse}
    {minV : Nat} {info : VerificationInfo} {hdr : CertHeader} {e : List Bytes} {expr : Bytes} {cel : CelExpr} {S : HashTree}
    -- the router and the tree
    (hcalls : ∀ c ∈ calls, c.Faithful) (hr : routerRun calls = some r)
    (hitems : ∀ assets values configs, RouterCall.certify assets values configs ∈ calls → ∀ i, Announces assets configs i →
      ¬ i.certPath.Hides (sha expr) ∧ i.response.NoPseudo)
    (origin : CertEntry → Origin) (hdirect : ∀ g, Direct calls g → ¬ g.path.Hides (sha expr) ∧ (origin g).Made g.cert ∧
      (∀ n ∈ (origin g).cel.names, CarriedName n) ∧ (origin g).cel.NoPseudo ∧ (origin g).response.NoPseudo)
    -- the response is accepted
    (hc : Claims env.machine res hdr e expr cel) (h : verifyPair env req res minV = .ok info)
    (hC : Certifies hdr.certificate env.canisterId S r.tree.full) :
    (∃ o : Origin, ((∃ i, RouterSource calls e i ∧ o = i.origin) ∨ ∃ g, DirectSource calls e g ∧ o = origin g) ∧
      o.cel = cel ∧ SameCertified cel o.request req o.response res) ∨
    CollisionIn hdr.certificate.tree.hashed S.hashed ∨ CollisionIn hdr.tree.hashed r.tree.full.hashed ∨
    ∃ o : Origin, ((∃ i, RouterSource calls e i ∧ o = i.origin) ∨ ∃ g, DirectSource calls e g ∧ o = origin g) ∧
      (CollisionIn [o.cel.toBytes] [expr] ∨
       CollisionIn (certHashed o.cel o.request o.response) (certHashed cel req res)) := by
  classical
  obtain ⟨hct, -, -⟩ := routerRun_iff.1 hr
  have key : ∀ f, CtOp.insert f ∈ treeLog calls → ¬ f.path.Hides (sha expr) ∧ (sourceOf calls origin f).Made f.cert ∧
      (∀ n ∈ (sourceOf calls origin f).cel.names, CarriedName n) ∧ (sourceOf calls origin f).cel.NoPseudo ∧
      (sourceOf calls origin f).response.NoPseudo ∧
      (ctSpec (treeLog calls) f.toTreePath → f.path.toExprPath = e →
        (∃ i, RouterSource calls e i ∧ sourceOf calls origin f = i.origin) ∨
        ∃ g, DirectSource calls e g ∧ sourceOf calls origin f = origin g) := by
    intro f hf
    by_cases hm : ∃ i, MadeEntry calls f i
    · have hs : sourceOf calls origin f = hm.choose.origin := by unfold sourceOf; rw [dif_pos hm]
      rw [hs]
      generalize hi : hm.choose = i
      have hmade := hm.choose_spec
      rw [hi] at hmade
      obtain ⟨⟨assets, values, configs, h1, h2⟩, x, h3, rfl⟩ := hmade
      obtain ⟨n1, n2⟩ := hitems _ _ _ h1 _ h2
      refine ⟨by rw [h3.path]; exact n1, h3.made, (item_names _).1, (item_names _).2, n2, fun hsp he => .inl ⟨i, ?_, rfl⟩⟩
      exact ⟨assets, values, configs, h1, h2, ⟨x, h3, hsp⟩, by rw [← h3.path]; exact he⟩
    · have hs : sourceOf calls origin f = origin f := by unfold sourceOf; rw [dif_neg hm]
      rw [hs]
      have hd := (insert_source hcalls hf).resolve_left hm
      obtain ⟨g1, g2, g3, g4, g5⟩ := hdirect f hd
      exact ⟨g1, g2, g3, g4, g5, fun hsp he => .inr ⟨f, ⟨hd, hsp, he⟩, rfl⟩⟩
  by_cases hcel : cel = .skip
  · subst hcel
    rcases C27_end_to_end hc h hct hC (fun f => (sourceOf calls origin f).cel) (fun f hf =>
      ⟨(key f hf).1, madeOf_madeFor (key f hf).2.1, (key f hf).2.2.1⟩) with ⟨f, h1, h2, h3, h4, -⟩ | h1 | h1 | ⟨f, h1, h7, h8, h2⟩
    · left
      exact ⟨_, (key f h1).2.2.2.2.2 h2 h3, h4, trivial⟩
    · exact .inr (.inl h1)
    · exact .inr (.inr (.inl h1))
    · exact .inr (.inr (.inr ⟨_, (key f h1).2.2.2.2.2 h7 h8, .inl h2⟩))
  · rcases C23_end_to_end hc h hcel hct hC (sourceOf calls origin) (fun f hf =>
      ⟨(key f hf).2.1, (key f hf).2.2.1, (key f hf).2.2.2.1, (key f hf).2.2.2.2.1⟩) with
      ⟨f, f1, f2, f3, f4, f5⟩ | h1 | h1 | ⟨f, h1, h7, h8, h2⟩
    · left
      exact ⟨_, (key f f1).2.2.2.2.2 f2 f3, f4, f5⟩
    · exact .inr (.inl h1)
    · exact .inr (.inr (.inl h1))
    · exact .inr (.inr (.inr ⟨_, (key f h1).2.2.2.2.2 h7 h8, h2⟩))

end
end Verif.Props
