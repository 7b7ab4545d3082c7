import Verif.Lemmas.CustomAssets
import Verif.Props.CustomAssets

set_option linter.unusedSimpArgs false
set_option linter.unusedSectionVars false

/-!
# Property C67: when the installation succeeds
-/

namespace Verif.Props
open Verif
variable [SHA] [UriLib] [PathGlob]

/-- **C67**, the canister can be installed exactly if the build has an `index.html` and no directory has a name that one of the four
patterns matches; otherwise the installation traps. -/
theorem C67_installs (d : Front) :
    (∃ s, CustomSite.init d = some s) ↔
      (∃ c, (str "index.html", c) ∈ d.files) ∧ ∀ p ∈ d.dirs, ∀ ct, ¬ HasType p ct := by
  have hidx : (∃ c, (str "index.html", c) ∈ d.files) ↔ ∃ body, d.getFile (str "index.html") = some body := by
    unfold Front.getFile
    constructor
    · rintro ⟨c, hc⟩
      cases hf : d.files.find? (fun f => f.1 = str "index.html") with
      | none => exact absurd (List.find?_eq_none.1 hf _ hc) (by simp)
      | some f => exact ⟨f.2, rfl⟩
    · rintro ⟨b, hb⟩
      rw [Option.map_eq_some_iff] at hb
      obtain ⟨⟨n, c⟩, hf, rfl⟩ := hb
      have h1 := List.mem_of_find?_eq_some hf
      have h2 := List.find?_some hf
      simp only [decide_eq_true_eq] at h2
      subst h2
      exact ⟨_, h1⟩
  have hty : (∀ p ∈ d.dirs, ∀ ct, ¬ HasType p ct) ↔ ∀ t ∈ customTypes, ∀ p ∈ d.dirs, PathGlob.hits t.1 p = false := by
    constructor
    · intro h t ht p hp
      cases hh : PathGlob.hits t.1 p with
      | false => rfl
      | true => exact absurd ⟨t.1, ht, hh⟩ (h p hp t.2)
    · rintro h p hp ct ⟨g, hg, hh⟩
      have := h (g, ct) hg p hp
      simp [hh] at this
  rw [hidx, hty]
  constructor
  · rintro ⟨s, hs⟩
    unfold CustomSite.init at hs
    simp only [Option.bind_eq_bind, Option.bind_eq_some_iff] at hs
    obtain ⟨t0, -, s1, h1, s2, h2, -⟩ := hs
    refine ⟨?_, ?_⟩
    · unfold certifyIndex at h1
      simp only [Option.bind_eq_bind, Option.bind_eq_some_iff] at h1
      obtain ⟨b, hb, -⟩ := h1
      exact ⟨b, hb⟩
    · clear h1
      generalize customTypes = ts at h2 ⊢
      induction ts generalizing s1 with
      | nil => intro t ht; cases ht
      | cons t ts ih =>
        rw [List.foldlM_cons, Option.bind_eq_bind, Option.bind_eq_some_iff] at h2
        obtain ⟨s3, h3, h4⟩ := h2
        intro t' ht'
        rcases List.mem_cons.1 ht' with rfl | ht'
        · intro p hp
          unfold certifyGlob at h3
          rw [Option.bind_eq_bind, Option.bind_eq_some_iff] at h3
          obtain ⟨fs, hfs, -⟩ := h3
          unfold Front.find at hfs
          split at hfs
          · cases hfs
          · next hn =>
            cases hh : PathGlob.hits t'.1 p with
            | false => rfl
            | true => exact absurd (List.any_eq_true.2 ⟨p, hp, hh⟩) hn
        · exact ih s3 h4 t' ht'
  · rintro ⟨⟨b, hb⟩, hd⟩
    obtain ⟨s, hs, -⟩ := custom_init hb hd
    exact ⟨s, hs⟩

/-- With a pattern reduced to its ending: a build that installs, and one with a directory `assets/old.css` that does not. -/
example : letI : PathGlob := ⟨fun p a => (p.drop 11).isSuffixOf a⟩
    letI := toySHA
    (∃ s, CustomSite.init ⟨[(str "index.html", [1]), (str "assets/a.css", [2])], [str "assets"]⟩ = some s) ∧
    ¬ ∃ s, CustomSite.init ⟨[(str "index.html", [1]), (str "assets/a.css", [2])], [str "assets", str "assets/old.css"]⟩ = some s := by
  let _ : PathGlob := ⟨fun p a => (p.drop 11).isSuffixOf a⟩
  let _ := toySHA
  rw [C67_installs, C67_installs]
  refine ⟨⟨⟨[1], by simp⟩, ?_⟩, fun h => ?_⟩
  · rintro p hp ct ⟨g, hg, hh⟩
    simp only [List.mem_singleton] at hp
    subst hp
    have : ∀ t ∈ [(str "assets/**/*.css", str "text/css"), (str "assets/**/*.js", str "text/javascript"),
      (str "assets/**/*.ico", str "image/x-icon"), (str "assets/**/*.svg", str "image/svg+xml")],
      PathGlob.hits t.1 (str "assets") = false := by decide
    have := this _ hg
    simp [hh] at this
  · exact h.2 (str "assets/old.css") (by simp) (str "text/css") ⟨str "assets/**/*.css", by simp, by decide⟩

end Verif.Props
