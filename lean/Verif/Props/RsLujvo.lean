import Verif.Lemmas.RsSlin

/-!
# The Rust crate makes the same lujvo (C86)
-/

namespace Jvotci

open Spec

/-- **C86 (lujvo and cmevla).** From two components or more (fewer than 60000), each of them a CLL rafsi between dashes, a gismu, or a
word that neither version takes for a brivla, the Rust crate and the Python version find the same word with the same score and the same
places of the rafsi, or both say that there is none; whatever the options, whatever the rest of the crate does, and however deep
`is_slinkuhi` may call itself, from two levels on. -/
theorem C86_same (A : RsRest) (n : Nat) (rs : RsSettings) (s : Settings)
    (hs : s = { yHyphens := rs.yHyphens, consonants := rs.consonants, expRafsi := rs.expRafsi, glides := rs.glides, allowMz := rs.allowMz })
    (vs : List Str) (hc : ∀ v ∈ vs, RsComponent A s v) (h2 : 2 ≤ vs.length) (hmax : vs.length < 60000) :
    (∃ r, getLujvoFromList (program .linked) s rs.generateCmevla vs = .ok r ∧ rsGetLujvoFromList A (n + 2) rs vs = .ok r) ∨
      (getLujvoFromList (program .linked) s rs.generateCmevla vs = .error .noLujvo ∧
        rsGetLujvoFromList A (n + 2) rs vs = .error .noLujvo) := by
  subst hs
  exact rs_made hc h2 hmax

/-- A crate whose rest takes nothing for a brivla or a zi'evla. -/
private def noRest : RsRest := ⟨fun _ _ => .error .notBrivla, fun _ _ => .error .notZihevla⟩

/-- The hypotheses are met by rafsi, gismu and cmavo, and the answers are these. -/
example : (∀ v ∈ [s%"mlatu", s%"-kla-", s%"ci"], RsComponent noRest {} v) ∧
    rsGetLujvoFromList noRest 2 {} [s%"mlatu", s%"klama"] = .ok (s%"latkla", 5878, [(0, 3), (3, 6)]) ∧
    rsGetLujvoFromList noRest 2 { generateCmevla := true } [s%"klama", s%"mlatu"] = .ok (s%"klalat", 5878, [(0, 3), (3, 6)]) ∧
    rsGetLujvoFromList noRest 2 {} [s%"ui", s%"mlatu"] = .error .noLujvo := by
  refine ⟨?_, ?_, ?_, ?_⟩
  · intro v hv
    simp at hv
    rcases hv with rfl | rfl | rfl
    · exact .gismu (isGismu_iff.1 (by decide +kernel))
    · exact .rafsi (x := s%"kla") ⟨by decide, 0, 0, by decide⟩ (isValidRafsi_iff.1 (by decide +kernel))
    · exact .other (by decide) (by decide +kernel) (by decide +kernel) (by decide +kernel)
  · decide +kernel
  · decide +kernel
  · decide +kernel

/-- **C86 (slinku'i).** Of a word of Lojban letters (fewer than 600000 of them) that begins with a consonant, ends in a vowel and has
no two y's in a row, both versions say the same when asked whether it is a slinku'i. -/
theorem C86_slinkuhi (A : RsRest) (n : Nat) (y : YHyphens) (mz : Bool) (a c : Char) (t u : Str) (hw : a :: t = u ++ [c])
    (hl : ∀ c ∈ a :: t, Vowel c ∨ Consonant c ∨ c = '\'' ∨ c = 'y') (ha : Consonant a) (hv : Vowel c)
    (hy : ∀ u v, a :: t ≠ u ++ s%"yy" ++ v) (hlen : t.length < 599997) :
    ∃ b, isSlinkuhi (program .linked) y mz (a :: t) = .ok b ∧ rsSlinkuhi A (n + 2) y mz (a :: t) = .ok b := by
  have hc : (a :: t).getLast? = some c := by rw [hw]; simp
  rw [← slinkuhi_program]
  refine rs_slinkuhi ⟨hl, ?_, ?_⟩ ha hc hv hlen
  · intro u v e
    exact hy u v (by rw [e]; simp)
  · rw [hc]
    constructor <;> (intro e; cases e; revert hv; decide)

example : rsSlinkuhi noRest 2 .standard false s%"slinku'i" = .ok true := by
  obtain ⟨b, h1, h2⟩ := C86_slinkuhi noRest 0 .standard false 's' 'i' s%"linku'i" s%"slinku'" rfl (by decide) (by decide) (by decide)
    (by
      intro u v h
      have : 'y' ∈ s%"slinku'i" := by rw [show s%"slinku'i" = _ from h]; simp
      revert this; decide) (by decide)
  rw [show isSlinkuhi (program .linked) .standard false s%"slinku'i" = .ok true from by decide +kernel] at h1
  cases h1
  exact h2

end Jvotci
