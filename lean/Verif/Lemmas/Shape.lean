import Verif.Lemmas.Basic

/-!
# Helper lemmas: rafsi shapes
-/

namespace Jvotci

open Spec

theorem tarmi_cvv {s : Str} : rafsiTarmi s = .cvv ↔
    ∃ a b c, s = [a, b, c] ∧ isConsonant a = true ∧ isVowel b = true ∧ isVowel c = true := by
  constructor
  · intro h
    unfold rafsiTarmi at h
    repeat' split at h
    all_goals try (cases h; done)
    simp_all
    grind
  · rintro ⟨a, b, c, rfl, h1, h2, h3⟩
    simp [rafsiTarmi, h1, h2, h3]

theorem tarmi_cvhv {s : Str} : rafsiTarmi s = .cvhv ↔
    ∃ a b c, s = [a, b, '\'', c] ∧ isConsonant a = true ∧ isVowel b = true ∧ isVowel c = true := by
  constructor
  · intro h
    unfold rafsiTarmi at h
    repeat' split at h
    all_goals try (cases h; done)
    simp_all
    grind
  · rintro ⟨a, b, c, rfl, h1, h2, h3⟩
    simp [rafsiTarmi, h1, h2, h3]

theorem tarmi_cvc {s : Str} : rafsiTarmi s = .cvc ↔
    ∃ a b c, s = [a, b, c] ∧ isConsonant a = true ∧ isVowel b = true ∧ isConsonant c = true := by
  constructor
  · intro h
    unfold rafsiTarmi at h
    repeat' split at h
    all_goals try (cases h; done)
    simp_all
    grind
  · rintro ⟨a, b, c, rfl, h1, h2, h3⟩
    simp [rafsiTarmi, h1, h2, h3, not_vowel_of_consonant h3]

theorem tarmi_ccv {s : Str} : rafsiTarmi s = .ccv ↔
    ∃ a b c, s = [a, b, c] ∧ isConsonant a = true ∧ isConsonant b = true ∧ isVowel c = true := by
  constructor
  · intro h
    unfold rafsiTarmi at h
    repeat' split at h
    all_goals try (cases h; done)
    simp_all
    grind
  · rintro ⟨a, b, c, rfl, h1, h2, h3⟩
    simp [rafsiTarmi, h1, h2, h3, not_vowel_of_consonant h2]

theorem tarmi_cvcc {s : Str} : rafsiTarmi s = .cvcc ↔
    ∃ a b c d, s = [a, b, c, d] ∧ isConsonant a = true ∧ isVowel b = true ∧ isConsonant c = true ∧
      isConsonant d = true := by
  constructor
  · intro h
    unfold rafsiTarmi at h
    repeat' split at h
    all_goals try (cases h; done)
    simp_all
    grind
  · rintro ⟨a, b, c, d, rfl, h1, h2, h3, h4⟩
    simp [rafsiTarmi, h1, h2, h3, h4, not_vowel_of_consonant h4]

theorem tarmi_ccvc {s : Str} : rafsiTarmi s = .ccvc ↔
    ∃ a b c d, s = [a, b, c, d] ∧ isConsonant a = true ∧ isConsonant b = true ∧ isVowel c = true ∧
      isConsonant d = true := by
  constructor
  · intro h
    unfold rafsiTarmi at h
    repeat' split at h
    all_goals try (cases h; done)
    simp_all
    grind
  · rintro ⟨a, b, c, d, rfl, h1, h2, h3, h4⟩
    simp [rafsiTarmi, h1, h2, h3, h4, not_vowel_of_consonant h2]

theorem tarmi_cvccv {s : Str} : rafsiTarmi s = .cvccv ↔
    ∃ a b c d e, s = [a, b, c, d, e] ∧ isConsonant a = true ∧ isVowel b = true ∧ isConsonant c = true ∧
      isConsonant d = true ∧ isVowel e = true := by
  constructor
  · intro h
    unfold rafsiTarmi at h
    repeat' split at h
    all_goals try (cases h; done)
    rename_i h1 h2 h3
    simp only [isGismuShape] at h2
    repeat' split at h2
    all_goals simp_all
    grind
  · rintro ⟨a, b, c, d, e, rfl, h1, h2, h3, h4, h5⟩
    simp [rafsiTarmi, isGismuShape, h1, h2, h3, h4, h5, not_vowel_of_consonant h3]

theorem tarmi_ccvcv {s : Str} : rafsiTarmi s = .ccvcv ↔
    ∃ a b c d e, s = [a, b, c, d, e] ∧ isConsonant a = true ∧ isConsonant b = true ∧ isVowel c = true ∧
      isConsonant d = true ∧ isVowel e = true := by
  constructor
  · intro h
    unfold rafsiTarmi at h
    repeat' split at h
    all_goals try (cases h; done)
    rename_i h1 h2 h3
    simp only [isGismuShape] at h2
    repeat' split at h2
    all_goals simp_all [not_consonant_of_vowel]
    grind
  · rintro ⟨a, b, c, d, e, rfl, h1, h2, h3, h4, h5⟩
    simp [rafsiTarmi, isGismuShape, h1, h2, h3, h4, h5, not_consonant_of_vowel h3]

theorem tarmi_hyphen {s : Str} : rafsiTarmi s = .hyphen ↔
    (∃ a, s = [a] ∧ isVowel a = false) ∨ s = ['\'', 'y'] := by
  constructor
  · intro h
    unfold rafsiTarmi at h
    repeat' split at h
    all_goals try (cases h; done)
    all_goals simp_all
  · rintro (⟨a, rfl, h⟩ | rfl)
    · simp [rafsiTarmi, h]
    · decide

end Jvotci
