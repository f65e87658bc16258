import Verif.Spec
import Verif.Core

/-!
# Helper lemmas: characters, tables, strings
-/

namespace Jvotci

open Spec

theorem isVowel_iff (c : Char) : isVowel c = true ↔ Vowel c := by
  simp [isVowel, Vowel]

theorem isConsonant_iff (c : Char) : isConsonant c = true ↔ Consonant c := by
  simp [isConsonant, Consonant]

theorem isVowel_false {c : Char} : isVowel c = false ↔ ¬ Vowel c := by
  rw [← isVowel_iff]; simp

theorem isConsonant_false {c : Char} : isConsonant c = false ↔ ¬ Consonant c := by
  rw [← isConsonant_iff]; simp

theorem not_vowel_of_consonant {c : Char} (h : isConsonant c = true) : isVowel c = false := by
  rw [isConsonant_iff] at h
  simp only [Consonant, List.mem_cons, List.not_mem_nil, or_false] at h
  rcases h with h|h|h|h|h|h|h|h|h|h|h|h|h|h|h|h|h <;> subst h <;> decide

theorem not_consonant_of_vowel {c : Char} (h : isVowel c = true) : isConsonant c = false := by
  cases hc : isConsonant c
  · rfl
  · rw [not_vowel_of_consonant hc] at h; cases h

theorem initial_table : INITIAL = initialPairs := by decide +kernel

theorem initial_contains {a b : Char} : INITIAL.contains [a, b] = true ↔ InitialPair a b := by
  rw [List.contains_iff_mem, initial_table]; rfl

theorem banned_table : BANNED_TRIPLES = bannedTriples := by decide

theorem allConsonants {P : Char → Prop} (h : ∀ c ∈ s%"bcdfgjklmnprstvxz", P c) :
    ∀ c, Consonant c → P c := fun c hc => h c hc

theorem validPairs_contains {mz : Bool} {a b : Char} :
    (validPairs mz).contains [a, b] = true ↔ PermissiblePair mz a b := by
  rw [List.contains_iff_mem]
  constructor
  · intro h
    have key : ∀ mz, ∀ l ∈ validPairs mz, ∀ a b, l = [a, b] → PermissiblePair mz a b := by
      have : ∀ mz, ∀ l ∈ validPairs mz,
          (match l with | [a, b] => decide (PermissiblePair mz a b) | _ => false) = true := by
        decide +kernel
      intro mz l hl a b e
      have := this mz l hl
      subst e; exact of_decide_eq_true this
    exact key mz _ h a b rfl
  · intro h
    have key : ∀ mz, ∀ a ∈ s%"bcdfgjklmnprstvxz", ∀ b ∈ s%"bcdfgjklmnprstvxz",
        PermissiblePair mz a b → [a, b] ∈ validPairs mz := by
      decide +kernel
    exact key mz a h.1 b h.2.1 h

theorem initial_valid {mz : Bool} {a b : Char} (h : InitialPair a b) : PermissiblePair mz a b := by
  have key : ∀ mz, ∀ l ∈ initialPairs,
      (match l with | [a, b] => decide (PermissiblePair mz a b) | _ => false) = true := by
    decide +kernel
  exact of_decide_eq_true (key mz _ h)

theorem initial_consonants {a b : Char} (h : InitialPair a b) : Consonant a ∧ Consonant b :=
  ⟨(initial_valid (mz := true) h).1, (initial_valid (mz := true) h).2.1⟩

end Jvotci
