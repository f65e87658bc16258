import Verif.Lemmas.Parts

/-!
# Helper lemmas: `normalise`
-/

namespace Jvotci

open Spec

theorem upper_lt {c : Char} (h : 'A' ≤ c ∧ c ≤ 'Z') : 65 ≤ c.toNat ∧ c.toNat ≤ 90 := by
  obtain ⟨h1, h2⟩ := h
  exact ⟨h1, h2⟩

theorem upper_cases {c : Char} (h : 'A' ≤ c ∧ c ≤ 'Z') :
    c ∈ s%"ABCDEFGHIJKLMNOPQRSTUVWXYZ" := by
  have h1 := upper_lt h
  have h2 : c = Char.ofNat c.toNat := (Char.ofNat_toNat c).symm
  have key : ∀ n, n < 91 → 65 ≤ n → Char.ofNat n ∈ s%"ABCDEFGHIJKLMNOPQRSTUVWXYZ" := by decide
  rw [h2]
  exact key _ (by omega) h1.1

theorem lowerChar_read (c : Char) :
    ((lowerChar c).map (fun c => if c = 'h' then '\'' else c)).filter (fun c => c != ',') = readChar c := by
  by_cases hu : 'A' ≤ c ∧ c ≤ 'Z'
  · have := upper_cases hu
    revert hu
    revert c
    intro c _ hm
    revert hm
    revert c
    decide
  · unfold lowerChar readChar
    rw [if_neg hu]
    have hH : c ≠ 'H' := by rintro rfl; exact hu (by decide)
    by_cases hc : c = ','
    · subst hc; decide
    · by_cases hh : c = 'h'
      · subst hh; decide
      · have hhH : ¬ (c = 'h' ∨ c = 'H') := by simp [hh, hH]
        rw [if_neg hc, if_neg hhH]
        split
        · simp
        · split
          · decide
          · simp [hh, hc]

/-- `normalise` reads the word. -/
theorem normalise_eq {w : Str} (h : w ≠ []) : normalise w = .ok (reading w) := by
  have key : ∀ cs : Str, ((lower cs).map (fun c => if c = 'h' then '\'' else c)).filter (fun c => c != ',') =
      cs.flatMap readChar := by
    intro cs
    induction cs with
    | nil => rfl
    | cons c cs ih =>
      unfold lower at ih ⊢
      simp only [List.flatMap_cons, List.map_append, List.filter_append]
      rw [ih, lowerChar_read]
  cases w with
  | nil => exact absurd rfl h
  | cons c cs =>
    unfold normalise reading
    by_cases hc : c = '.'
    · subst hc
      simp only [if_true]
      rw [key]
    · simp only [if_neg hc]
      rw [key]
      split
      · rename_i h; cases h; exact absurd rfl hc
      · rfl

theorem normalise_ok {w n : Str} (h : normalise w = .ok n) : w ≠ [] ∧ n = reading w := by
  have hne : w ≠ [] := by rintro rfl; cases h
  rw [normalise_eq hne] at h
  cases h
  exact ⟨hne, rfl⟩

end Jvotci
