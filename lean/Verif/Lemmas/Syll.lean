import Verif.Lemmas.Middle

/-!
# Helper lemmas: the number of syllables of a word
-/

namespace Jvotci

open Spec

theorem nucleus_shape {s : Str} (h : Nucleus s) :
    (∃ v, s = [v] ∧ Vowel v) ∨ ∃ v g, s = [v, g] ∧ Vowel v ∧ ¬ (v = 'i' ∨ v = 'u') ∧ (g = 'i' ∨ g = 'u') := by
  unfold Nucleus at h
  simp only [List.mem_cons, List.not_mem_nil, or_false] at h
  rcases h with rfl | rfl | rfl | rfl | rfl | rfl | rfl | rfl | rfl
  iterate 5 exact .inl ⟨_, rfl, by decide⟩
  iterate 4 exact .inr ⟨_, _, rfl, by decide, by decide, by decide⟩

theorem nucleus_ne {s : Str} (h : Nucleus s) : s ≠ [] := by
  rcases nucleus_shape h with ⟨v, rfl, -⟩ | ⟨v, g, rfl, -⟩ <;> simp

theorem nucleus_vowel {c : Char} {s w : Str} (h : Nucleus s) {r : Str} (e : s ++ w = c :: r) : Vowel c := by
  rcases nucleus_shape h with ⟨v, rfl, hv⟩ | ⟨v, g, rfl, hv, -⟩ <;> simp at e <;> rw [← e.1] <;> exact hv

theorem letter_not_vowel {c : Char} (h : Consonant c ∨ c = '\'') : ¬ Vowel c := by
  rcases h with h | rfl
  · exact consonant_not_vowel h
  · decide

theorem glide_vowel {g : Char} (h : g = 'i' ∨ g = 'u') : Vowel g := by
  rcases h with rfl | rfl <;> decide

/-- After a vowel, a vowel begins a syllable with an on-glide. -/
theorem syll_glide {c : Char} {w : Str} {n : Nat} (h : Syllables .vowel (c :: w) n) (hc : Vowel c) :
    ∃ s t m, (c = 'i' ∨ c = 'u') ∧ Nucleus s ∧ w = s ++ t ∧ n = m + 1 ∧ Syllables .vowel t m := by
  generalize e : c :: w = x at h
  cases h with
  | nil => cases e
  | letter h => cases e; exact absurd hc (letter_not_vowel h)
  | nucleus h => exact absurd rfl h
  | glided _ h1 h2 =>
    obtain ⟨g, s, hg, hs, rfl⟩ := h1
    cases e
    exact ⟨s, _, _, hg, hs, rfl, rfl, h2⟩

/-- A run of on-glided syllables does not remain one when a glide is put before it. -/
theorem syll_parity : ∀ {k : Nat} {w : Str}, w.length ≤ k → ∀ {g : Char} {n m : Nat}, g = 'i' ∨ g = 'u' → Syllables .vowel w n →
    ¬ Syllables .vowel (g :: w) m := by
  intro k
  induction k using Nat.strongRecOn with
  | ind k ih =>
    intro w hk g n m hg h1 h2
    obtain ⟨s, t, m', -, hs, e, -, h3⟩ := syll_glide h2 (glide_vowel hg)
    match w, e with
    | [], e => exact nucleus_ne hs (List.append_eq_nil_iff.1 e.symm).1
    | c :: w, e =>
      have hc := nucleus_vowel hs e.symm
      obtain ⟨s', t', n', hci, hs', e', -, h4⟩ := syll_glide h1 hc
      have hsc : s = [c] := by
        rcases nucleus_shape hs with ⟨v, rfl, -⟩ | ⟨v, g, rfl, -, hn, -⟩
        · simp at e; rw [e.1]
        · simp at e; rw [← e.1] at hn; exact absurd hci hn
      subst hsc
      simp at e
      subst e
      -- `t` begins with the nucleus `s'`
      match w, e' with
      | [], e' => exact nucleus_ne hs' (List.append_eq_nil_iff.1 e'.symm).1
      | d :: w, e' =>
        have hd := nucleus_vowel hs' e'.symm
        obtain ⟨s2, t2, m2, hdi, hs2, e2, -, h5⟩ := syll_glide h3 hd
        have hsd : s' = [d] := by
          rcases nucleus_shape hs' with ⟨v, rfl, -⟩ | ⟨v, g, rfl, -, hn, -⟩
          · simp at e'; rw [e'.1]
          · simp at e'; rw [← e'.1] at hn; exact absurd hdi hn
        subst hsd
        simp at e'
        subst e'
        simp at hk
        exact ih (k - 1) (by omega) (w := w) (by omega) hdi h4 h3

/-- Two nuclei at the same place, with syllables behind them, are the same. -/
theorem nucleus_unique {s s' t t' : Str} {n m : Nat} (h : Nucleus s) (h' : Nucleus s') (e : s ++ t = s' ++ t')
    (ht : Syllables .vowel t n) (ht' : Syllables .vowel t' m) : s = s' := by
  rcases nucleus_shape h with ⟨v, rfl, -⟩ | ⟨v, g, rfl, -, -, hg⟩ <;> rcases nucleus_shape h' with ⟨v', rfl, -⟩ | ⟨v', g', rfl, -, -, hg'⟩
  · simp at e; rw [e.1]
  · simp at e; rw [e.2] at ht; exact absurd ht (syll_parity (Nat.le_refl _) hg' ht')
  · simp at e; rw [← e.2] at ht'; exact absurd ht' (syll_parity (Nat.le_refl _) hg ht)
  · simp at e; rw [e.1, e.2.1]

/-- A word has only one number of syllables. -/
theorem syllables_unique {b : Before} {w : Str} {n : Nat} (h : Syllables b w n) : ∀ {m}, Syllables b w m → n = m := by
  induction h with
  | nil =>
    intro m h
    generalize e : [] = x at h
    cases h with
    | nil => rfl
    | letter => cases e
    | nucleus _ h => exact absurd (List.append_eq_nil_iff.1 e.symm).1 (nucleus_ne h)
    | glided _ h => obtain ⟨g, s, -, -, rfl⟩ := h; cases e
  | @letter b c w n hc h ih =>
    intro m h'
    generalize e : c :: w = x at h'
    cases h' with
    | nil => cases e
    | letter _ h' => cases e; exact ih h'
    | nucleus _ h => exact absurd (nucleus_vowel h e.symm) (letter_not_vowel hc)
    | glided _ h =>
      obtain ⟨g, s, hg, -, rfl⟩ := h
      cases e
      exact absurd (glide_vowel hg) (letter_not_vowel hc)
  | @nucleus b s w n hb hs h ih =>
    intro m h'
    generalize e : s ++ w = x at h'
    cases h' with
    | nil => exact absurd (List.append_eq_nil_iff.1 e).1 (nucleus_ne hs)
    | letter hc => exact absurd (nucleus_vowel hs e) (letter_not_vowel hc)
    | nucleus _ hs' h' =>
      have := nucleus_unique hs hs' e h h'
      subst this
      have e := List.append_cancel_left e
      subst e
      rw [ih h']
    | @glided _ s' w' m' _ hs' h' =>
      exfalso
      obtain ⟨g, s', hg, hn, rfl⟩ := hs'
      rcases nucleus_shape hs with ⟨v, rfl, -⟩ | ⟨v, g', rfl, -, hv, -⟩
      · simp at e
        obtain ⟨rfl, rfl⟩ := e
        match hs' : s' with
        | [] => exact nucleus_ne hn rfl
        | c :: s' =>
          have hc := nucleus_vowel (w := w') hn rfl
          obtain ⟨_, _, _, hi, -⟩ := syll_glide h hc
          rcases nucleus_shape hn with ⟨v, e, -⟩ | ⟨v, g', e, -, hv, -⟩
          · cases e; exact syll_parity (Nat.le_refl _) hi h' h
          · cases e; exact hv hi
      · simp at e; rw [e.1] at hv; exact hv hg
  | @glided b s w n hb hs h ih =>
    intro m h'
    obtain ⟨g, s, hg, hn, rfl⟩ := hs
    generalize e : g :: s ++ w = x at h'
    cases h' with
    | nil => cases e
    | letter hc => cases e; exact absurd (glide_vowel hg) (letter_not_vowel hc)
    | @nucleus _ s' w' m' _ hs' h' =>
      exfalso
      rcases nucleus_shape hs' with ⟨v, rfl, -⟩ | ⟨v, g', rfl, -, hv, -⟩
      · simp at e
        obtain ⟨rfl, rfl⟩ := e
        match hs' : s with
        | [] => exact nucleus_ne hn rfl
        | c :: s' =>
          have hc := nucleus_vowel (w := w) hn rfl
          obtain ⟨_, _, _, hi, -⟩ := syll_glide h' hc
          rcases nucleus_shape hn with ⟨v, e, -⟩ | ⟨v, g', e, -, hv, -⟩
          · cases e; exact syll_parity (Nat.le_refl _) hi h h'
          · cases e; exact hv hi
      · simp at e; rw [← e.1] at hv; exact hv hg
    | glided _ hs' h' =>
      obtain ⟨g', s', hg', hn', rfl⟩ := hs'
      simp at e
      have := nucleus_unique hn hn' e.2 h h'
      subst this
      have e := List.append_cancel_left e.2
      subst e
      rw [ih h']

end Jvotci
