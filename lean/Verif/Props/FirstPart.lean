import Verif.Lemmas.FirstPart
import Verif.Lemmas.RafsiBlocks
import Verif.Lemmas.Segs

/-!
# C82: what stands before the first y of a brivla
-/

namespace Jvotci

open Spec

/-- **C82** (partial). Let there be a y in a brivla and no two adjacent consonants before the first one. What stands before it is a CVC
rafsi; or it ends in a vowel and an apostrophe, and what is before the apostrophe has no consonant except possibly its first letter: it
is a single cmavo. Missing, and false (`C82_false`): three or more CVV or CV'V, which are several cmavo, are also accepted there. -/
theorem C82_before_y_partial {s : Settings} {w u r : Str} (hlen : w.length < 10 ^ 93) (h : isBrivla .linked s w = .ok true)
    (e : reading w = u ++ 'y' :: r) (hu : 'y' ∉ u) (hn : ∀ a b, Adjacent u a b → ¬ (Consonant a ∧ Consonant b)) :
    pattern u = s%"CVC" ∨ ∃ x, u = x ++ s%"'" ∧ (∃ c, x.getLast? = some c ∧ Vowel c) ∧
      ((∀ c ∈ x.tail, ¬ Consonant c) ∨
        ∃ qs : List Str, 3 ≤ qs.length ∧ (∀ q ∈ qs, ConsonantInitial q ∧ VowelRafsi q) ∧ qs.flatten = x) := by
  rcases (C48_brivla hlen).1 h with hg | ⟨ps, hw, hl⟩ | ⟨hz, -, -⟩ | ⟨parts, hw, hx⟩
  · exact absurd (show 'y' ∈ reading w by rw [e]; simp) (rafsi_noY (.gismu hg))
  · exact first_lujvo e hu hn hw hl
  · exact absurd (show 'y' ∈ reading w by rw [e]; simp) (fun h => by
      rcases hz.sounds.letters _ h with h | h | h <;> revert h <;> decide)
  · exact first_extended e hu hn hw hx

/-- **C82.** With nine letters or fewer before the first y, the claim holds as it stands: a CVC rafsi, or a single cmavo and an
apostrophe. So torai'y'ismu is not a brivla. -/
theorem C82_before_y_short {s : Settings} {w u r : Str} (hlen : w.length < 10 ^ 93) (h : isBrivla .linked s w = .ok true)
    (e : reading w = u ++ 'y' :: r) (hu : 'y' ∉ u) (hn : ∀ a b, Adjacent u a b → ¬ (Consonant a ∧ Consonant b)) (h9 : u.length ≤ 9) :
    pattern u = s%"CVC" ∨ ∃ x, u = x ++ s%"'" ∧ (∃ c, x.getLast? = some c ∧ Vowel c) ∧ ∀ c ∈ x.tail, ¬ Consonant c := by
  rcases C82_before_y_partial hlen h e hu hn with h | ⟨x, hx, hv, h | ⟨qs, h3, hq, hf⟩⟩
  · exact .inl h
  · exact .inr ⟨x, hx, hv, h⟩
  · exfalso
    have hl : ∀ q ∈ qs, 3 ≤ q.length := fun q hm => by
      obtain ⟨c, a, b, -, -, rfl | rfl⟩ := (hq q hm).2 <;> simp
    match qs, h3, hl, hf with
    | a :: b :: c :: v, _, hl, hf =>
      have h1 := hl a (by simp)
      have h2 := hl b (by simp)
      have h3 := hl c (by simp)
      have : x.length = a.length + (b.length + (c.length + v.flatten.length)) := by rw [← hf]; simp
      rw [hx] at h9
      simp at h9
      omega

/-- **C82.** A vowel never comes directly before the first y of a brivla if there are no two adjacent consonants before it. So toiysmu
is not a brivla. -/
theorem C82_vowel_before_y {s : Settings} {w u r : Str} {c : Char} (hlen : w.length < 10 ^ 93)
    (e : reading w = u ++ c :: 'y' :: r) (hc : Vowel c) (hu : 'y' ∉ u)
    (hn : ∀ a b, Adjacent u a b → ¬ (Consonant a ∧ Consonant b)) : isBrivla .linked s w ≠ .ok true := by
  intro h
  have hcy : c ≠ 'y' := by rintro rfl; revert hc; decide
  have hcc := vowel_not_consonant hc
  rcases C82_before_y_partial (u := u ++ [c]) (r := r) hlen h (by rw [e]; simp) (by simp [hu, hcy.symm]) (by
    rintro a b ⟨x, y, h⟩ ⟨ha, hb⟩
    rcases List.eq_nil_or_concat y with rfl | ⟨y, z, rfl⟩
    · obtain ⟨-, h2⟩ := List.append_inj' (s₁ := u) (t₁ := [c]) (s₂ := x ++ [a]) (t₂ := [b]) (by simpa using h) rfl
      cases h2; exact hcc hb
    · obtain ⟨h1, -⟩ := List.append_inj' (s₁ := u) (t₁ := [c]) (s₂ := x ++ a :: b :: y) (t₂ := [z]) (by simpa using h) rfl
      exact hn a b ⟨x, y, h1⟩ ⟨ha, hb⟩) with hp | ⟨x, hx, -⟩
  · obtain ⟨d, hd, hdc⟩ := cvc_ends hp
    rw [List.getLast?_concat] at hd
    cases hd
    exact hcc hdc
  · obtain ⟨-, h2⟩ := List.append_inj' hx rfl
    cases h2
    revert hc; decide

/-- **C82.** Three CVV before 'y: analyse_brivla accepts this as one word, though there are three cmavo before the y. -/
theorem C82_false : isBrivla .linked {} s%"jaibaibai'ymle" = .ok true ∧ isBrivla .linked {} s%"jaibai'ymle" = .ok false ∧
    isBrivla .linked {} s%"tobai'ymle" = .ok false := by decide +kernel

-- The theorems apply to these words.
example : isBrivla .linked {} s%"lat,ymle" = .ok true ∧ reading s%"lat,ymle" = s%"lat" ++ 'y' :: s%"mle" ∧ 'y' ∉ s%"lat" ∧
    pattern s%"lat" = s%"CVC" := by decide +kernel
example : isBrivla .linked {} s%"rai'y'ismu" = .ok true ∧ reading s%"rai'y'ismu" = s%"rai'" ++ 'y' :: s%"'ismu" ∧
    (∀ c ∈ s%"rai".tail, ¬ Consonant c) := by decide +kernel
example : isBrivla .linked {} s%"toiysmu" = .ok false ∧ isBrivla .linked {} s%"torai'y'ismu" = .ok false ∧ Vowel 'i' := by decide +kernel
-- No two adjacent consonants: `rai'`, and the words for which it matters.
example : ∀ a b, Adjacent s%"rai'" a b → ¬ (Consonant a ∧ Consonant b) := by
  rintro a b ⟨x, y, h⟩
  match x, h with
  | [], h => simp at h; obtain ⟨rfl, rfl, -⟩ := h; decide
  | [_], h => simp at h; obtain ⟨-, rfl, rfl, -⟩ := h; decide
  | [_, _], h => simp at h; obtain ⟨-, -, rfl, rfl, -⟩ := h; decide
  | [_, _, _], h => simp at h
  | _ :: _ :: _ :: _ :: x, h => simp at h

end Jvotci
