import Verif.Lemmas.Cll

/-!
# C01–C04, C16: the shape of the answers of `analyse_brivla` and `is_brivla`

`Spec.reading w` is the normal form of `w` (capitals, `h`, commas, initial full stop); C40 shows that it is
what `normalise` computes.
-/

namespace Jvotci

open Spec

/-- **C01.** The pieces of a decomposition spell the word. -/
theorem C01_pieces_spell_word {b : Build} {s : Settings} {w : Str} {t : BType} {ps : List Str}
    (h : analyseBrivla b s w = .ok (t, ps)) : ps.flatten = reading w := by
  obtain ⟨n, hn, ha⟩ := analyseR_ok h
  obtain ⟨-, rfl⟩ := normalise_ok hn
  exact ha.join

example : analyseBrivla .linked {} s%".LATK,erlo" = .ok (.lujvo, [s%"lat", s%"kerlo"]) := by decide +kernel
example : analyseBrivla .pinned {} s%"spageirykerlo" = .ok (.extendedLujvo, [s%"spageir", s%"y", s%"kerlo"]) := by
  decide +kernel

/-- **C02.** CMEVLA end in a consonant, everything else ends in a vowel. -/
theorem C02_type_by_last_letter {b : Build} {s : Settings} {w : Str} {t : BType} {ps : List Str}
    (h : analyseBrivla b s w = .ok (t, ps)) :
    ∃ l, (reading w).getLast? = some l ∧ (t = .cmevla ∧ Consonant l ∨ t ≠ .cmevla ∧ Vowel l) := by
  obtain ⟨n, hn, ha⟩ := analyseR_ok h
  obtain ⟨-, rfl⟩ := normalise_ok hn
  have key : ∀ l, (isConsonant l = true ∨ isVowel l = true) → ∀ t0 : BType, t0 ≠ .cmevla →
      ((if isConsonant l = true then BType.cmevla else t0) = .cmevla ∧ Consonant l ∨
       (if isConsonant l = true then BType.cmevla else t0) ≠ .cmevla ∧ Vowel l) := by
    intro l hl t0 ht
    cases hc : isConsonant l with
    | true => left; simpa using (isConsonant_iff l).1 hc
    | false => right; rw [hc] at hl; simp at hl; simpa [ht] using (isVowel_iff l).1 hl
  cases ha with
  | gismu hl hv _ => exact ⟨_, hl, .inr ⟨by simp, (isVowel_iff _).1 hv⟩⟩
  | kaha hl _ _ hcv _ => exact ⟨_, hl, key _ hcv _ (by simp)⟩
  | zihevla hl hv _ => exact ⟨_, hl, .inr ⟨by simp, (isVowel_iff _).1 hv⟩⟩
  | parts _ hl _ _ _ hcv => exact ⟨_, hl, key _ hcv _ (by simp)⟩

/-- **C02**, the other half: a word that ends in neither is rejected. -/
theorem C02_other_words_rejected {b : Build} {s : Settings} {w : Str} (hw : w ≠ [])
    (hl : ∀ l, (reading w).getLast? = some l → ¬ Vowel l ∧ ¬ Consonant l) :
    analyseBrivla b s w = .error .notBrivla := by
  unfold analyseBrivla analyseR
  rw [normalise_eq hw]
  simp only [bind, Except.bind]
  unfold analyseNorm
  split
  · rename_i c0 l _ hl'
    have := hl l hl'
    rw [← isVowel_iff, ← isConsonant_iff] at this
    rw [if_pos (by simp [this])]
  · rfl

example : analyseBrivla .linked {} s%"cmaly'uk" = .error .notBrivla := by decide +kernel
example : analyseBrivla .linked {} s%"latker" = .ok (.cmevla, [s%"lat", s%"ker"]) := by decide +kernel
example : (reading s%"brody").getLast? = some 'y' := by decide

/-- **C03.** `GISMU` is returned exactly for gismu, whatever the other options. -/
theorem C03_gismu_iff {b : Build} {s : Settings} {w : Str} {ps : List Str} :
    analyseBrivla b s w = .ok (.gismu, ps) ↔ w ≠ [] ∧ Gismu s.allowMz (reading w) ∧ ps = [reading w] := by
  constructor
  · intro h
    obtain ⟨n, hn, ha⟩ := analyseR_ok h
    obtain ⟨hne, rfl⟩ := normalise_ok hn
    generalize ht : BType.gismu = t at ha
    cases ha with
    | gismu _ _ hg => exact ⟨hne, isGismu_iff.1 hg, rfl⟩
    | kaha => split at ht <;> cases ht
    | zihevla => cases ht
    | parts => split at ht <;> cases ht
  · rintro ⟨hne, hg, rfl⟩
    unfold analyseBrivla analyseR
    rw [normalise_eq hne]
    simp only [bind, Except.bind]
    have hg' := isGismu_iff.2 hg
    generalize reading w = n at *
    have hlast : ∃ c0 l, n.head? = some c0 ∧ n.getLast? = some l ∧ Vowel l := by
      cases hg with
      | cvccv _ _ _ he => exact ⟨_, _, rfl, rfl, he⟩
      | ccvcv _ _ _ he => exact ⟨_, _, rfl, rfl, he⟩
    obtain ⟨c0, l, h0, hl, hv⟩ := hlast
    rw [← isVowel_iff] at hv
    unfold analyseNorm
    rw [h0, hl]
    dsimp only
    rw [not_consonant_of_vowel hv, hv, hg']
    simp

example : analyseBrivla .linked {} s%"BRODA" = .ok (.gismu, [s%"broda"]) := by decide +kernel
example : Gismu true s%"cimza" ∧ ¬ PermissiblePair false 'm' 'z' :=
  ⟨.cvccv (by decide) (by decide) (by decide) (by decide), by decide⟩

/-- **C04.** A gismu or zi'evla is returned in one piece, and has no `y`. -/
theorem C04_simple_words {b : Build} {s : Settings} {w : Str} {t : BType} {ps : List Str}
    (h : analyseBrivla b s w = .ok (t, ps)) (ht : t = .gismu ∨ t = .zihevla) :
    ps = [reading w] ∧ 'y' ∉ reading w := by
  obtain ⟨n, hn, ha⟩ := analyseR_ok h
  obtain ⟨-, rfl⟩ := normalise_ok hn
  cases ha with
  | gismu _ _ hg =>
    refine ⟨rfl, fun hy => ?_⟩
    have := rafsi_letters (.gismu (isGismu_iff.1 hg)) _ hy
    revert this
    decide
  | kaha => split at ht <;> simp at ht
  | zihevla _ _ _ _ _ hy => exact ⟨rfl, hy⟩
  | parts => split at ht <;> simp at ht

example : analyseBrivla .linked {} s%"spageti" = .ok (.zihevla, [s%"spageti"]) := by decide +kernel

/-- **C16.** `is_brivla` is `analyse_brivla` without the cmevla, and a brivla ends in a vowel. -/
theorem C16_is_brivla {b : Build} {s : Settings} {w : Str} :
    (isBrivla b s w = .ok true ↔ ∃ t ps, analyseBrivla b s w = .ok (t, ps) ∧ t ≠ .cmevla) ∧
    (isBrivla b s w = .ok false ↔
      (∃ ps, analyseBrivla b s w = .ok (.cmevla, ps)) ∨ analyseBrivla b s w = .error .notBrivla) ∧
    (∀ e, isBrivla b s w = .error e ↔ analyseBrivla b s w = .error e ∧ e ≠ .notBrivla) ∧
    (isBrivla b s w = .ok true → ∃ l, (reading w).getLast? = some l ∧ Vowel l) := by
  have h1 : isBrivla b s w = .ok true ↔ ∃ t ps, analyseBrivla b s w = .ok (t, ps) ∧ t ≠ .cmevla := by
    unfold isBrivla
    split <;> simp_all
  refine ⟨h1, ?_, ?_, ?_⟩
  · unfold isBrivla
    split <;> simp_all
  · intro e
    unfold isBrivla
    split <;> simp_all <;> grind
  · intro h
    obtain ⟨t, ps, h, ht⟩ := h1.1 h
    obtain ⟨l, hl, h | h⟩ := C02_type_by_last_letter h
    · exact absurd h.1 ht
    · exact ⟨l, hl, h.2⟩

example : isBrivla .linked {} s%"latkerlo" = .ok true := by decide +kernel
example : isBrivla .linked {} s%"latker" = .ok false := by decide +kernel
example : isBrivla .linked {} s%"mi" = .ok false := by decide +kernel
example : isBrivla .pinned {} s%"latkerlo" = .error .name := by decide +kernel

end Jvotci
