import Verif.Lemmas.Groups

/-!
# C06–C08, C10: the letters of an accepted word
-/

namespace Jvotci

open Spec

/-- **C06.** An accepted word is written with Lojban letters. -/
theorem C06_letters {b : Build} {s : Settings} {w : Str} {t : BType} {ps : List Str}
    (h : analyseBrivla b s w = .ok (t, ps)) : ∀ c ∈ reading w, Vowel c ∨ Consonant c ∨ c = '\'' ∨ c = 'y' := by
  obtain ⟨n, hn, ha⟩ := analyseR_ok h
  obtain ⟨-, rfl⟩ := normalise_ok hn
  exact ha.wf.1.letters

example : analyseBrivla .linked {} s%"cmalyla'i,KERLO" = .ok (.lujvo, [s%"cmal", s%"y", s%"la'i", s%"kerlo"]) := by
  decide +kernel
example : analyseBrivla .pinned {} s%"spageirykerlo" = .ok (.extendedLujvo, [s%"spageir", s%"y", s%"kerlo"]) := by
  decide +kernel

/-- **C16**, the letters of a brivla. -/
theorem C16_brivla_letters {b : Build} {s : Settings} {w : Str} (h : isBrivla b s w = .ok true) :
    ∀ c ∈ reading w, Vowel c ∨ Consonant c ∨ c = '\'' ∨ c = 'y' := by
  unfold isBrivla at h
  split at h
  · rename_i t ps hw; exact C06_letters hw
  · cases h
  · cases h

example : isBrivla .linked {} s%"spageirykerlo" = .ok true := by decide +kernel

/-- **C07.** Adjacent consonants of an accepted word form a permissible pair. -/
theorem C07_consonant_pairs {b : Build} {s : Settings} {w : Str} {t : BType} {ps : List Str}
    (h : analyseBrivla b s w = .ok (t, ps)) {x y : Char} (hxy : Adjacent (reading w) x y)
    (hx : Consonant x) (hy : Consonant y) : PermissiblePair s.allowMz x y := by
  obtain ⟨n, hn, ha⟩ := analyseR_ok h
  obtain ⟨-, rfl⟩ := normalise_ok hn
  exact ha.wf.1.pairs x y hxy hx hy

example : analyseBrivla .linked {} s%"latkerlo" = .ok (.lujvo, [s%"lat", s%"kerlo"]) ∧
    Adjacent (reading s%"latkerlo") 't' 'k' ∧ Consonant 't' ∧ Consonant 'k' :=
  ⟨by decide +kernel, ⟨s%"la", s%"erlo", rfl⟩, by decide, by decide⟩
example : analyseBrivla .linked { allowMz := true } s%"jamza'o" = .ok (.lujvo, [s%"jam", s%"za'o"]) ∧
    analyseBrivla .linked {} s%"jamza'o" = .error .notBrivla := by decide +kernel

/-- **C08.** No accepted word contains one of the four banned triples. -/
theorem C08_no_banned_triple {b : Build} {s : Settings} {w : Str} {t : BType} {ps : List Str}
    (h : analyseBrivla b s w = .ok (t, ps)) :
    ¬ Occurs s%"ndj" (reading w) ∧ ¬ Occurs s%"ndz" (reading w) ∧
    ¬ Occurs s%"ntc" (reading w) ∧ ¬ Occurs s%"nts" (reading w) := by
  obtain ⟨n, hn, ha⟩ := analyseR_ok h
  obtain ⟨-, rfl⟩ := normalise_ok hn
  have := ha.wf.1.triples
  exact ⟨this _ (by decide), this _ (by decide), this _ (by decide), this _ (by decide)⟩

example : analyseBrivla .linked {} s%"kandyjvo" = .ok (.lujvo, [s%"kand", s%"y", s%"jvo"]) ∧
    analyseBrivla .linked {} s%"kandjvo" = .error .notBrivla := by decide +kernel

/-- **C10.** An apostrophe stands between vowels (or `y`s); an accepted word neither begins nor ends with
one. -/
theorem C10_apostrophes {b : Build} {s : Settings} {w : Str} {t : BType} {ps : List Str}
    (h : analyseBrivla b s w = .ok (t, ps)) :
    ∀ u v, reading w = u ++ '\'' :: v →
      (∃ x, u.getLast? = some x ∧ (Vowel x ∨ x = 'y')) ∧ (∃ x, v.head? = some x ∧ (Vowel x ∨ x = 'y')) := by
  obtain ⟨n, hn, ha⟩ := analyseR_ok h
  obtain ⟨-, rfl⟩ := normalise_ok hn
  have hends := ha.ends
  have hap := ha.wf.2
  generalize reading w = n at *
  intro u v e
  subst e
  constructor
  · cases hu : u.getLast? with
    | none =>
      rw [List.getLast?_eq_none_iff] at hu
      subst hu
      exact absurd rfl hends.1
    | some x =>
      obtain ⟨u', rfl⟩ := List.getLast?_eq_some_iff.1 hu
      exact ⟨x, rfl, (hap x '\'' ⟨u', v, by simp⟩).1 rfl⟩
  · cases v with
    | nil => exact absurd (by simp) hends.2
    | cons x v => exact ⟨x, rfl, (hap '\'' x ⟨u, v, rfl⟩).2 rfl⟩

example : analyseBrivla .linked {} s%"spageti'ykerlo" = .ok (.extendedLujvo, [s%"spageti", s%"'y", s%"kerlo"]) := by
  decide +kernel
example : analyseBrivla .linked {} s%"ba'urtadji" = .ok (.lujvo, [s%"ba'u", s%"r", s%"tadji"]) ∧
      reading s%"ba'urtadji" = s%"ba" ++ '\'' :: s%"urtadji" := by decide +kernel

end Jvotci
