import Verif.Lemmas.ExtCmevla
import Verif.Props.Words
import Verif.Props.ZihevlaWords

/-!
# C47: which words are extended lujvo; C48: which words are brivla; C49: which words are cmevla
-/

namespace Jvotci

open Spec

theorem reading_bound {w : Str} (hlen : w.length < 10 ^ 93) : (reading w).length < 10 ^ 94 := by
  have h1 := reading_short w
  have : (10 : Nat) ^ 94 = 10 * 10 ^ 93 := by rw [Nat.pow_succ, Nat.mul_comm]
  omega

/-- **C47**. `analyse_brivla(w)` returns EXTENDED_LUJVO and the pieces `ps` exactly if, cut at its y, the word consists of
parts that satisfy `ExtendedLujvo` (Verif/SpecExtended.lean), and `ps` are their pieces with the hyphens between them.

(`.linked`: with the missing import of jvozba.py in place, C34. The bound on the length is that of C41.) -/
theorem C47_extended {s : Settings} {w : Str} {ps : List Str} (hlen : w.length < 10 ^ 93) :
    analyseBrivla .linked s w = .ok (.extendedLujvo, ps) ↔
      ∃ parts, joinParts parts = reading w ∧ joinPieces parts = ps ∧ ExtendedLujvo s parts :=
  extended_iff (reading_bound hlen)

/-- What a part consists of is determined by the word: two ways to see an extended lujvo in a word give the same pieces. -/
theorem C47_unique {s : Settings} {w : Str} {ps qs : List YPart} (hlen : w.length < 10 ^ 93) (hp : joinParts ps = reading w)
    (hq : joinParts qs = reading w) (h : ExtendedLujvo s ps) (h' : ExtendedLujvo s qs) : joinPieces ps = joinPieces qs := by
  have h1 := (C47_extended hlen).2 ⟨ps, hp, rfl, h⟩
  have h2 := (C47_extended hlen).2 ⟨qs, hq, rfl, h'⟩
  rw [h1] at h2
  exact (Prod.mk.inj (Except.ok.inj h2)).2

/-- **C48**. `is_brivla(w)` returns True exactly for gismu, lujvo, zi'evla and extended lujvo. -/
theorem C48_brivla {s : Settings} {w : Str} (hlen : w.length < 10 ^ 93) :
    isBrivla .linked s w = .ok true ↔
      Gismu s.allowMz (reading w) ∨ (∃ ps, ps.flatten = reading w ∧ LujvoPieces s ps) ∨
      (ZihevlaForm s.allowMz (reading w) ∧
        (∀ u t, reading w = u ++ t → (∃ a, u.getLast? = some a ∧ Vowel a) → ConsonantInitial t ∨ Onglide t →
          (∀ a b, Adjacent u a b → ¬ (Consonant a ∧ Consonant b)) → isBrivla .linked { yHyphens := s.yHyphens } t = .ok false) ∧
        (ConsonantInitial (reading w) → ∀ qs, LujvoPieces { yHyphens := s.yHyphens, allowMz := s.allowMz } qs →
          qs.flatten ≠ s%"to" ++ reading w)) ∨
      ∃ parts, joinParts parts = reading w ∧ ExtendedLujvo s parts := by
  have h94 : w.length < 10 ^ 94 := Nat.lt_of_lt_of_le hlen (Nat.pow_le_pow_right (by decide) (by decide))
  have h95 : w.length < 10 ^ 95 := Nat.lt_of_lt_of_le hlen (Nat.pow_le_pow_right (by decide) (by decide))
  have key : isBrivla .linked s w = .ok true ↔ ∃ t ps, t ≠ .cmevla ∧ analyseBrivla .linked s w = .ok (t, ps) := by
    unfold isBrivla
    cases h : analyseBrivla .linked s w with
    | ok r =>
      obtain ⟨t, ps⟩ := r
      constructor
      · intro h'
        simp at h'
        exact ⟨t, ps, h', rfl⟩
      · rintro ⟨t', ps', ht, e⟩
        cases e
        simp [ht]
    | error e =>
      cases e <;> simp
  have hne : reading w ≠ [] → w ≠ [] := by rintro h rfl; exact h rfl
  rw [key]
  constructor
  · rintro ⟨t, ps, ht, h⟩
    cases t with
    | gismu => exact .inl (C03_gismu_iff.1 h).2.1
    | cmevla => exact absurd rfl ht
    | lujvo => exact .inr (.inl ⟨ps, (C41_lujvo h95).1 h⟩)
    | zihevla =>
      obtain ⟨-, h1, -, -, h2, h3⟩ := (C45_zihevla h94).1 h
      exact .inr (.inr (.inl ⟨h1, h2, h3⟩))
    | extendedLujvo =>
      obtain ⟨parts, h1, -, h2⟩ := (C47_extended hlen).1 h
      exact .inr (.inr (.inr ⟨parts, h1, h2⟩))
  · by_cases hg : Gismu s.allowMz (reading w)
    · exact fun _ => ⟨.gismu, _, by decide, C03_gismu_iff.2 ⟨hne (by intro h; rw [h] at hg; cases hg), hg, rfl⟩⟩
    · by_cases hl : ∃ ps, ps.flatten = reading w ∧ LujvoPieces s ps
      · obtain ⟨ps, h⟩ := hl
        exact fun _ => ⟨.lujvo, ps, by decide, (C41_lujvo h95).2 h⟩
      · rintro (h | h | ⟨h1, h2, h3⟩ | ⟨parts, h1, h2⟩)
        · exact absurd h hg
        · exact absurd h hl
        · exact ⟨.zihevla, _, by decide, (C45_zihevla h94).2 ⟨rfl, h1, hg, fun qs hq e => hl ⟨qs, e, hq⟩, h2, h3⟩⟩
        · exact ⟨.extendedLujvo, _, by decide, (C47_extended hlen).2 ⟨parts, h1, rfl, h2⟩⟩

/-- **C49**. If `analyse_brivla(w)` returns CMEVLA and the pieces `ps`, then they are the pieces of a cmevla made of rafsi
(C42), or the word, cut at its y, consists of parts that satisfy `ExtendedCmevla` and `ps` are their pieces. -/
theorem C49_only_cmevla {s : Settings} {w : Str} {ps : List Str} (hlen : w.length < 10 ^ 93)
    (h : analyseBrivla .linked s w = .ok (.cmevla, ps)) : (ps.flatten = reading w ∧ CmevlaPieces s ps) ∨
      ∃ parts, joinParts parts = reading w ∧ joinPieces parts = ps ∧ ExtendedCmevla s parts :=
  cmevla_ok (reading_bound hlen) h

/-- **C49**. Conversely all these words are accepted, except those on which the call raises `IndexError`. -/
theorem C49_cmevla {s : Settings} {w : Str} {ps : List Str} (hlen : w.length < 10 ^ 93) :
    analyseBrivla .linked s w = .ok (.cmevla, ps) ↔ analyseBrivla .linked s w ≠ .error .index ∧
      ((ps.flatten = reading w ∧ CmevlaPieces s ps) ∨
        ∃ parts, joinParts parts = reading w ∧ joinPieces parts = ps ∧ ExtendedCmevla s parts) := by
  have hl := reading_bound hlen
  constructor
  · intro h
    exact ⟨by rw [h]; simp, cmevla_ok hl h⟩
  · rintro ⟨hi, ⟨h1, h2⟩ | ⟨parts, h1, rfl, h2⟩⟩
    · exact C42_every_cmevla h1.symm h2 (by rw [h1]; exact Nat.lt_of_lt_of_le hl (Nat.pow_le_pow_right (by decide) (by decide)))
    · rcases extendedCmevla_of hl h1 h2 with h | ⟨h, -⟩
      · exact h
      · exact absurd h hi

/-- **C49**. The call raises no `IndexError` on such a word if all hyphens are y, or unless the word ends in r after two
vowels, with or without ' between them, or after 'y. So of all other words the pieces alone tell which are cmevla. -/
theorem C49_cmevla_words {s : Settings} {w : Str} {ps : List Str} (hlen : w.length < 10 ^ 93)
    (hr : s.yHyphens = .forceY ∨ ¬ ∃ u x y, reading w = u ++ [x, y, 'r'] ∧ ((Vowel y ∧ (Vowel x ∨ x = '\'')) ∨ (x = '\'' ∧ y = 'y'))) :
    analyseBrivla .linked s w = .ok (.cmevla, ps) ↔ (ps.flatten = reading w ∧ CmevlaPieces s ps) ∨
      ∃ parts, joinParts parts = reading w ∧ joinPieces parts = ps ∧ ExtendedCmevla s parts := by
  have hl := reading_bound hlen
  constructor
  · exact cmevla_ok hl
  · rintro (⟨h1, h2⟩ | ⟨parts, h1, rfl, h2⟩)
    · exact C42_every_cmevla h1.symm h2 (by rw [h1]; exact Nat.lt_of_lt_of_le hl (Nat.pow_le_pow_right (by decide) (by decide)))
    · rcases extendedCmevla_of hl h1 h2 with h | ⟨-, h⟩
      · exact h
      · obtain ⟨c, hc, hcc⟩ := h2.consonant
        rw [h1] at hc
        obtain ⟨t, ht⟩ := slinkuhi_clean (y := s.yHyphens) (mz := s.allowMz) (w := reading w) ⟨c, hc, .inr hcc⟩
          (fun hy => hr.resolve_left hy)
        rw [slinkuhi_program, h] at ht
        cases ht

-- words with each kind of part and hyphen, and words that miss one of the conditions
example : ∃ parts, joinParts parts = s%"blabyspageti" ∧ joinPieces parts = [s%"blab", s%"y", s%"spageti"] ∧ ExtendedLujvo {} parts :=
  (C47_extended (w := s%"blabyspageti") (by decide)).1 (by decide +kernel)
example : ∃ parts, joinParts parts = s%"iglu'y'iglu" ∧ joinPieces parts = [s%"iglu", s%"'y'", s%"iglu"] ∧ ExtendedLujvo {} parts :=
  (C47_extended (w := s%"IGLU'y'iglu") (by decide)).1 (by decide +kernel)
example : ∃ parts, joinParts parts = s%"tosymabru'y'iglu" ∧ joinPieces parts = [s%"tos", s%"y", s%"mabru", s%"'y'", s%"iglu"] ∧
    ExtendedLujvo {} parts := (C47_extended (w := s%"tosymabruhyhiglu") (by decide)).1 (by decide +kernel)
example : ∃ parts, joinParts parts = s%"iglu'y'ai" ∧ joinPieces parts = [s%"iglu", s%"'y'", s%"ai"] ∧
    ExtendedLujvo { expRafsi := true } parts := (C47_extended (w := s%"iglu'y'ai") (by decide)).1 (by decide +kernel)
example : analyseBrivla .linked {} s%"tosmabru'y'iglu" = .error .notBrivla ∧ analyseBrivla .linked {} s%"bai'ybroda" = .error .notBrivla ∧
    analyseBrivla .linked { yHyphens := .allowY } s%"bai'ybroda" = .ok (.extendedLujvo, [s%"bai", s%"'y", s%"broda"]) ∧
    analyseBrivla .linked {} s%"iglu'y'ai" = .error .notBrivla := by decide +kernel
example : isBrivla .linked {} s%"iglu'y'iglu" = .ok true ∧ isBrivla .linked {} s%"spageti" = .ok true ∧
    isBrivla .linked {} s%"tosmabru'y'iglu" = .ok false := by decide +kernel
example : ∃ parts, joinParts parts = s%"blabyspageter" ∧ joinPieces parts = [s%"blab", s%"y", s%"spageter"] ∧ ExtendedCmevla {} parts := by
  rcases C49_only_cmevla (s := {}) (w := s%"blabyspageter") (ps := [s%"blab", s%"y", s%"spageter"]) (by decide) (by decide +kernel) with ⟨-, h⟩ | h
  · obtain ⟨p, hp, hr⟩ := h.reading.last
    cases hp
    exact absurd (rafsi_length hr).2 (by decide)
  · exact h
example : analyseBrivla .linked {} s%"blabyspageter" = .ok (.cmevla, [s%"blab", s%"y", s%"spageter"]) ∧
    analyseBrivla .linked {} s%"bai'ybrod" = .ok (.cmevla, [s%"bai", s%"'y", s%"brod"]) ∧
    analyseBrivla .linked {} s%"smatyspageir" = .error .index ∧
    analyseBrivla .linked { yHyphens := .forceY } s%"smatyspageir" = .ok (.cmevla, [s%"smat", s%"y", s%"spageir"]) := by decide +kernel

end Jvotci
