import Verif.Lemmas.Tails

/-!
# C45: which words are zi'evla
-/

namespace Jvotci

open Spec

/-- **C45**. `analyse_brivla(w)` returns ZIhEVLA exactly for the words that
* sound like zi'evla (`Sounds`), end in a vowel, have at least two syllables, and a consonant cluster with at most one
  consonant before it;
* are not gismu and not lujvo;
* do not fall apart: if something without two adjacent consonants that ends in a vowel is cut off, no brivla is left;
* do not begin with a consonant that would let them join a preceding cmavo: `to` and the word are not a lujvo (slinku'i).

(`.linked`: with the missing import of jvozba.py in place, C34. The bound on the length is that of C41.) -/
theorem C45_zihevla {s : Settings} {w : Str} {ps : List Str} (hlen : w.length < 10 ^ 94) :
    analyseBrivla .linked s w = .ok (.zihevla, ps) ↔
      ps = [reading w] ∧ ZihevlaForm s.allowMz (reading w) ∧
      ¬ Gismu s.allowMz (reading w) ∧ (∀ qs, LujvoPieces s qs → qs.flatten ≠ reading w) ∧
      (∀ u t, reading w = u ++ t → (∃ a, u.getLast? = some a ∧ Vowel a) → ConsonantInitial t ∨ Onglide t →
        (∀ a b, Adjacent u a b → ¬ (Consonant a ∧ Consonant b)) → isBrivla .linked { yHyphens := s.yHyphens } t = .ok false) ∧
      (ConsonantInitial (reading w) → ∀ qs, LujvoPieces { yHyphens := s.yHyphens, allowMz := s.allowMz } qs →
        qs.flatten ≠ s%"to" ++ reading w) := by
  have h1 := reading_short w
  have hlen' : (reading w).length < 10 ^ 95 := by
    have : (10 : Nat) ^ 95 = 10 * 10 ^ 94 := by rw [Nat.pow_succ, Nat.mul_comm]
    omega
  rw [zihevla_iff hlen']
  constructor
  · rintro ⟨h1, h2, h3, h4, h5, h6⟩
    exact ⟨h1, h2, h3, h4, (tails_iff h2 hlen').1 h5, h6⟩
  · rintro ⟨h1, h2, h3, h4, h5, h6⟩
    exact ⟨h1, h2, h3, h4, (tails_iff h2 hlen').2 h5, h6⟩

/-- The number of syllables is determined by the word. -/
theorem C45_syllables_unique {w : Str} {n m : Nat} (h : Syllables .nothing w n) (h' : Syllables .nothing w m) : n = m :=
  syllables_unique h h'

/-- The consonants at the beginning of a word that the code lets pass are the initial clusters. -/
theorem C45_initial_cluster {ch : Str} (h : ∀ c ∈ ch, Consonant c) (hne : ch ≠ []) :
    isZihevlaInitialCluster ch = true ↔ InitialCluster ch :=
  initial_iff (fun c hc => (isConsonant_iff c).2 (h c hc)) hne

/-- The consonants in the middle of a word that the code lets pass, given that the first two may stand together. -/
theorem C45_middle_cluster {mz : Bool} {ch : Str} (h : ∀ c ∈ ch, Consonant c) (hp : ∀ a b t, ch = a :: b :: t → PermissiblePair mz a b) :
    isZihevlaMiddleCluster ch = true ↔ MiddleCluster ch :=
  middle_iff (fun c hc => (isConsonant_iff c).2 (h c hc)) hp

-- a word that is one, and words that miss one of the conditions
example : ZihevlaForm false s%"spageti" := ((C45_zihevla (s := {}) (w := s%"SPA,geti") (ps := [s%"spageti"]) (by decide)).1 (by decide +kernel)).2.1
example : ZihevlaForm false s%"iglu" := ((C45_zihevla (s := {}) (w := s%"iglu") (ps := [s%"iglu"]) (by decide)).1 (by decide +kernel)).2.1
example : analyseBrivla .linked {} s%"slinku'i" = .error .notBrivla ∧
    analyseBrivla .linked {} s%"toslinku'i" = .ok (.lujvo, [s%"tos", s%"lin", s%"ku'i"]) := by decide +kernel
example : LujvoPieces {} [s%"tos", s%"lin", s%"ku'i"] := (C41_only_lujvo (b := .linked) (w := s%"toslinku'i") (by decide +kernel)).2
example : analyseBrivla .linked {} s%"aspageti" = .error .notBrivla ∧ isBrivla .linked {} s%"spageti" = .ok true := by decide +kernel
example : analyseBrivla .linked {} s%"irbroda" = .ok (.zihevla, [s%"irbroda"]) ∧
    analyseBrivla .linked {} s%"toirbroda" = .ok (.lujvo, [s%"toi", s%"r", s%"broda"]) := by decide +kernel
-- m before z: three consonants, and four
example : isZihevlaMiddleCluster s%"mzb" = false ∧ isZihevlaMiddleCluster s%"mzbr" = true := by decide +kernel
example : InitialCluster s%"str" := .three (by decide) (by decide) (.inr rfl) (by decide) (by decide)
example : MiddleCluster s%"ktk" → False := by
  intro h
  have := (C45_middle_cluster (mz := false) (ch := s%"ktk") (by decide) (by rintro a b t e; cases e; decide)).2 h
  revert this; decide +kernel

end Jvotci
