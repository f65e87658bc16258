import Verif.Lemmas.RsVeljvo
import Verif.Props.RsCheck
import Verif.Props.RsAnalyse

/-!
# The words that the Rust crate names for the rafsi of lujvo (C90)
-/

namespace Jvotci

open Spec

/-- **C90 (lujvo).** If the Python version says LUJVO of a word without stray full stop (of fewer than 180000 letters), `get_veljvo` gives
the same list in both versions, also for rafsi that belong to no word. -/
theorem C90_lujvo (A : RsRest) (n k : Nat) (Y : Settings → Bool → Str → Except RsErr (RsKind × List Str)) (s : Settings) (w : Str) (ps : List Str)
    (hd : ¬ StrayDot w) (hlen : (reading w).length < 180000) (hk : 6 ≤ k) (h : analyseBrivla .linked s w = .ok (.lujvo, ps)) :
    ∃ vs, getVeljvo .linked s w = .ok vs ∧ rsGetVeljvo (rsSelf A (n + 2) Y k) (n + 2) s w = .ok vs := by
  have h2 := (C88_lujvo (rsSelf A (n + 2) Y k) n s w ps hd hlen).1 h
  obtain ⟨-, h1⟩ := C41_only_lujvo h
  have hps := reading_pieces h1.reading
  have hne : ∀ p ∈ ps, p ≠ [] := by
    rintro p hp rfl
    rcases hps _ hp with k | k
    · revert k; decide
    · obtain ⟨-, ⟨l, hl, -⟩, -⟩ := rafsi_word k
      cases hl
  refine ⟨rsSelrafsiFrom (rsSelf A (n + 2) Y k) (n + 2) s ps 0 ps, ?_, ?_⟩
  · unfold getVeljvo
    rw [h, ok_bind]
    dsimp only
    rw [if_neg (by simp)]
    exact rs_selrafsi_all hk hne 0 ps (by simp) hps
  · unfold rsGetVeljvo
    rw [h2]
    dsimp only
    rw [if_pos (.inl rfl)]

/-- **C90 (words without y).** Of a word as in C89, `get_veljvo` gives the same list in both versions, or fails in both. -/
theorem C90_words_without_y (A : RsRest) (n k : Nat) (Y : Settings → Bool → Str → Except RsErr (RsKind × List Str)) (s : Settings) (w : Str)
    (hd : ¬ StrayDot w) (hlet : ∀ c ∈ reading w, Vowel c ∨ Consonant c ∨ c = '\'')
    (hlast : ∃ l, (reading w).getLast? = some l ∧ Vowel l) (hlen : (reading w).length < 180000) (hk : (reading w).length ≤ k) (hk6 : 6 ≤ k)
    (hmz : s.allowMz = true → ∀ c, InitialPair 'z' c → ¬ Occurs ['m', 'z', c] (reading w)) (vs : List Str) :
    rsGetVeljvo (rsSelf A (n + 2) Y k) (n + 2) s w = .ok vs ↔ getVeljvo .linked s w = .ok vs := by
  have hy : 'y' ∉ reading w := by
    intro hc
    rcases hlet _ hc with h | h | h <;> revert h <;> decide
  have hsame := fun t ps => C89_same A n (k + 1) Y s w t ps hd hlet hlast hlen (by omega) hmz
  have htype : ∀ {t ps}, analyseBrivla .linked s w = .ok (t, ps) → t = .gismu ∨ t = .zihevla ∨ t = .lujvo := by
    intro t ps h
    obtain ⟨l, hl, hv⟩ := hlast
    have hlc := not_consonant_of_vowel ((isVowel_iff l).2 hv)
    obtain ⟨m, hm, ha⟩ := analyseR_ok h
    obtain ⟨-, rfl⟩ := normalise_ok hm
    cases ha with
    | gismu => exact .inl rfl
    | zihevla => exact .inr (.inl rfl)
    | kaha hl' =>
      rw [hl] at hl'
      cases hl'
      rw [hlc]
      exact .inr (.inr rfl)
    | parts _ _ _ _ _ _ _ _ h1 => exact absurd (by rw [splitOn_of_not_mem hy]; rfl) h1
  constructor
  · intro h
    have h' := h
    unfold rsGetVeljvo at h
    cases h1 : rsAnalyseBrivla (rsSelf A (n + 2) Y k) (n + 2) s w with
    | error e => rw [h1] at h; cases h
    | ok r =>
      obtain ⟨t, ps⟩ := r
      have h2 := (hsame t ps).1 h1
      rw [h1] at h
      dsimp only at h
      rcases htype h2 with rfl | rfl | rfl
      · rw [if_neg (by simp)] at h; cases h
      · rw [if_neg (by simp)] at h; cases h
      · obtain ⟨vs', h3, h4⟩ := C90_lujvo A n k Y s w ps hd hlen hk6 h2
        rw [h'] at h4
        cases h4
        exact h3
  · intro h
    have h' := h
    unfold getVeljvo at h
    obtain ⟨⟨t, ps⟩, h1, h⟩ := bind_ok h
    dsimp only at h
    rcases htype h1 with rfl | rfl | rfl
    · rw [if_pos (.inl rfl)] at h; cases h
    · rw [if_pos (.inr rfl)] at h; cases h
    · obtain ⟨vs', h3, h4⟩ := C90_lujvo A n k Y s w ps hd hlen hk6 h1
      rw [h'] at h3
      cases h3
      exact h4

/-- **C90 (is_brivla).** A word of vowels, consonants and apostrophes that ends in a vowel or consonant is a brivla for both versions or for
neither. -/
theorem C90_is_brivla (A : RsRest) (n k : Nat) (Y : Settings → Bool → Str → Except RsErr (RsKind × List Str)) (s : Settings) (w : Str)
    (hlet : ∀ c ∈ w, Vowel c ∨ Consonant c ∨ c = '\'') (hlast : ∃ l, w.getLast? = some l ∧ (Vowel l ∨ Consonant l))
    (hlen : w.length < 180000) (hk : w.length ≤ k) (hmz : s.allowMz = true → ∀ c, InitialPair 'z' c → ¬ Occurs ['m', 'z', c] w) :
    isBrivla .linked s w = .ok (rsIsBrivla (rsSelf A (n + 2) Y k) (n + 2) s w) := rs_isBrivla_word hlet hlast hlen hk hmz

private def bare90 : RsRest := ⟨fun _ _ => .error .notBrivla, fun _ _ => .error .notZihevla⟩
private def noY90 : Settings → Bool → Str → Except RsErr (RsKind × List Str) := fun _ _ _ => .error .notBrivla

/-- The hypotheses are met by a lujvo with rafsi that belong to no word: one shown with dashes, one without its vowel and one with it. -/
example : analyseBrivla .linked {} s%"bodbrodybroda" = .ok (.lujvo, [s%"bod", s%"brod", s%"y", s%"broda"]) ∧
    rsGetVeljvo (rsSelf bare90 2 noY90 6) 2 {} s%"bodbrodybroda" = .ok [s%"-bod-", s%"brod-", s%"broda"] ∧
    (rsGetVeljvo (rsSelf bare90 2 noY90 7) 2 {} s%"spageti").toOption = none ∧
    rsIsBrivla (rsSelf bare90 2 noY90 7) 2 {} s%"spageti" = true ∧ rsIsBrivla (rsSelf bare90 2 noY90 7) 2 {} s%"latkol" = false :=
  ⟨by decide +kernel, by decide +kernel, by decide +kernel, by decide +kernel, by decide +kernel⟩

end Jvotci
