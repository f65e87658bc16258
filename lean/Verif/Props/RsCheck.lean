import Verif.Lemmas.RsFull

/-!
# Words without y given to the Rust crate (C89)
-/

namespace Jvotci

open Spec

theorem rs_full_reading {A : RsRest} {n k : Nat} {Y : Settings → Bool → Str → Except RsErr (RsKind × List Str)} {s : Settings} {w : Str}
    (hd : ¬ StrayDot w) (hlet : ∀ c ∈ reading w, Vowel c ∨ Consonant c ∨ c = '\'') (hne : reading w ≠ []) :
    analyseBrivla .linked s w = analyseBrivla .linked s (reading w) ∧ rsAnalyseFull A n Y k s w = rsAnalyseFull A n Y k s (reading w) := by
  have hr : reading (reading w) = reading w := reading_lettersY fun c hc => by
    rcases hlet c hc with h | h | h
    · exact .inl h
    · exact .inr (.inl h)
    · exact .inr (.inr (.inl h))
  have hdot : ∀ c ∈ reading w, c ≠ '.' := by
    rintro c hc rfl
    rcases hlet _ hc with h | h | h <;> revert h <;> decide
  have hd2 : ¬ StrayDot (reading w) := by
    intro h
    generalize reading w = v at h hdot
    cases h with
    | two => exact hdot '.' (by simp) rfl
    | last u h => exact hdot '.' (by simp) rfl
  have hwne : w ≠ [] := by rintro rfl; exact hne rfl
  constructor
  · rw [analyseBrivla_program, analyseBrivla_program]
    unfold analyseR
    rw [normalise_eq hwne, normalise_eq hne, hr]
  · cases k with
    | zero => rfl
    | succ k =>
      unfold rsAnalyseFull rsAnalyseBrivla
      rw [(rsNormalise_iff w).2 hd, (rsNormalise_iff _).2 hd2, hr]

/-- **C89.** `analyze_brivla` of the Rust crate and `analyse_brivla` say the same of a word that is read as vowels, consonants and
apostrophes, with a vowel at the end (and fewer than 180000 letters): the same type and the same pieces. With `allow_mz` there must be no mz in
it before b, d, g, m or v. The numbers `k` and `n` limit the recursion of the Rust functions; the theorem holds for all large enough. `Y` and `A` stand for the
parts that deal with y and with components of tanru. -/
theorem C89_same (A : RsRest) (n k : Nat) (Y : Settings → Bool → Str → Except RsErr (RsKind × List Str)) (s : Settings) (w : Str) (t : BType)
    (ps : List Str) (hd : ¬ StrayDot w) (hlet : ∀ c ∈ reading w, Vowel c ∨ Consonant c ∨ c = '\'')
    (hlast : ∃ l, (reading w).getLast? = some l ∧ Vowel l) (hlen : (reading w).length < 180000) (hk : (reading w).length < k)
    (hmz : s.allowMz = true → ∀ c, InitialPair 'z' c → ¬ Occurs ['m', 'z', c] (reading w)) :
    rsAnalyseFull A (n + 2) Y k s w = .ok (t, ps) ↔ analyseBrivla .linked s w = .ok (t, ps) := by
  have hne : reading w ≠ [] := by
    intro h0
    rw [h0] at hlast
    obtain ⟨l, hl, -⟩ := hlast
    cases hl
  obtain ⟨h1, h2⟩ := rs_full_reading (A := A) (n := n + 2) (k := k) (Y := Y) (s := s) hd hlet hne
  rw [h1, h2]
  have := rs_full (A := A) (n := n) (Y := Y) k s (reading w) hk hlet hlast hlen t ps
  exact ⟨this.2 hmz, this.1⟩

/-- **C89 (accepted).** Whatever of this kind the Python version accepts, the Rust crate accepts too, mz or not. -/
theorem C89_accepted (A : RsRest) (n k : Nat) (Y : Settings → Bool → Str → Except RsErr (RsKind × List Str)) (s : Settings) (w : Str) (t : BType)
    (ps : List Str) (hd : ¬ StrayDot w) (hlet : ∀ c ∈ reading w, Vowel c ∨ Consonant c ∨ c = '\'')
    (hlast : ∃ l, (reading w).getLast? = some l ∧ Vowel l) (hlen : (reading w).length < 180000) (hk : (reading w).length < k)
    (h : analyseBrivla .linked s w = .ok (t, ps)) : rsAnalyseFull A (n + 2) Y k s w = .ok (t, ps) := by
  have hne : reading w ≠ [] := by
    intro h0
    rw [h0] at hlast
    obtain ⟨l, hl, -⟩ := hlast
    cases hl
  obtain ⟨h1, h2⟩ := rs_full_reading (A := A) (n := n + 2) (k := k) (Y := Y) (s := s) hd hlet hne
  rw [h1] at h
  rw [h2]
  exact (rs_full (A := A) (n := n) (Y := Y) k s (reading w) hk hlet hlast hlen t ps).1 h

private def bare89 : RsRest := ⟨fun _ _ => .error .notBrivla, fun _ _ => .error .notZihevla⟩
private def noY89 : Settings → Bool → Str → Except RsErr (RsKind × List Str) := fun _ _ _ => .error .notBrivla

/-- The hypotheses are met: a zi'evla, and a word refused although its last part is one. With mz the Rust crate accepts more. -/
example : (∀ c ∈ reading s%"SPA,geti", Vowel c ∨ Consonant c ∨ c = '\'') ∧ (∃ l, (reading s%"SPA,geti").getLast? = some l ∧ Vowel l) ∧
    analyseBrivla .linked {} s%"SPA,geti" = .ok (.zihevla, [s%"spageti"]) ∧
    rsAnalyseFull bare89 2 noY89 8 {} s%"SPA,geti" = .ok (.zihevla, [s%"spageti"]) ∧
    (rsAnalyseFull bare89 2 noY89 10 {} s%"pabakasmo").toOption = none ∧
    rsAnalyseFull bare89 2 noY89 6 { allowMz := true } s%"umzga" = .ok (.zihevla, [s%"umzga"]) ∧
    analyseBrivla .linked { allowMz := true } s%"umzga" = .error .notBrivla :=
  ⟨by decide, ⟨'i', by decide⟩, by decide +kernel, by decide +kernel, by decide +kernel, by decide +kernel, by decide +kernel⟩

end Jvotci
