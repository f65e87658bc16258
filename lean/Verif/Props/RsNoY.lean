import Verif.Props.RsCheck
import Verif.Props.RsOwn
import Verif.Props.RsCmevla
import Verif.Lemmas.RsCmeBack

/-!
# All words without y given to the Rust crate (C95)
-/

namespace Jvotci

open Spec

/-- The last letter is a consonant: the Rust crate says CMEVLA only if the Python version does, and says nothing else. -/
theorem rs_cmevla_back {A : RsRest} {n k : Nat} {Y : Settings → Bool → Str → Except RsErr (RsKind × List Str)} {s : Settings} {v : Str} {l : Char}
    (hlet : ∀ c ∈ v, Vowel c ∨ Consonant c ∨ c = '\'') (hl : v.getLast? = some l) (hlc : Consonant l) (hlen : v.length < 180000) {t : BType}
    {ps : List Str} (h : rsAnalyseFull A (n + 2) Y (k + 1) s v = .ok (t, ps)) : analyseBrivla .linked s v = .ok (t, ps) := by
  have hne : v ≠ [] := by rintro rfl; cases hl
  have hread : reading v = v := reading_lettersY fun c hc => by
    rcases hlet c hc with h | h | h
    · exact .inl h
    · exact .inr (.inl h)
    · exact .inr (.inr (.inl h))
  have hy : 'y' ∉ v := by
    intro hc
    rcases hlet _ hc with h | h | h <;> revert h <;> decide
  have hdot : ∀ c ∈ v, c ≠ '.' := by
    rintro c hc rfl
    rcases hlet _ hc with h | h | h <;> revert h <;> decide
  have hstray : ¬ StrayDot v := by
    intro h
    cases h with
    | two => exact hdot '.' (by simp) rfl
    | last u h => exact hdot '.' (by simp) rfl
  have hnorm : rsNormalise v = v := by rw [(rsNormalise_iff v).2 hstray, hread]
  have hyany : v.any (· == 'y') = false := by
    rw [Bool.eq_false_iff]
    intro h
    simp at h
    exact hy h
  have hcc := (isConsonant_iff l).2 hlc
  have hloose : Loose v := by
    refine ⟨fun c hc => ?_, fun a b e => hy (by rw [e]; simp), ?_⟩
    · rcases hlet c hc with h | h | h <;> simp [h]
    · rw [hl]
      rintro ⟨⟩
      revert hlc; decide
  unfold rsAnalyseFull rsAnalyseBrivla at h
  simp only [hnorm, rsBack_of hl, rsIsConsonant_eq, rsIsGismu_eq, hcc, Bool.not_true, Bool.false_and, Bool.true_and] at h
  obtain ⟨-, h⟩ := rs_ite_ok h
  obtain ⟨-, h⟩ := rs_ite_ok h
  obtain ⟨hg, h⟩ := rs_ite_ok h
  rw [if_neg (by simp)] at h
  have hafter : ∀ r, rsAfter A (n + 2) (rsAnalyseFull A (n + 2) Y k) Y s true v ≠ .ok r := by
    intro r hr
    unfold rsAfter at hr
    obtain ⟨-, hr⟩ := rs_ite_ok hr
    rw [hyany] at hr
    cases hr
  have hafter' : ∀ r : BType × List Str, (match rsAfter A (n + 2) (rsAnalyseFull A (n + 2) Y k) Y s true v with
      | .ok (k, parts) => .ok (k.type, parts)
      | .error e => .error e : Except RsErr (BType × List Str)) ≠ .ok r := by
    intro r hr
    cases h : rsAfter A (n + 2) (rsAnalyseFull A (n + 2) Y k) Y s true v with
    | ok r => exact hafter r h
    | error e => rw [h] at hr; cases hr
  cases hj : rsJvokaha A (rsSlinkuhi A (n + 2)) s.yHyphens s.consonants s.glides s.allowMz v with
  | ok ps' =>
    rw [hj] at h
    cases h
    have hk := back_jvokaha hloose hy hl hlen hj
    obtain ⟨c0, t0, rfl⟩ : ∃ c0 t0, v = c0 :: t0 := by
      cases v with
      | nil => cases hl
      | cons a b => exact ⟨a, b, rfl⟩
    rw [analyseBrivla_program]
    unfold analyseR analyseNorm
    rw [normalise_eq hne, ok_bind, hread]
    simp only [List.head?_cons, hl, hcc, Bool.not_true, Bool.false_and, Bool.true_and]
    rw [if_neg (by simp), if_neg hg, if_neg (by simp), hk]
  | error e =>
    rw [hj] at h
    cases e <;> first
      | cases h
      | exact absurd h (hafter' _)

/-- The last letter is a consonant: the only error is `NotBrivla`. -/
theorem rs_cmevla_err {A : RsRest} {n k : Nat} {Y : Settings → Bool → Str → Except RsErr (RsKind × List Str)} {s : Settings} {v : Str} {l : Char}
    (hlet : ∀ c ∈ v, Vowel c ∨ Consonant c ∨ c = '\'') (hl : v.getLast? = some l) (hlc : Consonant l) (hlen : v.length < 180000) {e : RsErr}
    (h : rsAnalyseFull A (n + 2) Y (k + 1) s v = .error e) : e = .notBrivla := by
  have hne : v ≠ [] := by rintro rfl; cases hl
  have hread : reading v = v := reading_lettersY fun c hc => by
    rcases hlet c hc with h | h | h
    · exact .inl h
    · exact .inr (.inl h)
    · exact .inr (.inr (.inl h))
  have hy : 'y' ∉ v := by
    intro hc
    rcases hlet _ hc with h | h | h <;> revert h <;> decide
  have hdot : ∀ c ∈ v, c ≠ '.' := by
    rintro c hc rfl
    rcases hlet _ hc with h | h | h <;> revert h <;> decide
  have hstray : ¬ StrayDot v := by
    intro h
    cases h with
    | two => exact hdot '.' (by simp) rfl
    | last u h => exact hdot '.' (by simp) rfl
  have hnorm : rsNormalise v = v := by rw [(rsNormalise_iff v).2 hstray, hread]
  have hyany : v.any (· == 'y') = false := by
    rw [Bool.eq_false_iff]
    intro h
    simp at h
    exact hy h
  have hcc := (isConsonant_iff l).2 hlc
  have hloose : Loose v := by
    refine ⟨fun c hc => ?_, fun a b e => hy (by rw [e]; simp), ?_⟩
    · rcases hlet c hc with h | h | h <;> simp [h]
    · rw [hl]
      rintro ⟨⟩
      revert hlc; decide
  unfold rsAnalyseFull rsAnalyseBrivla at h
  simp only [hnorm, rsBack_of hl, rsIsConsonant_eq, rsIsGismu_eq, hcc, Bool.not_true, Bool.false_and, Bool.true_and] at h
  have hafter : ∀ e', rsAfter A (n + 2) (rsAnalyseFull A (n + 2) Y k) Y s true v = .error e' → e' = .notBrivla := by
    intro e' hr
    unfold rsAfter at hr
    rw [hyany] at hr
    split at hr
    · cases hr; rfl
    · cases hr; rfl
  have hafter' : ∀ e', (match rsAfter A (n + 2) (rsAnalyseFull A (n + 2) Y k) Y s true v with
      | .ok (k, parts) => .ok (k.type, parts)
      | .error e => .error e : Except RsErr (BType × List Str)) = .error e' → e' = .notBrivla := by
    intro e' hr
    cases h : rsAfter A (n + 2) (rsAnalyseFull A (n + 2) Y k) Y s true v with
    | ok r => rw [h] at hr; cases hr
    | error e => rw [h] at hr; cases hr; exact hafter _ h
  split at h
  · cases h; rfl
  rw [if_neg (by simp)] at h
  split at h
  · cases h; rfl
  rw [if_neg (by simp)] at h
  cases hj : rsJvokaha A (rsSlinkuhi A (n + 2)) s.yHyphens s.consonants s.glides s.allowMz v with
  | ok ps' => rw [hj] at h; cases h
  | error e' =>
    rw [hj] at h
    rcases rs_jvokaha_err hloose hy hl hlen hj with rfl | rfl
    · exact hafter' _ h
    · exact hafter' _ h

/-- **C95.** `analyze_brivla` of the Rust crate and `analyse_brivla` say the same of every word that is read as vowels, consonants and apostrophes
(and has fewer than 180000 letters), whatever its last letter is: the same type and the same pieces, or both refuse it. With `allow_mz` there must
be no mz in it before b, d, g, m or v, unless the last letter is a consonant. The numbers `k` and `n` limit the recursion of the Rust functions; the
theorem holds for all large enough. `Y` and `A` stand for the parts that deal with y and with components of tanru. -/
theorem C95_same (A : RsRest) (n k : Nat) (Y : Settings → Bool → Str → Except RsErr (RsKind × List Str)) (s : Settings) (w : Str) (t : BType)
    (ps : List Str) (hd : ¬ StrayDot w) (hlet : ∀ c ∈ reading w, Vowel c ∨ Consonant c ∨ c = '\'') (hne : reading w ≠ [])
    (hlen : (reading w).length < 180000) (hk : (reading w).length < k)
    (hmz : s.allowMz = true → (∃ l, (reading w).getLast? = some l ∧ Consonant l) ∨ ∀ c, InitialPair 'z' c → ¬ Occurs ['m', 'z', c] (reading w)) :
    rsAnalyseFull A (n + 2) Y k s w = .ok (t, ps) ↔ analyseBrivla .linked s w = .ok (t, ps) := by
  have hy : 'y' ∉ reading w := by
    intro hc
    rcases hlet _ hc with h | h | h <;> revert h <;> decide
  obtain ⟨l, hl⟩ : ∃ l, (reading w).getLast? = some l := by
    cases hl : (reading w).getLast? with
    | none => exact absurd (List.getLast?_eq_none_iff.1 hl) hne
    | some l => exact ⟨l, rfl⟩
  rcases hlet l (List.mem_of_getLast? hl) with hv | hc | rfl
  · refine C89_same A n k Y s w t ps hd hlet ⟨l, hl, hv⟩ hlen hk fun h => ?_
    rcases hmz h with ⟨l', hl', hc⟩ | h
    · rw [hl] at hl'
      cases hl'
      exact absurd hc (not_vowel_consonant hv)
    · exact h
  · obtain ⟨h1, h2⟩ := rs_full_reading (A := A) (n := n + 2) (k := k) (Y := Y) (s := s) hd hlet hne
    obtain ⟨k, rfl⟩ : ∃ m, k = m + 1 := ⟨k - 1, by omega⟩
    constructor
    · intro h
      rw [h1]
      rw [h2] at h
      exact rs_cmevla_back hlet hl hc hlen h
    · intro h
      obtain ⟨l', hl', h3⟩ := C02_type_by_last_letter h
      rw [hl] at hl'
      cases hl'
      rcases h3 with ⟨rfl, -⟩ | ⟨-, h3⟩
      · exact C94_without_y _ n s w ps hd hy hlen h
      · exact absurd hc (not_vowel_consonant h3)
  · have e1 : isConsonant '\'' = false := by decide
    have e2 : isVowel '\'' = false := by decide
    constructor
    · intro h
      exfalso
      cases k with
      | zero => omega
      | succ k =>
        unfold rsAnalyseFull rsAnalyseBrivla at h
        rw [(rsNormalise_iff w).2 hd] at h
        simp only [rsBack_of hl, rsIsConsonant_eq, rsIsVowel_eq, e1, e2, Bool.not_false, Bool.and_self, if_true] at h
        obtain ⟨-, h⟩ := rs_ite_ok h
        cases h
    · intro h
      exfalso
      obtain ⟨l', hl', h3⟩ := C02_type_by_last_letter h
      rw [hl] at hl'
      cases hl'
      rcases h3 with ⟨-, h3⟩ | ⟨-, h3⟩ <;> revert h3 <;> decide

/-- **C95 (refused).** If the Rust crate refuses such a word, whatever its last letter is, its error is `NotBrivlaError` and it does not panic; with the
exception for mz it refuses exactly the words of which the Python version says `NotBrivlaError`. -/
theorem C95_refused (A : RsRest) (n k : Nat) (Y : Settings → Bool → Str → Except RsErr (RsKind × List Str)) (s : Settings) (w : Str)
    (hd : ¬ StrayDot w) (hlet : ∀ c ∈ reading w, Vowel c ∨ Consonant c ∨ c = '\'') (hne : reading w ≠ [])
    (hlen : (reading w).length < 180000) (hk : (reading w).length < k) :
    ((∃ r, rsAnalyseFull A (n + 2) Y k s w = .ok r) ∨ rsAnalyseFull A (n + 2) Y k s w = .error .notBrivla) ∧
    ((s.allowMz = true → (∃ l, (reading w).getLast? = some l ∧ Consonant l) ∨ ∀ c, InitialPair 'z' c → ¬ Occurs ['m', 'z', c] (reading w)) →
      (rsAnalyseFull A (n + 2) Y k s w = .error .notBrivla ↔ analyseBrivla .linked s w = .error .notBrivla)) := by
  have hwne : w ≠ [] := by rintro rfl; exact hne rfl
  have hy : 'y' ∉ reading w := by
    intro hc
    rcases hlet _ hc with h | h | h <;> revert h <;> decide
  obtain ⟨l, hl⟩ : ∃ l, (reading w).getLast? = some l := by
    cases hl : (reading w).getLast? with
    | none => exact absurd (List.getLast?_eq_none_iff.1 hl) hne
    | some l => exact ⟨l, rfl⟩
  have first : (∃ r, rsAnalyseFull A (n + 2) Y k s w = .ok r) ∨ rsAnalyseFull A (n + 2) Y k s w = .error .notBrivla := by
    obtain ⟨k, rfl⟩ : ∃ m, k = m + 1 := ⟨k - 1, by omega⟩
    rcases hlet l (List.mem_of_getLast? hl) with hv | hc | rfl
    · exact (C91_refused A n (k + 1) Y s w hd hlet ⟨l, hl, hv⟩ hlen hk).1
    · rw [(rs_full_reading (A := A) (n := n + 2) (k := k + 1) (Y := Y) (s := s) hd hlet hne).2]
      cases h : rsAnalyseFull A (n + 2) Y (k + 1) s (reading w) with
      | ok r => exact .inl ⟨r, rfl⟩
      | error e => rw [rs_cmevla_err hlet hl hc hlen h]; exact .inr rfl
    · right
      have e1 : isConsonant '\'' = false := by decide
      have e2 : isVowel '\'' = false := by decide
      have he : (reading w).isEmpty = false := by
        cases hr : reading w with
        | nil => exact absurd hr hne
        | cons => rfl
      unfold rsAnalyseFull rsAnalyseBrivla
      rw [(rsNormalise_iff w).2 hd]
      simp [he, rsBack_of hl, rsIsConsonant_eq, rsIsVowel_eq, e1, e2]
  refine ⟨first, fun hmz => ?_⟩
  have hsame := fun t ps => C95_same A n k Y s w t ps hd hlet hne hlen hk hmz
  constructor
  · intro h
    rcases C15_words_without_y_partial .linked s hwne hy with ⟨h1, -⟩ | ⟨h1, -⟩
    · rcases h1 with ⟨t, ps, h1⟩ | h1
      · rw [(hsame t ps).2 h1] at h; cases h
      · exact h1
    · cases h1
  · intro h
    rcases first with ⟨⟨t, ps⟩, h1⟩ | h1
    · rw [(hsame t ps).1 h1] at h; cases h
    · exact h1

/-- **C95 (cmevla).** Of such a word with a consonant at the end the Rust crate says CMEVLA, with pieces `ps`, exactly if the pieces joined are the word and are the pieces
of a cmevla in the sense of C42. -/
theorem C95_cmevla (A : RsRest) (n k : Nat) (Y : Settings → Bool → Str → Except RsErr (RsKind × List Str)) (s : Settings) (w : Str)
    (ps : List Str) (hd : ¬ StrayDot w) (hlet : ∀ c ∈ reading w, Vowel c ∨ Consonant c ∨ c = '\'')
    (hlast : ∃ l, (reading w).getLast? = some l ∧ Consonant l) (hlen : (reading w).length < 180000) (hk : (reading w).length < k) :
    rsAnalyseFull A (n + 2) Y k s w = .ok (.cmevla, ps) ↔ ps.flatten = reading w ∧ CmevlaPieces s ps := by
  have hy : 'y' ∉ reading w := by
    intro hc
    rcases hlet _ hc with h | h | h <;> revert h <;> decide
  have hne : reading w ≠ [] := by
    intro e
    obtain ⟨l, hl, -⟩ := hlast
    rw [e] at hl
    cases hl
  rw [C95_same A n k Y s w _ ps hd hlet hne hlen hk fun _ => .inl hlast]
  constructor
  · intro h
    exact C42_only_cmevla h hy
  · rintro ⟨e, h⟩
    have hbig : (180000 : Nat) < 10 ^ 96 := by decide
    exact C42_every_cmevla e.symm h (by rw [e]; omega)

/-- **C95 (get_veljvo).** Of such a word with a consonant at the end `get_veljvo` gives the same list in both versions, or both refuse it. (For the
words with a vowel at the end this is C90.) -/
theorem C95_get_veljvo (A : RsRest) (n k : Nat) (Y : Settings → Bool → Str → Except RsErr (RsKind × List Str)) (s : Settings) (w : Str)
    (hd : ¬ StrayDot w) (hlet : ∀ c ∈ reading w, Vowel c ∨ Consonant c ∨ c = '\'')
    (hlast : ∃ l, (reading w).getLast? = some l ∧ Consonant l) (hlen : (reading w).length < 180000) (hk : (reading w).length ≤ k) (hk6 : 6 ≤ k)
    (vs : List Str) :
    rsGetVeljvo (rsSelf A (n + 2) Y k) (n + 2) s w = .ok vs ↔ getVeljvo .linked s w = .ok vs := by
  have hy : 'y' ∉ reading w := by
    intro hc
    rcases hlet _ hc with h | h | h <;> revert h <;> decide
  have hne : reading w ≠ [] := by
    intro e
    obtain ⟨l, hl, -⟩ := hlast
    rw [e] at hl
    cases hl
  have hcme : ∀ {t ps}, analyseBrivla .linked s w = .ok (t, ps) → ∃ vs, getVeljvo .linked s w = .ok vs ∧
      rsGetVeljvo (rsSelf A (n + 2) Y k) (n + 2) s w = .ok vs := by
    intro t ps h
    obtain ⟨l, hl, hc⟩ := hlast
    obtain ⟨l', hl', h3⟩ := C02_type_by_last_letter h
    rw [hl] at hl'
    cases hl'
    rcases h3 with ⟨rfl, -⟩ | ⟨-, h3⟩
    · obtain ⟨e, h4⟩ := C42_only_cmevla h hy
      exact C94_get_veljvo A n k Y s w ps hd e.symm h4 hlen hk6
    · exact absurd hc (not_vowel_consonant h3)
  constructor
  · intro h
    cases ha : rsAnalyseBrivla (rsSelf A (n + 2) Y k) (n + 2) s w with
    | error e =>
      unfold rsGetVeljvo at h
      rw [ha] at h
      cases h
    | ok r =>
      obtain ⟨t, ps⟩ := r
      obtain ⟨vs', h1, h2⟩ := hcme ((C95_same A n (k + 1) Y s w t ps hd hlet hne hlen (by omega) fun _ => .inl hlast).1 ha)
      rw [h2] at h
      cases h
      exact h1
  · intro h
    cases ha : analyseBrivla .linked s w with
    | error e =>
      unfold getVeljvo at h
      rw [ha] at h
      cases h
    | ok r =>
      obtain ⟨vs', h1, h2⟩ := hcme ha
      rw [h1] at h
      cases h
      exact h2

private def bare95 : RsRest := ⟨fun _ _ => .error .notBrivla, fun _ _ => .error .notZihevla⟩
private def noY95 : Settings → Bool → Str → Except RsErr (RsKind × List Str) := fun _ _ _ => .error .notBrivla

/-- The hypotheses are met: a cmevla, a word with a consonant at the end that is none, and a word that ends in an apostrophe. -/
example : (∀ c ∈ reading s%"JAURbrid", Vowel c ∨ Consonant c ∨ c = '\'') ∧ reading s%"JAURbrid" ≠ [] ∧ ¬ StrayDot s%"JAURbrid" ∧
    rsAnalyseFull bare95 2 noY95 9 {} s%"JAURbrid" = .ok (.cmevla, [s%"jau", s%"r", s%"brid"]) ∧
    rsGetVeljvo (rsSelf bare95 2 noY95 8) 2 {} s%"JAURbrid" = .ok [s%"djacu", s%"bridi"] ∧
    analyseBrivla .linked {} s%"JAURbrid" = .ok (.cmevla, [s%"jau", s%"r", s%"brid"]) ∧
    (rsAnalyseFull bare95 2 noY95 9 {} s%"spageted").toOption = none ∧ (analyseBrivla .linked {} s%"spageted").toOption = none ∧
    (rsAnalyseFull bare95 2 noY95 9 {} s%"spageti'").toOption = none ∧ (analyseBrivla .linked {} s%"spageti'").toOption = none ∧
    (rsGetVeljvo (rsSelf bare95 2 noY95 8) 2 {} s%"spageted").toOption = none ∧
    rsAnalyseFull bare95 2 noY95 9 {} s%"spagei'ar" = .error .notBrivla := by
  refine ⟨by decide, by decide, ?_, by decide +kernel, by decide +kernel, by decide +kernel, by decide +kernel, by decide +kernel, by decide +kernel, by decide +kernel, by decide +kernel, by decide +kernel⟩
  generalize e : s%"JAURbrid" = w
  intro h
  cases h with
  | two => cases e
  | last u h =>
    have := congrArg List.getLast? e
    simp at this

end Jvotci
