import Verif.Lemmas.RsFull

/-!
# Lemmas: how the Rust crate refuses words without y
-/

namespace Jvotci

open Spec

theorem rs_ite_err {α : Type} {c : Prop} [Decidable c] {a e : RsErr} {x : Except RsErr α}
    (h : (if c then .error a else x) = .error e) : e = a ∨ x = .error e := by
  by_cases hc : c
  · rw [if_pos hc] at h
    cases h
    exact .inl rfl
  · rw [if_neg hc] at h
    exact .inr h

theorem rs_scan_err {acc : Str → Bool} {mz : Bool} {v : Str} : ∀ {fuel : Nat} {rest : Str} {st : ZState} {e : RsErr}, rest.length < fuel →
    rsZihScan acc mz v fuel rest st = .error e → e = .notZihevla := by
  intro fuel
  induction fuel with
  | zero => intro rest st e h; omega
  | succ fuel ih =>
    intro rest st e hf h
    cases rest with
    | nil => cases h
    | cons c cs =>
      rw [rs_scan_cons] at h
      split at h
      · rename_i hc
        cases h1 : rsZihConsonants acc mz v ((c :: cs).takeWhile isConsonant) st with
        | error e' =>
          rw [h1] at h
          cases h
          unfold rsZihConsonants at h1
          repeat' split at h1
          all_goals first
            | (cases h1; rfl)
            | cases h1
        | ok st1 =>
          rw [h1] at h
          refine ih ?_ h
          have := congrArg List.length (List.takeWhile_append_dropWhile (p := isConsonant) (l := c :: cs))
          have h2 := List.length_pos_iff.2 (takeWhile_ne_nil (w := cs) hc)
          simp only [List.length_append, List.length_cons] at this hf
          omega
      · split at h
        · rename_i hvw
          cases h1 : rsZihVowels v ((c :: cs).takeWhile isVowel) st with
          | error e' =>
            rw [h1] at h
            cases h
            unfold rsZihVowels at h1
            rw [rs_splitVowel] at h1
            have herr := errs_splitVowelCluster ((c :: cs).takeWhile isVowel)
            cases h2 : splitVowelCluster ((c :: cs).takeWhile isVowel) with
            | error e2 =>
              have he : e2 = .decomposition := by
                have := herr e2 h2
                simpa using this
              subst he
              rw [h2] at h1
              cases h1
              rfl
            | ok sy =>
              rw [h2] at h1
              simp only [Except.mapError] at h1
              rcases rs_ite_err h1 with h1 | h1
              · exact h1
              rcases rs_ite_err h1 with h1 | h1
              · exact h1
              · cases h1
          | ok st1 =>
            rw [h1] at h
            refine ih ?_ h
            have := congrArg List.length (List.takeWhile_append_dropWhile (p := isVowel) (l := c :: cs))
            have h2 := List.length_pos_iff.2 (takeWhile_ne_nil (w := cs) hvw)
            simp only [List.length_append, List.length_cons] at this hf
            omega
        · split at h
          · rcases rs_ite_err h with h | h
            · exact h
            rcases rs_ite_err h with h | h
            · exact h
            exact ih (by simp at hf; omega) h
          · cases h; rfl

theorem rs_check_err {acc brivla : Str → Bool} {slin : Str → Except RsErr Bool} {ex mz : Bool} {v : Str} {e : RsErr} (hs : ∃ b, slin v = .ok b)
    (h : rsCheck acc brivla slin ex mz true v = .error e) : e = .notZihevla := by
  obtain ⟨b, hb⟩ := hs
  unfold rsCheck at h
  split at h
  · cases h; rfl
  cases hst : rsZihScan acc mz v (v.length + 1) v {} with
  | error e' =>
    rw [hst] at h
    cases h
    exact rs_scan_err (by omega) hst
  | ok st =>
    rw [hst] at h
    dsimp only at h
    split at h
    · cases h; rfl
    cases hc : st.clusterPos with
    | none =>
      rw [hc] at h
      dsimp only at h
      rw [if_pos rfl] at h
      cases h; rfl
    | some p =>
      rw [hc] at h
      dsimp only at h
      split at h
      · cases h; rfl
      split at h
      · rw [hb] at h
        cases b
        · cases h
        · cases h; rfl
      · cases h

/-- `analyze_brivla` of the crate, words without y: there is an answer, or the error is `NotBrivla`. -/
theorem rs_full_err {A : RsRest} {n : Nat} {Y : Settings → Bool → Str → Except RsErr (RsKind × List Str)} {k : Nat} {s : Settings} {v : Str}
    {e : RsErr} (hlet : ∀ c ∈ v, Vowel c ∨ Consonant c ∨ c = '\'') (hlast : ∃ l, v.getLast? = some l ∧ Vowel l)
    (hlen : v.length < 180000) (h : rsAnalyseFull A (n + 2) Y (k + 1) s v = .error e) : e = .notBrivla := by
  obtain ⟨l, hl, hlv⟩ := hlast
  have hdot : ∀ c ∈ v, c ≠ '.' := by
    rintro c hc rfl
    rcases hlet _ hc with h | h | h <;> revert h <;> decide
  have hstray : ¬ StrayDot v := by
    intro h
    cases h with
    | two => exact hdot '.' (by simp) rfl
    | last u h => exact hdot '.' (by simp) rfl
  have hread : reading v = v := reading_lettersY fun c hc => by
    rcases hlet c hc with h | h | h
    · exact .inl h
    · exact .inr (.inl h)
    · exact .inr (.inr (.inl h))
  have hy : 'y' ∉ v := by
    intro hc
    rcases hlet _ hc with h | h | h <;> revert h <;> decide
  have hplain : PlainWord v := by
    refine ⟨fun c hc => ?_, ?_, ?_⟩
    · unfold Letter
      rcases hlet c hc with h | h | h <;> simp [h]
    · rintro ⟨a, b, e⟩; exact hy (by rw [e]; simp)
    · intro a b x u e; exact absurd (by rw [e]; simp) hy
  have hcut := plain_cuttable hplain hl hlv
  obtain ⟨c0, t0, hv0⟩ : ∃ c0 t0, v = c0 :: t0 := by
    cases v with
    | nil => cases hl
    | cons a b => exact ⟨a, b, rfl⟩
  have hlv' := (isVowel_iff l).2 hlv
  have hlc := not_consonant_of_vowel hlv'
  have hne' : v.isEmpty = false := by rw [hv0]; rfl
  have hnorm : rsNormalise v = v := by rw [(rsNormalise_iff v).2 hstray, hread]
  have hat0 : rsAt v 0 = c0 := by rw [hv0]; rfl
  unfold rsAnalyseFull rsAnalyseBrivla at h
  simp only [hnorm, hne', rsBack_of hl, rsIsConsonant_eq, rsIsVowel_eq, rsIsGismu_eq, hlc, hlv', Bool.false_eq_true, if_false, Bool.not_true, Bool.not_false, Bool.and_false, Bool.false_and, Bool.true_and] at h
  by_cases hg : isGismu s.allowMz v = true
  · rw [if_pos hg] at h
    cases h
  rw [if_neg hg] at h
  rcases near_jvokaha_any (A := A) (n := n) (y := s.yHyphens) (co := s.consonants) (gl := s.glides) (mz := s.allowMz)
    hcut (plain_not_ccvhy hplain) hl hlv hlen with ⟨arr, k1, k2⟩ | ⟨e1, e', k1, k2, k3, k4⟩
  · rw [k2] at h
    cases h
  have hafter : ∀ e, rsAfter A (n + 2) (rsAnalyseFull A (n + 2) Y k) Y s false v = .error e → e = .notBrivla := by
    intro e h
    have hyany : v.any (· == 'y') = false := by
      rw [Bool.eq_false_iff]
      intro h
      simp at h
      exact hy h
    unfold rsAfter at h
    rw [hat0, rsIsVowel_eq, rsIsConsonant_eq, hyany] at h
    by_cases hf : (!isVowel c0 && !isConsonant c0) = true
    · rw [if_pos hf] at h
      cases h; rfl
    rw [if_neg hf] at h
    simp only [Bool.false_eq_true, if_false, Bool.not_false, if_true] at h
    split at h
    · cases h
    · cases h; rfl
    · rename_i e2 hn hch
      refine absurd (rs_check_err ?_ hch) (by intro h; exact hn h)
      by_cases hv : Vowel c0
      · refine ⟨false, ?_⟩
        unfold rsSlinkuhi
        rw [hat0, rsIsVowel_eq, if_pos ((isVowel_iff c0).2 hv)]
      · have hc : Consonant c0 := by
          rw [← isVowel_iff] at hv
          rw [← isConsonant_iff]
          simpa [hv] using hf
        subst hv0
        obtain ⟨b, -, h2⟩ := rs_slinkuhi (A := A) (n := n) (y := s.yHyphens) (mz := s.allowMz) hcut hc hl hlv (by simp at hlen; omega)
        exact ⟨b, h2⟩
  rw [k2] at h
  cases hr : rsAfter A (n + 2) (rsAnalyseFull A (n + 2) Y k) Y s false v with
  | error e2 =>
    simp only [hr] at h
    have := hafter e2 hr
    subst this
    rcases k4 with rfl | rfl <;> (cases h; rfl)
  | ok r =>
    simp only [hr] at h
    rcases k4 with rfl | rfl <;> cases h

end Jvotci
