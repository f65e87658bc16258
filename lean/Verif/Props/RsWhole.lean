import Verif.Lemmas.RsY
import Verif.Lemmas.RsApi

/-!
# C97: what the Rust crate says of a word, whatever the word is

`rsAnalyseAll` is `analyze_brivla` of the Rust crate, whole. `A` stands for what `get_rafsi_list_list` calls; nothing is assumed of it.
The limits of recursion `n` and `k` are arbitrary.
-/

namespace Jvotci

open Spec

theorem rsAll_ok {A : RsRest} {n k : Nat} {s : Settings} {w : Str} {t : BType} {ps : List Str}
    (h : rsAnalyseAll A n k s w = .ok (t, ps)) :
    ps.flatten = rsNormalise w ∧ [] ∉ ps ∧
    (∃ l, (rsNormalise w).getLast? = some l ∧ (t = .cmevla ∧ Consonant l ∨ t ≠ .cmevla ∧ Vowel l)) ∧
    (t = .gismu ∨ t = .zihevla → ps = [rsNormalise w]) ∧ (t = .zihevla → 'y' ∉ rsNormalise w) ∧
    (t = .extendedLujvo → 'y' ∈ rsNormalise w) ∧ (t = .gismu ↔ Gismu s.allowMz (rsNormalise w)) := by
  cases k with
  | zero => unfold rsAnalyseAll at h; cases h
  | succ k =>
    unfold rsAnalyseAll rsAnalyseBrivla at h
    simp only at h
    generalize rsNormalise w = v at h ⊢
    obtain ⟨h0, h⟩ := rs_ite_ok h
    have h0 : v ≠ [] := by simpa using h0
    obtain ⟨l, hl⟩ : ∃ l, v.getLast? = some l := by
      cases hl : v.getLast? with
      | none => simp at hl; exact absurd hl h0
      | some l => exact ⟨l, rfl⟩
    rw [rsBack_of hl] at h
    simp only [rsIsConsonant_eq, rsIsVowel_eq, rsIsGismu_eq] at h
    obtain ⟨hcv, h⟩ := rs_ite_ok h
    obtain ⟨hcg, h⟩ := rs_ite_ok h
    have hlast : ∀ t0 : BType, t0 ≠ .cmevla →
        (∃ l', v.getLast? = some l' ∧ ((if isConsonant l then BType.cmevla else t0) = .cmevla ∧ Consonant l' ∨
          (if isConsonant l then BType.cmevla else t0) ≠ .cmevla ∧ Vowel l')) := by
      intro t0 ht0
      refine ⟨l, hl, ?_⟩
      cases hc : isConsonant l with
      | true => left; simpa using (isConsonant_iff l).1 hc
      | false =>
        right
        rw [hc] at hcv
        simp at hcv
        simpa [ht0] using (isVowel_iff l).1 hcv
    have hng : isConsonant l = true → isGismu s.allowMz v = false := by
      intro hc
      rw [Bool.eq_false_iff]
      intro hg
      have hv : Vowel l := by
        cases isGismu_iff.1 hg with
        | cvccv _ _ _ hv => cases hl; exact hv
        | ccvcv _ _ _ hv => cases hl; exact hv
      rw [isVowel_not_isConsonant ((isVowel_iff l).2 hv)] at hc
      cases hc
    split at h
    case isTrue hg =>
      cases h
      simp only [Bool.and_eq_true, Bool.not_eq_true'] at hg
      have := hlast .gismu (by simp)
      rw [hg.1] at this
      refine ⟨by simp, ?_, by simpa using this, fun _ => rfl, by simp, by simp, by simpa using isGismu_iff.1 hg.2⟩
      simp only [List.mem_singleton]
      exact fun e => h0 e.symm
    case isFalse hg =>
      have hg' : isGismu s.allowMz v = false := by
        cases hc : isConsonant l with
        | true => exact hng hc
        | false => rw [hc] at hg; simpa using hg
      have hgs : ¬ Gismu s.allowMz v := by
        intro hh
        rw [isGismu_iff.2 hh] at hg'
        cases hg'
      have hrest : ∀ r, (match rsAfter A n (rsAnalyseAll A n k) (rsY A n (rsAnalyseAll A n k)) s (isConsonant l) v with
          | .ok (k, parts) => .ok (k.type, parts)
          | .error e => .error e : Except RsErr (BType × List Str)) = .ok r → r = (t, ps) →
          ps.flatten = v ∧ [] ∉ ps ∧
          (∃ l, v.getLast? = some l ∧ (t = .cmevla ∧ Consonant l ∨ t ≠ .cmevla ∧ Vowel l)) ∧
          (t = .gismu ∨ t = .zihevla → ps = [v]) ∧ (t = .zihevla → 'y' ∉ v) ∧
          (t = .extendedLujvo → 'y' ∈ v) ∧ (t = .gismu ↔ Gismu s.allowMz v) := by
        rintro r hr rfl
        split at hr
        case h_2 => cases hr
        rename_i kd parts hk
        cases hr
        unfold rsAfter at hk
        obtain ⟨-, hk⟩ := rs_ite_ok hk
        split at hk
        case isTrue hy =>
          have hy : 'y' ∉ v := fun hm => by simp at hy; exact hy _ hm rfl
          obtain ⟨hc, hk⟩ := rs_ite_ok hk
          have hc : isConsonant l = false := by simpa using hc
          have := hlast .zihevla (by simp)
          rw [hc] at this
          simp only at hk
          split at hk
          · cases hk
            refine ⟨by simp, ?_, by simpa [RsKind.type] using this, fun _ => rfl, fun _ => hy, by simp [RsKind.type], ?_⟩
            · simp only [List.mem_singleton]
              exact fun e => h0 e.symm
            · simpa [RsKind.type] using hgs
          · cases hk
          · cases hk
        case isFalse hy =>
          have hy : 'y' ∈ v := by simpa using hy
          have hq : v.getLast? ≠ some '\'' := by
            rw [hl]
            rintro ⟨⟩
            revert hcv
            decide
          obtain ⟨h1, h2, rfl⟩ := rsY_flat hq hk
          have := hlast .extendedLujvo (by simp)
          refine ⟨h1, h2, ?_, ?_, ?_, ?_, ?_⟩
          · cases hc : isConsonant l <;> rw [hc] at this <;> simpa [RsKind.type] using this
          · cases isConsonant l <;> simp [RsKind.type]
          · cases isConsonant l <;> simp [RsKind.type]
          · exact fun _ => hy
          · cases isConsonant l <;> simpa [RsKind.type] using hgs
      split at h
      · rename_i parts hj
        obtain ⟨h1, h2⟩ := rsJvokaha_flat hj
        have ht : (if isConsonant l then BType.cmevla else .lujvo) = t ∧ parts = ps := by
          simp only [Except.ok.injEq, Prod.mk.injEq] at h
          exact h
        obtain ⟨ht, rfl⟩ := ht
        have := hlast .lujvo (by simp)
        rw [ht] at this
        have ht' : t = .cmevla ∨ t = .lujvo := by
          rw [← ht]
          cases isConsonant l
          · exact .inr rfl
          · exact .inl rfl
        refine ⟨h1, h2, this, ?_, ?_, ?_, ?_⟩
        · rcases ht' with rfl | rfl <;> simp
        · rcases ht' with rfl | rfl <;> simp
        · rcases ht' with rfl | rfl <;> simp
        · rcases ht' with rfl | rfl <;> simpa using hgs
      · exact hrest _ h rfl
      · exact hrest _ h rfl
      · exact hrest _ h rfl
      · cases h

/-- **C97.** The pieces that the Rust crate finds spell the word, and none of them is empty. -/
theorem C97_spell {A : RsRest} {n k : Nat} {s : Settings} {w : Str} {t : BType} {ps : List Str} (hw : ¬ StrayDot w)
    (h : rsAnalyseAll A n k s w = .ok (t, ps)) : ps.flatten = reading w ∧ [] ∉ ps := by
  obtain ⟨h1, h2, -⟩ := rsAll_ok h
  rw [(rsNormalise_iff w).2 hw] at h1
  exact ⟨h1, h2⟩

/-- **C97**, for all words: the pieces spell the word as the crate's own `normalize` writes it. -/
theorem C97_spell_own {A : RsRest} {n k : Nat} {s : Settings} {w : Str} {t : BType} {ps : List Str}
    (h : rsAnalyseAll A n k s w = .ok (t, ps)) : ps.flatten = rsNormalise w ∧ [] ∉ ps := ⟨(rsAll_ok h).1, (rsAll_ok h).2.1⟩

/-- **C97.** Cmevla end in a consonant, everything else ends in a vowel. -/
theorem C97_last_letter {A : RsRest} {n k : Nat} {s : Settings} {w : Str} {t : BType} {ps : List Str} (hw : ¬ StrayDot w)
    (h : rsAnalyseAll A n k s w = .ok (t, ps)) :
    ∃ l, (reading w).getLast? = some l ∧ (t = .cmevla ∧ Consonant l ∨ t ≠ .cmevla ∧ Vowel l) := by
  obtain ⟨-, -, h3, -⟩ := rsAll_ok h
  rwa [(rsNormalise_iff w).2 hw] at h3

/-- **C97.** A gismu and a zi'evla are one piece; a zi'evla has no y and an extended lujvo has one. -/
theorem C97_kinds {A : RsRest} {n k : Nat} {s : Settings} {w : Str} {t : BType} {ps : List Str} (hw : ¬ StrayDot w)
    (h : rsAnalyseAll A n k s w = .ok (t, ps)) :
    (t = .gismu ∨ t = .zihevla → ps = [reading w]) ∧ (t = .zihevla → 'y' ∉ reading w) ∧ (t = .extendedLujvo → 'y' ∈ reading w) := by
  obtain ⟨-, -, -, h4, h5, h6, -⟩ := rsAll_ok h
  rw [(rsNormalise_iff w).2 hw] at h4 h5 h6
  exact ⟨h4, h5, h6⟩

/-- **C97.** The words that the crate calls gismu are the gismu. -/
theorem C97_gismu_iff {A : RsRest} {n k : Nat} {s : Settings} {w : Str} {ps : List Str} (hw : ¬ StrayDot w) :
    rsAnalyseAll A n (k + 1) s w = .ok (.gismu, ps) ↔ Gismu s.allowMz (reading w) ∧ ps = [reading w] := by
  constructor
  · intro h
    obtain ⟨-, -, -, h4, -, -, h7⟩ := rsAll_ok h
    rw [(rsNormalise_iff w).2 hw] at h4 h7
    exact ⟨h7.1 rfl, h4 (.inl rfl)⟩
  · rintro ⟨hg, rfl⟩
    unfold rsAnalyseAll rsAnalyseBrivla
    rw [(rsNormalise_iff w).2 hw]
    generalize reading w = v at hg ⊢
    have hgis : isGismu s.allowMz v = true := isGismu_iff.2 hg
    have hl : ∃ l, v.getLast? = some l ∧ Vowel l := by
      cases hg with
      | cvccv _ _ _ h => exact ⟨_, rfl, h⟩
      | ccvcv _ _ _ h => exact ⟨_, rfl, h⟩
    obtain ⟨l, hl, hv⟩ := hl
    have hv := (isVowel_iff l).2 hv
    have h0 : v.isEmpty = false := by
      cases v with
      | nil => cases hl
      | cons a b => rfl
    simp only [rsBack_of hl, rsIsConsonant_eq, rsIsVowel_eq, rsIsGismu_eq, isVowel_not_isConsonant hv, hv, hgis, h0]
    rfl

/-- For the examples. -/
private def rest97 : RsRest := ⟨fun _ _ => .error .notBrivla, fun _ _ => .error .notZihevla⟩

example : ¬ StrayDot s%".SPAGET,I'YJVA" ∧ reading s%".SPAGET,I'YJVA" = s%"spageti'yjva" ∧
    rsAnalyseAll rest97 9 9 {} s%".SPAGET,I'YJVA" = .ok (.extendedLujvo, [s%"spageti", s%"'y", s%"jva"]) :=
  ⟨(rsNormalise_iff _).1 (by decide), by decide, by decide +kernel⟩
example : rsAnalyseAll rest97 9 9 {} s%"alkoholynanba" = .ok (.extendedLujvo, [s%"alko'ol", s%"y", s%"nanba"]) := by decide +kernel
example : rsAnalyseAll rest97 9 9 {} s%"spageti'ykob" = .ok (.cmevla, [s%"spageti", s%"'y", s%"kob"]) := by decide +kernel
example : rsAnalyseAll rest97 9 9 {} s%"spageti" = .ok (.zihevla, [s%"spageti"]) := by decide +kernel
example : rsAnalyseAll rest97 9 9 {} s%"latkerlo" = .ok (.lujvo, [s%"lat", s%"kerlo"]) := by decide +kernel
example : rsAnalyseAll rest97 9 9 {} s%"bangu" = .ok (.gismu, [s%"bangu"]) := by decide +kernel
example : rsAnalyseAll rest97 9 9 {} s%"vlyjva" = .error .notBrivla := by decide +kernel

end Jvotci
