import Verif.Lemmas.RsTarmi

/-!
# The helper functions of the Rust crate (C85)
-/

namespace Jvotci

open Spec

/-- **C85 (letters, gismu, vowels).** The Rust crate and the Python version know the same vowels, consonants, on-glides and
Lojban words, the same strings with a consonant among the letters looked at, the same gismu, and cut every run of vowels alike:
one cuts it where the other does, and refuses it when the other does. -/
theorem C85_same (c : Char) (s : Str) (mz : Bool) :
    rsIsVowel c = isVowel c ∧ rsIsConsonant c = isConsonant c ∧ rsIsGlide s = isGlide s ∧ rsIsOnlyLojban s = isOnlyLojban s ∧
      rsContainsConsonant s = containsConsonant s ∧ rsIsGismuShape s = isGismuShape s ∧ (rsIsGismu mz s ↔ Gismu mz s) ∧
      (∀ vs, rsSplitVowelCluster s = .ok vs ↔ splitVowelCluster s = .ok vs) ∧
      ((∃ e, rsSplitVowelCluster s = .error e) ↔ ∃ e, splitVowelCluster s = .error e) := by
  have hsp : rsSplitVowelCluster s = (splitVowelCluster s).mapError toJ := rsSplitVowelsLoop_eq _ _ _
  refine ⟨by rw [rsIsVowel_eq], by rw [rsIsConsonant_eq], rsIsGlide_eq s, rsIsOnlyLojban_eq s, rsContainsConsonant_eq s,
    rsIsGismuShape_eq s, by rw [rsIsGismu_eq]; exact isGismu_iff, ?_, ?_⟩
  · intro vs
    rw [hsp]
    cases splitVowelCluster s <;> simp [Except.mapError]
  · rw [hsp]
    cases splitVowelCluster s <;> simp [Except.mapError]

example : rsSplitVowelCluster s%"aia" = .ok [s%"a", s%"ia"] := by rw [(C85_same 'a' _ true).2.2.2.2.2.2.2.1]; decide
example : rsIsGismu false s%"klama" := (C85_same 'a' s%"klama" false).2.2.2.2.2.2.1.2 (isGismu_iff.1 (by decide))

/-- **C85 (shapes).** The Rust crate gives a string the shape the Python version gives it exactly when it is not an
`OddShape`; and every CLL rafsi and gismu gets the same shape. -/
theorem C85_shape (r : Str) : (rsRafsiTarmi r = rafsiTarmi r ↔ ¬ OddShape r) ∧ ∀ mz, Rafsi mz r → rsRafsiTarmi r = rafsiTarmi r :=
  ⟨rsRafsiTarmi_iff r, fun _ h => rsTarmi_rafsi h⟩

/-- **C85 (odd shapes).** To an odd shape other than `'y` the Python version gives no shape, and the Rust crate CCV, CVCC or CCVC. -/
theorem C85_odd_shape (r : Str) (h : OddShape r) (hy : r ≠ s%"'y") :
    rafsiTarmi r = .other ∧ (rsRafsiTarmi r = .ccv ∨ rsRafsiTarmi r = .cvcc ∨ rsRafsiTarmi r = .ccvc) := oddShape_says h hy

example : rsRafsiTarmi s%"ba'i" = .cvhv := ((C85_shape _).2 true (isValidRafsi_iff.1 (by decide))).trans (by decide)
example : OddShape s%"b'a" := .three (by decide) (by decide) (by decide) (by decide)
example : rsRafsiTarmi s%"b'a" = .ccv ∧ rafsiTarmi s%"b'a" = .other := by decide
example : rsRafsiTarmi s%"baic" = .cvcc ∧ rafsiTarmi s%"baic" = .other := by decide
example : rsRafsiTarmi s%"'y" = .other ∧ rafsiTarmi s%"'y" = .hyphen := by decide

/-- **C85 (rafsi).** The Rust crate takes a string for a CLL rafsi exactly when it is one, or it is an `OddRafsi` (such as "blay"). -/
theorem C85_rafsi (mz : Bool) (r : Str) : rsIsValidRafsi mz r ↔ Rafsi mz r ∨ OddRafsi r := by
  by_cases ho : OddRafsi r
  · refine ⟨fun _ => .inr ho, fun _ => ?_⟩
    have h1 := mt (rsIsValidRafsi_iff mz r).1 (not_not_intro ho)
    have h2 : isValidRafsi mz r = false := by
      rw [Bool.eq_false_iff]
      intro h
      have hr := isValidRafsi_iff.1 h
      cases ho with
      | mk hi hv hz hc ha =>
        cases hr with
        | gismu h => cases h
        | ccvc _ _ h => exact hc h
        | cvcc _ h _ => exact absurd ((isConsonant_iff _).2 (initial_consonants hi).2) (by simp [isVowel_not_isConsonant ((isVowel_iff _).2 h)])
        | cvhv _ _ _ => exact absurd hv (by decide)
    rw [h2] at h1
    simpa using h1
  · rw [(rsIsValidRafsi_iff mz r).2 ho, isValidRafsi_iff]
    exact ⟨.inl, fun h => h.resolve_right ho⟩

example : rsIsValidRafsi false s%"blay" ∧ ¬ Rafsi false s%"blay" :=
  ⟨(C85_rafsi _ _).2 (.inr (.mk (by decide) (by decide) (by decide) (by decide) (by decide))), mt isValidRafsi_iff.2 (by decide)⟩
example : ¬ rsIsValidRafsi false s%"bamz" := by
  rw [C85_rafsi]
  rintro (h | h)
  · exact absurd (isValidRafsi_iff.2 h) (by decide)
  · cases h; contradiction

/-- **C85 (scores).** The Rust crate gives a piece the score the Python version gives it exactly when the piece, without the
hyphens at its ends, is not an `OddShape`. -/
theorem C85_score (r : Str) : rsScore r = score r ↔ ¬ OddShape (stripHyphens r) := rsScore_iff r

example : rsScore s%"ba'i'y" = score s%"ba'i'y" := (C85_score _).2 (rafsi_not_odd (mz := true) (isValidRafsi_iff.1 (by decide)))
example : rsScore s%"blay" = score s%"blay" := by decide
example : rsScore s%"baic" ≠ score s%"baic" := by decide

/-- **C85 (clusters).** At the beginning of a zi'evla the Rust crate lets the same consonant clusters stand as the Python
version, and in the middle exactly the same and those of `OddCluster`. The empty string is no cluster; for it the Rust function
answers no and the Python function yes. -/
theorem C85_cluster (c : Str) :
    (c ≠ [] → rsIsZihevlaInitialCluster c = isZihevlaInitialCluster c) ∧
      (rsIsZihevlaMiddleCluster c = true ↔ isZihevlaMiddleCluster c = true ∨ OddCluster c) ∧
      (OddCluster c → isZihevlaMiddleCluster c = false) := by
  have hodd : OddCluster c → isZihevlaMiddleCluster c = false := by
    rintro ⟨h1, h2, h3, h4⟩
    rw [middle_three, Bool.eq_false_iff]
    intro h
    simp only [Bool.or_eq_true, Bool.and_eq_true, isSonorant] at h
    rcases h with h | h
    · exact h2 (by simpa using h)
    · exact h4 ((validPairs_contains (mz := false)).1 h.1)
  refine ⟨rsIsZihevlaInitialCluster_eq, ?_, hodd⟩
  by_cases ho : OddCluster c
  · refine ⟨fun _ => .inr ho, fun _ => ?_⟩
    have h1 := mt (rsIsZihevlaMiddleCluster_iff c).1 (not_not_intro ho)
    rw [hodd ho] at h1
    simpa using h1
  · rw [(rsIsZihevlaMiddleCluster_iff c).2 ho]
    exact ⟨.inl, fun h => h.resolve_right ho⟩

example : rsIsZihevlaMiddleCluster s%"bpl" = true ∧ isZihevlaMiddleCluster s%"bpl" = false :=
  have ho : OddCluster s%"bpl" := .mk (by decide) (by decide) (by decide) (by decide)
  ⟨(C85_cluster _).2.1.2 (.inr ho), (C85_cluster _).2.2 ho⟩
example : rsIsZihevlaMiddleCluster s%"rstr" = true := (C85_cluster _).2.1.2 (.inl (by decide))
example : rsIsZihevlaInitialCluster [] = false ∧ isZihevlaInitialCluster [] = true := by decide

/-- **C85 (forms).** For every rafsi (a string that is not empty) and every kind of rafsi a list of forms is made for, the
Rust crate and the Python version make the same list. -/
theorem C85_forms (r : Str) (hr : r ≠ []) (t : RType) (ht : t ≠ .tarmi .hyphen ∧ t ≠ .tarmi .other) (first last : Bool)
    (c : Consonants) (glides : Bool) :
    ∃ os, getRafsiForRafsi r t first last c glides = .ok os ∧ rsGetRafsiForRafsi r t first last c glides = .ok os :=
  rsGetRafsiForRafsi_eq hr ht first last c glides

example : rsGetRafsiForRafsi s%"kla" (.tarmi .ccv) true false .cluster false = .ok [(s%"kla", 2), (s%"kla'y", 2)] := by decide

end Jvotci
