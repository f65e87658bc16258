import Verif.Lemmas.Zih

/-!
# C32, C39: syllables and zi'evla
-/

namespace Jvotci

open Spec

/-- **C32.** `split_vowel_cluster` finds the syllables of a run of vowels exactly when there are any: the
syllables spell the run, each is a vowel or diphthong with or without an on-glide, all but the first have an
on-glide, and no on-glide follows a diphthong that ends in the same vowel. -/
theorem C32_split_vowel_cluster {v : Str} {syls : List Str} :
    splitVowelCluster v = .ok syls ↔ syls.flatten = v ∧ VowelRun syls := splitVowelCluster_iff

/-- **C32**, a run has at most one such reading. -/
theorem C32_unique {l l' : List Str} (h : VowelRun l) (h' : VowelRun l') (e : l.flatten = l'.flatten) : l = l' := by
  have h1 := splitVowelCluster_iff.2 ⟨e, h⟩
  have h2 := splitVowelCluster_iff.2 ⟨rfl, h'⟩
  rw [h1] at h2
  cases h2
  rfl

/-- **C32**, the pieces of a reading. -/
theorem C32_pieces {v : Str} {syls : List Str} (h : splitVowelCluster v = .ok syls) :
    syls.flatten = v ∧ (∀ s ∈ syls, Nucleus s ∨ Glided s) ∧ (∀ s ∈ syls.tail, Glided s) := by
  obtain ⟨h1, h2⟩ := splitVowelCluster_iff.1 h
  refine ⟨h1, ?_⟩
  clear h h1
  induction h2 with
  | one h => exact ⟨by simpa using h, by simp⟩
  | @more l s hl hs hc ih =>
    have hne : l ≠ [] := by rintro rfl; exact vowelRun_ne hl rfl
    refine ⟨?_, ?_⟩
    · intro x hx
      rcases List.mem_append.1 hx with hx | hx
      · exact ih.1 x hx
      · simp at hx; subst hx; exact .inr hs
    · intro x hx
      rw [List.tail_append_of_ne_nil hne] at hx
      rcases List.mem_append.1 hx with hx | hx
      · exact ih.2 x hx
      · simp at hx; subst hx; exact hs

/-- **C32**, when there is no reading, `DecompositionError` is raised. -/
theorem C32_error {v : Str} {e : Err} (h : splitVowelCluster v = .error e) : e = .decomposition := by
  have := errs_splitVowelCluster v e h
  simpa using this

example : splitVowelCluster s%"aiua" = .ok [s%"ai", s%"ua"] := by decide +kernel
example : splitVowelCluster s%"uiau" = .ok [s%"u", s%"iau"] := by decide +kernel
example : splitVowelCluster s%"aiia" = .error .decomposition := by decide +kernel
example : splitVowelCluster s%"ae" = .error .decomposition := by decide +kernel
example : VowelRun [s%"ai", s%"ua"] := splitVowelCluster_iff.1 (by decide +kernel : splitVowelCluster s%"aiua" = _) |>.2

/-- **C39.** A word classified `ZIhEVLA` has at least four letters and at least two syllables. It has a consonant
cluster; before its first cluster `ch` there is at most one consonant; and if the word begins with it, the
cluster is a permissible initial pair, or a triple made of two of them. -/
theorem C39_zihevla {b : Build} {s : Settings} {w : Str} {ps : List Str}
    (h : analyseBrivla b s w = .ok (.zihevla, ps)) :
    4 ≤ (reading w).length ∧
    (∃ n, Syllables .nothing (reading w) n ∧ 2 ≤ n) ∧
    (∃ u ch t, reading w = u ++ ch ++ t ∧
      (∀ c ∈ ch, Consonant c) ∧ 2 ≤ ch.length ∧
      (∀ c, u.getLast? = some c → ¬ Consonant c) ∧ (∀ c, t.head? = some c → ¬ Consonant c) ∧
      (∀ x y, Adjacent u x y → ¬ (Consonant x ∧ Consonant y)) ∧
      (u.filter (fun c => Consonant c)).length ≤ 1 ∧
      (u = [] → (∃ x y, ch = [x, y] ∧ InitialPair x y) ∨
        ∃ x y z, ch = [x, y, z] ∧ InitialPair x y ∧ InitialPair y z)) := by
  obtain ⟨n, hn, ha⟩ := analyseR_ok h
  obtain ⟨-, rfl⟩ := normalise_ok hn
  generalize ht : BType.zihevla = t at ha
  cases ha with
  | gismu => cases ht
  | kaha => split at ht <;> cases ht
  | parts => split at ht <;> cases ht
  | @zihevla l e sh _ _ _ _ _ _ hz =>
    obtain ⟨h4, ⟨n, hs, h2⟩, hcl, hr⟩ := checkZihevlaOrRafsi_shape hz
    have hsh : sh = .zihevla := by
      cases sh with
      | zihevla => rfl
      | rafsi => have := (hr rfl).1; cases this
    obtain ⟨u, ch, t, hf⟩ := hcl hsh
    exact ⟨h4 rfl, ⟨n, hs, h2 (.inl rfl)⟩, u, ch, t, hf.eq, hf.consonants, hf.long, hf.before, hf.after, hf.first, hf.few, hf.initial⟩

example : analyseBrivla .linked {} s%"spageti" = .ok (.zihevla, [s%"spageti"]) := by decide +kernel
example : analyseBrivla .pinned {} s%"iglu" = .ok (.zihevla, [s%"iglu"]) := by decide +kernel
example : analyseBrivla .linked {} s%"strongo" = .ok (.zihevla, [s%"strongo"]) := by decide +kernel
example : Syllables .nothing s%"iglu" 2 :=
  .nucleus (s := s%"i") (by simp) (by decide) (.letter (.inl (by decide)) (.letter (.inl (by decide))
    (.nucleus (s := s%"u") (by simp) (by decide) .nil)))

end Jvotci
