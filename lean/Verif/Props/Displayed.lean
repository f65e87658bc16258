import Verif.Lemmas.PartShown
import Verif.Lemmas.CmavoWord

/-!
# C66: what get_veljvo shows
-/

namespace Jvotci

open Spec

/-- **C66.** What `get_veljvo` lists for a lujvo of CLL rafsi, and for a cmevla of CLL rafsi: the rafsi in order, each as the word it stands for; if there
is none, a gismu as it is, a gismu without its last vowel with a dash behind it, anything else between dashes. -/
theorem C66_lujvo {s : Settings} {w : Str} {vs ps : List Str} (h : getVeljvo .linked s w = .ok vs) (ha : analyseBrivla .linked s w = .ok (.lujvo, ps)) :
    All2 ShownRafsi (ps.filter (fun x => ¬ Hyphen x)) vs := by
  obtain ⟨t, qs, h1, -, -, h4⟩ := getVeljvo_entries h
  rw [ha] at h1
  cases h1
  have hr := (C41_only_lujvo ha).2.reading
  obtain ⟨e, r', rfl, h5, h'⟩ := entries_reading (rest := []) hr.links hr.last (fun x _ => ⟨fun _ => .inl rfl, fun _ _ _ e => by cases e⟩)
    (by rw [List.append_nil]; exact h4)
  cases h'
  rw [List.append_nil]
  exact h5

example : getVeljvo .linked {} s%"latmotkelrykerlo" = .ok [s%"mlatu", s%"-mot-", s%"kelr-", s%"kerlo"] ∧
    analyseBrivla .linked {} s%"latmotkelrykerlo" = .ok (.lujvo, [s%"lat", s%"mot", s%"kelr", s%"y", s%"kerlo"]) := by decide +kernel

/-- **C66.** A rafsi is shown in one way only. -/
theorem C66_one_way {r e e' : Str} (h : ShownRafsi r e) (h' : ShownRafsi r e') : e = e' := by
  have stem : ∀ {w w'}, StemOf r w → StemOf r w' → w = w' := by
    rintro w w' ⟨-, -, -, a, v, b, e1, rfl, ⟨rs, h1⟩, h2⟩ ⟨-, -, -, a', v', b', e2, rfl, ⟨rs', h1'⟩, h2'⟩
    rw [e1] at e2
    rcases List.append_eq_append_iff.1 e2 with ⟨k, rfl, e⟩ | ⟨k, rfl, e⟩
    · cases k with
      | nil => cases e; rfl
      | cons x k => cases e; exact absurd h1 (h2' v (by simp) rs)
    · cases k with
      | nil => cases e; rfl
      | cons x k => cases e; exact absurd h1' (h2 v' (by simp) rs')
  have stands : ∀ {w w'}, StandsFor r w → StandsFor r w' → w = w' := by
    rintro w w' (h1 | ⟨h1, rs, h2, h3⟩) (h1' | ⟨h1', rs', h2', h3'⟩)
    · exact stem h1 h1'
    · exact absurd h1 (h1' w)
    · exact absurd h1' (h1 w')
    · exact (C29_rafsi_table h2' h3').2.2.1 w rs h2 h3
  rcases h with h | ⟨h, rfl⟩ <;> rcases h' with h' | ⟨h', rfl⟩
  · exact stands h h'
  · exact absurd h (h' e)
  · exact absurd h' (h e')
  · rfl

example : ShownRafsi s%"lat" s%"mlatu" := .inl (.inr ⟨fun w h => absurd h.1 (by decide), [s%"lat"], by decide +kernel, by simp⟩)

/-- **C66.** What `get_veljvo` lists for an extended lujvo: the parts between its y, in order. -/
theorem C66_extended {s : Settings} {w : Str} {vs ps : List Str} (hlen : w.length < 10 ^ 92) (h : getVeljvo .linked s w = .ok vs)
    (ha : analyseBrivla .linked s w = .ok (.extendedLujvo, ps)) :
    ∃ parts, joinParts parts = reading w ∧ joinPieces parts = ps ∧ ExtendedLujvo s parts ∧ PartsShown s false parts vs := by
  obtain ⟨t, qs, h1, -, -, h4⟩ := getVeljvo_entries h
  rw [ha] at h1
  cases h1
  obtain ⟨parts, e, rfl, hE⟩ := (C47_extended (Nat.lt_of_lt_of_le hlen (Nat.pow_le_pow_right (by decide) (by decide)))).1 ha
  refine ⟨parts, e, rfl, hE, parts_shown (fun a p b hab => ?_) h4⟩
  have hok := hE.parts a p b hab
  have hc := core_length (by rw [← hab]; exact e : joinParts (a ++ p :: b) = reading w)
  have := reading_length w
  refine ⟨⟨_, _, _, by simpa using hok⟩, by omega, ?_⟩
  rintro rfl
  refine ⟨?_, fun h => by cases h⟩
  cases ht : p.trail with
  | false => rfl
  | true => cases (hok.trail ht).1

/-- **C66.** What `get_veljvo` lists for a cmevla that is a compound. -/
theorem C66_cmevla {s : Settings} {w : Str} {vs ps : List Str} (hlen : w.length < 10 ^ 92) (h : getVeljvo .linked s w = .ok vs)
    (ha : analyseBrivla .linked s w = .ok (.cmevla, ps)) :
    (CmevlaPieces s ps ∧ All2 ShownRafsi (ps.filter (fun x => ¬ Hyphen x)) vs) ∨
    ∃ parts, joinParts parts = reading w ∧ joinPieces parts = ps ∧ ExtendedCmevla s parts ∧ PartsShown s true parts vs := by
  obtain ⟨t, qs, h1, -, -, h4⟩ := getVeljvo_entries h
  rw [ha] at h1
  cases h1
  rcases C49_only_cmevla (Nat.lt_of_lt_of_le hlen (Nat.pow_le_pow_right (by decide) (by decide))) ha with ⟨-, hC⟩ | ⟨parts, e, rfl, hE⟩
  · left
    refine ⟨hC, ?_⟩
    obtain ⟨e, r', rfl, h5, h'⟩ := entries_reading (rest := []) hC.reading.links hC.reading.last
      (fun x _ => ⟨fun _ => .inl rfl, fun _ _ _ e => by cases e⟩) (by rw [List.append_nil]; exact h4)
    cases h'
    rw [List.append_nil]
    exact h5
  · right
    refine ⟨parts, e, rfl, hE, parts_shown (fun a p b hab => ?_) h4⟩
    have hok := hE.parts a p b hab
    have hc := core_length (by rw [← hab]; exact e : joinParts (a ++ p :: b) = reading w)
    have := reading_length w
    refine ⟨⟨_, _, _, by simpa using hok⟩, by omega, ?_⟩
    rintro rfl
    have ha : a ≠ [] := by
      rintro rfl
      have := hE.two
      rw [hab] at this
      simp at this
    obtain ⟨c, hc, hcc⟩ := hE.consonant
    rw [hab, joinParts_last ha] at hc
    have h1 : ¬ Consonant '\'' := by decide
    have h2 : ¬ Consonant 'y' := by decide
    cases ht : p.trail with
    | true =>
      simp only [YPart.text, ht, if_true, ← List.append_assoc, List.getLast?_append, List.getLast?_singleton, Option.some_or, Option.some.injEq] at hc
      subst hc
      exact absurd hcc h1
    | false =>
      refine ⟨rfl, fun _ => ?_⟩
      by_cases hn : p.core = []
      · exfalso
        cases hl : p.lead <;> simp [YPart.text, ht, hl, hn] at hc <;> subst hc
        · exact h2 hcc
        · exact h1 hcc
      · refine ⟨c, ?_, hcc⟩
        have : (p.text).getLast? = p.core.getLast? := by simp [YPart.text, ht, List.getLast?_append, List.getLast?_eq_some_getLast hn]
        rw [List.getLast?_append, this, List.getLast?_eq_some_getLast hn] at hc
        rw [List.getLast?_eq_some_getLast hn]
        exact hc

example : getVeljvo .linked {} s%"spageti'aiymlatu" = .ok [s%"spageti'ai-", s%"mlatu"] := by decide +kernel
example : getVeljvo .linked {} s%"spageti'ymlatu" = .ok [s%"spageti", s%"mlatu"] := by decide +kernel
example : getVeljvo .linked {} s%"mlatyspageti" = .ok [s%"mlatu", s%"spageti"] := by decide +kernel
example : getVeljvo .linked { yHyphens := .allowY, expRafsi := true } s%"mlatystrai" = .ok [s%"mlatu", s%"strai-"] := by decide +kernel
example : getVeljvo .linked { yHyphens := .allowY, expRafsi := true } s%"strai'ymlatu" = .ok [s%"-strai-", s%"mlatu"] := by decide +kernel
example : getVeljvo .linked { yHyphens := .allowY, expRafsi := true } s%"mlatyfa'u'u" = .ok [s%"mlatu", s%"-fa'u'u-"] := by decide +kernel
example : getVeljvo .linked {} s%"mlatyspagetin" = .ok [s%"mlatu", s%"spagetin-"] := by decide +kernel

end Jvotci
