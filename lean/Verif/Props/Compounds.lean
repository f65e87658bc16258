import Verif.Lemmas.Groups
import Verif.Props.Words

/-!
# C05, C09, C11, C12: the pieces of a decomposition
-/

namespace Jvotci

open Spec

/-- **C05.** A compound has at least two pieces that are not hyphens, begins and ends with one, has no empty
piece and no two hyphens in a row. -/
theorem C05_compounds {b : Build} {s : Settings} {w : Str} {t : BType} {ps : List Str}
    (h : analyseBrivla b s w = .ok (t, ps)) (ht : t = .lujvo ∨ t = .extendedLujvo ∨ t = .cmevla) :
    2 ≤ (ps.filter (fun p => ¬ Hyphen p)).length ∧
    (∃ p, ps.head? = some p ∧ ¬ Hyphen p) ∧ (∃ p, ps.getLast? = some p ∧ ¬ Hyphen p) ∧
    [] ∉ ps ∧ (∀ u p q v, ps = u ++ p :: q :: v → ¬ (Hyphen p ∧ Hyphen q)) := by
  obtain ⟨n, hn, ha⟩ := analyseR_ok h
  obtain ⟨hs, h2⟩ := ha.sane (by rcases ht with rfl | rfl | rfl <;> simp)
  refine ⟨h2, ?_, ?_, hs.nonempty, ?_⟩
  · cases ps with
    | nil => exact absurd rfl hs.ne
    | cons p ps => exact ⟨p, rfl, hs.first p rfl⟩
  · exact ⟨_, List.getLast?_eq_some_getLast hs.ne, hs.last _ (List.getLast?_eq_some_getLast hs.ne)⟩
  · rintro u p q v rfl
    exact hs.two.get

example : analyseBrivla .linked {} s%"voinrai" = .ok (.lujvo, [s%"voi", s%"n", s%"rai"]) := by decide +kernel
example : analyseBrivla .linked {} s%"spageti'ykerlo" = .ok (.extendedLujvo, [s%"spageti", s%"'y", s%"kerlo"]) := by
  decide +kernel
example : analyseBrivla .pinned {} s%"latker" = .ok (.cmevla, [s%"lat", s%"ker"]) := by decide +kernel

/-- **C09.** The pieces of a `LUJVO` that are not hyphens are CLL rafsi. -/
theorem C09_cll_rafsi {b : Build} {s : Settings} {w : Str} {ps : List Str}
    (h : analyseBrivla b s w = .ok (.lujvo, ps)) : ∀ p ∈ ps, Hyphen p ∨ Rafsi s.allowMz p := by
  obtain ⟨n, hn, ha⟩ := analyseR_ok h
  generalize ht : BType.lujvo = t at ha
  cases ha with
  | gismu => cases ht
  | zihevla => cases ht
  | parts => split at ht <;> cases ht
  | kaha _ _ _ _ hj =>
    intro p hp
    obtain ⟨u, v, e⟩ := List.append_of_mem hp
    rcases (jvokaha_made hj).2.1.cut e with h | h
    · exact .inl h
    · exact .inr h.1.rafsi

/-- **C09**, where the long rafsi stand: a five-letter rafsi is the last piece, and a four-letter rafsi that ends
in a consonant is followed by the hyphen `y`. -/
theorem C09_long_rafsi {b : Build} {s : Settings} {w : Str} {u v : List Str} {p : Str}
    (h : analyseBrivla b s w = .ok (.lujvo, u ++ p :: v)) :
    (p.length = 5 → v = []) ∧
    (p.length = 4 → (∃ c, p.getLast? = some c ∧ Consonant c) → ∃ v', v = s%"y" :: v') := by
  obtain ⟨l, hl, hlv⟩ := (C02_type_by_last_letter h)
  replace hlv : Vowel l := by simpa using hlv
  obtain ⟨n, hn, ha⟩ := analyseR_ok h
  obtain ⟨-, rfl⟩ := normalise_ok hn
  have hj := ha.join
  generalize ht : BType.lujvo = t at ha
  generalize hps : u ++ p :: v = ps at ha hj
  cases ha with
  | gismu => cases ht
  | zihevla => cases ht
  | parts => split at ht <;> cases ht
  | kaha _ _ _ _ hk =>
    rcases (jvokaha_made hk).2.1.cut hps.symm with h | ⟨hc, hch⟩
    · simp only [Hyphen, List.mem_cons, List.not_mem_nil, or_false] at h
      rcases h with rfl | rfl | rfl | rfl | rfl | rfl <;> simp
    · have key : (∃ c, p.getLast? = some c ∧ Consonant c) → (join v = [] ∨ ∃ t, join v = 'y' :: t) →
          ∃ v', v = s%"y" :: v' := by
        rintro ⟨c, hc1, hc2⟩ (h | ⟨t, h⟩)
        · have hv := hch.nil_of_join h
          subst hv
          rw [← hj, ← hps] at hl
          have : (join (u ++ [p])).getLast? = some c := by
            simp [join, List.getLast?_append, hc1]
          rw [this] at hl
          cases hl
          exact absurd hlv (consonant_not_vowel hc2)
        · exact hch.y_of_join h
      refine ⟨?_, ?_⟩
      · intro h5
        generalize hjv : join v = rest at hc
        cases hc with
        | gismu => exact hch.nil_of_join hjv
        | _ => simp at h5
      · intro h4 hlc
        generalize hjv : join v = rest at hc
        cases hc with
        | cvhv _ _ hv =>
          obtain ⟨c, e, hc⟩ := hlc
          simp at e; subst e
          exact absurd ((isVowel_iff _).1 hv) (consonant_not_vowel hc)
        | cvcc _ _ _ h => exact key hlc (by rw [hjv]; exact h)
        | ccvc _ _ _ h => exact key hlc (by rw [hjv]; exact h)
        | gismu hg => cases hg <;> simp at h4
        | _ => simp at h4

example : analyseBrivla .linked {} s%"cmalykerlo" = .ok (.lujvo, [s%"cmal", s%"y", s%"kerlo"]) := by decide +kernel

/-- **C11.** Under `FORCE_Y` no decomposition has an `r` or `n` hyphen. -/
theorem C11_force_y {b : Build} {s : Settings} {w : Str} {t : BType} {ps : List Str}
    (h : analyseBrivla b s w = .ok (t, ps)) (hy : s.yHyphens = .forceY) : s%"r" ∉ ps ∧ s%"n" ∉ ps := by
  obtain ⟨n, hn, ha⟩ := analyseR_ok h
  by_cases ht : t = .gismu ∨ t = .zihevla
  · obtain ⟨e, -⟩ := C04_simple_words h ht
    obtain ⟨l, hl, h2⟩ := C02_type_by_last_letter h
    have hv : Vowel l := by
      rcases h2 with h2 | h2
      · rcases ht with rfl | rfl <;> simp at h2
      · exact h2.2
    rw [e]
    constructor <;> simp only [List.mem_singleton] <;> intro e' <;> rw [← e'] at hl <;> cases hl <;>
      exact absurd hv (by decide)
  · have ht : t ≠ .gismu ∧ t ≠ .zihevla := by constructor <;> rintro rfl <;> simp at ht
    exact (ha.sane ht).1.forceY hy

example : analyseBrivla .linked { yHyphens := .forceY } s%"ba'u'ytadji" = .ok (.lujvo, [s%"ba'u", s%"'y", s%"tadji"]) := by
  decide +kernel
example : analyseBrivla .linked {} s%"ba'urtadji" = .ok (.lujvo, [s%"ba'u", s%"r", s%"tadji"]) ∧
    analyseBrivla .linked { yHyphens := .forceY } s%"ba'urtadji" = .ok (.zihevla, [s%"ba'urtadji"]) := by
  decide +kernel

/-- **C11**, the hyphens of a `LUJVO`. -/
theorem C11_lujvo_hyphens {b : Build} {s : Settings} {w : Str} {ps : List Str}
    (h : analyseBrivla b s w = .ok (.lujvo, ps)) :
    (∀ p ∈ ps, Hyphen p → p = s%"y" ∨ p = s%"r" ∨ p = s%"n" ∨ p = s%"'y") ∧
    (s.yHyphens = .standard → s%"'y" ∉ ps) := by
  obtain ⟨n, hn, ha⟩ := analyseR_ok h
  generalize ht : BType.lujvo = t at ha
  cases ha with
  | gismu => cases ht
  | zihevla => cases ht
  | parts => split at ht <;> cases ht
  | kaha _ _ _ _ hj =>
    have hc := (jvokaha_made hj).2.1
    refine ⟨?_, hc.standard⟩
    intro p hp hh
    rcases hc.mem p hp with ⟨-, h⟩ | h | h | h | h
    · exact absurd hh (rafsi_not_hyphen h)
    · exact .inl h
    · exact .inr (.inr (.inl h))
    · exact .inr (.inl h)
    · exact .inr (.inr (.inr h))

example : analyseBrivla .linked {} s%"voirli'u" = .ok (.lujvo, [s%"voi", s%"r", s%"li'u"]) := by decide +kernel

/-- **C12.** The hyphens `r` and `n` stand only after a CVV or CV'V rafsi; `n` only before `r`, and `r` only
before another consonant. -/
theorem C12_r_and_n {b : Build} {s : Settings} {w : Str} {t : BType} {ps : List Str}
    (h : analyseBrivla b s w = .ok (t, ps)) {u v : List Str} {p : Str} (hu : ps = u ++ p :: v)
    (hp : p = s%"r" ∨ p = s%"n") :
    (∃ u' q, u = u' ++ [q] ∧ ∃ c x y, Consonant c ∧ Vowel x ∧ Vowel y ∧ (q = [c, x, y] ∨ q = [c, x, '\'', y])) ∧
    (∃ q v' c, v = q :: v' ∧ q.head? = some c ∧ Consonant c ∧ (p = s%"n" ↔ c = 'r')) := by
  obtain ⟨n, hn, ha⟩ := analyseR_ok h
  have hph : Hyphen p := by rcases hp with rfl | rfl <;> decide
  have ht : t ≠ .gismu ∧ t ≠ .zihevla := by
    have key : ¬ (t = .gismu ∨ t = .zihevla) := by
      intro ht
      obtain ⟨e, -⟩ := C04_simple_words h ht
      obtain ⟨l, hl, h2⟩ := C02_type_by_last_letter h
      have hv : Vowel l := by
        rcases h2 with h2 | h2
        · rcases ht with rfl | rfl <;> simp at h2
        · exact h2.2
      have hm : p ∈ ps := by rw [hu]; simp
      rw [e] at hm
      simp only [List.mem_singleton] at hm
      rw [← hm] at hl
      rcases hp with rfl | rfl <;> cases hl <;> exact absurd hv (by decide)
    constructor <;> rintro rfl <;> simp at key
  have hs := (ha.sane ht).1
  subst hu
  refine ⟨?_, ?_⟩
  · cases hul : u.getLast? with
    | none =>
      rw [List.getLast?_eq_none_iff] at hul
      subst hul
      exact absurd hph (hs.first p rfl)
    | some q =>
      obtain ⟨u', rfl⟩ := List.getLast?_eq_some_iff.1 hul
      refine ⟨u', q, rfl, ?_⟩
      have hrn : RnOk q p := PAdj.get (u := u') (v := v) (by simpa using hs.rn)
      rcases hrn.1 hp with h | h
      · obtain ⟨a, b, c, rfl, ha, hb, hc⟩ := tarmi_cvv.1 h
        exact ⟨a, b, c, (isConsonant_iff _).1 ha, (isVowel_iff _).1 hb, (isVowel_iff _).1 hc, .inl rfl⟩
      · obtain ⟨a, b, c, rfl, ha, hb, hc⟩ := tarmi_cvhv.1 h
        exact ⟨a, b, c, (isConsonant_iff _).1 ha, (isVowel_iff _).1 hb, (isVowel_iff _).1 hc, .inr rfl⟩
  · cases v with
    | nil => exact absurd hph (hs.last p (by simp))
    | cons q v' =>
      have hrn : RnOk p q := hs.rn.get
      rcases hp with rfl | rfl
      · obtain ⟨c, h1, h2, h3⟩ := hrn.2.2 rfl
        exact ⟨q, v', c, rfl, h1, h2, by simp [h3]⟩
      · exact ⟨q, v', 'r', rfl, hrn.2.1 rfl, by decide, by simp⟩

example : analyseBrivla .linked {} s%"ba'urtadji" = .ok (.lujvo, [s%"ba'u"] ++ s%"r" :: [s%"tadji"]) := by
  decide +kernel

end Jvotci
