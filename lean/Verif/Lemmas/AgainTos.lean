import Verif.Lemmas.Again
import Verif.Lemmas.GluedTos

/-!
# Helper lemmas: what the tosmabru test of `get_lujvo` rejects falls apart for `analyse_brivla`, too
-/

namespace Jvotci

open Spec

/-- CCV. -/
def IsCcv (q : Str) : Prop := ∃ a b c, q = [a, b, c] ∧ InitialPair a b ∧ Vowel c

/-- CCVC. -/
def IsCcvc (q : Str) : Prop := ∃ a b c d, q = [a, b, c, d] ∧ InitialPair a b ∧ Vowel c ∧ Consonant d

theorem ccv_facts {q : Str} (mz : Bool) (h : IsCcv q) : Rafsi mz q ∧ Short q ∧ (∃ c, q.getLast? = some c ∧ Vowel c) ∧ ¬ VowelRafsi q ∧ pattern q ≠ s%"CVC" := by
  obtain ⟨a, b, c, rfl, h1, h2⟩ := h
  have hb := (isConsonant_iff _).1 (initial_cons h1).2
  refine ⟨.ccv h1 h2, .inl rfl, ⟨c, rfl, h2⟩, ?_, ?_⟩
  · rintro ⟨x, y, z, hy, -, e | e⟩
    · cases e; exact vowel_not_consonant hy hb
    · simp at e
  · intro hp
    obtain ⟨x, y, z, e, -, hy, -⟩ := tarmi_cvc.1 (pattern_cvc.1 hp)
    cases e
    exact vowel_not_consonant ((isVowel_iff _).1 hy) hb

theorem ccvc_facts {q : Str} (mz : Bool) (h : IsCcvc q) : Rafsi mz q ∧ (∃ c, q.getLast? = some c ∧ Consonant c) ∧ q.length = 4 := by
  obtain ⟨a, b, c, d, rfl, h1, h2, h3⟩ := h
  exact ⟨.ccvc h1 h2 h3, ⟨d, rfl, h3⟩, rfl⟩

theorem ccv_reading {y : YHyphens} {mz : Bool} {qs : List Str} {l : Str} (h : ∀ q ∈ qs, IsCcv q) (hl : IsCcv l ∨ IsCcvc l) : Reading y mz (qs ++ [l]) := by
  have hlr : Rafsi mz l := hl.elim (fun h => (ccv_facts mz h).1) (fun h => (ccvc_facts mz h).1)
  have hall : ∀ q ∈ qs ++ [l], IsCcv q ∨ IsCcvc q := by
    intro q hq
    rcases List.mem_append.1 hq with hq | hq
    · exact .inl (h q hq)
    · simp at hq; subst hq; exact hl
  have hR : ∀ q ∈ qs ++ [l], Rafsi mz q := fun q hq => (hall q hq).elim (fun h => (ccv_facts mz h).1) (fun h => (ccvc_facts mz h).1)
  have hb : ∀ t ∈ bannedTriples, ∀ c, t.head? = some c → ¬ Vowel c := by decide
  refine ⟨?_, ⟨l, by simp, hlr⟩, ?_, ?_, ?_⟩
  · cases qs with
    | nil => exact ⟨l, rfl, hlr⟩
    | cons q qs => exact ⟨q, rfl, hR q (by simp)⟩
  · rintro p hp c a b rfl ha -
    exfalso
    rcases hall _ hp with ⟨x, y, z, e, h1, -⟩ | ⟨x, y, z, w, e, -⟩
    · cases e
      exact vowel_not_consonant ha ((isConsonant_iff _).1 (initial_cons h1).2)
    · simp at e
  · intro u p q v e
    have hp : p ∈ qs := by
      rcases List.append_eq_append_iff.1 e with ⟨k, rfl, e1⟩ | ⟨k, rfl, e1⟩
      · have := congrArg List.length e1
        simp at this
        omega
      · cases k with
        | nil =>
          have := congrArg List.length e1
          simp at this
        | cons a k =>
          injection e1 with e1 _
          subst e1
          simp
    have hq : q ∈ qs ++ [l] := by rw [e]; simp
    obtain ⟨h1, h2, ⟨c, hc, hv⟩, -⟩ := ccv_facts mz (h p hp)
    refine .rafsi h1 (hR q hq) h2 ?_ ?_
    · intro c' d h3 _ h4
      rw [hc] at h3
      cases h3
      exact absurd h4 (vowel_not_consonant hv)
    · intro c' d e t h3 _ hm
      rw [hc] at h3
      cases h3
      exact hb _ hm _ rfl hv
  · intro a b c v _ e
    have := rafsi_length (hR s%"'y" (by rw [e]; simp))
    simp at this

theorem ccvs_lujvo {s : Settings} {qs : List Str} {l : Str} (hne : qs ≠ []) (h : ∀ q ∈ qs, IsCcv q) (hl : IsCcv l) : LujvoPieces s (qs ++ [l]) := by
  have hall : ∀ q ∈ qs ++ [l], IsCcv q := by
    intro q hq
    rcases List.mem_append.1 hq with hq | hq
    · exact h q hq
    · simp at hq; subst hq; exact hl
  have hlen : ∀ q ∈ qs ++ [l], q.length = 3 := fun q hq => by obtain ⟨_, _, _, rfl, -⟩ := hall q hq; rfl
  obtain ⟨q, qs, rfl⟩ := List.exists_cons_of_ne_nil hne
  have hq := hall q (by simp)
  refine ⟨ccv_reading h (.inl hl), by simp, ?_, ?_, ?_, ?_, ?_, ?_⟩
  · obtain ⟨-, -, ⟨c, hc, hv⟩, -⟩ := ccv_facts false hl
    refine ⟨c, ?_, hv⟩
    rw [List.flatten_append]
    simp [List.getLast?_append, hc]
  · intro p r v e hv
    injection e with e _
    subst e
    exact absurd hv (ccv_facts false hq).2.2.2.1
  · intro u p r v e
    have := hlen s%"y" (by rw [e]; simp)
    simp at this
  · intro u p r v e
    have := hlen s%"'y" (by rw [e]; simp)
    simp at this
  · intro hf
    have := (ccv_facts false hq).2.2.2.2
    obtain ⟨p, r, v, e, hp, -⟩ := falls_inv hf
    injection e with e _
    subst e
    exact this hp
  · intro _
    refine ⟨q, by simp, .inr (.inr ⟨?_, (ccv_facts false hq).2.2.2.1⟩)⟩
    intro hh
    have := rafsi_notHyphen (ccv_facts false hq).1
    rw [hyphens_iff.2 hh] at this
    cases this

theorem ccvs_cmevla {s : Settings} {qs : List Str} {l : Str} (hne : qs ≠ []) (h : ∀ q ∈ qs, IsCcv q) (hl : IsCcvc l) : CmevlaPieces s (qs ++ [l]) := by
  have hlen : ∀ q ∈ qs ++ [l], 3 ≤ q.length := by
    intro q hq
    rcases List.mem_append.1 hq with hq | hq
    · obtain ⟨_, _, _, rfl, -⟩ := h q hq; simp
    · simp at hq; subst hq; rw [(ccvc_facts false hl).2.2]; omega
  obtain ⟨q, qs, rfl⟩ := List.exists_cons_of_ne_nil hne
  refine ⟨ccv_reading h (.inr hl), by simp, ?_, ?_, ?_, ?_⟩
  · obtain ⟨-, ⟨c, hc, hv⟩, -⟩ := ccvc_facts false hl
    refine ⟨c, ?_, hv⟩
    rw [List.flatten_append]
    simp [List.getLast?_append, hc]
  · intro u p r v e
    have := hlen s%"y" (by rw [e]; simp)
    simp at this
  · intro hm
    have := hlen _ hm
    simp at this
  · rintro p r v (e | e)
    · have := hlen s%"r" (by rw [e]; simp)
      simp at this
    · have := hlen s%"n" (by rw [e]; simp)
      simp at this

/-- Behind the first consonant and vowel, CVC rafsi that meet in initial pairs are CCV rafsi. -/
theorem tosm_pieces : ∀ {xs : List Str} {x0 y : Str}, pattern x0 = s%"CVC" → (∀ x ∈ xs, pattern x = s%"CVC") →
    (∀ u p q v, x0 :: xs ++ [y] = u ++ p :: q :: v → MeetInitial p q) →
    (pattern y = s%"CVCCV" ∧ ∃ a b c d e, y = [a, b, c, d, e] ∧ InitialPair c d) ∨ pattern y = s%"CVC" →
    ∃ a b m, (x0 :: xs ++ [y]).flatten = a :: b :: m ∧ x0.head? = some a ∧ Consonant a ∧ Vowel b ∧ ConsonantInitial m ∧
      ∃ qs l, m = (qs ++ [l]).flatten ∧ (∀ q ∈ qs, IsCcv q) ∧ ((IsCcv l ∧ qs ≠ []) ∨ IsCcvc l)
  | [], x0, y, h0, _, hm, hy => by
    obtain ⟨a, b, c, rfl, h1, h2, h3⟩ := tarmi_cvc.1 (pattern_cvc.1 h0)
    obtain ⟨c', p, hc, hy0, hi⟩ := hm [] _ y [] rfl
    cases hc
    rcases hy with ⟨hp, p', q, r, s, t, rfl, hi2⟩ | hp
    · cases hy0
      have hq : Vowel q ∧ Vowel t := by
        obtain ⟨_, _, _, _, _, e, -, h, -, -, h'⟩ := tarmi_cvccv.1 (pattern_cvccv.1 hp)
        cases e
        exact ⟨(isVowel_iff _).1 h, (isVowel_iff _).1 h'⟩
      exact ⟨a, b, [c, p, q, r, s, t], rfl, rfl, (isConsonant_iff _).1 h1, (isVowel_iff _).1 h2, (isConsonant_iff _).1 h3, [[c, p, q]], [r, s, t], rfl,
        by simpa using ⟨c, p, q, rfl, hi, hq.1⟩, .inl ⟨⟨r, s, t, rfl, hi2, hq.2⟩, by simp⟩⟩
    · obtain ⟨p', q, r, rfl, h4, h5, h6⟩ := tarmi_cvc.1 (pattern_cvc.1 hp)
      cases hy0
      exact ⟨a, b, [c, p, q, r], rfl, rfl, (isConsonant_iff _).1 h1, (isVowel_iff _).1 h2, (isConsonant_iff _).1 h3, [], [c, p, q, r], rfl,
        by simp, .inr ⟨c, p, q, r, rfl, hi, (isVowel_iff _).1 h5, (isConsonant_iff _).1 h6⟩⟩
  | x1 :: xs, x0, y, h0, hx, hm, hy => by
    obtain ⟨a, b, c, rfl, h1, h2, h3⟩ := tarmi_cvc.1 (pattern_cvc.1 h0)
    obtain ⟨a1, b1, m, e1, e2, -, hb1, -, qs, l, e3, h4, h5⟩ := tosm_pieces (xs := xs) (x0 := x1) (y := y) (hx x1 (by simp))
      (fun x hm => hx x (List.mem_cons_of_mem _ hm)) (fun u p q v e => hm ([a, b, c] :: u) p q v (by rw [List.cons_append, e]; rfl)) hy
    obtain ⟨c', y0, hc, hy0, hi⟩ := hm [] _ x1 (xs ++ [y]) rfl
    cases hc
    rw [e2] at hy0
    cases hy0
    refine ⟨a, b, c :: a1 :: b1 :: m, ?_, rfl, (isConsonant_iff _).1 h1, (isVowel_iff _).1 h2, (isConsonant_iff _).1 h3, [c, a1, b1] :: qs, l, ?_, ?_, ?_⟩
    · rw [List.cons_append, List.flatten_cons, e1]; rfl
    · rw [e3]; rfl
    · intro q hq
      rcases List.mem_cons.1 hq with rfl | hq
      · exact ⟨c, a1, b1, rfl, hi, hb1⟩
      · exact h4 q hq
    · rcases h5 with ⟨h, -⟩ | h
      · exact .inl ⟨h, by simp⟩
      · exact .inr h

theorem tosm_fallsOff {s : Settings} {xs : List Str} {x0 y : Str} (h0 : pattern x0 = s%"CVC") (hx : ∀ x ∈ xs, pattern x = s%"CVC")
    (hm : ∀ u p q v, x0 :: xs ++ [y] = u ++ p :: q :: v → MeetInitial p q)
    (hy : (pattern y = s%"CVCCV" ∧ ∃ a b c d e, y = [a, b, c, d, e] ∧ InitialPair c d) ∨ pattern y = s%"CVC") :
    FallsOff s (x0 :: xs ++ [y]).flatten := by
  obtain ⟨a, b, m, e, -, ha, hb, hc, qs, l, rfl, hq, hl⟩ := tosm_pieces h0 hx hm hy
  refine ⟨[a, b], _, e, .inr ⟨?_, hc⟩, ?_⟩
  · have hn : ¬ Vowel a := fun h => vowel_not_consonant h ha
    simp [pattern, hn, ha, hb]
  · by_cases hne : qs = []
    · subst hne
      rcases hl with ⟨-, h⟩ | hl
      · exact absurd rfl h
      · obtain ⟨h1, -, h3⟩ := ccvc_facts false hl
        refine .inl ⟨by simpa using h1, ?_⟩
        intro hp
        have := congrArg List.length hp
        simp [pattern, h3] at this
    · rcases hl with ⟨hl, -⟩ | hl
      · exact .inr ⟨_, rfl, .inl (ccvs_lujvo hne hq hl)⟩
      · exact .inr ⟨_, rfl, .inr (ccvs_cmevla hne hq hl)⟩

end Jvotci
