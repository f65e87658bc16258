import Verif.Lemmas.RafsiBlocks
import Verif.Lemmas.Segregate

/-!
# Words with r or n behind the first rafsi, read with FORCE_Y
-/

namespace Jvotci

open Spec

/-- With FORCE_Y the r or n is part of no reading. -/
theorem forceY_unread {mz : Bool} {p p' r : Str} {c a x d : Char} (hpe : p = c :: a :: p') (hcc : Consonant c) (hav : Vowel a)
    (hp3 : (∃ b, p' = [b] ∧ Vowel b) ∨ ∃ b, p' = ['\'', b] ∧ Vowel b) (hnp : ¬ InitialPair x d) (hdc : Consonant d)
    (hy : 'y' ∉ p ++ x :: d :: r) {qs : List Str} (h : Reading .forceY mz qs) : qs.flatten ≠ p ++ x :: d :: r := by
  intro e
  obtain ⟨z, hz, hzr⟩ := h.first
  cases qs with
  | nil => cases hz
  | cons z' qs =>
    cases hz
    have hac : ¬ Consonant a := fun h => vowel_not_consonant hav h
    have hne : ¬ Consonant '\'' := by decide
    have hnv : ¬ Vowel '\'' := by decide
    have hzp : z = p := by
      rw [hpe, List.flatten_cons] at e
      rw [hpe]
      generalize qs.flatten = F at e
      clear hpe hy
      rcases hp3 with ⟨b, rfl, hb⟩ | ⟨b, rfl, hb⟩
      · have hbc : ¬ Consonant b := fun h => vowel_not_consonant hb h
        cases hzr with
        | cvv => cases e; rfl
        | cvhv => cases e; exact absurd hb hnv
        | cvc _ _ hh => cases e; exact absurd hh hbc
        | ccv hi => cases e; exact absurd ((isConsonant_iff _).1 (initial_cons hi).2) hac
        | cvcc _ _ hp => cases e; exact absurd hp.1 hbc
        | ccvc hi => cases e; exact absurd ((isConsonant_iff _).1 (initial_cons hi).2) hac
        | gismu hg =>
          cases hg with
          | cvccv _ _ hp => cases e; exact absurd hp.1 hbc
          | ccvcv hi => cases e; exact absurd ((isConsonant_iff _).1 (initial_cons hi).2) hac
      · cases hzr with
        | cvv _ _ hh => cases e; exact absurd hh hnv
        | cvhv => cases e; rfl
        | cvc _ _ hh => cases e; exact absurd hh hne
        | ccv hi => cases e; exact absurd ((isConsonant_iff _).1 (initial_cons hi).2) hac
        | cvcc _ _ hp => cases e; exact absurd hp.1 hne
        | ccvc hi => cases e; exact absurd ((isConsonant_iff _).1 (initial_cons hi).2) hac
        | gismu hg =>
          cases hg with
          | cvccv _ _ hp => cases e; exact absurd hp.1 hne
          | ccvcv hi => cases e; exact absurd ((isConsonant_iff _).1 (initial_cons hi).2) hac
    subst hzp
    have e2 : qs.flatten = x :: d :: r := by
      rw [List.flatten_cons] at e
      exact List.append_cancel_left e
    cases qs with
    | nil => cases e2
    | cons q2 qs =>
      have hq2 : Rafsi mz q2 := by
        have := h.links [] z q2 qs rfl
        cases this with
        | rafsi _ hr => exact hr
        | y => exact absurd (by rw [← e]; simp) hy
        | apostropheY => exact absurd (by rw [← e]; simp) hy
        | rOrN h => exact absurd rfl h
        | afterY _ hr => exact hr
        | afterR hr => exact hr
        | afterN hr => exact hr
      obtain ⟨a1, b1, t, rfl⟩ : ∃ a1 b1 t, q2 = a1 :: b1 :: t := by
        cases hq2 with
        | gismu hg => cases hg <;> exact ⟨_, _, _, rfl⟩
        | _ => exact ⟨_, _, _, rfl⟩
      · rw [List.flatten_cons, List.cons_append, List.cons_append, List.cons.injEq, List.cons.injEq] at e2
        obtain ⟨rfl, rfl, -⟩ := e2
        exact hnp (rafsi_pair_initial hq2 rfl (fun h => vowel_not_consonant h hdc))

/-- Of the cuts behind a vowel, with no two consonants in front, only the one behind the first rafsi leaves a possible beginning of a word. -/
theorem cut_behind_first {p p' r u t : Str} {c a x d : Char} (hpe : p = c :: a :: p') (hcc : Consonant c) (hav : Vowel a)
    (hp3 : (∃ b, p' = [b] ∧ Vowel b) ∨ ∃ b, p' = ['\'', b] ∧ Vowel b) (hxc : Consonant x) (hdc : Consonant d)
    (e : p ++ x :: d :: r = u ++ t) (hu : ∃ a, u.getLast? = some a ∧ Vowel a) (ht : ConsonantInitial t ∨ Onglide t)
    (hadj : ∀ a b, Adjacent u a b → ¬ (Consonant a ∧ Consonant b)) : t = x :: d :: r := by
  obtain ⟨g, hg, hgv⟩ := hu
  have hxv : ¬ Vowel x := fun h => vowel_not_consonant h hxc
  rcases List.append_eq_append_iff.1 e with ⟨k, rfl, e2⟩ | ⟨k, e1, rfl⟩
  · cases k with
    | nil => simpa using e2.symm
    | cons k1 k =>
      exfalso
      rw [List.cons_append, List.cons.injEq] at e2
      obtain ⟨rfl, e2⟩ := e2
      cases k with
      | nil => simp at hg; exact hxv (hg ▸ hgv)
      | cons k2 k =>
        rw [List.cons_append, List.cons.injEq] at e2
        obtain ⟨rfl, -⟩ := e2
        exact hadj x d ⟨p, k, by simp⟩ ⟨hxc, hdc⟩
  · rw [hpe] at e1
    rcases u with _ | ⟨u1, u⟩
    · simp at hg
    · rw [List.cons_append, List.cons.injEq] at e1
      obtain ⟨rfl, e1⟩ := e1
      rcases u with _ | ⟨u2, u⟩
      · simp at hg; subst hg; exact absurd hcc (fun h => vowel_not_consonant hgv h)
      · rw [List.cons_append, List.cons.injEq] at e1
        obtain ⟨rfl, e1⟩ := e1
        rcases hp3 with ⟨b, rfl, hb⟩ | ⟨b, rfl, hb⟩
        · rcases u with _ | ⟨u3, u⟩
          · simp at e1; subst e1
            exfalso
            rcases ht with h | h
            · exact vowel_not_consonant hb h
            · exact hxv h.2
          · simp at e1
            obtain ⟨-, rfl, rfl⟩ := e1
            rfl
        · rcases u with _ | ⟨u3, _ | ⟨u4, u⟩⟩
          · simp at e1; subst e1
            exfalso
            rcases ht with h | h
            · exact absurd (show Consonant '\'' from h) (by decide)
            · exact absurd h.1 (by decide)
          · simp at e1
            obtain ⟨rfl, rfl⟩ := e1
            simp at hg; subst hg; exact absurd hgv (by decide)
          · simp at e1
            obtain ⟨-, -, rfl, rfl⟩ := e1
            rfl

/-- "to", a consonant and a vowel are not how a lujvo begins. -/
theorem to_unread {y : YHyphens} {mz : Bool} {c a : Char} {r : Str} (hcc : Consonant c) (hav : Vowel a) {qs : List Str} (h : Reading y mz qs)
    (h2 : 2 ≤ qs.length) : qs.flatten ≠ s%"to" ++ (c :: a :: r) := by
  intro e
  have hac : ¬ Consonant a := fun h => vowel_not_consonant hav h
  have hcv : ¬ Vowel c := fun h => vowel_not_consonant h hcc
  have ho : ¬ Consonant 'o' := by decide
  obtain ⟨z, hz, hzr⟩ := h.first
  obtain ⟨z', q, qs, rfl⟩ : ∃ z q t, qs = z :: q :: t := by
    rcases qs with _ | ⟨z, _ | ⟨q, t⟩⟩
    · simp at h2
    · simp at h2
    · exact ⟨z, q, t, rfl⟩
  · cases hz
    rw [List.flatten_cons] at e
    have hz3 : z = ['t', 'o', c] := by
      generalize (q :: qs).flatten = F at e
      cases hzr with
      | cvv _ _ hh => cases e; exact absurd hh hcv
      | cvhv => cases e; exact absurd hcc (by decide)
      | cvc => cases e; rfl
      | ccv hi => cases e; exact absurd ((isConsonant_iff _).1 (initial_cons hi).2) ho
      | cvcc _ _ hp => cases e; exact absurd hp.2.1 hac
      | ccvc hi => cases e; exact absurd ((isConsonant_iff _).1 (initial_cons hi).2) ho
      | gismu hg =>
        cases hg with
        | cvccv _ _ hp => cases e; exact absurd hp.2.1 hac
        | ccvcv hi => cases e; exact absurd ((isConsonant_iff _).1 (initial_cons hi).2) ho
    subst hz3
    have hq : ∀ {b : Char} {t : Str}, q = b :: t → b = a := by
      rintro b t rfl
      rw [List.flatten_cons] at e
      simp at e
      exact e.1
    have hr : ¬ Rafsi mz q := by
      intro hr
      obtain ⟨b, t, rfl, hb⟩ := rafsi_first hr
      rw [hq rfl] at hb
      exact hac ((isConsonant_iff _).1 hb)
    have := h.links [] _ q qs rfl
    cases this with
    | rafsi _ h => exact hr h
    | y => have := hq rfl; subst this; revert hav; decide
    | apostropheY => have := hq rfl; subst this; revert hav; decide
    | rOrN _ _ _ h =>
      simp at h
      rcases h with rfl | rfl
      · have := hq rfl; subst this; revert hav; decide
      · have := hq rfl; subst this; revert hav; decide
    | afterY h => simp at h

end Jvotci
