import Verif.Lemmas.Legal

/-!
# Helper lemma: the result of the search
-/

namespace Jvotci

open Spec

theorem search_built {b : Build} {s : Settings} {g : Bool} {vs : List Str} {ll : List (List RafsiOpt)} {best : Best}
    {r : Str × Int × List (Nat × Nat)} : getRafsiListList (program b) s vs = .ok ll → searchStages (combineOpts s g) ll = .ok best →
    pickBest g best = some r → LujvoOf b s g vs r.1 r.2.1 ∧ ∀ w sc, LujvoOf b s g vs w sc → r.2.1 ≤ sc := by
  intro hll hbest hr
  constructor
  · obtain ⟨l, hm, hl⟩ := pickBest_mem hr
    obtain ⟨rs, c, hp, hbt, l', hl', he⟩ := searchStages_sound hbest _ hm
    simp only [Prod.mk.injEq] at he
    obtain ⟨⟨ht, hn, hll'⟩, he⟩ := he
    subst hll'
    exact (lujvoOf_iff hll).2 ⟨rs, c, l, hp, hbt, ht.symm, hn.symm, hl', hl, by rw [he], by rw [he]⟩
  · intro w sc hw
    obtain ⟨rs, c, l, hp, hb, ht, hn, hl, hre, rfl, rfl⟩ := (lujvoOf_iff hll).1 hw
    obtain ⟨e, he, hk, hv⟩ := rafsiLists_complete hll hbest rs c l hp hb hl
    obtain ⟨k, v⟩ := e
    subst hk
    rw [ht, hn] at he
    exact Int.le_trans (pickBest_best.1 r hr l v he hre) hv

/-- Everything `get_lujvo` may return, and why it may give up. -/
theorem getLujvoFromList_best {b : Build} {s : Settings} {g : Bool} {vs : List Str} :
    (∀ r, getLujvoFromList (program b) s g vs = .ok r →
      LujvoOf b s g vs r.1 r.2.1 ∧ ∀ w sc, LujvoOf b s g vs w sc → r.2.1 ≤ sc) ∧
    (getLujvoFromList (program b) s g vs = .error .noLujvo →
      (∀ w sc, LujvoOf b s g vs w sc → 10 ^ 100 ≤ sc) ∨
      (b = .linked ∧ g = false ∧ ∃ w sc, LujvoOf b s g vs w sc ∧ (∀ w' sc', LujvoOf b s g vs w' sc' → sc ≤ sc') ∧
        (program b).slinkuhi s.yHyphens s.allowMz w = .ok true)) := by
  constructor
  · intro r h
    unfold getLujvoFromList at h
    obtain ⟨ll, hll, h⟩ := bind_ok h
    obtain ⟨best, hbest, h⟩ := bind_ok h
    split at h
    · cases h
    · rename_i r' hr
      have : r' = r := by
        cases g with
        | true => simpa using h
        | false =>
          simp only [Bool.not_false, if_true] at h
          obtain ⟨sl, -, h⟩ := bind_ok h
          cases sl with
          | true => simp at h
          | false => simpa using h
      subst this
      exact search_built hll hbest hr
  · intro h
    unfold getLujvoFromList at h
    rcases bind_fails h with h | ⟨ll, hll, h⟩
    · left
      rintro w sc ⟨zs, hy, hrep, -⟩
      exact absurd hrep (rafsiListListFrom_not h zs)
    rcases bind_fails h with h | ⟨best, hbest, h⟩
    · exact absurd h ((errs_searchStages _ _).not (by simp))
    split at h
    · rename_i hr
      left
      intro w sc hw
      obtain ⟨rs, c, l, hp, hb, ht, hn, hl, hre, rfl, rfl⟩ := (lujvoOf_iff hll).1 hw
      obtain ⟨e, he, hk, hv⟩ := rafsiLists_complete hll hbest rs c l hp hb hl
      obtain ⟨k, v⟩ := e
      subst hk
      rw [ht, hn] at he
      exact Int.le_trans (pickBest_best.2 hr l v he hre) hv
    · rename_i r hr
      obtain ⟨h1, h2⟩ := search_built hll hbest hr
      right
      cases g with
      | true => simp at h
      | false =>
        simp only [Bool.not_false, if_true] at h
        rcases bind_fails h with h | ⟨sl, hsl, h⟩
        · exfalso
          unfold slinkuhiInJvozba at h
          cases b with
          | pinned => cases h
          | linked =>
            exact ((good_program .linked 0).slinkuhi _ _ _).not (by rw [program_build]; simp [slinkuhiErrs, nameErrs]) h
        · cases sl with
          | false => simp at h
          | true =>
            cases b with
            | pinned => cases hsl
            | linked => exact ⟨rfl, rfl, _, _, h1, h2, hsl⟩

end Jvotci
