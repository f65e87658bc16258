import Verif.Lemmas.RsApi
import Verif.Lemmas.Raises

/-!
# C101: how a component has to be written for the Rust crate

`A` stands for what is not modelled of `get_rafsi_list_list`'s callees; nothing is assumed of it.
-/

namespace Jvotci

open Spec

/-- A component as it may be written: a word of Lojban letters without y; or such letters, not an apostrophe at the end, with dashes after
them and perhaps before them. -/
def Spec.WrittenComponent (v : Str) : Prop :=
  ∃ i x j, v = List.replicate i '-' ++ x ++ List.replicate j '-' ∧ x ≠ [] ∧ (∀ c ∈ x, Vowel c ∨ Consonant c ∨ c = '\'') ∧
    (j = 0 → i = 0) ∧ (0 < j → x.getLast? ≠ some '\'')

theorem rsOnlyLojban_letters {x : Str} (h : rsIsOnlyLojban x = true) : x ≠ [] ∧ ∀ c ∈ x, Vowel c ∨ Consonant c ∨ c = '\'' := by
  rw [rsIsOnlyLojban_eq] at h
  refine ⟨?_, isOnlyLojban_letters h⟩
  rintro rfl
  cases h

/-- The test at jvozba.rs:175-190 and 304-308. -/
theorem rsRafsiListFor_written {A : RsRest} {s : Settings} {f l : Bool} {v : Str} (hn : ¬ WrittenComponent v) :
    rsRafsiListFor A s f l v = .error .nonLojban := by
  unfold rsRafsiListFor
  split
  case isFalse =>
    unfold rsRafsiListWord
    cases ho : rsIsOnlyLojban v with
    | false => rfl
    | true =>
      obtain ⟨h0, hx⟩ := rsOnlyLojban_letters ho
      exact absurd ⟨0, v, 0, by simp, h0, hx, fun _ => rfl, fun h => absurd h (by decide)⟩ hn
  case isTrue hb =>
    simp only
    cases ho : rsIsOnlyLojban (stripBoth (· == '-') v) with
    | false => rfl
    | true =>
      obtain ⟨h0, hx⟩ := rsOnlyLojban_letters ho
      obtain ⟨i, j, hv⟩ := strip_split v
      generalize stripBoth (· == '-') v = x at *
      by_cases hq : rsBack x 1 = '\''
      · simp [hq]
      · exfalso
        refine hn ⟨i, x, j, hv, h0, hx, ?_, ?_⟩
        · rintro rfl
          exfalso
          simp only [List.replicate_zero, List.append_nil] at hv
          cases hl : x.getLast? with
          | none => simp at hl; exact h0 hl
          | some c =>
            have hvl : v.getLast? = some c := by
              obtain ⟨u, rfl⟩ := List.getLast?_eq_some_iff.1 hl
              rw [hv]; simp
            rw [rsBack_of hvl] at hb
            subst hb
            rcases hx '-' (List.mem_of_getLast? hl) with h | h | h <;> revert h <;> decide
        · intro _ hl
          exact hq (rsBack_of hl)

theorem rsRafsiListListFrom_written {A : RsRest} {s : Settings} {n : Nat} : ∀ {vs : List Str} {i : Nat} {ll : List (List RafsiOpt)},
    rsRafsiListListFrom A s n i vs = .ok ll → ∀ v ∈ vs, WrittenComponent v
  | [], _, _, _ => by simp
  | v :: vs, i, ll, h => by
    unfold rsRafsiListListFrom at h
    have hv : WrittenComponent v := by
      apply Classical.byContradiction
      intro hn
      rw [rsRafsiListFor_written hn] at h
      cases h
    cases ha : rsRafsiListFor A s (i == 0) (i + 1 == n) v with
    | error e => rw [ha] at h; cases h
    | ok a =>
      rw [ha] at h
      cases hb : rsRafsiListListFrom A s n (i + 1) vs with
      | error e => simp only [bind, Except.bind, hb] at h; cases h
      | ok b =>
        intro u hu
        rcases List.mem_cons.1 hu with rfl | hu
        · exact hv
        · exact rsRafsiListListFrom_written hb u hu

/-- **C101.** If `get_lujvo_from_list` of the Rust crate finds a lujvo, every component was written as it may be. -/
theorem C101_written {A : RsRest} {n : Nat} {rs : RsSettings} {vs : List Str} {r : Str × Int × List (Nat × Nat)}
    (h : rsGetLujvoFromList A n rs vs = .ok r) : ∀ v ∈ vs, WrittenComponent v := by
  unfold rsGetLujvoFromList rsLujvoFromList at h
  cases hl : rsRafsiListListFrom A
      { yHyphens := rs.yHyphens, expRafsi := rs.expRafsi, consonants := rs.consonants, glides := rs.glides, allowMz := rs.allowMz }
      vs.length 0 vs with
  | error e => rw [hl] at h; cases h
  | ok ll => exact rsRafsiListListFrom_written hl

/-- **C101.** If the first component is not written as it may be, the error is `NonLojbanCharacterError`, whatever the others are. -/
theorem C101_error (A : RsRest) (n : Nat) (rs : RsSettings) (v : Str) (vs : List Str) (hv : ¬ WrittenComponent v) :
    rsGetLujvoFromList A n rs (v :: vs) = .error .nonLojban := by
  unfold rsGetLujvoFromList rsLujvoFromList rsRafsiListListFrom
  rw [rsRafsiListFor_written hv]
  rfl

/-- For the examples. -/
private def rest101 : RsRest := ⟨fun _ _ => .error .notBrivla, fun _ _ => .error .notZihevla⟩

example : (rsGetLujvoFromList rest101 2 {} [s%"-lat-", s%"kerlo"]).map (·.1) = .ok s%"latkerlo" := by decide +kernel
example : rsGetLujvoFromList rest101 2 {} [s%"-lat-", s%"-kex'-"] = .error .nonLojban := by decide +kernel

/-- A component that is not written so. -/
example : ¬ WrittenComponent s%"-laq-" := by
  rintro ⟨i, x, j, e, -, hx, -⟩
  have hq : 'q' ∈ List.replicate i '-' ++ x ++ List.replicate j '-' := by rw [← e]; simp
  simp only [List.mem_append, List.mem_replicate] at hq
  rcases hq with (h | h) | h
  · exact absurd h.2 (by decide)
  · rcases hx _ h with h | h | h <;> revert h <;> decide
  · exact absurd h.2 (by decide)

end Jvotci
