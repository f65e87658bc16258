import Verif.Lemmas.Depth

/-!
# C71: the calls nest to a fixed depth

`recN b n` is the program in which only `n` calls of `analyse_brivla` and `is_slinkuhi` may be open at the same
time: one call more ends with the error `fuel`, which the functions of the package never catch. (In Python that
is `RecursionError`.)
-/

namespace Jvotci

open Spec

/-- **C71.** `analyse_brivla`: six open calls below the first are enough for every word, however long, and more
change nothing. -/
theorem C71_analyse_depth (b : Build) (s : Settings) (w : Str) {n : Nat} (hn : 6 ≤ n) :
    analyseR (recN b n) s w = analyseBrivla b s w ∧ analyseR (recN b n) s w ≠ .error .fuel := by
  obtain ⟨m, rfl⟩ := Nat.exists_eq_add_of_le hn
  have h := errs_analyse_deep b m s w
  rw [Nat.add_comm] at h
  have hne : analyseR (recN b (6 + m)) s w ≠ .error .fuel := fun hh => analyseErrs_no_fuel b (h _ hh)
  rcases rel_analyseR (relRec_program b (6 + m)) s w with h' | h'
  · exact absurd h' hne
  · exact ⟨by rw [h', analyseBrivla_program], hne⟩

/-- **C71.** `get_lujvo`: seven are enough for every tanru. -/
theorem C71_get_lujvo_depth (b : Build) (s : Settings) (g : Bool) (t : Tanru) {n : Nat} (hn : 7 ≤ n) :
    (processTanru t >>= fun l => getLujvoFromList (recN b n) s g l) = getLujvoWithAnalytics b s g t ∧
    getLujvoWithAnalytics b s g t ≠ .error .fuel := by
  obtain ⟨m, rfl⟩ := Nat.exists_eq_add_of_le hn
  refine ⟨?_, fun hh => lujvoErrs_no_fuel b (errs_getLujvoWithAnalytics b s g t _ hh)⟩
  rw [getLujvoWithAnalytics_program]
  cases hl : processTanru t with
  | error e => rw [error_bind, error_bind]
  | ok l =>
    rw [ok_bind, ok_bind]
    have h := errs_getLujvoFromList (R := recN b (7 + m)) (s := s) (g := g) (vs := l) (k := (l.map List.length).sum + 2)
      (by rw [Nat.add_comm]; exact good_deep b m _)
      (fun v hv => ⟨processTanru_stable hl v hv, by have := length_le_sum hv; omega⟩)
    rw [recN_build] at h
    rcases rel_getLujvoFromList (relRec_program b (7 + m)) s g l with h' | h'
    · exact absurd (h _ h') (lujvoErrs_no_fuel b)
    · exact h'

/-- **C71.** `is_slinkuhi`: two are enough. -/
theorem C71_slinkuhi_depth (b : Build) (y : YHyphens) (mz : Bool) (w : Str) {n : Nat} (hn : 2 ≤ n) :
    isSlinkuhi (recN b n) y mz w = (program b).slinkuhi y mz w ∧ isSlinkuhi (recN b n) y mz w ≠ .error .fuel := by
  obtain ⟨m, rfl⟩ := Nat.exists_eq_add_of_le hn
  have h := errs_slinkuhi_recN b (m + 1) y mz w
  rw [recN_slinkuhi, show m + 2 = 2 + m by omega] at h
  have hne : isSlinkuhi (recN b (2 + m)) y mz w ≠ .error .fuel := fun hh => slinkuhiErrs_no_fuel b (h _ hh)
  rcases rel_isSlinkuhi (relRec_program b (2 + m)) y mz w with h' | h'
  · exact absurd h' hne
  · exact ⟨by rw [h', slinkuhi_program], hne⟩

/-- Three are not enough: the search inside *uauiuaskarnu* opens a fourth. -/
theorem C71_three_not_enough :
    analyseR (recN .linked 3) {} s%"uauiuaskarnu" = .error .fuel ∧
    analyseR (recN .linked 4) {} s%"uauiuaskarnu" = .error .notBrivla := by
  constructor <;> decide +kernel

example : analyseR (recN .linked 6) {} s%"uauiuaskarnu" = .error .notBrivla := by decide +kernel

example : analyseR (recN .linked 6) {} s%"spageti" = .ok (.zihevla, [s%"spageti"]) := by decide +kernel

end Jvotci
