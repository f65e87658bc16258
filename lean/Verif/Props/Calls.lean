import Verif.Lemmas.Calls

/-!
# C77: how often the functions call each other

`CountCalls.lean` has the functions of the program with a counter of all calls of `analyse_brivla` and `is_slinkuhi`,
however deep. Each theorem says that the counter changes no answer and bounds it by a multiple of the length.
-/

namespace Jvotci

open Spec

theorem costs_zero {α : Type} {x : Counted α} {y : Except Err α} {k : Nat} (h : Costs x y k) : (x 0).1 = y ∧ (x 0).2 ≤ k := by
  obtain ⟨m, h1, h2⟩ := h 0
  rw [h1]
  exact ⟨rfl, by omega⟩

/-- **C77.** `analyse_brivla`, for every word: at most 47 calls for each letter, and 52. -/
theorem C77_analyse (b : Build) (s : Settings) (w : Str) :
    (analyseBrivlaC b s w 0).1 = analyseBrivla b s w ∧ (analyseBrivlaC b s w 0).2 ≤ 47 * (reading w).length + 52 :=
  costs_zero (costs_analyseBrivla b s w)

/-- **C77.** The same in terms of the string as it is written. -/
theorem C77_analyse_written (b : Build) (s : Settings) (w : Str) : (analyseBrivlaC b s w 0).2 ≤ 100 * (w.length + 1) := by
  have h1 := (C77_analyse b s w).2
  have h2 := reading_length w
  omega

/-- **C77.** `get_lujvo`, for every list of components, those with letters that are read in another way included. -/
theorem C77_get_lujvo (b : Build) (s : Settings) (g : Bool) (t : Tanru) {l : List Str} (hl : processTanru t = .ok l) :
    (getLujvoWithAnalyticsC b s g t 0).1 = getLujvoWithAnalytics b s g t ∧
    (getLujvoWithAnalyticsC b s g t 0).2 ≤ (l.map fun v => 100 * (v.length + 1)).sum + 2 := by
  have h := costs_zero (x := getLujvoWithAnalyticsC b s g t) (y := getLujvoWithAnalytics b s g t) (k := (l.map fun v => 67 * v.length + 99).sum + 2) (by
    unfold getLujvoWithAnalyticsC getLujvoWithAnalytics
    refine costs_free fun l' hl' => ?_
    rw [hl] at hl'
    cases hl'
    exact costs_getLujvo_level (processTanru_stable hl))
  refine ⟨h.1, Nat.le_trans h.2 ?_⟩
  clear h hl
  induction l with
  | nil => simp
  | cons v l ih => simp only [List.map_cons, List.sum_cons]; omega

/-- **C77.** `get_veljvo`. -/
theorem C77_get_veljvo (b : Build) (s : Settings) (w : Str) :
    (getVeljvoC b s w 0).1 = getVeljvo b s w ∧ (getVeljvoC b s w 0).2 ≤ 339 * (reading w).length + 52 :=
  costs_zero (costs_getVeljvo b s w)

/-- **C77.** `score_lujvo`. -/
theorem C77_score_lujvo (b : Build) (s : Settings) (w : Str) :
    (scoreLujvoC b s w 0).1 = scoreLujvo b s w ∧ (scoreLujvoC b s w 0).2 ≤ 386 * (reading w).length + 104 :=
  costs_zero (costs_scoreLujvo b s w)

/-- **C77.** `is_slinkuhi`: two calls, whatever the word. -/
theorem C77_is_slinkuhi (b : Build) (y : YHyphens) (mz : Bool) (w : Str) {n : Nat} (hn : 2 ≤ n) :
    ((recNC b n).slinkuhi y mz w 0).1 = (program b).slinkuhi y mz w ∧ ((recNC b n).slinkuhi y mz w 0).2 ≤ 2 := by
  obtain ⟨h1, h2⟩ := costs_zero (costs_slinkuhi b n y mz w)
  refine ⟨?_, h2⟩
  rw [h1]
  obtain ⟨m, rfl⟩ := Nat.exists_eq_add_of_le hn
  rcases (relRec_program b (2 + m)).slinkuhi y mz w with h | h
  · rw [Nat.add_comm] at h
    exact absurd (errs_slinkuhi_recN b m y mz w _ h) (slinkuhiErrs_no_fuel b)
  · exact h

/-- One call for a gismu, two for *latkerlo* and *spageti*, six, eight and ten for two, three and four zi'evla with y. -/
example : (analyseBrivlaC .linked {} s%"klama" 0).2 = 1 ∧ (analyseBrivlaC .linked {} s%"latkerlo" 0).2 = 2 ∧
    (analyseBrivlaC .linked {} s%"spageti" 0).2 = 2 ∧ (analyseBrivlaC .linked {} s%"spagetyspageti" 0).2 = 6 ∧
    (analyseBrivlaC .linked {} s%"spagetyspagetyspageti" 0).2 = 8 ∧
    (analyseBrivlaC .linked {} s%"spagetyspagetyspagetyspageti" 0).2 = 10 := by
  repeat' apply And.intro
  all_goals decide +kernel

/-- The calls can grow with the word although it has no y: one for each on-glide, and for the cluster. -/
example : (analyseBrivlaC .linked { allowMz := true } s%"uauamza" 0).2 = 4 ∧ (analyseBrivlaC .linked { allowMz := true } s%"uauauamza" 0).2 = 5 ∧
    (analyseBrivlaC .linked { allowMz := true } s%"uauauauauamza" 0).2 = 7 ∧
    analyseBrivla .linked { allowMz := true } s%"uauauauauamza" = .ok (.zihevla, [s%"uauauauauamza"]) := by
  repeat' apply And.intro
  all_goals decide +kernel

example : (getLujvoWithAnalyticsC .linked {} false (.str s%"lanme kerlo") 0).2 = 3 ∧
    (getLujvoWithAnalyticsC .linked {} false (.str s%"lanme kerlo spageti") 0).2 = 5 ∧
    (getVeljvoC .linked {} s%"latkerlo" 0).2 = 3 ∧ (scoreLujvoC .linked {} s%"latkerlo" 0).2 = 5 := by
  repeat' apply And.intro
  all_goals decide +kernel

end Jvotci
