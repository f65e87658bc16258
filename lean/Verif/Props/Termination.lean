import Verif.Lemmas.Fix

/-!
# C14, C15, C28: termination and exceptions; C17: spelling variants
-/

namespace Jvotci

open Spec

/-! ## C14 -/

theorem isBrivla_errs (b : Build) (s : Settings) (w : Str) : Errs (analyseErrs b) (isBrivla b s w) := by
  unfold isBrivla
  split
  · exact .ok
  · exact .ok
  · rename_i e _ he
    exact .err (errs_analyseBrivla b s w e he)

theorem formatPiece_errs (b : Build) (s : Settings) (ps : List Str) (i : Nat) (p : Str) :
    Errs (analyseErrs b) (formatPiece b s ps i p) := by
  have hi : .index ∈ analyseErrs b := by simp [analyseErrs]
  have hb := isBrivla_errs b
  unfold formatPiece
  dsimp only
  split
  · exact .ok
  · exact .bind (.ite (fun _ => .bind (errs_idx hi _ _) fun _ _ => .ok) fun _ => .ok) fun _ _ =>
      .bind (.ite (fun _ => hb _ _) fun _ => .ok) fun _ _ => .ite (fun _ => .ok) fun _ => .bind (hb _ _) fun _ _ =>
      .ite (fun _ => .ok) fun _ => .bind (.ite (fun _ => hb _ _) fun _ => .ok) fun _ _ => .ite (fun _ => .ok) fun _ => .ok

theorem selrafsiFrom_errs (b : Build) (s : Settings) (ps : List Str) : ∀ (l : List Str) (i : Nat),
    Errs (analyseErrs b) (selrafsiFrom b s ps i l) := by
  intro l
  induction l with
  | nil => intro i; exact .ok
  | cons p l ih =>
    intro i
    unfold selrafsiFrom
    exact .ite (fun _ => ih _) fun _ => .bind (formatPiece_errs b s ps i p) fun _ _ => .bind (ih _) fun _ _ => .ok

theorem getVeljvo_errs (b : Build) (s : Settings) (w : Str) : Errs (analyseErrs b) (getVeljvo b s w) := by
  unfold getVeljvo
  exact .bind (errs_analyseBrivla b s w) fun ⟨t, ps⟩ _ => .ite (fun _ => .err (by simp [analyseErrs])) fun _ =>
    selrafsiFrom_errs b s ps ps 0

theorem scoreLujvo_errs (b : Build) (s : Settings) (w : Str) : Errs (analyseErrs b) (scoreLujvo b s w) := by
  unfold scoreLujvo
  exact .bind (getVeljvo_errs b s w) fun _ _ => .bind (errs_analyseBrivla b s w) fun _ _ => .ok

theorem getLujvo_errs (b : Build) (s : Settings) (g : Bool) (t : Tanru) : Errs (lujvoErrs b) (getLujvo b s g t) := by
  unfold getLujvo
  exact .bind (errs_getLujvoWithAnalytics b s g t) fun _ _ => .ok

theorem Errs.never {α : Type} {E : List Err} {x : Except Err α} {e : Err} (h : Errs E x) (he : e ∉ E) : x ≠ .error e :=
  fun hx => he (h e hx)

/-- **C14.** No API call ends because the recursion (or a loop) used up its budget. -/
theorem C14_budget_never_exhausted (b : Build) (s : Settings) (g : Bool) (w : Str) (t : Tanru) :
    analyseBrivla b s w ≠ .error .fuel ∧ isBrivla b s w ≠ .error .fuel ∧
    getLujvoWithAnalytics b s g t ≠ .error .fuel ∧ getLujvo b s g t ≠ .error .fuel ∧
    getVeljvo b s w ≠ .error .fuel ∧ scoreLujvo b s w ≠ .error .fuel := by
  have h1 := analyseErrs_no_fuel b
  have h2 := lujvoErrs_no_fuel b
  exact ⟨(errs_analyseBrivla b s w).never h1, (isBrivla_errs b s w).never h1, (errs_getLujvoWithAnalytics b s g t).never h2,
    (getLujvo_errs b s g t).never h2, (getVeljvo_errs b s w).never h1, (scoreLujvo_errs b s w).never h1⟩

/-- **C14.** The depth of the recursion is bounded by the length of the input: more budget than twice the
length plus two (for `analyse_brivla`) changes nothing, and that much is enough. -/
theorem C14_depth_bounded_by_length (b : Build) (s : Settings) (w : Str) {n : Nat} (hn : 2 * w.length + 2 ≤ n) :
    analyseR (recN b n) s w = analyseBrivla b s w ∧ analyseR (recN b n) s w ≠ .error .fuel := by
  have h := analyse_stable (b := b) (s := s) hn
  refine ⟨h, ?_⟩
  rw [h]
  exact (errs_analyseBrivla b s w).never (analyseErrs_no_fuel b)

/-- **C14.** The API functions satisfy the recursive equations of the program, in which no budget occurs:
with `R` the record of the functions themselves, `analyse_brivla`, `is_slinkuhi` and `get_lujvo` are what
their bodies compute from `R`. -/
theorem C14_recursive_equations (b : Build) :
    ∃ R : Rec, R.build = b ∧ (∀ s w, R.analyse s w = analyseBrivla b s w) ∧
      (∀ s w, analyseBrivla b s w = analyseR R s w) ∧
      (∀ y mz w, R.slinkuhi y mz w = isSlinkuhi R y mz w) ∧
      (∀ s g t, getLujvoWithAnalytics b s g t = do
        let l ← processTanru t
        getLujvoFromList R s g l) :=
  ⟨program b, rfl, fun _ _ => rfl, analyseBrivla_program b, slinkuhi_program b, getLujvoWithAnalytics_program b⟩

theorem relRec_solution {R : Rec} (h1 : ∀ s w, R.analyse s w = analyseR R s w)
    (h2 : ∀ y mz w, R.slinkuhi y mz w = isSlinkuhi R y mz w) : ∀ n, RelRec .fuel (recN R.build n) R := by
  intro n
  induction n with
  | zero => exact ⟨.inl rfl, .inl (recN_build _ _), fun _ _ => .inl rfl, fun _ _ _ => .inl rfl⟩
  | succ n ih =>
    refine ⟨.inl rfl, .inl (recN_build _ _), fun s w => ?_, fun y mz w => ?_⟩
    · rw [recN_analyse, h1]; exact rel_analyseR ih s w
    · rw [recN_slinkuhi, h2]; exact rel_isSlinkuhi ih y mz w

/-- **C14.** The equations have only this solution: whatever `R` satisfies them computes what the API
functions compute. -/
theorem C14_equations_determine_the_program {R : Rec} (h1 : ∀ s w, R.analyse s w = analyseR R s w)
    (h2 : ∀ y mz w, R.slinkuhi y mz w = isSlinkuhi R y mz w) (s : Settings) (w : Str) :
    R.analyse s w = analyseBrivla R.build s w := by
  rcases (relRec_solution h1 h2 (budget w.length + 1)).analyse s w with h | h
  · rw [recN_analyse] at h
    exact absurd h (C14_depth_bounded_by_length R.build s w (by unfold budget; omega)).2
  · rw [← h, recN_analyse]; rfl

example : ∃ R : Rec, (∀ s w, R.analyse s w = analyseR R s w) ∧ (∀ y mz w, R.slinkuhi y mz w = isSlinkuhi R y mz w) :=
  have ⟨R, _, h1, h2, h3, _⟩ := C14_recursive_equations .linked
  ⟨R, fun s w => (h1 s w).trans (h2 s w), h3⟩

/-! ## C15 -/

/-- **C15** is false: some strings make `analyse_brivla` raise `IndexError` or `DecompositionError`, and then
`is_brivla` raises it too. -/
theorem C15_false (b : Build) :
    analyseBrivla b {} [] = .error .index ∧
    analyseBrivla b {} s%"ba'yyla" = .error .index ∧ isBrivla b {} s%"ba'yyla" = .error .index ∧
    analyseBrivla b {} s%"laty'aoa" = .error .decomposition ∧ isBrivla b {} s%"laty'aoa" = .error .decomposition ∧
    analyseBrivla b {} s%"smatyspageir" = .error .index := by
  cases b <;> decide +kernel

/-- **C15**, what holds: `analyse_brivla` returns or raises `NotBrivlaError`, `IndexError`,
`DecompositionError`, or (at the pinned commit) `NameError`.  Missing: the second and third do occur. -/
theorem C15_exceptions_partial (b : Build) (s : Settings) (w : Str) :
    (∃ t ps, analyseBrivla b s w = .ok (t, ps)) ∨ analyseBrivla b s w = .error .notBrivla ∨
    analyseBrivla b s w = .error .index ∨ analyseBrivla b s w = .error .decomposition ∨
    (b = .pinned ∧ analyseBrivla b s w = .error .name) := by
  cases h : analyseBrivla b s w with
  | ok r => exact .inl ⟨r.1, r.2, rfl⟩
  | error e =>
    have := errs_analyseBrivla b s w e h
    cases b <;> simp [analyseErrs, nameErrs] at this
    · rcases this with h | h | h | h <;> simp [h]
    · rcases this with h | h | h <;> simp [h]

/-! ## C28 -/

/-- **C28.** The assertion in `get_rafsi_for_rafsi` never fails. -/
theorem C28_no_assertion_error (b : Build) (s : Settings) (g : Bool) (t : Tanru) :
    getLujvoWithAnalytics b s g t ≠ .error .assertion ∧ getLujvo b s g t ≠ .error .assertion := by
  have h : Err.assertion ∉ lujvoErrs b := by cases b <;> simp [lujvoErrs, nameErrs]
  exact ⟨(errs_getLujvoWithAnalytics b s g t).never h, (getLujvo_errs b s g t).never h⟩

/-- The assertion is there: a rafsi of no known shape would trip it. -/
example : getRafsiForRafsi s%"abc" (.tarmi (rafsiTarmi s%"abc")) true false .cluster false = .error .assertion := by
  decide
example : getLujvo .linked {} false (.str s%"lanzu -vla-") = .ok s%"lazvla" := by decide +kernel
example : getLujvo .linked {} false (.str s%"lanzu -vl-") = .error .notZihevla := by decide +kernel

/-! ## C17 -/

theorem sameLetter_read {c d : Char} (h : SameLetter c d) : readChar c = readChar d := by
  induction h with
  | refl => rfl
  | @upper c h1 h2 h3 =>
    have := upper_cases ⟨h1, h2⟩
    clear h1 h2
    revert h3
    revert this
    revert c
    decide
  | smallH => decide
  | capitalH => decide
  | symm _ ih => exact ih.symm
  | trans _ _ ih1 ih2 => exact ih1.trans ih2

theorem sameLetters_read {u v : Str} (h : SameLetters u v) : u.flatMap readChar = v.flatMap readChar := by
  have hc : readChar ',' = [] := by decide
  induction h with
  | nil => rfl
  | cons h _ ih => rw [List.flatMap_cons, List.flatMap_cons, ih, sameLetter_read h]
  | commaLeft _ ih => rw [List.flatMap_cons, ih, hc]; rfl
  | commaRight _ ih => rw [List.flatMap_cons, ih, hc]; rfl

theorem reading_dot {u w : Str} (hu : u.head? ≠ some '.') (hw : w = u ∨ w = '.' :: u) :
    reading w = u.flatMap readChar := by
  rcases hw with rfl | rfl
  · unfold reading
    split
    · simp at hu
    · rfl
  · rfl

theorem sameWord_read {w w' : Str} (h : SameWord w w') : reading w = reading w' := by
  obtain ⟨u, u', h1, h2, h3, h4, h5, -, -⟩ := h
  rw [reading_dot h2 h4, reading_dot h3 h5, sameLetters_read h1]

theorem analyse_of_reading {b : Build} {s : Settings} {w : Str} (h : w ≠ []) :
    analyseBrivla b s w = analyseNorm (program b) s (reading w) := by
  rw [analyseBrivla_program]
  unfold analyseR
  rw [normalise_eq h]
  rfl

/-- **C17.** Two spellings of a word get the same answer from `analyse_brivla`, `is_brivla` and `get_veljvo`. -/
theorem C17_spelling_variants {w w' : Str} (h : SameWord w w') (b : Build) (s : Settings) :
    analyseBrivla b s w = analyseBrivla b s w' ∧ isBrivla b s w = isBrivla b s w' ∧
    getVeljvo b s w = getVeljvo b s w' := by
  have key : analyseBrivla b s w = analyseBrivla b s w' := by
    have hr := sameWord_read h
    obtain ⟨_, _, -, -, -, -, -, h6, h7⟩ := h
    rw [analyse_of_reading h6, analyse_of_reading h7, hr]
  refine ⟨key, ?_, ?_⟩
  · unfold isBrivla; rw [key]
  · unfold getVeljvo; rw [key]

theorem processTanru_sameWord {ws ws' : List Str} (h : All2 SameWord ws ws') :
    processTanru (.list ws) = processTanru (.list ws') := by
  unfold processTanru
  dsimp only
  induction h with
  | nil => rfl
  | cons h _ ih =>
    have hr := sameWord_read h
    obtain ⟨_, _, -, -, -, -, -, h6, h7⟩ := h
    rw [List.mapM_cons, List.mapM_cons, ih, normalise_eq h6, normalise_eq h7, hr]

/-- **C17.** The same for the components of a tanru. -/
theorem C17_spelling_variants_tanru {ws ws' : List Str} (h : All2 SameWord ws ws') (b : Build) (s : Settings) (g : Bool) :
    getLujvoWithAnalytics b s g (.list ws) = getLujvoWithAnalytics b s g (.list ws') ∧
    getLujvo b s g (.list ws) = getLujvo b s g (.list ws') := by
  have key : getLujvoWithAnalytics b s g (.list ws) = getLujvoWithAnalytics b s g (.list ws') := by
    unfold getLujvoWithAnalytics; rw [processTanru_sameWord h]
  exact ⟨key, by unfold getLujvo; rw [key]⟩

example : SameWord s%".LA,hi" s%"l,a'i" :=
  ⟨s%"LA,hi", s%"l,a'i", .cons (.upper (by decide) (by decide) (by decide)) (.commaRight (.cons (.upper (by decide) (by decide) (by decide))
    (.commaLeft (.cons .smallH (.cons (.refl _) .nil))))), by decide, by decide, .inr rfl, .inl rfl, by decide, by decide⟩
example : analyseBrivla .linked {} s%"GE,HURBANgu" = .ok (.lujvo, [s%"ge'u", s%"r", s%"bangu"]) := by decide +kernel
example : All2 SameWord [s%"latk,A", s%".kERlo"] [s%"latka", s%"kerlo"] :=
  .cons ⟨_, _, .cons (.refl _) (.cons (.refl _) (.cons (.refl _) (.cons (.refl _) (.commaLeft (.cons
      (.upper (by decide) (by decide) (by decide)) .nil))))), by decide, by decide, .inl rfl, .inl rfl, by decide, by decide⟩
    (.cons ⟨s%"kERlo", _, .cons (.refl _) (.cons (.upper (by decide) (by decide) (by decide)) (.cons
      (.upper (by decide) (by decide) (by decide)) (.cons (.refl _) (.cons (.refl _) .nil)))), by decide, by decide,
      .inr rfl, .inl rfl, by decide, by decide⟩ .nil)

end Jvotci
