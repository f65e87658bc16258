import Verif.SpecCli
import Verif.Props.Termination

/-!
# C50: the command-line loops
-/

namespace Jvotci

open Spec

theorem chosen_snoc_in {α : Type} {table : List (Str × α)} {d v : α} {ws : List Str} {w : Str} (h : (w, v) ∈ table) :
    Chosen table d (ws ++ [w]) v := .inr ⟨ws, w, [], rfl, h, by simp⟩

theorem chosen_snoc_out {α : Type} {table : List (Str × α)} {d v : α} {ws : List Str} {w : Str} (h : Chosen table d ws v)
    (hw : w ∉ table.map Prod.fst) : Chosen table d (ws ++ [w]) v := by
  have hw' : ∀ x, (w, x) ∉ table := fun x hx => hw (List.mem_map.2 ⟨_, hx, rfl⟩)
  rcases h with ⟨rfl, h⟩ | ⟨u, w', t, rfl, h1, h2⟩
  · refine .inl ⟨rfl, fun x hx => ?_⟩
    rcases List.mem_append.1 hx with hx | hx
    · exact h x hx
    · simp at hx; subst hx; exact hw'
  · refine .inr ⟨u, w', t ++ [w], by simp, h1, fun x hx => ?_⟩
    rcases List.mem_append.1 hx with hx | hx
    · exact h2 x hx
    · simp at hx; subst hx; exact hw'

theorem settingsAfter_nil : SettingsAfter [] {} :=
  ⟨.inl ⟨rfl, by simp⟩, .inl ⟨rfl, by simp⟩, .inl ⟨rfl, by simp⟩, .inl ⟨rfl, by simp⟩, .inl ⟨rfl, by simp⟩⟩

theorem settingsAfter_snoc {ws : List Str} {s : Settings} {w : Str} (h : SettingsAfter ws s) :
    SettingsAfter (ws ++ [w]) (changeSetting s w) := by
  obtain ⟨h1, h2, h3, h4, h5⟩ := h
  by_cases hw : w ∈ [s%"standard", s%"allow", s%"force", s%"more", s%"less", s%"cluster", s%"2c", s%"1c", s%"glide", s%"glidnt",
      s%"mz", s%"mznt"]
  · simp only [List.mem_cons, List.not_mem_nil, or_false] at hw
    rcases hw with rfl | rfl | rfl | rfl | rfl | rfl | rfl | rfl | rfl | rfl | rfl | rfl <;>
    (constructor <;> first
      | (refine chosen_snoc_out (by assumption) ?_; decide)
      | (refine chosen_snoc_in ?_; simp [changeSetting]; done))
  · have hs : changeSetting s w = s := by simp_all [changeSetting]
    rw [hs]
    simp only [List.mem_cons, List.not_mem_nil, or_false, not_or] at hw
    constructor <;> exact chosen_snoc_out (by assumption) (by simp [hw])

theorem settingsAfter_foldl {us : List Str} : ∀ {ws : List Str} {s : Settings}, SettingsAfter ws s →
    SettingsAfter (ws ++ us) (us.foldl changeSetting s) := by
  induction us with
  | nil => intro ws s h; simpa using h
  | cons u us ih => intro ws s h; simpa using ih (settingsAfter_snoc (w := u) h)

theorem changeSetting_cmevla {s : Settings} : changeSetting s s%"cmevla" = s ∧ changeSetting s s%"brivla" = s := by
  constructor <;> rfl

theorem bothAfter_snoc {ws : List Str} {st : Bool × Settings} {w : Str} (h : CmevlaAfter ws st.1 ∧ SettingsAfter ws st.2) :
    CmevlaAfter (ws ++ [w]) (changeBoth st w).1 ∧ SettingsAfter (ws ++ [w]) (changeBoth st w).2 := by
  have hs := settingsAfter_snoc (w := w) h.2
  unfold changeBoth
  split
  · rename_i hw
    subst hw
    exact ⟨chosen_snoc_in (by simp), hs⟩
  · split
    · rename_i hw
      subst hw
      exact ⟨chosen_snoc_in (by simp), hs⟩
    · exact ⟨chosen_snoc_out h.1 (by simp_all), hs⟩

theorem bothAfter_foldl {us : List Str} : ∀ {ws : List Str} {st : Bool × Settings}, CmevlaAfter ws st.1 ∧ SettingsAfter ws st.2 →
    CmevlaAfter (ws ++ us) (us.foldl changeBoth st).1 ∧ SettingsAfter (ws ++ us) (us.foldl changeBoth st).2 := by
  induction us with
  | nil => intro ws st h; simpa using h
  | cons u us ih => intro ws st h; simpa using ih (bothAfter_snoc (w := u) h)

/-- After lines on which the loop goes on, it goes on as from the settings these lines have chosen. -/
theorem jvozba_after {b : Build} {pre : List Str} : ∀ {ws : List Str} {st : Bool × Settings}, CmevlaAfter ws st.1 ∧ SettingsAfter ws st.2 →
    (jvozbaLoop b st pre).2 = .eof → ∃ st' evs, (CmevlaAfter (ws ++ commandWords pre) st'.1 ∧ SettingsAfter (ws ++ commandWords pre) st'.2) ∧
      (jvozbaLoop b st pre).1 = evs ++ [.prompt (jvozbaPrompt st')] ∧
      ∀ post, jvozbaLoop b st (pre ++ post) = (evs ++ (jvozbaLoop b st' post).1, (jvozbaLoop b st' post).2) := by
  induction pre with
  | nil =>
    intro ws st h _
    exact ⟨st, [], by simpa [commandWords] using h, rfl, fun post => rfl⟩
  | cons l pre ih =>
    intro ws st h he
    cases l with
    | nil => cases he
    | cons c cs =>
      by_cases hc : c = '/'
      · subst hc
        unfold jvozbaLoop at he
        rw [if_pos rfl] at he
        obtain ⟨st', evs, h1, h2, h3⟩ := ih (bothAfter_foldl (us := splitWs (lower cs)) h) he
        refine ⟨st', .prompt (jvozbaPrompt st) :: evs, ?_, ?_, ?_⟩
        · simpa [commandWords] using h1
        · rw [jvozbaLoop, if_pos rfl]; simp [h2]
        · intro post
          rw [List.cons_append, jvozbaLoop, if_pos rfl, h3]; rfl
      · have hw : commandWords ((c :: cs) :: pre) = commandWords pre := by
          unfold commandWords
          rw [List.flatMap_cons]
          split
          · rename_i e; cases e; exact absurd rfl hc
          · rfl
        rw [hw]
        unfold jvozbaLoop at he
        rw [if_neg hc] at he
        cases hk : getLujvoWithAnalytics b st.2 st.1 (.str (c :: cs)) with
        | ok r =>
          rw [hk] at he
          obtain ⟨st', evs, h1, h2, h3⟩ := ih h he
          refine ⟨st', .prompt (jvozbaPrompt st) :: .lujvo r :: evs, h1, ?_, ?_⟩
          · rw [jvozbaLoop, if_neg hc, hk]; simp [h2]
          · intro post
            rw [List.cons_append, jvozbaLoop, if_neg hc, hk]; simp [h3]
        | error e =>
          rw [hk] at he
          dsimp only at he
          split at he
          · rename_i hcaught
            obtain ⟨st', evs, h1, h2, h3⟩ := ih h he
            refine ⟨st', .prompt (jvozbaPrompt st) :: .message e :: evs, h1, ?_, ?_⟩
            · rw [jvozbaLoop, if_neg hc, hk]; simp only [if_pos hcaught, h2]; rfl
            · intro post
              rw [List.cons_append, jvozbaLoop, if_neg hc, hk]; simp only [if_pos hcaught, h3]; rfl
          · cases he

theorem katna_after {b : Build} {pre : List Str} : ∀ {ws : List Str} {s : Settings}, SettingsAfter ws s →
    (katnaLoop b s pre).2 = .eof → ∃ s' evs, SettingsAfter (ws ++ commandWords pre) s' ∧
      (katnaLoop b s pre).1 = evs ++ [.prompt (katnaPrompt s')] ∧
      ∀ post, katnaLoop b s (pre ++ post) = (evs ++ (katnaLoop b s' post).1, (katnaLoop b s' post).2) := by
  induction pre with
  | nil =>
    intro ws s h _
    exact ⟨s, [], by simpa [commandWords] using h, rfl, fun post => rfl⟩
  | cons l pre ih =>
    intro ws s h he
    cases l with
    | nil => cases he
    | cons c cs =>
      by_cases hc : c = '/'
      · subst hc
        unfold katnaLoop at he
        rw [if_pos rfl] at he
        obtain ⟨s', evs, h1, h2, h3⟩ := ih (settingsAfter_foldl (us := splitWs (lower cs)) h) he
        refine ⟨s', .prompt (katnaPrompt s) :: evs, ?_, ?_, ?_⟩
        · simpa [commandWords] using h1
        · rw [katnaLoop, if_pos rfl]; simp [h2]
        · intro post
          rw [List.cons_append, katnaLoop, if_pos rfl, h3]; rfl
      · have hw : commandWords ((c :: cs) :: pre) = commandWords pre := by
          unfold commandWords
          rw [List.flatMap_cons]
          split
          · rename_i e; cases e; exact absurd rfl hc
          · rfl
        rw [hw]
        unfold katnaLoop at he
        rw [if_neg hc] at he
        cases hk : analyseBrivla b s (c :: cs) with
        | error e =>
          rw [hk] at he
          dsimp only at he
          split at he
          · rename_i hcaught
            obtain ⟨s', evs, h1, h2, h3⟩ := ih h he
            refine ⟨s', .prompt (katnaPrompt s) :: .message e :: evs, h1, ?_, ?_⟩
            · rw [katnaLoop, if_neg hc, hk]; simp only [if_pos hcaught, h2]; rfl
            · intro post
              rw [List.cons_append, katnaLoop, if_neg hc, hk]; simp only [if_pos hcaught, h3]; rfl
          · cases he
        | ok a =>
          rw [hk] at he
          dsimp only at he
          cases hv : getVeljvo b s (c :: cs) with
          | ok v =>
            rw [hv] at he
            obtain ⟨s', evs, h1, h2, h3⟩ := ih h he
            refine ⟨s', .prompt (katnaPrompt s) :: .analysis a :: .veljvo v :: evs, h1, ?_, ?_⟩
            · rw [katnaLoop, if_neg hc, hk]; simp [hv, h2]
            · intro post
              rw [List.cons_append, katnaLoop, if_neg hc, hk]; simp [hv, h3]
          | error e =>
            rw [hv] at he
            dsimp only at he
            split at he
            · rename_i hcaught
              obtain ⟨s', evs, h1, h2, h3⟩ := ih h he
              refine ⟨s', .prompt (katnaPrompt s) :: .analysis a :: .message e :: evs, h1, ?_, ?_⟩
              · rw [katnaLoop, if_neg hc, hk]; simp only [hv, if_pos hcaught, h2]; rfl
              · intro post
                rw [List.cons_append, katnaLoop, if_neg hc, hk]; simp only [hv, if_pos hcaught, h3]; rfl
            · cases he

theorem boolLetter_onOff (b : Bool) : (b, boolLetter b) ∈ onOff := by cases b <;> decide

theorem promptLetters (s : Settings) :
    PromptLetters s [yLetter s.yHyphens, boolLetter s.expRafsi, consonantsLetter s.consonants, boolLetter s.glides, boolLetter s.allowMz] := by
  refine ⟨_, _, _, _, _, rfl, ?_, boolLetter_onOff _, ?_, boolLetter_onOff _, boolLetter_onOff _⟩
  · cases s.yHyphens <;> decide
  · cases s.consonants <;> decide

/-- **C50**, `python jvozba.py`. Let `pre` be lines after which the loop waits for another one. Then each option has the
value that the last of its words in the commands of `pre` stands for, and the prompt shows these values. An empty line
ends the loop. A command prints nothing. For any other line the loop prints what `get_lujvo_with_analytics` returns
for it with these options, or the message of an exception that it catches; with any other exception the loop ends. -/
theorem C50_jvozba_session {b : Build} {pre : List Str} (h : (jvozbaSession b pre).2 = .eof) :
    ∃ g s, CmevlaAfter (commandWords pre) g ∧ SettingsAfter (commandWords pre) s ∧
      (∃ evs c t, (g, c) ∈ onOff ∧ PromptLetters s t ∧ (jvozbaSession b pre).1 = evs ++ [.prompt ('(' :: c :: t ++ s%") Enter a tanru: ")]) ∧
      (∀ post, jvozbaSession b (pre ++ [] :: post) = ((jvozbaSession b pre).1, .done)) ∧
      (∀ cs, ∃ p, jvozbaSession b (pre ++ [('/' :: cs)]) = ((jvozbaSession b pre).1 ++ [.prompt p], .eof)) ∧
      ∀ line post, line ≠ [] → line.head? ≠ some '/' →
        (∀ r, getLujvoWithAnalytics b s g (.str line) = .ok r →
          ∃ rest, (jvozbaSession b (pre ++ line :: post)).1 = (jvozbaSession b pre).1 ++ .lujvo r :: rest) ∧
        (∀ e, getLujvoWithAnalytics b s g (.str line) = .error e → e ∈ [Err.noLujvo, Err.nonLojban, Err.notZihevla] →
          ∃ rest, (jvozbaSession b (pre ++ line :: post)).1 = (jvozbaSession b pre).1 ++ .message e :: rest) ∧
        (∀ e, getLujvoWithAnalytics b s g (.str line) = .error e → e ∉ [Err.noLujvo, Err.nonLojban, Err.notZihevla] →
          jvozbaSession b (pre ++ line :: post) = ((jvozbaSession b pre).1, .raised e)) := by
  obtain ⟨st, evs, ⟨h1, h2⟩, h3, h4⟩ := jvozba_after (b := b) (pre := pre) (ws := []) (st := (false, {}))
    ⟨.inl ⟨rfl, by simp⟩, settingsAfter_nil⟩ h
  rw [List.nil_append] at h1 h2
  obtain ⟨g, s⟩ := st
  unfold jvozbaSession
  refine ⟨g, s, h1, h2, ⟨evs, _, _, boolLetter_onOff g, promptLetters s, h3⟩, ?_, ?_, ?_⟩
  · intro post
    rw [h4, h3]; rfl
  · intro cs
    exact ⟨_, by rw [h4, h3]; simp [jvozbaLoop]; rfl⟩
  · intro line post hne hc
    cases line with
    | nil => exact absurd rfl hne
    | cons c cs =>
      have hc : c ≠ '/' := fun e => hc (by rw [e]; rfl)
      refine ⟨fun r hr => ?_, fun e he hm => ?_, fun e he hm => ?_⟩
      · rw [h4, h3, jvozbaLoop, if_neg hc, hr]
        exact ⟨_, by simp; rfl⟩
      · rw [h4, h3, jvozbaLoop, if_neg hc, he]
        have hm : e = .noLujvo ∨ e = .nonLojban ∨ e = .notZihevla := by simpa using hm
        simp only [if_pos hm]
        exact ⟨_, by simp; rfl⟩
      · rw [h4, h3, jvozbaLoop, if_neg hc, he]
        have hm : ¬ (e = .noLujvo ∨ e = .nonLojban ∨ e = .notZihevla) := by simpa using hm
        simp only [if_neg hm]

/-- **C50**, `python katna.py`. The same: an analysis is printed, and then the veljvo or a message. -/
theorem C50_katna_session {b : Build} {pre : List Str} (h : (katnaSession b pre).2 = .eof) :
    ∃ s, SettingsAfter (commandWords pre) s ∧
      (∃ evs t, PromptLetters s t ∧ (katnaSession b pre).1 = evs ++ [.prompt ('(' :: t ++ s%") Enter a lujvo: ")]) ∧
      (∀ post, katnaSession b (pre ++ [] :: post) = ((katnaSession b pre).1, .done)) ∧
      (∀ cs, ∃ p, katnaSession b (pre ++ [('/' :: cs)]) = ((katnaSession b pre).1 ++ [.prompt p], .eof)) ∧
      ∀ line post, line ≠ [] → line.head? ≠ some '/' →
        (∀ a v, analyseBrivla b s line = .ok a → getVeljvo b s line = .ok v →
          ∃ rest, (katnaSession b (pre ++ line :: post)).1 = (katnaSession b pre).1 ++ .analysis a :: .veljvo v :: rest) ∧
        (∀ a e, analyseBrivla b s line = .ok a → getVeljvo b s line = .error e → e ∈ [Err.decomposition, Err.notBrivla] →
          ∃ rest, (katnaSession b (pre ++ line :: post)).1 = (katnaSession b pre).1 ++ .analysis a :: .message e :: rest) ∧
        (∀ a e, analyseBrivla b s line = .ok a → getVeljvo b s line = .error e → e ∉ [Err.decomposition, Err.notBrivla] →
          katnaSession b (pre ++ line :: post) = ((katnaSession b pre).1 ++ [.analysis a], .raised e)) ∧
        (∀ e, analyseBrivla b s line = .error e → e ∈ [Err.decomposition, Err.notBrivla] →
          ∃ rest, (katnaSession b (pre ++ line :: post)).1 = (katnaSession b pre).1 ++ .message e :: rest) ∧
        (∀ e, analyseBrivla b s line = .error e → e ∉ [Err.decomposition, Err.notBrivla] →
          katnaSession b (pre ++ line :: post) = ((katnaSession b pre).1, .raised e)) := by
  obtain ⟨s, evs, h2, h3, h4⟩ := katna_after (b := b) (pre := pre) (ws := []) (s := {}) settingsAfter_nil h
  rw [List.nil_append] at h2
  unfold katnaSession
  refine ⟨s, h2, ⟨evs, _, promptLetters s, h3⟩, ?_, ?_, ?_⟩
  · intro post
    rw [h4, h3]; rfl
  · intro cs
    exact ⟨_, by rw [h4, h3]; simp [katnaLoop]; rfl⟩
  · intro line post hne hc
    cases line with
    | nil => exact absurd rfl hne
    | cons c cs =>
      have hc : c ≠ '/' := fun e => hc (by rw [e]; rfl)
      refine ⟨fun a v ha hv => ?_, fun a e ha hv hm => ?_, fun a e ha hv hm => ?_, fun e he hm => ?_, fun e he hm => ?_⟩
      · rw [h4, h3, katnaLoop, if_neg hc, ha]
        simp only [hv]
        exact ⟨_, by simp; rfl⟩
      · rw [h4, h3, katnaLoop, if_neg hc, ha]
        have hm : e = .decomposition ∨ e = .notBrivla := by simpa using hm
        simp only [hv, if_pos hm]
        exact ⟨_, by simp; rfl⟩
      · rw [h4, h3, katnaLoop, if_neg hc, ha]
        have hm : ¬ (e = .decomposition ∨ e = .notBrivla) := by simpa using hm
        simp [hv, if_neg hm]
      · rw [h4, h3, katnaLoop, if_neg hc, he]
        have hm : e = .decomposition ∨ e = .notBrivla := by simpa using hm
        simp only [if_pos hm]
        exact ⟨_, by simp; rfl⟩
      · rw [h4, h3, katnaLoop, if_neg hc, he]
        have hm : ¬ (e = .decomposition ∨ e = .notBrivla) := by simpa using hm
        simp only [if_neg hm]

theorem jvozba_raises {b : Build} {e : Err} {lines : List Str} : ∀ {st : Bool × Settings}, (jvozbaLoop b st lines).2 = .raised e →
    e ∈ [Err.index, .notBrivla, .decomposition, .invalidCluster] ++ nameErrs b := by
  induction lines with
  | nil => intro st h; cases h
  | cons l lines ih =>
    intro st h
    cases l with
    | nil => cases h
    | cons c cs =>
      rw [jvozbaLoop] at h
      split at h
      · exact ih h
      · cases hk : getLujvoWithAnalytics b st.2 st.1 (.str (c :: cs)) with
        | ok r => rw [hk] at h; exact ih h
        | error e' =>
          rw [hk] at h
          dsimp only at h
          split at h
          · exact ih h
          · rename_i hn
            cases h
            have hm := errs_getLujvoWithAnalytics b st.2 st.1 (.str (c :: cs)) e hk
            simp [lujvoErrs] at hm
            simp only [not_or] at hn
            simp
            grind

theorem katna_raises {b : Build} {e : Err} {lines : List Str} : ∀ {s : Settings}, (katnaLoop b s lines).2 = .raised e →
    e ∈ Err.index :: nameErrs b := by
  induction lines with
  | nil => intro s h; cases h
  | cons l lines ih =>
    intro s h
    cases l with
    | nil => cases h
    | cons c cs =>
      rw [katnaLoop] at h
      split at h
      · exact ih h
      · have key : ∀ e, e ∈ analyseErrs b → ¬ (e = .decomposition ∨ e = .notBrivla) → e ∈ Err.index :: nameErrs b := by
          intro e hm hn
          simp [analyseErrs] at hm
          simp only [not_or] at hn
          simp
          grind
        cases hk : analyseBrivla b s (c :: cs) with
        | error e' =>
          rw [hk] at h
          dsimp only at h
          split at h
          · exact ih h
          · rename_i hn
            cases h
            exact key _ (errs_analyseBrivla b s (c :: cs) e hk) hn
        | ok a =>
          rw [hk] at h
          cases hv : getVeljvo b s (c :: cs) with
          | ok v => simp only [hv] at h; exact ih h
          | error e' =>
            simp only [hv] at h
            split at h
            · exact ih h
            · rename_i hn
              cases h
              exact key _ (getVeljvo_errs b s (c :: cs) e hv) hn

/-- **C50.** The exceptions with which the loops can end, whatever lines are typed: `jvozba.py` catches neither IndexError
nor NotBrivlaError, DecompositionError and InvalidClusterError, and `katna.py` does not catch IndexError. (NameError is
possible only in the pinned commit, C15.) -/
theorem C50_exceptions (b : Build) (lines : List Str) (e : Err) :
    ((jvozbaSession b lines).2 = .raised e → e ∈ [Err.index, .notBrivla, .decomposition, .invalidCluster] ++ nameErrs b) ∧
    ((katnaSession b lines).2 = .raised e → e ∈ Err.index :: nameErrs b) :=
  ⟨jvozba_raises, katna_raises⟩

/-- Each of the loops can end with an exception. -/
theorem C50_sessions_can_crash (b : Build) :
    (jvozbaSession b [s%"mlatu"]).2 = .raised .index ∧ (katnaSession b [s%"ba'yyla"]).2 = .raised .index := by
  cases b <;> decide +kernel

/-! Concrete sessions (of the program in which the function that the pinned commit misses is present, C15). -/

example : jvozbaSession .linked [s%"mlatu kerlo", s%"/CMEVLA force\tbrivla cmevla 2c nonsense", s%"mlatu kerlo", s%"x y", []] =
    ([.prompt s%"(FSFCFF) Enter a tanru: ", .lujvo (s%"latkerlo", 7937, [(0, 3), (3, 8)]), .prompt s%"(FSFCFF) Enter a tanru: ",
      .prompt s%"(TFFTFF) Enter a tanru: ", .lujvo (s%"latker", 5898, [(0, 3), (3, 6)]), .prompt s%"(TFFTFF) Enter a tanru: ",
      .message .nonLojban, .prompt s%"(TFFTFF) Enter a tanru: "], .done) := by
  decide +kernel

example : katnaSession .linked [s%"latkerlo", s%"/more ALLOW", s%"mlatu", s%"nei'ynei", s%"/2c", s%"nei'ynei"] =
    ([.prompt s%"(SFCFF) Enter a lujvo: ", .analysis (.lujvo, [s%"lat", s%"kerlo"]), .veljvo [s%"mlatu", s%"kerlo"],
      .prompt s%"(SFCFF) Enter a lujvo: ", .prompt s%"(ATCFF) Enter a lujvo: ", .analysis (.gismu, [s%"mlatu"]),
      .message .decomposition, .prompt s%"(ATCFF) Enter a lujvo: ", .message .notBrivla, .prompt s%"(ATCFF) Enter a lujvo: ",
      .prompt s%"(ATTFF) Enter a lujvo: ", .analysis (.extendedLujvo, [s%"nei", s%"'y", s%"nei"]),
      .veljvo [s%"nelci", s%"nelci"], .prompt s%"(ATTFF) Enter a lujvo: "], .eof) := by
  decide +kernel

/-- The hypothesis of `C50_jvozba_session` and what it says, on concrete lines. -/
example : (jvozbaSession .linked [s%"/1c mz 2c", s%"mlatu kerlo"]).2 = .eof ∧
    commandWords [s%"/1c mz 2c", s%"mlatu kerlo"] = [s%"1c", s%"mz", s%"2c"] ∧
    SettingsAfter [s%"1c", s%"mz", s%"2c"] { consonants := .twoConsonants, allowMz := true } := by
  refine ⟨by decide +kernel, by decide, settingsAfter_foldl (ws := []) (us := [s%"1c", s%"mz", s%"2c"]) settingsAfter_nil⟩

end Jvotci
