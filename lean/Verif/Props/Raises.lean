import Verif.Lemmas.Raises
import Verif.Props.Cli
import Verif.Props.Exceptions
import Verif.Props.Found

/-!
# C84: which exceptions `get_lujvo`, `get_veljvo` and `score_lujvo` raise, and when
-/

namespace Jvotci

open Spec

theorem analytics_raises {s : Settings} {g : Bool} {t : Tanru} {ws : List Str} (hw : Words t ws) {e : Err}
    (h : getLujvoWithAnalytics .linked s g t = .error e) :
    e ∈ spelledErrs ∨ (e = .index ∧ (ws.length < 2 ∨ (∃ w ∈ ws, reading w = []) ∨
      (s.yHyphens ≠ .forceY ∧ ∃ w ∈ ws, DashedR (reading w)))) := by
  by_cases hne : ∃ w ∈ ws, reading w = []
  · have hi : e ∈ spelledErrs ∨ e = .index := by
      rw [hw.list, getLujvoWithAnalytics_program] at h
      rcases bind_fails h with h | ⟨vs, -, h⟩
      · have := errs_processTanru _ e h
        exact .inr (by simpa using this)
      · exact (errs_spelled h).imp_right fun h => h.1
    exact hi.imp_right fun h => ⟨h, .inr (.inl hne)⟩
  · rw [analytics_of hw fun w hw h => hne ⟨w, hw, h⟩] at h
    refine (errs_spelled h).imp_right fun ⟨h1, h2⟩ => ⟨h1, ?_⟩
    rcases h2 with h2 | h2 | ⟨h2, v, hv, h3⟩
    · exact .inl (by simpa using h2)
    · obtain ⟨w, hw, e⟩ := List.mem_map.1 h2
      exact .inr (.inl ⟨w, hw, e⟩)
    · obtain ⟨w, hw, rfl⟩ := List.mem_map.1 hv
      exact .inr (.inr ⟨h2, w, hw, h3⟩)

theorem words_exist (t : Tanru) : ∃ ws, Words t ws := by
  cases t with
  | str text => exact C18_every_text text
  | list l => exact ⟨l, rfl⟩

/-- **C84.** For every tanru, given as a string or as a list of words, and all options, `get_lujvo_with_analytics` and `get_lujvo`
raise nothing but NoLujvoFoundError, NonLojbanCharacterError, NotZihevlaError, InvalidClusterError and IndexError (and
at the pinned commit NameError). They raise IndexError only if the tanru has fewer than two words, if nothing is left of a word
after commas and stops are taken out of it, or, unless all hyphens are `y`, if a word has a dash behind `r` after two vowels. -/
theorem C84_get_lujvo {b : Build} {s : Settings} {g : Bool} {t : Tanru} {ws : List Str} (hw : Words t ws) {e : Err}
    (h : getLujvoWithAnalytics b s g t = .error e ∨ getLujvo b s g t = .error e) :
    e = .noLujvo ∨ e = .nonLojban ∨ e = .notZihevla ∨ e = .invalidCluster ∨
    (e = .index ∧ (ws.length < 2 ∨ (∃ w ∈ ws, reading w = []) ∨
      (s.yHyphens ≠ .forceY ∧ ∃ w ∈ ws, ∃ x i j, reading w = List.replicate i '-' ++ x ++ List.replicate (j + 1) '-' ∧ LateR x))) ∨
    (b = .pinned ∧ e = .name) := by
  have h : getLujvoWithAnalytics b s g t = .error e := by
    rcases h with h | h
    · exact h
    · unfold getLujvo at h
      rcases bind_fails h with h | ⟨_, -, h⟩
      · exact h
      · cases h
  by_cases hn : b = .pinned ∧ e = .name
  · simp [hn]
  have h' : getLujvoWithAnalytics .linked s g t = .error e := by
    cases b with
    | linked => exact h
    | pinned => exact linked_of_pinned (C34_import_changes_nothing_else.2.2.2.1 s g t) h fun h => hn ⟨rfl, h⟩
  rcases analytics_raises hw h' with h | h
  · simp [spelledErrs] at h
    rcases h with h | h | h | h <;> simp [h]
  · exact .inr (.inr (.inr (.inr (.inl h))))

/-- **C84.** If the words of a tanru are written without dashes, then: if some character of some word is not a Lojban letter other
than `y`, `get_lujvo_with_analytics` raises NonLojbanCharacterError; otherwise, if there are at least two words, it returns a lujvo or
raises NoLujvoFoundError. (With the import in place; what the pinned commit does is C34.) -/
theorem C84_words {s : Settings} {g : Bool} {t : Tanru} {ws : List Str} (hw : Words t ws)
    (hd : ∀ w ∈ ws, reading w ≠ [] ∧ '-' ∉ reading w) :
    ((∃ w ∈ ws, ∃ c ∈ reading w, ¬ (Vowel c ∨ Consonant c ∨ c = '\'')) → getLujvoWithAnalytics .linked s g t = .error .nonLojban) ∧
    ((∀ w ∈ ws, ∀ c ∈ reading w, Vowel c ∨ Consonant c ∨ c = '\'') → 2 ≤ ws.length →
      (∃ r, getLujvoWithAnalytics .linked s g t = .ok r) ∨ getLujvoWithAnalytics .linked s g t = .error .noLujvo) := by
  have hd' : ∀ v ∈ ws.map reading, v ≠ [] ∧ '-' ∉ v := by
    intro v hv
    obtain ⟨w, hw, rfl⟩ := List.mem_map.1 hv
    exact hd w hw
  rw [analytics_of hw fun w hw => (hd w hw).1]
  obtain ⟨h1, h2⟩ := words_of (s := s) (n := (ws.map reading).length) (i := 0) hd'
  refine ⟨fun h => ?_, fun h hl => ?_⟩
  · obtain ⟨w, hw, c, hc, hn⟩ := h
    have := h2 ⟨_, List.mem_map_of_mem hw, c, hc, hn⟩
    unfold getLujvoFromList getRafsiListList
    rw [this, error_bind]
  · obtain ⟨ll, hll⟩ := h1 fun v hv => by
      obtain ⟨w, hw, rfl⟩ := List.mem_map.1 hv
      exact h w hw
    have := errs_search (g := g) (by simpa using hl) hll
    cases hr : getLujvoFromList (program .linked) s g (ws.map reading) with
    | ok r => exact .inl ⟨r, rfl⟩
    | error e =>
      have := this e hr
      simp at this
      rw [this]; exact .inr rfl

/-- **C84.** No lujvo is returned for fewer than two words. -/
theorem C84_one_word {b : Build} {s : Settings} {g : Bool} {t : Tanru} {ws : List Str} (hw : Words t ws) (h : ws.length < 2)
    (r : Str × Int × List (Nat × Nat)) : getLujvoWithAnalytics b s g t ≠ .ok r := by
  intro hr
  have hr : getLujvoWithAnalytics .linked s g t = .ok r := by
    cases b with
    | linked => exact hr
    | pinned =>
      rcases C34_import_changes_nothing_else.2.2.2.1 s g t with h | h
      · rw [h] at hr; cases hr
      · rw [← h]; exact hr
  rw [hw.list, getLujvoWithAnalytics_program] at hr
  obtain ⟨vs, hvs, hr⟩ := bind_ok hr
  cases mapM_normalise_ok hvs
  cases hll : getRafsiListList (program .linked) s (ws.map reading) with
  | error e =>
    unfold getLujvoFromList at hr
    rw [hll] at hr; cases hr
  | ok ll =>
    rcases one_component (g := g) (by simpa using h) hll with h | h <;> rw [h] at hr <;> cases hr

/-- **C84.** `get_veljvo` and `score_lujvo` raise what `analyse_brivla` raises, and DecompositionError for a gismu or zi'evla;
nothing else. -/
theorem C84_get_veljvo (s : Settings) (w : Str) (e : Err) :
    (getVeljvo .linked s w = .error e ↔ analyseBrivla .linked s w = .error e ∨
      (e = .decomposition ∧ ∃ t ps, analyseBrivla .linked s w = .ok (t, ps) ∧ (t = .gismu ∨ t = .zihevla))) ∧
    (scoreLujvo .linked s w = .error e ↔ getVeljvo .linked s w = .error e) := by
  have key : getVeljvo .linked s w = .error e ↔ analyseBrivla .linked s w = .error e ∨
      (e = .decomposition ∧ ∃ t ps, analyseBrivla .linked s w = .ok (t, ps) ∧ (t = .gismu ∨ t = .zihevla)) := by
    constructor
    · intro h
      cases ha : analyseBrivla .linked s w with
      | error e' =>
        unfold getVeljvo at h
        rw [ha, error_bind] at h
        cases h; exact .inl rfl
      | ok r =>
        obtain ⟨t, ps⟩ := r
        right
        by_cases ht : t = .gismu ∨ t = .zihevla
        · unfold getVeljvo at h
          rw [ha, ok_bind] at h
          dsimp only at h
          rw [if_pos ht] at h
          cases h
          exact ⟨rfl, t, ps, rfl, ht⟩
        · obtain ⟨vs, hv⟩ := (C30_returns s w).2 ⟨t, ps, ha, by cases t <;> simp_all⟩
          rw [hv] at h; cases h
    · rintro (h | ⟨rfl, t, ps, h, ht⟩)
      · unfold getVeljvo
        rw [h, error_bind]
      · unfold getVeljvo
        rw [h, ok_bind]
        dsimp only
        rw [if_pos ht]
  refine ⟨key, ⟨fun h => ?_, fun h => ?_⟩⟩
  · cases hv : getVeljvo .linked s w with
    | ok vs =>
      obtain ⟨sc, hs⟩ := (C44_returns s w).2 ((C30_returns s w).1 ⟨vs, hv⟩)
      rw [hs] at h; cases h
    | error e' =>
      unfold scoreLujvo at h
      rw [hv, error_bind] at h
      cases h; rfl
  · unfold scoreLujvo
    rw [h, error_bind]

theorem jvozba_raises_only {b : Build} {e : Err} {lines : List Str} : ∀ {st : Bool × Settings}, (jvozbaLoop b st lines).2 = .raised e →
    e = .index ∨ e = .invalidCluster ∨ (b = .pinned ∧ e = .name) := by
  induction lines with
  | nil => intro st h; cases h
  | cons l lines ih =>
    intro st h
    cases l with
    | nil => cases h
    | cons c cs =>
      rw [jvozbaLoop] at h
      split at h
      · exact ih h
      · cases hk : getLujvoWithAnalytics b st.2 st.1 (.str (c :: cs)) with
        | ok r => rw [hk] at h; exact ih h
        | error e' =>
          rw [hk] at h
          dsimp only at h
          split at h
          · exact ih h
          · rename_i hn
            cases h
            obtain ⟨ws, hw⟩ := words_exist (.str (c :: cs))
            have := C84_get_lujvo hw (.inl hk)
            grind

/-- **C84.** Of the exceptions that the loop of `jvozba.py` does not catch, only IndexError and InvalidClusterError (and at the pinned
commit NameError) can end a session. -/
theorem C84_sessions {b : Build} {lines : List Str} {e : Err} (h : (jvozbaSession b lines).2 = .raised e) :
    e = .index ∨ e = .invalidCluster ∨ (b = .pinned ∧ e = .name) := jvozba_raises_only h

/-- **C84.** Each of the exceptions is raised, IndexError in each of the three cases. -/
theorem C84_raised :
    getLujvo .linked {} false (.str s%"mlatu") = .error .index ∧
    getLujvo .linked {} false (.list [s%"mlatu", s%"."]) = .error .index ∧
    getLujvo .linked {} false (.str s%"spageir- mlatu") = .error .index ∧
    getLujvo .linked {} false (.str s%"ui mlatu") = .error .noLujvo ∧
    getLujvo .linked {} false (.str s%"mlatu wlama") = .error .nonLojban ∧
    getLujvo .linked {} false (.str s%"-latkerlo- mlatu") = .error .notZihevla ∧
    getLujvo .linked {} false (.str s%"-bda- mlatu") = .error .invalidCluster ∧
    (jvozbaSession .linked [s%"-bda- mlatu"]).2 = .raised .invalidCluster ∧
    getVeljvo .linked {} s%"mlatu" = .error .decomposition ∧ scoreLujvo .linked {} s%"spageti" = .error .decomposition := by
  decide +kernel

/-- The conditions for IndexError are met by these tanru. -/
example : Words (.list [s%"spageir-", s%"mlatu"]) [s%"spageir-", s%"mlatu"] ∧
    reading s%"spageir-" = List.replicate 0 '-' ++ s%"spageir" ++ List.replicate (0 + 1) '-' ∧ LateR s%"spageir" ∧
    Words (.list [s%"mlatu", s%"."]) [s%"mlatu", s%"."] ∧ reading s%"." = [] :=
  ⟨rfl, by decide, ⟨s%"spag", 'e', 'i', rfl, by decide, .inl (by decide)⟩, rfl, by decide⟩

/-- The hypotheses of `C84_words` in each of its cases. -/
example : (∀ w ∈ [s%"ui", s%"mlatu"], reading w ≠ [] ∧ '-' ∉ reading w) ∧
    (∀ w ∈ [s%"ui", s%"mlatu"], ∀ c ∈ reading w, Vowel c ∨ Consonant c ∨ c = '\'') ∧
    getLujvoWithAnalytics .linked {} false (.list [s%"ui", s%"mlatu"]) = .error .noLujvo ∧
    (∀ w ∈ [s%"mlatu", s%"wlama"], reading w ≠ [] ∧ '-' ∉ reading w) ∧
    (∃ w ∈ [s%"mlatu", s%"wlama"], ∃ c ∈ reading w, ¬ (Vowel c ∨ Consonant c ∨ c = '\'')) ∧
    getLujvoWithAnalytics .linked {} false (.list [s%"mlatu", s%"kerlo"]) = .ok (s%"latkerlo", 7937, [(0, 3), (3, 8)]) := by
  refine ⟨by decide, ?_, by decide +kernel, by decide, ⟨s%"wlama", by simp, 'w', by decide, by decide⟩, by decide +kernel⟩
  intro w hw c hc
  simp only [List.mem_cons, List.not_mem_nil, or_false] at hw
  rcases hw with rfl | rfl
  · exact isOnlyLojban_letters (x := reading s%"ui") (by decide) c hc
  · exact isOnlyLojban_letters (x := reading s%"mlatu") (by decide) c hc

example : analyseBrivla .linked {} s%"mlatu" = .ok (.gismu, [s%"mlatu"]) ∧ analyseBrivla .linked {} s%"ba'yyla" = .error .index ∧
    getVeljvo .linked {} s%"ba'yyla" = .error .index := by
  decide +kernel

end Jvotci
