import Verif.SpecJs
import Verif.Lemmas.JsApi
import Verif.Props.Exceptions
import Verif.Props.Termination
import Verif.Props.Analytics

/-!
C78 and C79: the JavaScript package beside the Python package.
-/

namespace Jvotci
open Spec

theorem sameAnswer_of {α : Type} {E : List Err} {x : Except Err α} {x' : Except JsErr α} (h : Ag x x') (hE : Errs E x)
    (hEs : ∀ e ∈ E, e = .index ∨ SameError e (toJ e)) (hi : x ≠ .error .index) : SameAnswer x x' := by
  cases hx : x with
  | ok a => exact .inl ⟨a, rfl, h.1 a hx⟩
  | error e =>
    rcases hEs e (hE e hx) with rfl | hs
    · exact absurd hx hi
    · rcases h.2 e hx with rfl | rfl | rfl | h
      · exact absurd hx hi
      · cases hs
      · cases hs
      · exact .inr ⟨e, _, rfl, h, hs⟩

theorem analyseErrs_same : ∀ e ∈ analyseErrs .linked, e = .index ∨ SameError e (toJ e) := by
  intro e h
  have : e = .notBrivla ∨ e = .index ∨ e = .decomposition := by simpa [analyseErrs, nameErrs] using h
  rcases this with rfl | rfl | rfl
  · exact .inr .notBrivla
  · exact .inl rfl
  · exact .inr .decomposition

theorem lujvoErrs_same : ∀ e ∈ lujvoErrs .linked, e = .index ∨ SameError e (toJ e) := by
  intro e h
  have : e ∈ [Err.noLujvo, .nonLojban, .notZihevla, .notBrivla, .index, .decomposition, .invalidCluster] := by
    simpa [lujvoErrs, nameErrs] using h
  simp only [List.mem_cons, List.not_mem_nil, or_false] at this
  rcases this with rfl | rfl | rfl | rfl | rfl | rfl | rfl <;> first | exact .inl rfl | exact .inr (by constructor)

/-- **C78.** `analyseBrivla` in JavaScript gives the type and the pieces that `analyse_brivla` gives in Python, or throws the
exception of the same name, for every word and all options, unless Python raises `IndexError`. -/
theorem C78_analyse_brivla (s : Settings) (w : Str) (h : analyseBrivla .linked s w ≠ .error .index) :
    SameAnswer (analyseBrivla .linked s w) (jsAnalyseBrivla s w) :=
  sameAnswer_of (ag_analyseBrivla s w) (errs_analyseBrivla .linked s w) analyseErrs_same h

/-- **C78.** The same, said of the word: Python raises no `IndexError` on a word that is not empty, in which no `'yy` is read
with standard hyphens, and that does not end in r after two vowels unless all hyphens are y. -/
theorem C78_words (s : Settings) (w : Str) (hne : w ≠ []) (hy : s.yHyphens = .standard → ∀ u t, reading w ≠ u ++ s%"'yy" ++ t)
    (hr : s.yHyphens ≠ .forceY → ∀ u x y, reading w = u ++ [x, y, 'r'] → Vowel y → ¬ (Vowel x ∨ x = '\'')) :
    SameAnswer (analyseBrivla .linked s w) (jsAnalyseBrivla s w) := by
  refine C78_analyse_brivla s w fun h => ?_
  rcases C15_index_error_partial h with h | ⟨h1, u, t, h2⟩ | ⟨h1, u, x, y, h2, h3, h4⟩
  · exact hne h
  · exact hy h1 u t h2
  · exact hr h1 u x y h2 h3 h4

/-- **C78.** `isBrivla` gives the same answer, or throws the exception of the same name. -/
theorem C78_is_brivla (s : Settings) (w : Str) (h : isBrivla .linked s w ≠ .error .index) :
    SameAnswer (isBrivla .linked s w) (jsIsBrivla s w) := by
  refine sameAnswer_of (ag_isBrivla s w) (E := analyseErrs .linked) ?_ analyseErrs_same h
  unfold isBrivla
  have := errs_analyseBrivla .linked s w
  split
  · exact .ok
  · exact .ok
  · rename_i he
    exact .err (this _ he)

/-- **C78.** `getVeljvo` gives the same words, or throws the exception of the same name. -/
theorem C78_get_veljvo (s : Settings) (w : Str) (h : getVeljvo .linked s w ≠ .error .index) :
    SameAnswer (getVeljvo .linked s w) (jsGetVeljvo s w) :=
  sameAnswer_of (ag_getVeljvo s w) (getVeljvo_errs .linked s w) analyseErrs_same h

/-- **C78.** At the pinned commit the Python functions may raise `NameError` instead (C34); where they do not, the same holds. -/
theorem C78_pinned (s : Settings) (w : Str) :
    (analyseBrivla .pinned s w ≠ .error .index → analyseBrivla .pinned s w ≠ .error .name →
      SameAnswer (analyseBrivla .pinned s w) (jsAnalyseBrivla s w)) ∧
    (isBrivla .pinned s w ≠ .error .index → isBrivla .pinned s w ≠ .error .name → SameAnswer (isBrivla .pinned s w) (jsIsBrivla s w)) ∧
    (getVeljvo .pinned s w ≠ .error .index → getVeljvo .pinned s w ≠ .error .name → SameAnswer (getVeljvo .pinned s w) (jsGetVeljvo s w)) := by
  obtain ⟨h1, h2, -, -, h3, -⟩ := C34_import_changes_nothing_else
  refine ⟨fun hi hn => ?_, fun hi hn => ?_, fun hi hn => ?_⟩
  · have e := (h1 s w).resolve_left hn
    rw [e] at hi ⊢
    exact C78_analyse_brivla s w hi
  · have e := (h2 s w).resolve_left hn
    rw [e] at hi ⊢
    exact C78_is_brivla s w hi
  · have e := (h3 s w).resolve_left hn
    rw [e] at hi ⊢
    exact C78_get_veljvo s w hi

/-- What JavaScript does where Python raises `IndexError`: it may find the word good, or not. -/
theorem C78_index_error :
    (analyseBrivla .linked {} s%"smatyspageir" = .error .index ∧
      jsAnalyseBrivla {} s%"smatyspageir" = .ok (.cmevla, [s%"smat", s%"y", s%"spageir"])) ∧
    (analyseBrivla .linked {} s%"ba'yyla" = .error .index ∧ jsAnalyseBrivla {} s%"ba'yyla" = .error .notBrivla) ∧
    (analyseBrivla .linked {} [] = .error .index ∧ jsAnalyseBrivla {} [] = .error .notBrivla) := by
  decide +kernel

example : analyseBrivla .linked {} s%"spageti'ykla'ydja" = .ok (.extendedLujvo, [s%"spageti", s%"'y", s%"kla", s%"'y", s%"dja"]) ∧
    jsAnalyseBrivla {} s%"spageti'ykla'ydja" = .ok (.extendedLujvo, [s%"spageti", s%"'y", s%"kla", s%"'y", s%"dja"]) ∧
    analyseBrivla .linked {} s%"slinku'i" = .error .notBrivla ∧ jsAnalyseBrivla {} s%"slinku'i" = .error .notBrivla ∧
    getVeljvo .linked {} s%"bramlatu" = .ok [s%"barda", s%"mlatu"] ∧ jsGetVeljvo {} s%"bramlatu" = .ok [s%"barda", s%"mlatu"] ∧
    getVeljvo .linked {} s%"mlatu" = .error .decomposition ∧ jsGetVeljvo {} s%"mlatu" = .error .decomposition := by
  decide +kernel

/-! ## C79 -/

theorem commonSpaces_separated {t : Tanru} (h : CommonSpaces t) : Separated t := by
  cases t with
  | list l => trivial
  | str w =>
    intro c hc
    have := h c hc
    unfold jsIsSpace isSpace
    generalize c.toNat = n at this
    simp only [List.mem_cons, List.not_mem_nil, or_false, not_or] at this
    rw [Bool.eq_iff_iff]
    simp only [Bool.or_eq_true, Bool.and_eq_true, decide_eq_true_eq, beq_iff_eq]
    omega

/-- **C79**, part: without `exp_rafsi_shapes`, `getLujvoWithAnalytics` and `getLujvo` in JavaScript give the word, the score and the
index pairs that Python gives, or throw the exception of the same name, for every tanru and all other options, unless Python raises
`IndexError`. Missing: with `exp_rafsi_shapes`, where it is false (`C79_false`). -/
theorem C79_get_lujvo_partial (s : Settings) (g : Bool) (t : Tanru) (hexp : s.expRafsi = false) (ht : CommonSpaces t) :
    (getLujvoWithAnalytics .linked s g t ≠ .error .index →
      SameAnswer (getLujvoWithAnalytics .linked s g t) (jsGetLujvoWithAnalytics s g t)) ∧
    (getLujvo .linked s g t ≠ .error .index → SameAnswer (getLujvo .linked s g t) (jsGetLujvo s g t)) := by
  refine ⟨fun h => ?_, fun h => ?_⟩
  · exact sameAnswer_of (ag_getLujvoWithAnalytics g (commonSpaces_separated ht) fun _ _ _ _ => .inl hexp)
      (errs_getLujvoWithAnalytics .linked s g t) lujvoErrs_same h
  · exact sameAnswer_of (ag_getLujvo g (commonSpaces_separated ht) fun _ _ _ _ => .inl hexp)
      (.bind (errs_getLujvoWithAnalytics .linked s g t) fun _ _ => .ok) lujvoErrs_same h

/-- **C79**, part: the same with `exp_rafsi_shapes`, if each component between dashes is a CLL rafsi or accepted by `analyse_brivla`
as a word. Missing: experimental rafsi, with which it is false (`C79_false`). -/
theorem C79_words_partial (s : Settings) (g : Bool) (t : Tanru) (ws : List Str) (hws : Words t ws) (ht : CommonSpaces t)
    (hv : ∀ v ∈ ws, ∀ x, Dashed (reading v) x → Rafsi s.allowMz x ∨ ∃ ty, WordType .linked s x ty) :
    (getLujvoWithAnalytics .linked s g t ≠ .error .index →
      SameAnswer (getLujvoWithAnalytics .linked s g t) (jsGetLujvoWithAnalytics s g t)) ∧
    (getLujvo .linked s g t ≠ .error .index → SameAnswer (getLujvo .linked s g t) (jsGetLujvo s g t)) := by
  have hno : ∀ vs, processTanru t = .ok vs → ∀ v ∈ vs, NoExp .linked s v := by
    intro vs hvs v hm
    have hvs : ws.mapM normalise = .ok vs := by
      cases t with
      | list l => cases hws; exact hvs
      | str text =>
        unfold processTanru at hvs
        dsimp only at hvs
        rwa [splitWs_spaced hws] at hvs
    cases mapM_normalise_ok hvs
    obtain ⟨w, hw, rfl⟩ := List.mem_map.1 hm
    exact .inr (hv w hw)
  refine ⟨fun h => ?_, fun h => ?_⟩
  · exact sameAnswer_of (ag_getLujvoWithAnalytics g (commonSpaces_separated ht) hno) (errs_getLujvoWithAnalytics .linked s g t) lujvoErrs_same h
  · exact sameAnswer_of (ag_getLujvo g (commonSpaces_separated ht) hno)
      (.bind (errs_getLujvoWithAnalytics .linked s g t) fun _ _ => .ok) lujvoErrs_same h

/-- **C79**, part: `scoreLujvo` in JavaScript gives 100 more than in Python for each hyphen y, n or r; apart from that the same, and
the same exceptions. Missing: the same score, which is false (`C79_false`). -/
theorem C79_score_lujvo_partial (s : Settings) (w : Str) :
    (∀ sc, scoreLujvo .linked s w = .ok sc → ∃ t ps, analyseBrivla .linked s w = .ok (t, ps) ∧
      jsScoreLujvo s w = .ok (sc + 100 * (ps.countP (fun p => OneLetterHyphen p) : Int))) ∧
    ∀ e, scoreLujvo .linked s w = .error e → e ≠ .index → ∃ e', jsScoreLujvo s w = .error e' ∧ SameError e e' := by
  refine ⟨fun sc h => ?_, fun e h hi => ?_⟩
  · obtain ⟨vs, hv, h⟩ := bind_ok h
    obtain ⟨⟨t, ps⟩, ha, h⟩ := bind_ok h
    refine ⟨t, ps, ha, ?_⟩
    unfold jsScoreLujvo
    rw [(ag_getVeljvo s w).1 vs hv, (ag_analyseBrivla s w).1 _ ha]
    cases h
    show Except.ok ((ps.map jsPieceScore).sum - jsTiebreak w) = _
    have e : ps.countP (fun p => OneLetterHyphen p) = ps.countP (fun p => p = s%"y" ∨ p = s%"n" ∨ p = s%"r") :=
      List.countP_congr fun p _ => by rw [decide_eq_true_iff, decide_eq_true_iff]; rfl
    rw [jsPieceScore_sum, jsTiebreak_eq, e]
    congr 1
    omega
  · unfold scoreLujvo at h
    unfold jsScoreLujvo
    cases hv : getVeljvo .linked s w with
    | ok vs =>
      exfalso
      unfold getVeljvo at hv
      obtain ⟨a, ha, -⟩ := bind_ok hv
      have hv' : getVeljvo .linked s w = .ok vs := hv
      rw [hv', ha] at h
      cases h
    | error e1 =>
      rw [hv] at h
      cases h
      rcases C78_get_veljvo s w (by rw [hv]; intro h; cases h; exact hi rfl) with ⟨a, h1, -⟩ | ⟨e1, e', h1, h2, h3⟩
      · rw [hv] at h1; cases h1
      · rw [hv] at h1; cases h1
        exact ⟨e', by rw [h2]; rfl, h3⟩

/-- **C79** is false of the code as a whole: with `exp_rafsi_shapes` JavaScript makes another word of `bangu -ie'o-` and throws
`TypeError` for `-st-`; a hyphen adds 1100 to the score of a lujvo, not 1000; and words may be separated by other characters. -/
theorem C79_false :
    (getLujvo .linked { expRafsi := true } false (.list [s%"bangu", s%"-ie'o-"]) = .ok s%"banyie'o" ∧
      jsGetLujvo { expRafsi := true } false (.list [s%"bangu", s%"-ie'o-"]) = .ok s%"bangyie'o") ∧
    (getLujvo .linked { expRafsi := true } false (.list [s%"-st-"]) = .error .notZihevla ∧
      jsGetLujvo { expRafsi := true } false (.list [s%"-st-"]) = .error .type) ∧
    (scoreLujvo .linked {} s%"cipyspageti" = .ok 10946 ∧ jsScoreLujvo {} s%"cipyspageti" = .ok 11046) ∧
    (getLujvo .linked {} false (.str (s%"mlatu" ++ [Char.ofNat 0x1C] ++ s%"klama")) = .ok s%"latkla" ∧
      jsGetLujvo {} false (.str (s%"mlatu" ++ [Char.ofNat 0x1C] ++ s%"klama")) = .error .nonLojban) := by
  decide +kernel

example : CommonSpaces (.str s%"mlatu  klama") ∧ CommonSpaces (.list [s%"mlatu", s%"klama"]) ∧
    getLujvoWithAnalytics .linked {} false (.str s%"mlatu  klama") = .ok (s%"latkla", 5878, [(0, 3), (3, 6)]) ∧
    jsGetLujvoWithAnalytics {} false (.str s%"mlatu  klama") = .ok (s%"latkla", 5878, [(0, 3), (3, 6)]) ∧
    getLujvo .linked {} false (.str s%"spageir mlatu") = .error .noLujvo ∧
    jsGetLujvo {} false (.str s%"spageir mlatu") = .error .noLujvo := by
  refine ⟨?_, trivial, ?_⟩
  · intro c hc
    revert hc c
    decide
  · decide +kernel

-- A word, a zi'evla between dashes and a rafsi, with `exp_rafsi_shapes`.
example : (∀ v ∈ [s%"mlatu", s%"-spageti-", s%"-kla-"], ∀ x, Dashed (reading v) x →
      Rafsi false x ∨ ∃ ty, WordType .linked { expRafsi := true } x ty) ∧
    getLujvo .linked { expRafsi := true } false (.list [s%"mlatu", s%"-spageti-", s%"-kla-"]) = .ok s%"latyspageti'ykla" ∧
    jsGetLujvo { expRafsi := true } false (.list [s%"mlatu", s%"-spageti-", s%"-kla-"]) = .ok s%"latyspageti'ykla" := by
  refine ⟨fun v hv x hx => ?_, by decide +kernel⟩
  have e := dashed_strip hx
  simp only [List.mem_cons, List.not_mem_nil, or_false] at hv
  rcases hv with rfl | rfl | rfl
  · exact absurd (dashed_head hx) (by decide)
  · obtain rfl : s%"spageti" = x := by rw [← e]; decide
    exact .inr ⟨.zihevla, [s%"spageti"], by decide +kernel⟩
  · obtain rfl : s%"kla" = x := by rw [← e]; decide
    exact .inl (isValidRafsi_iff.1 (by decide))

end Jvotci
