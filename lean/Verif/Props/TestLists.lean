import Verif.MakeTests
import Verif.SpecTests
import Verif.Core

/-!
# C74: the scripts that make lists of tests
-/

namespace Jvotci
open Spec

/-! ## make_dictionary_test_list.py -/

/-- **C74.** Every list has the words of the types that belong to it, in the order of the dictionary. -/
theorem C74_dictionary (root : List (Option Str × Option Str)) :
    (makeDictionaryList root).gismu = (root.filter fun v => v.2 = some s%"gismu" ∨ v.2 = some s%"experimental gismu").map Prod.fst ∧
    (makeDictionaryList root).lujvo = (root.filter fun v => v.2 = some s%"lujvo").map Prod.fst ∧
    (makeDictionaryList root).zihevla = (root.filter fun v => v.2 = some s%"fu'ivla").map Prod.fst ∧
    (makeDictionaryList root).other = (root.filter fun v => v.2 ∉ [some s%"gismu", some s%"experimental gismu", some s%"lujvo", some s%"fu'ivla"]).map Prod.fst := by
  have key : ∀ (root : List (Option Str × Option Str)) (a : AllWords),
      (root.foldl addWord a).gismu = a.gismu ++ (root.filter fun v => v.2 = some s%"gismu" ∨ v.2 = some s%"experimental gismu").map Prod.fst ∧
      (root.foldl addWord a).lujvo = a.lujvo ++ (root.filter fun v => v.2 = some s%"lujvo").map Prod.fst ∧
      (root.foldl addWord a).zihevla = a.zihevla ++ (root.filter fun v => v.2 = some s%"fu'ivla").map Prod.fst ∧
      (root.foldl addWord a).other = a.other ++ (root.filter fun v => v.2 ∉ [some s%"gismu", some s%"experimental gismu", some s%"lujvo", some s%"fu'ivla"]).map Prod.fst := by
    intro root
    induction root with
    | nil => intro a; simp
    | cons v root ih =>
      intro a
      obtain ⟨w, t⟩ := v
      rw [List.foldl_cons]
      obtain ⟨h1, h2, h3, h4⟩ := ih (addWord a (w, t))
      rw [h1, h2, h3, h4]
      clear ih h1 h2 h3 h4
      cases t with
      | none => simp [addWord]
      | some t =>
        unfold addWord
        dsimp only
        split
        · subst t; simp
        · split
          · subst t; simp
          · split
            · subst t; simp
            · split
              · subst t; simp
              · simp [*]
  have := key root {}
  simpa [makeDictionaryList] using this

/-- **C74.** No word is lost or listed twice. -/
theorem C74_dictionary_count (root : List (Option Str × Option Str)) :
    (makeDictionaryList root).gismu.length + (makeDictionaryList root).lujvo.length + (makeDictionaryList root).zihevla.length +
      (makeDictionaryList root).other.length = root.length := by
  obtain ⟨h1, h2, h3, h4⟩ := C74_dictionary root
  rw [h1, h2, h3, h4]
  simp only [List.length_map]
  clear h1 h2 h3 h4
  induction root with
  | nil => rfl
  | cons v root ih =>
    obtain ⟨w, t⟩ := v
    simp only [List.filter_cons, List.length_cons]
    by_cases h1 : t = some s%"gismu"
    · subst h1; simp at ih ⊢; omega
    by_cases h2 : t = some s%"experimental gismu"
    · subst h2; simp at ih ⊢; omega
    by_cases h3 : t = some s%"lujvo"
    · subst h3; simp at ih ⊢; omega
    by_cases h4 : t = some s%"fu'ivla"
    · subst h4; simp at ih ⊢; omega
    simp [h1, h2, h3, h4] at ih ⊢; omega

example : makeDictionaryList [(some s%"mlatu", some s%"gismu"), (some s%"latkerlo", some s%"lujvo"), (some s%"kerlo", some s%"experimental gismu"),
    (some s%"coi", some s%"cmavo"), (none, none)] =
    { gismu := [some s%"mlatu", some s%"kerlo"], lujvo := [some s%"latkerlo"], other := [some s%"coi", none] } := by decide

/-! ## make_js_tests.py -/

theorem jsSteps_append : ∀ {st st' : JsState} {u : Str} (v : Str), jsSteps st u = some st' → jsSteps st (u ++ v) = jsSteps st' v
  | st, st', [], v, h => by cases h; rfl
  | st, st', c :: u, v, h => by
    rw [List.cons_append]
    show (jsStep st c).bind _ = _
    have h : (jsStep st c).bind (fun st => jsSteps st u) = some st' := h
    cases hs : jsStep st c with
    | none => rw [hs] at h; cases h
    | some s' => rw [hs] at h; exact jsSteps_append v h

/-- The inside of a string. -/
theorem jsSteps_cell : ∀ {x : Str} {ls : List (List JsVal)} {t : Str}, PlainCell x →
    jsSteps ⟨ls, some t⟩ x = some ⟨ls, some (t ++ x)⟩
  | [], ls, t, _ => by rw [List.append_nil]; rfl
  | c :: x, ls, t, h => by
    obtain ⟨h1, h2, h3, h4⟩ := h c (by simp)
    have : jsStep ⟨ls, some t⟩ c = some ⟨ls, some (t ++ [c])⟩ := by
      unfold jsStep
      simp [h1, h2, h3, h4]
    show (jsStep _ c).bind _ = _
    rw [this, Option.bind_some, jsSteps_cell fun d hd => h d (List.mem_cons_of_mem _ hd)]
    simp

/-- The cells of a row, from inside the first to inside the last. -/
theorem jsSteps_cells : ∀ {row : List Str} {l : List JsVal} {ls : List (List JsVal)}, (∀ x ∈ row, PlainCell x) → row ≠ [] →
    jsSteps ⟨l :: ls, some []⟩ (joinCells row ++ s%"\"") = some ⟨(l ++ row.map .str) :: ls, none⟩
  | [], _, _, _, h => absurd rfl h
  | [x], l, ls, h, _ => by
    rw [show joinCells [x] = x from rfl, jsSteps_append _ (jsSteps_cell (h x (by simp)))]
    simp [jsSteps, jsStep, JsState.value]
  | x :: y :: t, l, ls, h, _ => by
    rw [show joinCells (x :: y :: t) = x ++ s%"\", \"" ++ joinCells (y :: t) from rfl, List.append_assoc, List.append_assoc,
      jsSteps_append _ (jsSteps_cell (h x (by simp)))]
    have : jsSteps ⟨l :: ls, some ([] ++ x)⟩ s%"\", \"" = some ⟨(l ++ [.str x]) :: ls, some []⟩ := by
      simp [jsSteps, jsStep, JsState.value]
    rw [jsSteps_append _ this, jsSteps_cells (fun z hz => h z (List.mem_cons_of_mem _ hz)) (by simp)]
    simp

theorem jsSteps_row {row : List Str} {l : List JsVal} {ls : List (List JsVal)} (h : ∀ x ∈ row, PlainCell x) (hne : row ≠ []) :
    jsSteps ⟨l :: ls, none⟩ (jsRow row) = some ⟨(l ++ [.arr (row.map .str)]) :: ls, none⟩ := by
  have e : jsRow row = s%"  [\"" ++ ((joinCells row ++ s%"\"") ++ s%"],\n") := by simp [jsRow]
  have h1 : jsSteps ⟨l :: ls, none⟩ s%"  [\"" = some ⟨[] :: l :: ls, some []⟩ := by simp [jsSteps, jsStep]
  rw [e, jsSteps_append _ h1, jsSteps_append _ (jsSteps_cells h hne)]
  simp [jsSteps, jsStep, JsState.value]

theorem skipped_nil {row : List Str} (h : rowSkipped row = false) : row ≠ [] := by
  rintro rfl; cases h

theorem rowSkipped_iff (row : List Str) : rowSkipped row = false ↔ ∃ c x r, row = (c :: x) :: r ∧ c ≠ '#' := by
  unfold rowSkipped
  split <;> simp

theorem jsSteps_rows : ∀ {rows : List (List Str)} {l : List JsVal} {ls : List (List JsVal)}, (∀ r ∈ rows, ∀ x ∈ r, PlainCell x) →
    jsSteps ⟨l :: ls, none⟩ (jsRows rows) = some ⟨(l ++ ((rows.filter fun r => !rowSkipped r).map fun r => .arr (r.map .str))) :: ls, none⟩
  | [], _, _, _ => by simp [jsRows, jsSteps]
  | row :: rows, l, ls, h => by
    have ht := fun r hr => h r (List.mem_cons_of_mem _ hr)
    unfold jsRows
    cases hs : rowSkipped row with
    | true => rw [if_pos rfl, jsSteps_rows ht]; simp [hs]
    | false =>
      rw [if_neg (by simp), jsSteps_append _ (jsSteps_row (h row (by simp)) (skipped_nil hs)), jsSteps_rows ht]
      simp [hs]

theorem testRow_iff (r : List Str) : TestRow r = !rowSkipped r := by
  unfold TestRow rowSkipped
  split
  · rfl
  · rename_i h
    split
    · rfl
    · rfl
    · rfl
    · rfl
    · exact absurd rfl (h _ _ _)

theorem jsList_read (name : Str) {rows : List (List Str)} (h : ∀ r ∈ rows, ∀ x ∈ r, PlainCell x) :
    ∃ a, jsList name rows = s%"const " ++ name ++ s%" = " ++ a ++ s%"\n\n" ∧ readJs a = some (jsTable (rows.filter TestRow)) := by
  refine ⟨s%"[\n" ++ (jsRows rows ++ s%"]"), by simp [jsList], ?_⟩
  unfold readJs
  have h1 : jsSteps ⟨[[]], none⟩ s%"[\n" = some ⟨[[], []], none⟩ := by simp [jsSteps, jsStep]
  rw [jsSteps_append _ h1, jsSteps_append _ (jsSteps_rows h)]
  simp only [funext testRow_iff, jsTable]
  simp [jsSteps, jsStep, JsState.value]

theorem jsSteps_words : ∀ {ws : List Str} {l : List JsVal} {ls : List (List JsVal)}, (∀ x ∈ ws, PlainCell x) →
    jsSteps ⟨l :: ls, none⟩ (jsWords ws) = some ⟨(l ++ ws.map .str) :: ls, none⟩
  | [], _, _, _ => by simp [jsWords, jsSteps]
  | w :: ws, l, ls, h => by
    have e : jsWords (w :: ws) = s%"    \"" ++ (w ++ (s%"\",\n" ++ jsWords ws)) := by simp [jsWords]
    have h1 : jsSteps ⟨l :: ls, none⟩ s%"    \"" = some ⟨l :: ls, some []⟩ := by simp [jsSteps, jsStep]
    have h2 : jsSteps ⟨l :: ls, some ([] ++ w)⟩ s%"\",\n" = some ⟨(l ++ [.str w]) :: ls, none⟩ := by simp [jsSteps, jsStep, JsState.value]
    rw [e, jsSteps_append _ h1, jsSteps_append _ (jsSteps_cell (h w (by simp))), jsSteps_append _ h2,
      jsSteps_words fun z hz => h z (List.mem_cons_of_mem _ hz)]
    simp

theorem jsSteps_types : ∀ {es : List (Str × List Str)} {l : List JsVal} {ls : List (List JsVal)},
    (∀ e ∈ es, PlainCell e.1 ∧ ∀ x ∈ e.2, PlainCell x) →
    jsSteps ⟨l :: ls, none⟩ (jsTypes es) = some ⟨(l ++ es.map fun e => .arr [.str e.1, .arr (e.2.map .str)]) :: ls, none⟩
  | [], _, _, _ => by simp [jsTypes, jsSteps]
  | e :: es, l, ls, h => by
    obtain ⟨hk, hw⟩ := h e (by simp)
    have e1 : jsTypes (e :: es) = s%"  [\"" ++ (e.1 ++ (s%"\", [\n" ++ (jsWords e.2 ++ (s%"  ]],\n" ++ jsTypes es)))) := by simp [jsTypes]
    have h1 : jsSteps ⟨l :: ls, none⟩ s%"  [\"" = some ⟨[] :: l :: ls, some []⟩ := by simp [jsSteps, jsStep]
    have h2 : jsSteps ⟨[] :: l :: ls, some ([] ++ e.1)⟩ s%"\", [\n" = some ⟨[] :: [.str e.1] :: l :: ls, none⟩ := by
      simp [jsSteps, jsStep, JsState.value]
    have h3 : jsSteps ⟨([] ++ e.2.map .str) :: [.str e.1] :: l :: ls, none⟩ s%"  ]],\n" =
        some ⟨(l ++ [.arr [.str e.1, .arr (e.2.map .str)]]) :: ls, none⟩ := by simp [jsSteps, jsStep, JsState.value]
    rw [e1, jsSteps_append _ h1, jsSteps_append _ (jsSteps_cell hk), jsSteps_append _ h2, jsSteps_append _ (jsSteps_words hw),
      jsSteps_append _ h3, jsSteps_types fun z hz => h z (List.mem_cons_of_mem _ hz)]
    simp

theorem jsMap_read {es : List (Str × List Str)} (h : ∀ e ∈ es, PlainCell e.1 ∧ ∀ x ∈ e.2, PlainCell x) :
    ∃ a, jsMap es = s%"const JVS_WORDS = new Map(" ++ a ++ s%")\n" ∧
      readJs a = some (.arr (es.map fun e => .arr [.str e.1, .arr (e.2.map .str)])) := by
  refine ⟨s%"[\n" ++ (jsTypes es ++ s%"]"), by simp [jsMap], ?_⟩
  unfold readJs
  have h1 : jsSteps ⟨[[]], none⟩ s%"[\n" = some ⟨[[], []], none⟩ := by simp [jsSteps, jsStep]
  rw [jsSteps_append _ h1, jsSteps_append _ (jsSteps_types h)]
  simp [jsSteps, jsStep, JsState.value]

/-- **C74.** The file written for the JavaScript tests has four constants. Read as JavaScript, the first three are the rows of
the three lists whose first cell is neither empty nor a comment, cell by cell, and the last has the words of the dictionary
under their types. -/
theorem C74_js_tests {basic jvozba katna : List (List Str)} {words : List (Str × List Str)}
    (h1 : ∀ r ∈ basic, ∀ x ∈ r, PlainCell x) (h2 : ∀ r ∈ jvozba, ∀ x ∈ r, PlainCell x) (h3 : ∀ r ∈ katna, ∀ x ∈ r, PlainCell x)
    (h4 : ∀ e ∈ words, PlainCell e.1 ∧ ∀ x ∈ e.2, PlainCell x) :
    ∃ a b c d, makeJsTests basic jvozba katna words =
        s%"const BASIC_TEST_LIST = " ++ a ++ s%"\n\nconst JVOZBA_TEST_LIST = " ++ b ++ s%"\n\nconst KATNA_TEST_LIST = " ++ c ++
          s%"\n\nconst JVS_WORDS = new Map(" ++ d ++ s%")\n" ∧
      readJs a = some (jsTable (basic.filter TestRow)) ∧ readJs b = some (jsTable (jvozba.filter TestRow)) ∧
      readJs c = some (jsTable (katna.filter TestRow)) ∧
      readJs d = some (.arr (words.map fun e => .arr [.str e.1, .arr (e.2.map .str)])) := by
  obtain ⟨a, ea, ha⟩ := jsList_read s%"BASIC_TEST_LIST" h1
  obtain ⟨b, eb, hb⟩ := jsList_read s%"JVOZBA_TEST_LIST" h2
  obtain ⟨c, ec, hc⟩ := jsList_read s%"KATNA_TEST_LIST" h3
  obtain ⟨d, ed, hd⟩ := jsMap_read h4
  refine ⟨a, b, c, d, ?_, ha, hb, hc, hd⟩
  simp [makeJsTests, ea, eb, ec, ed]

example : ∀ r ∈ [[s%"# comment"], [s%"mlatu kerlo", s%"latkerlo"], [], [[], s%"FAIL", s%"KATNA"]], ∀ x ∈ r, PlainCell x := by decide

example : makeJsTests [] [[s%"# comment"], [s%"mlatu kerlo", s%"latkerlo"], []] [] [(s%"GISMU", [s%"mlatu"])] =
    s%"const BASIC_TEST_LIST = [\n]\n\nconst JVOZBA_TEST_LIST = [\n  [\"mlatu kerlo\", \"latkerlo\"],\n]\n\nconst KATNA_TEST_LIST = [\n]\n\nconst JVS_WORDS = new Map([\n  [\"GISMU\", [\n    \"mlatu\",\n  ]],\n])\n" := by
  decide +kernel

/-- **C74.** The test of the first two cells suggests that a row with an empty first cell and another cell is a test, but it is
passed over: tests/basic_test_list.tsv:5406 and tests/katna_test_list.tsv:235 demand that the empty string is not a word, and
are in no list. (`analyse_brivla("")` would fail the test, see C15.) -/
theorem C74_empty_word (conditions : List Str) : TestRow ([] :: s%"FAIL" :: conditions) = false ∧
    jsRows [[] :: s%"FAIL" :: conditions] = [] ∧ getVeljvo .linked {} [] = .error .index :=
  ⟨rfl, rfl, by decide +kernel⟩

/-- **C74.** The hypothesis on the cells is needed: nothing is escaped. -/
theorem C74_quotes : readJs (s%"[" ++ jsRow [s%"a\\", s%"b"] ++ s%"]") = none ∧ jsRow [s%"a\", \"b"] = jsRow [s%"a", s%"b"] := by
  decide

/-! ## examples/py_example.py

The results given in its comments (a test of the model, not a theorem about it). One of them is not what the code computes: for
`tcana jatna` the example and README.md have the score 8597, the code and tests/jvozba_test_list.tsv:23 have 8997. -/

example : getLujvo .linked {} false (.str s%"mlatu kerlo") = .ok s%"latkerlo" ∧
    getLujvo .linked {} false (.list [s%"mlatu", s%"kerlo"]) = .ok s%"latkerlo" ∧
    getLujvo .linked {} true (.str s%"mlatu kerlo") = .ok s%"latker" ∧
    getLujvo .linked {} true (.list [s%"mlatu", s%"kerlo"]) = .ok s%"latker" ∧
    getVeljvo .linked {} s%"latkerlo" = .ok [s%"mlatu", s%"kerlo"] ∧
    isBrivla .linked {} s%"latkerlo" = .ok true ∧ isBrivla .linked {} s%"bisladru" = .ok false ∧ isBrivla .linked {} s%"latker" = .ok false ∧
    analyseBrivla .linked {} s%"tcanyja'a" = .ok (.lujvo, [s%"tcan", s%"y", s%"ja'a"]) ∧
    analyseBrivla .linked {} s%"re'ertren" = .ok (.cmevla, [s%"re'e", s%"r", s%"tren"]) ∧
    analyseBrivla .linked {} s%"mlatu" = .ok (.gismu, [s%"mlatu"]) ∧
    analyseBrivla .linked {} s%"latkello" = .error .notBrivla ∧
    getLujvoWithAnalytics .linked {} false (.str s%"mlatu kerlo") = .ok (s%"latkerlo", 7937, [(0, 3), (3, 8)]) ∧
    getLujvoWithAnalytics .linked {} false (.str s%"tcana jatna") = .ok (s%"tcanyja'a", 8997, [(0, 4), (5, 9)]) ∧
    getRafsiIndices [s%"lat", s%"kerlo"] = [(0, 3), (3, 8)] ∧ getRafsiIndices [s%"tcan", s%"y", s%"ja'a"] = [(0, 4), (5, 9)] := by
  repeat' apply And.intro
  all_goals decide +kernel

example : getVeljvo .linked { yHyphens := .allowY, expRafsi := true, consonants := .twoConsonants, glides := true, allowMz := true } s%"le'e'e'ygimzu" =
      .ok [s%"-le'e'e-", s%"gimzu"] ∧
    getVeljvo .linked { yHyphens := .forceY, expRafsi := true, allowMz := true } s%"le'e'e'ygimzu" = .ok [s%"-le'e'e-", s%"gimzu"] ∧
    getVeljvo .linked { allowMz := true } s%"le'e'e'ygimzu" = .error .notBrivla := by decide +kernel

end Jvotci
