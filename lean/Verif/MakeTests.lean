import Verif.Py

/-!
# The scripts that make lists of tests

`/repo/make_dictionary_test_list.py`, from the parsed export of the dictionary to the object that is written as JSON, and
`/repo/make_js_tests.py`, from the parsed rows and the parsed JSON to the text of `tests/js_tests.js`. Not modelled: fetching
and parsing the XML, the JSON text, the reading of the TSV files by the `csv` module.
-/

namespace Jvotci

/-- make_dictionary_test_list.py:10-15: `all_words`, one field for each key. A word is `none` where the element has no attribute
`word` (`valsi.get` gives `None`). -/
structure AllWords where
  gismu : List (Option Str) := []
  lujvo : List (Option Str) := []
  zihevla : List (Option Str) := []
  other : List (Option Str) := []
deriving DecidableEq

/-- make_dictionary_test_list.py:20-31: one turn of the loop, for an element with these attributes `word` and `type`. -/
def addWord (all : AllWords) (valsi : Option Str × Option Str) : AllWords :=
  match valsi.2 with
  | some t =>
    if t = s%"gismu" then { all with gismu := all.gismu ++ [valsi.1] }
    else if t = s%"experimental gismu" then { all with gismu := all.gismu ++ [valsi.1] }
    else if t = s%"lujvo" then { all with lujvo := all.lujvo ++ [valsi.1] }
    else if t = s%"fu'ivla" then { all with zihevla := all.zihevla ++ [valsi.1] }
    else { all with other := all.other ++ [valsi.1] }
  | none => { all with other := all.other ++ [valsi.1] }

/-- make_dictionary_test_list.py:19-31. -/
def makeDictionaryList (root : List (Option Str × Option Str)) : AllWords := root.foldl addWord {}

/-- make_js_tests.py:22-26: whether a row is passed over. `row[0]` or `row[1]` of a row that is too short, and `row[0][0]` of an
empty first cell, raise `IndexError`, which passes over the row as well. -/
def rowSkipped (row : List Str) : Bool :=
  match row with
  | [] => true
  | [] :: [] => true
  | [] :: [] :: _ => true
  | [] :: (_ :: _) :: _ => true
  | (c :: _) :: _ => c == '#'

/-- make_js_tests.py:28: `'", "'.join(row)`. -/
def joinCells : List Str → Str
  | [] => []
  | [x] => x
  | x :: y :: t => x ++ s%"\", \"" ++ joinCells (y :: t)

/-- make_js_tests.py:28. -/
def jsRow (row : List Str) : Str := s%"  [\"" ++ joinCells row ++ s%"\"],\n"

/-- make_js_tests.py:21-28. -/
def jsRows : List (List Str) → Str
  | [] => []
  | row :: rows => if rowSkipped row then jsRows rows else jsRow row ++ jsRows rows

/-- make_js_tests.py:19-29, for the list with this name (in capitals, `test_name.upper()`). -/
def jsList (name : Str) (rows : List (List Str)) : Str := s%"const " ++ name ++ s%" = [\n" ++ jsRows rows ++ s%"]\n\n"

/-- make_js_tests.py:36-37. -/
def jsWords : List Str → Str
  | [] => []
  | w :: ws => s%"    \"" ++ w ++ s%"\",\n" ++ jsWords ws

/-- make_js_tests.py:34-38. -/
def jsTypes : List (Str × List Str) → Str
  | [] => []
  | e :: es => s%"  [\"" ++ e.1 ++ s%"\", [\n" ++ jsWords e.2 ++ s%"  ]],\n" ++ jsTypes es

/-- make_js_tests.py:33-39. -/
def jsMap (words : List (Str × List Str)) : Str := s%"const JVS_WORDS = new Map([\n" ++ jsTypes words ++ s%"])\n"

/-- make_js_tests.py:16-39: the file, from the rows of the three lists (lines 9-13) and the dictionary. -/
def makeJsTests (basic jvozba katna : List (List Str)) (words : List (Str × List Str)) : Str :=
  jsList s%"BASIC_TEST_LIST" basic ++ jsList s%"JVOZBA_TEST_LIST" jvozba ++ jsList s%"KATNA_TEST_LIST" katna ++ jsMap words

end Jvotci
