import Verif.Tarmi

/-!
# The script that makes the rafsi dictionary

`/repo/make_rafsi_list.py`, from the parsed export of the dictionary to the table that is written out. Not modelled:
fetching and parsing the XML (lines 17-19), and the text of the four files the table is written to (lines 99-126).
-/

namespace Jvotci

/-- What the script reads of a `valsi` element of the export: the attributes `word` and `type`, the texts of the `rafsi`
children, the text of the `notes` child (lines 21-22, 29-31, 39-40, 47). SIMPLIFICATION: every element has a word and a type,
and every `rafsi` child a text. -/
structure Valsi where
  word : Str
  type : Str
  rafsi : List Str
  notes : Option Str

/-- A Python `dict` from words to sets of rafsi, in insertion order. A set is a list without duplicates; its order is not
that of Python's set, see `makeRafsiList`. -/
abbrev RafsiSets := List (Str × List Str)

/-- `s.add(x)` for a set. -/
def setAdd (s : List Str) (x : Str) : List Str := if x ∈ s then s else s ++ [x]

/-- `d[word] = value`: an existing key keeps its place. -/
def dictSet (d : RafsiSets) (word : Str) (value : List Str) : RafsiSets :=
  if d.any (fun e => e.1 == word) then d.map (fun e => if e.1 = word then (e.1, value) else e) else d ++ [(word, value)]

/-- make_rafsi_list.py:42-45, 55-58, 83-86, 91-94: `try: d[word].add(rafsi) except KeyError: d[word] = {rafsi}`. -/
def dictAdd (d : RafsiSets) (word rafsi : Str) : RafsiSets :=
  match d.lookup word with
  | some s => dictSet d word (setAdd s rafsi)
  | none => dictSet d word [rafsi]

/-- make_rafsi_list.py:20-23: `GIMSTE`. -/
def gimste (root : List Valsi) : List Str := (root.filter (fun v => v.type == s%"gismu")).map (fun v => v.word.take 4)

/-- `[a-z]`. -/
def isAZ (c : Char) : Bool := 'a' ≤ c && c ≤ 'z'

/-- Line 50: `[bcdfgjklmnprstvxz][a-z]'?[a-z]-` at the beginning of the text: group 2, and the text after the hyphen. The
apostrophe is not in `[a-z]`, so there is only one way to match. -/
def matchRafsi : Str → Option (Str × Str)
  | a :: b :: '\'' :: c :: '-' :: t => if isConsonant a && isAZ b && isAZ c then some ([a, b, '\'', c], t) else none
  | a :: b :: c :: '-' :: t => if isConsonant a && isAZ b && isAZ c then some ([a, b, c], t) else none
  | _ => none

/-- Line 50: the pattern `([^a-z]|.)-(...)-([^a-z]|$)` at the beginning of the text: group 2, and the text after the match.
`([^a-z]|.)` is any character; `$` matches at the end (before a newline at the end, too, but `[^a-z]` takes that). -/
def matchProposal : Str → Option (Str × Str)
  | _ :: '-' :: t =>
    match matchRafsi t with
    | some (r, []) => some (r, [])
    | some (r, c :: t) => if isAZ c then none else some (r, t)
    | none => none
  | _ => none

/-- Lines 50-51: `[x[1] for x in re.findall(...)]`, from left to right, without overlap. `fuel`: at least the length of the
text. -/
def findProposals : Nat → Str → List Str
  | 0, _ => []
  | _, [] => []
  | fuel + 1, c :: t =>
    match matchProposal (c :: t) with
    | some (r, rest) => r :: findProposals fuel rest
    | none => findProposals fuel t

/-- `x in s` for strings. -/
def hasSub (x : Str) : Str → Bool
  | [] => x.isEmpty
  | c :: t => x.isPrefixOf (c :: t) || hasSub x t

/-- The variables of the first loop: `rafsi_list`, `exp_rafsi_list`, `priority_rafsi`. -/
structure MakeState where
  rafsiList : RafsiSets := []
  expList : RafsiSets := []
  priority : List Str := []

/-- Lines 39-45: the assigned rafsi of an entry. -/
def addAssigned (word : Str) (st : MakeState) (rafsi : Str) : MakeState :=
  { st with priority := setAdd st.priority rafsi, rafsiList := dictAdd st.rafsiList word rafsi }

/-- Lines 52-58: one proposed rafsi. `rafsi[1]` exists, since `findProposals` gives at least three letters. -/
def addProposed (word : Str) (st : MakeState) (rafsi : Str) : MakeState :=
  if rafsi[1]?.any isConsonant && !INITIAL.contains (rafsi.take 2) then st
  else { st with expList := dictAdd st.expList word rafsi }

/-- Lines 39-58: what is done with an entry that is not skipped. -/
def addRafsi (st : MakeState) (v : Valsi) : MakeState :=
  let st := v.rafsi.foldl (addAssigned v.word) st
  let notes := v.notes.getD []
  if !hasSub s%"rafsi" (lower notes) then st
  else (findProposals notes.length notes).foldl (addProposed v.word) st

/-- Lines 29-58: one round of the first loop. -/
def makeStep (gim : List Str) (st : MakeState) (v : Valsi) : MakeState :=
  if v.type = s%"gismu" ∨ v.type = s%"experimental gismu" then
    if v.type = s%"experimental gismu" ∧ v.word.take 4 ∈ gim then st
    else addRafsi { st with rafsiList := dictSet st.rafsiList v.word [] } v
  else if v.type = s%"cmavo" ∨ v.type = s%"experimental cmavo" then addRafsi st v
  else st

/-- Lines 61-79: `EXCEPTIONS`. -/
def makeExceptions : List (Str × List Str) := [
  (s%"xi", [s%"xix"]),
  (s%"ditcu", [s%"dit"]),
  (s%"jidge", [s%"jid"]),
  (s%"ronci", [s%"roc"]),
  (s%"supso", [s%"sus"]),
  (s%"zai'e", [s%"zam"]),
  (s%"gelse", [s%"ge'e", s%"ges"]),
  (s%"tsako", [s%"tso"]),
  (s%"kilma", [s%"kim"]),
  (s%"jicfo", [s%"cfo"]),
  (s%"fizbu", [s%"zbu"]),
  (s%"je'ebzi", [s%"jeb"]),
  (s%"mu'umgu", [s%"mug"]),
  (s%"va'arga", [s%"va'a"])]

/-- Lines 80-86. -/
def addExceptions (st : MakeState) : MakeState :=
  makeExceptions.foldl (fun st e => e.2.foldl (addAssigned e.1) st) st

/-- Lines 88-94: the proposed rafsi that are not assigned to any word. -/
def addProposals (st : MakeState) : RafsiSets :=
  st.expList.foldl (fun d e => e.2.foldl (fun d r => if r ∈ st.priority then d else dictAdd d e.1 r) d) st.rafsiList

/-- The sort key of line 97. -/
def shapeKey (r : Str) : Nat := (rafsiTarmi r).score % 9

/-- The whole script: the table `rafsi_list` of line 97. `order` is the order in which Python lists a set, which differs from
run to run. -/
def makeRafsiList (order : List Str → List Str) (root : List Valsi) : List (Str × List Str) :=
  (addProposals (addExceptions (root.foldl (makeStep (gimste root)) {}))).map
    (fun e => (e.1, (order e.2).mergeSort (fun a b => shapeKey a ≤ shapeKey b)))

end Jvotci
