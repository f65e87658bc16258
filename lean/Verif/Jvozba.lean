import Verif.Tarmi
import Verif.Rafsi

/-!
# Model of `/repo/py/latkerlo_jvotci/jvozba.py`, except the parts that call `analyse_brivla`

The functions here are not recursive through the rest of the package.  `get_rafsi_list_list` and the last
step of `get_lujvo_from_list` are in `Verif/Core.lean`.
-/

namespace Jvotci

/-- jvozba.py:19-40. -/
def score (rafsi : Str) : Int :=
  let tarmiScore : Nat :=
    if tarmiIgnoringHyphen rafsi = .other then 0 else (tarmiIgnoringHyphen rafsi).score
  1000 * (rafsi.length : Int) + 100 * (countChar rafsi 'y' : Int) - 10 * (tarmiScore : Int)
    - ((countChar rafsi 'a' : Int) + countChar rafsi 'e' + countChar rafsi 'i'
       + countChar rafsi 'o' + countChar rafsi 'u')

/-- jvozba.py:43-45. -/
def tiebreak (lujvo : Str) : Int :=
  if rafsiTarmi (slice lujvo 0 3) = .cvv ∧
     (rafsiTarmi (lujvo.drop 3) = .ccv ∨ rafsiTarmi (lujvo.drop 3) = .ccvc ∨
      rafsiTarmi (lujvo.drop 3) = .cvc ∨ rafsiTarmi (lujvo.drop 3) = .cvcc) then 1 else 0

/-- tools.py:10-27. Raises `IndexError` on the empty string (`word[0]`). -/
def normalise (word : Str) : Except Err Str :=
  match word with
  | [] => .error .index
  | c :: cs =>
    let word := if c = '.' then cs else word
    let word := lower word
    let word := word.map (fun c => if c = 'h' then '\'' else c)
    .ok (word.filter (fun c => c != ','))

/-- The argument of `get_lujvo`: a string or a list of strings (jvozba.py:55-60; a value of any other
type raises `TypeError` in Python and does not exist here). -/
inductive Tanru where
  | str (s : Str)
  | list (l : List Str)

/-- jvozba.py:48-67. -/
def processTanru (t : Tanru) : Except Err (List Str) :=
  (match t with
   | .str s => splitWs s
   | .list l => l).mapM normalise

/-- The `r_type` argument of `get_rafsi_for_rafsi`: one of three strings or a shape constant. -/
inductive RType where
  | shortBrivla | longBrivla | experimental | tarmi (t : Tarmi)
  deriving DecidableEq, Repr

/-- A rafsi with its hyphen, and its number of consonants (`list[tuple[str, int]]`). -/
abbrev RafsiOpt := Str × Nat

/-- jvozba.py:91-92: `'` is put before a non-initial rafsi that starts with a non-glide vowel. -/
def apostrophise (isFirst : Bool) (rafsi : Str) : Except Err Str := do
  if isFirst then .ok rafsi
  else
    let c ← idx rafsi 0
    if isVowel c && !isGlide rafsi then .ok ('\'' :: rafsi) else .ok rafsi

/-- jvozba.py:70-141. -/
def getRafsiForRafsi (rafsi0 : Str) (rType : RType) (isFirst isLast : Bool)
    (consonants : Consonants) (glides : Bool) : Except Err (List RafsiOpt) := do
  let rafsi ← apostrophise isFirst rafsi0
  match rType with
  | .shortBrivla | .tarmi .ccvc | .tarmi .cvcc =>
    if !isLast then .ok [(rafsi ++ s%"y", 2)]
    else do
      let l ← idxLast rafsi
      if !isVowel l then .ok [(rafsi, 2)] else .ok []
  | .longBrivla | .tarmi .ccvcv | .tarmi .cvccv =>
    if isLast then .ok [(rafsi, 2)] else .ok [(rafsi ++ s%"'y", 2)]
  | .experimental => do
    let n ← if consonants ≠ .cluster then do
        let c ← idx rafsi 0
        if isConsonant c || (glides && isGlide rafsi) then Except.ok 1 else .ok 0
      else Except.ok 0
    if isLast then .ok [(rafsi, n)]
    else if !isFirst then .ok [(rafsi ++ s%"'y", n)]
    else .ok [(rafsi ++ s%"'", n)]
  | .tarmi .cvv | .tarmi .cvhv =>
    let n := if consonants = .cluster then 0 else 1
    if isFirst then .ok [(rafsi ++ s%"'", n), (rafsi, n)]
    else if !isLast then .ok [(rafsi ++ s%"'y", n), (rafsi, n)]
    else .ok [(rafsi, n)]
  | .tarmi .ccv => .ok [(rafsi, 2), (rafsi ++ s%"'y", 2)]
  | .tarmi .cvc => if !isLast then .ok [(rafsi, 2), (rafsi ++ s%"y", 2)] else .ok [(rafsi, 2)]
  | .tarmi .hyphen | .tarmi .other => .error .assertion

/-- jvozba.py:14-16. -/
inductive Tos where
  | tosynone | tosmabru | tosyhuhu
  deriving DecidableEq, Repr

/-- What `combine` returns when it succeeds (jvozba.py:395-401). -/
structure Cand where
  tos : Tos
  consonants : Nat
  score : Int
  lujvo : Str
  indices : List (Nat × Nat)
  deriving DecidableEq, Repr

/-- The options `combine` looks at (jvozba.py:290-295). -/
structure CombineOpts where
  generateCmevla : Bool
  tanruLen : Nat
  yHyphens : YHyphens
  consonants : Consonants
  glides : Bool
  allowMz : Bool

/-- jvozba.py:332-350: the hyphen between `lujvo` and `rafsi` (`none`: `combine` returns `None`).
`last = lujvo[-1]`, `first = rafsi[0]`. -/
def chooseHyphen (o : CombineOpts) (lujvo : Str) (last first : Char) (raftai1 : Tarmi) : Option Str :=
  if last = '\'' then
    if first = '\'' ∨ o.yHyphens ≠ .standard then some s%"y" else none
  else if lujvo.length = 5 ∧ rafsiTarmi (slice lujvo 0 3) = .ccv ∧ lujvo.drop 3 = s%"'y" then none
  else if lujvo.length ≤ 5 ∧ !o.generateCmevla then
    let raftai0 := tarmiIgnoringHyphen lujvo
    let hyphen : Str :=
      if raftai0 = .cvhv ∨ raftai0 = .cvv then
        if o.yHyphens = .forceY then s%"'y"
        else if first = 'r' then s%"n"
        else s%"r"
      else []
    if o.tanruLen = 2 ∧ raftai1 = .ccv then some [] else some hyphen
  else some []

/-- jvozba.py:352-366: the new tosmabru state (`none`: `combine` returns `None`). -/
def nextTos (tos : Tos) (rafsi : Str) (last first : Char) (raftai1 : Tarmi) : Option Tos :=
  match tos with
  | .tosmabru =>
    if !INITIAL.contains [last, first] then some .tosynone
    else if raftai1 = .cvccv then
      if INITIAL.contains (slice rafsi 2 4) then none else some .tosynone
    else if raftai1 = .cvc then
      if rafsi.getLast? = some 'y' then none else some .tosmabru
    else some .tosynone
  | .tosyhuhu =>
    if first ≠ '\'' || containsConsonant rafsi then some .tosynone else some .tosyhuhu
  | .tosynone => some .tosynone

/-- jvozba.py:372-388: the consonants contributed by the new rafsi. The two `while` loops look for the
last letter of `lujvo` that is not `'` or `y`, and drop the leading `'`s of `rafsi`. -/
def newConsonants (o : CombineOpts) (lujvo rafsi : Str) (hyphen : Str) (rafsiConsonants : Nat) :
    Except Err Nat :=
  if hyphen = s%"n" ∨ hyphen = s%"r" then .ok 2
  else if o.consonants = .cluster then
    if rafsiConsonants ≠ 2 then
      match lujvo.reverse.dropWhile isHyphenLetter, rafsi.dropWhile (· == '\'') with
      | l :: _, r :: rs =>
        if isConsonant l && (isConsonant r || (o.glides && isGlide (r :: rs))) then .ok 2 else .ok 0
      | _, _ => .error .index
    else .ok rafsiConsonants
  else .ok rafsiConsonants

/-- jvozba.py:282-401. `hyphen in "nr"` for the non-empty hyphens that occur means `"n"` or `"r"`. -/
def combine (o : CombineOpts) (lujvo rafsi : Str) (lujvoConsonants rafsiConsonants : Nat)
    (lujvoScore : Int) (indexList : List (Nat × Nat)) (tos : Tos) : Except Err (Option Cand) :=
  match lujvo.getLast?, rafsi.head?, indexList.getLast? with
  | some last, some first, some prev =>
    if isConsonant last && isConsonant first && !(validPairs o.allowMz).contains [last, first] then .ok none
    else if last ≠ 'y' ∧ last ≠ '\'' ∧ first = '\'' then .ok none
    else if BANNED_TRIPLES.contains (last :: slice rafsi 0 2) then .ok none
    else
    let raftai1 := tarmiIgnoringHyphen rafsi
    if last ≠ 'y' ∧ last ≠ '\'' ∧ raftai1 = .other then .ok none
    else
    -- jvozba.py:329-331: the slice is empty, so this test never succeeds
    let prulamrafsi := slice lujvo prev.1 prev.1
    if (rafsiTarmi prulamrafsi = .cvv ∨ rafsiTarmi prulamrafsi = .cvc) ∧
        (prulamrafsi ≠ [] ∧ prulamrafsi.all (fun c => isVowel c || c == '\'')) ∧
        (first = '\'' ∨ (isGlide rafsi ∧ !o.glides ∧ o.consonants = .cluster)) then .ok none
    else
    match chooseHyphen o lujvo last first raftai1 with
    | none => .ok none
    | some hyphen =>
    match nextTos tos rafsi last first raftai1 with
    | none => .ok none
    | some tos' => do
      let rafsiStart := lujvo.length + hyphen.length + (if first = '\'' then 1 else 0)
      let rafsiEnd := rafsiStart + (stripHyphens rafsi).length
      let new ← newConsonants o lujvo rafsi hyphen rafsiConsonants
      let total := min 2 (lujvoConsonants + new)
      let total := if o.consonants = .oneConsonant ∧ total > 0 then 2 else total
      let res := lujvo ++ hyphen ++ rafsi
      .ok (some {
        tos := tos'
        consonants := total
        score := lujvoScore + score hyphen + score rafsi - tiebreak res
        lujvo := res
        indices := indexList ++ [(rafsiStart, rafsiEnd)] })
  | _, _, _ => .error .index

/-- `current_best` (jvozba.py:445): nine dictionaries indexed by tosmabru type and consonant count, each
from a last letter to a (lujvo, score, index list).  Modelled as one association list with the triple as
key; a dict keeps insertion order and an update keeps the place of its key, so the nine dictionaries are
recovered, in order, by `bucket`. -/
abbrev Best := List ((Tos × Nat × Char) × (Str × Int × List (Nat × Nat)))

/-- The items of `current_best[tos][n]`, in dict order. -/
def bucket (b : Best) (tos : Tos) (n : Nat) : List (Char × (Str × Int × List (Nat × Nat))) :=
  b.filterMap (fun e => if e.1.1 = tos ∧ e.1.2.1 = n then some (e.1.2.2, e.2) else none)

/-- Insert under `key` if the key is new or the stored score is larger; `d[key] = …` on a dict. -/
def bestInsert (key : Tos × Nat × Char) (val : Str × Int × List (Nat × Nat)) : Best → Best
  | [] => [(key, val)]
  | e :: es =>
    if e.1 = key then (if e.2.2.1 > val.2.1 then (key, val) :: es else e :: es)
    else e :: bestInsert key val es

/-- jvozba.py:404-419. -/
def updateCurrentBest (cand : Option Cand) (best : Best) : Except Err Best :=
  match cand with
  | none => .ok best
  | some c => do
    let l ← idxLast c.lujvo
    .ok (bestInsert (c.tos, c.consonants, l) (c.lujvo, c.score, c.indices) best)

/-- jvozba.py:448-451. -/
def initialTos (generateCmevla : Bool) (rafsi0 : Str) : Tos :=
  if tarmiIgnoringHyphen rafsi0 ≠ .cvc ∨ generateCmevla then .tosynone
  else if rafsi0.getLast? = some 'y' then .tosyhuhu else .tosmabru

/-- jvozba.py:446-467: the loops over the rafsi of the first two components. -/
def firstStage (o : CombineOpts) (l0 l1 : List RafsiOpt) : Except Err Best :=
  l0.foldlM (fun best r0 =>
    l1.foldlM (fun best r1 => do
      let c ← combine o r0.1 r1.1 r0.2 r1.2 (score r0.1) [(0, (stripHyphens r0.1).length)]
        (initialTos o.generateCmevla r0.1)
      updateCurrentBest c best) best) []

/-- jvozba.py:471-489: the loops over the rafsi of one later component. -/
def nextStage (o : CombineOpts) (prev : Best) (l : List RafsiOpt) : Except Err Best :=
  l.foldlM (fun best r =>
    [Tos.tosynone, .tosmabru, .tosyhuhu].foldlM (fun best tos =>
      [0, 1, 2].foldlM (fun best n =>
        (bucket prev tos n).foldlM (fun best e => do
          let c ← combine o e.2.1 r.1 n r.2 e.2.2.1 e.2.2.2 tos
          updateCurrentBest c best) best) best) best) []

/-- jvozba.py:445-490: the dynamic program over all components. `rafsi_list_list[0]` and
`rafsi_list_list[1]` raise `IndexError` when missing — the second only if the first is not empty. -/
def searchStages (o : CombineOpts) (ll : List (List RafsiOpt)) : Except Err Best :=
  match ll with
  | [] => .error .index
  | [l0] => if l0.isEmpty then .ok [] else .error .index
  | l0 :: l1 :: rest => do
    let b ← firstStage { o with tanruLen := ll.length } l0 l1
    rest.foldlM (fun b l => nextStage { o with tanruLen := 0 } b l) b

/-- jvozba.py:491-498: the best item of `previous_best[0][2]` that ends in the right kind of letter. -/
def pickBest (generateCmevla : Bool) (b : Best) : Option (Str × Int × List (Nat × Nat)) :=
  ((bucket b .tosynone 2).foldl (fun (acc : Option (Str × Int × List (Nat × Nat)) × Int) e =>
    if (isVowel e.1 && !generateCmevla) || (isConsonant e.1 && generateCmevla) then
      if e.2.2.1 < acc.2 then (some e.2, e.2.2.1) else acc
    else acc) (none, 10 ^ 100)).1

end Jvotci
