import Verif.Data
import Verif.Regex

/-!
# Model of `/repo/py/latkerlo_jvotci/tarmi.py`
-/

namespace Jvotci

/-- tarmi.py:12-22: the rafsi shapes. `Tarmi.score` is the integer value of the Python constant. -/
inductive Tarmi where
  | hyphen | cvccv | cvcc | ccvcv | ccvc | cvc | cvhv | ccv | cvv | other
  deriving DecidableEq, Repr

/-- tarmi.py:13-22: the integers behind the shape names. -/
def Tarmi.score : Tarmi → Nat
  | .hyphen => 0 | .cvccv => 1 | .cvcc => 2 | .ccvcv => 3 | .ccvc => 4
  | .cvc => 5 | .cvhv => 6 | .ccv => 7 | .cvv => 8 | .other => 9

/-- tarmi.py:26-31 (word types; `RAFSI` is only used internally, see `Shape`). -/
inductive BType where
  | gismu | zihevla | lujvo | extendedLujvo | cmevla
  deriving DecidableEq, Repr

/-- The two results of `check_zihevla_or_rafsi`: `ZIhEVLA` and `RAFSI`. -/
inductive Shape where
  | zihevla | rafsi
  deriving DecidableEq, Repr

/-- tarmi.py:33-35. SIMPLIFICATION: the option is an enumeration, not an arbitrary string. -/
inductive YHyphens where
  | standard | allowY | forceY
  deriving DecidableEq, Repr

/-- tarmi.py:37-39. SIMPLIFICATION: the option is an enumeration, not an arbitrary string. -/
inductive Consonants where
  | cluster | twoConsonants | oneConsonant
  deriving DecidableEq, Repr

/-- The five keyword options shared by the API functions; the defaults are the Python defaults
(tools.py:213-219, 239-245; jvozba.py:508-515, 540-547; katna.py:251-257, 268-274). -/
structure Settings where
  yHyphens : YHyphens := .standard
  expRafsi : Bool := false
  consonants : Consonants := .cluster
  glides : Bool := false
  allowMz : Bool := false
  deriving DecidableEq, Repr

/-- tarmi.py:50-72, `SettingsIterator.__next__` at index `index`, for option lists of any type:
entry `i` is `setting[(index // base) % len(setting)]`, `base` the product of the earlier lengths.
An empty option list makes `possibilities` 0 and the iterator stops at once, so the missing-element case
is never reached (`IndexError`). -/
def settingsItem {α : Type} : (base index : Nat) → List (List α) → Except Err (List α)
  | _, _, [] => .ok []
  | base, index, setting :: rest =>
    match setting[(index / base) % setting.length]? with
    | none => .error .index
    | some x => do
      let xs ← settingsItem (base * setting.length) index rest
      .ok (x :: xs)

/-- tarmi.py:54-56: `possibilities`. -/
def possibilities {α : Type} (settings : List (List α)) : Nat :=
  settings.foldl (fun p s => p * s.length) 1

/-- tarmi.py:58-72: the list of all items a `SettingsIterator` yields, in order. -/
def settingsIter {α : Type} (settings : List (List α)) : Except Err (List (List α)) :=
  (List.range (possibilities settings)).mapM (fun i => settingsItem 1 i settings)

/-- tarmi.py:75-82. Only ever called with one character. -/
def isVowel (c : Char) : Bool := (s%"aeiou").contains c

/-- tarmi.py:85-92. Only ever called with one character. -/
def isConsonant (c : Char) : Bool := (s%"bcdfgjklmnprstvxz").contains c

/-- tarmi.py:95-104. -/
def isGlide : Str → Bool
  | a :: b :: _ => (s%"iu").contains a && isVowel b
  | _ => false

/-- tarmi.py:107-114. -/
def isOnlyLojban (s : Str) : Bool :=
  !s.isEmpty && s.all (fun c => (s%"aeioubcdfgjklmnprstvxz'").contains c)

/-- tarmi.py:117-127. -/
def containsConsonant (s : Str) : Bool := s.any isConsonant

/-- tarmi.py:130-145. -/
def isGismuShape : Str → Bool
  | [a, b, c, d, e] =>
    if !(isConsonant a && isConsonant d && isVowel e) then false
    else if isVowel b && isConsonant c then true
    else if isConsonant b && isVowel c then true
    else false
  | _ => false

/-- The consonant pairs allowed inside a word: `MZ_VALID if allow_mz else VALID`. -/
def validPairs (allowMz : Bool) : List Str := if allowMz then MZ_VALID else VALID

/-- tarmi.py:148-161. `valsi[1]` exists because the shape test has passed. -/
def isGismu (allowMz : Bool) (valsi : Str) : Bool :=
  if !isGismuShape valsi then false
  else match valsi with
    | _ :: b :: _ =>
      if isVowel b then (validPairs allowMz).contains (slice valsi 2 4)
      else INITIAL.contains (slice valsi 0 2)
    | _ => false

/-- tarmi.py:171-176: the test made by `add_to_result` before it inserts `new_cluster`. `vowels` is the
string still to be split, `n = len(new_cluster)`. -/
def badGlide (vowels new : Str) : Bool :=
  let newVowels := dropLastN vowels new.length
  match new with
  | [] => false
  | c :: _ =>
    if c = 'i' ∧ [s%"ai", s%"ei", s%"oi"].contains (lastN newVowels 2) then true
    else if c = 'u' ∧ lastN newVowels 2 = s%"au" then true
    else false

/-- tarmi.py:182-193, the loop; the first argument is fuel (an iteration removes two or three letters). -/
def splitVowelsLoop : Nat → Str → List Str → Except Err (List Str)
  | 0, _, _ => .error .fuel
  | fuel + 1, vowels, result =>
    if vowels.length > 3 ∧ FOLLOW_VOWEL_CLUSTERS.contains (lastN vowels 3) then
      if badGlide vowels (lastN vowels 3) then .error .decomposition
      else splitVowelsLoop fuel (dropLastN vowels 3) (lastN vowels 3 :: result)
    else if vowels.length > 2 ∧ FOLLOW_VOWEL_CLUSTERS.contains (lastN vowels 2) then
      if badGlide vowels (lastN vowels 2) then .error .decomposition
      else splitVowelsLoop fuel (dropLastN vowels 2) (lastN vowels 2 :: result)
    else if START_VOWEL_CLUSTERS.contains vowels || FOLLOW_VOWEL_CLUSTERS.contains vowels then
      .ok (vowels :: result)
    else .error .decomposition

/-- tarmi.py:164-193. -/
def splitVowelCluster (vowels : Str) : Except Err (List Str) :=
  splitVowelsLoop (vowels.length + 1) vowels []

/-- tarmi.py:196-211. -/
def isZihevlaInitialCluster (cluster : Str) : Bool :=
  if cluster.length > 3 then false
  else if cluster.length = 3 then
    if !INITIAL.contains (slice cluster 0 2) || !ZIhEVLA_INITIAL.contains (cluster.drop 1) then false else true
  else if cluster.length = 2 then
    if !INITIAL.contains cluster then false else true
  else true

/-- tarmi.py:24. -/
def isSonorant (c : Char) : Bool := (s%"lmnr").contains c

/-- The class `[bcdfgjkpstvxz]` of tarmi.py:236. -/
def isObstruent (c : Char) : Bool := (s%"bcdfgjkpstvxz").contains c

/-- `([bcdfgjklmnprstvxz])?((?:[bcdfgjklmnprstvxz][lmnr])*)`, the part common to the three patterns of
tarmi.py:231-236. -/
def reHead : Re :=
  .seq (.opt (.grp 1 (.cls isConsonant))) (.grp 2 (.star (.seq (.cls isConsonant) (.cls isSonorant))))

/-- tarmi.py:231 and 233: `([C])?((?:[C][lmnr])*)?`. -/
def reShort : Re :=
  .seq (.opt (.grp 1 (.cls isConsonant))) (.opt (.grp 2 (.star (.seq (.cls isConsonant) (.cls isSonorant)))))

/-- tarmi.py:235-236: `([C])?((?:[C][lmnr])*)(?:([O][C]?[lmnr]?)|([C]))`. -/
def reLong : Re :=
  .seq reHead
    (.alt
      (.grp 3 (.seq (.cls isObstruent) (.seq (.opt (.cls isConsonant)) (.opt (.cls isSonorant)))))
      (.grp 4 (.cls isConsonant)))

/-- tarmi.py:214-250. `match.groups()[-2]` is group 1 of the two-group pattern `reShort` and group 3 of
the four-group pattern `reLong`. -/
def isZihevlaMiddleCluster (cluster : Str) : Bool :=
  if cluster.length = 3 then
    if (match cluster[1]? with | some c => isSonorant c | none => false) then true
    else VALID.contains (slice cluster 0 2) && INITIAL.contains (cluster.drop 1)
  else if cluster.length < 3 then true
  else
    let groupM2 : Option (Option Str) :=
      if cluster[cluster.length - 2]? = some 'm' ∧ INITIAL.contains (lastN cluster 2) then
        if isZihevlaInitialCluster (lastN cluster 3) then
          (reShort.fullmatch (dropLastN cluster 3)).map (·.get 1)
        else
          (reShort.fullmatch (dropLastN cluster 2)).map (·.get 1)
      else (reLong.fullmatch cluster).map (·.get 3)
    match groupM2 with
    | none => false
    | some (some g) => isZihevlaInitialCluster g
    | some none => true

/-- tarmi.py:269-312. The branches are those of the Python code, with the length test done by matching. -/
def rafsiTarmi (rafsi : Str) : Tarmi :=
  match rafsi with
  | [] => .other
  | [a] => if isVowel a then .other else .hyphen
  | [a, b] => if a = '\'' ∧ b = 'y' then .hyphen else .other
  | [a, b, c] =>
    if !isConsonant a then .other
    else if !isVowel c then
      if isVowel b && isConsonant c then .cvc else .other
    else if isVowel b then .cvv
    else if isConsonant b then .ccv
    else .other
  | [a, b, c, d] =>
    if !isConsonant a then .other
    else if isVowel b then
      if isVowel d then
        if c = '\'' then .cvhv else .other
      else if isConsonant c && isConsonant d then .cvcc
      else .other
    else if isConsonant b && isVowel c && isConsonant d then .ccvc
    else .other
  | [a, b, c, d, e] =>
    if !isConsonant a then .other
    else if isGismuShape [a, b, c, d, e] then
      if isVowel c then .ccvcv else .cvccv
    else .other
  | _ => .other

/-- tarmi.py:253-266. -/
def isValidRafsi (allowMz : Bool) (rafsi : Str) : Bool :=
  match rafsiTarmi rafsi with
  | .cvccv | .cvcc => (validPairs allowMz).contains (slice rafsi 2 4)
  | .ccvcv | .ccvc | .ccv => INITIAL.contains (slice rafsi 0 2)
  | t => 1 ≤ t.score && t.score ≤ 8

/-- The class `['y]` of tarmi.py:322. -/
def isHyphenLetter (c : Char) : Bool := c == '\'' || c == 'y'

/-- tarmi.py:315-322. SIMPLIFICATION: `$` in the Python pattern also matches before a final newline;
no string that reaches this function contains one. -/
def stripHyphens (rafsi : Str) : Str := stripBoth isHyphenLetter rafsi

/-- tarmi.py:325-332. -/
def tarmiIgnoringHyphen (rafsi : Str) : Tarmi := rafsiTarmi (stripHyphens rafsi)

end Jvotci
