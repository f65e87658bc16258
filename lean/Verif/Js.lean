import Verif.Core

/-!
# Model of the JavaScript version: `/repo/js/src/tarmi.ts`, `tools.ts`, `katna.ts`, `jvozba.ts`

The JavaScript version is a translation of the Python one, kept by hand.  It is modelled here separately, from its own
text, so that `Verif/Props/Js.lean` can compare the two.  What is particular to JavaScript is kept: a letter beyond the
end of a string is `undefined` and no exception, `"aeiou".includes(undefined)` looks for the letters of `undefined`,
`includes("")` is true, `switch` falls through, and the `catch` clauses are those of the JavaScript text.

The tables of `data.ts` and `rafsi.ts` have the same entries in the same order as `data.py` and `rafsi.py` (compared by
a script), so the lists of `Verif/Data.lean` and `Verif/Rafsi.lean` serve for both.

SIMPLIFICATIONS: a string is a list of code points, where JavaScript has UTF-16 units; a score is an integer, where
JavaScript has a double (they are the same for words shorter than 10 ^ 12 letters); messages are left out.
-/

namespace Jvotci

/-- The exceptions of `js/src/exceptions.ts` and the built-in ones. -/
inductive JsErr where
  | decomposition | invalidCluster | noLujvo | nonLojban | notBrivla | notZihevla
  | type            -- TypeError: thrown by katna.ts:128, or by reading a property of `undefined`
  | plain           -- Error, jvozba.ts:122
  | fuel            -- model artefact: recursion budget exhausted
  deriving DecidableEq, Repr

/-! ## Strings -/

/-- JavaScript's `s[i]`: `none` stands for `undefined`. -/
def jsAt (s : Str) (i : Nat) : Option Str := (s[i]?).map fun c => [c]

/-- JavaScript's `s.slice(-1)`: the last letter, or the empty string. -/
def jsLast (s : Str) : Option Str := some (lastN s 1)

/-- `needle` occurs in `hay`. -/
def occursIn (needle : Str) : Str → Bool
  | [] => needle.isEmpty
  | c :: cs => needle.isPrefixOf (c :: cs) || occursIn needle cs

/-- JavaScript's `hay.includes(needle)` for strings; `undefined` is turned into the string "undefined". -/
def jsIncludes (hay : Str) (needle : Option Str) : Bool := occursIn (needle.getD s%"undefined") hay

/-! ## tarmi.ts -/

/-- tarmi.ts:93-95. -/
def jsIsVowel (character : Option Str) : Bool := jsIncludes s%"aeiou" character

/-- tarmi.ts:103-105. -/
def jsIsConsonant (character : Option Str) : Bool := jsIncludes s%"bcdfgjklmnprstvxz" character

/-- tarmi.ts:113-117. -/
def jsIsGlide (s : Str) : Bool :=
  if s.length < 2 then false
  else jsIncludes s%"iu" (jsAt s 0) && jsIsVowel (jsAt s 1)

/-- tarmi.ts:125-127: the pattern `^[aeioubcdfgjklmnprstvxz']+$`. -/
def jsIsOnlyLojban (s : Str) : Bool :=
  !s.isEmpty && s.all (fun c => (s%"aeioubcdfgjklmnprstvxz'").contains c)

/-- tarmi.ts:135-141. -/
def jsContainsConsonant (s : Str) : Bool := s.any (fun c => jsIsConsonant (some [c]))

/-- tarmi.ts:150-159. -/
def jsIsGismuShape (valsi : Str) : Bool :=
  if !(valsi.length == 5 && jsIsConsonant (jsAt valsi 0) && jsIsConsonant (jsAt valsi 3) && jsIsVowel (jsAt valsi 4)) then
    false
  else if jsIsVowel (jsAt valsi 1) && jsIsConsonant (jsAt valsi 2) then true
  else if jsIsConsonant (jsAt valsi 1) && jsIsVowel (jsAt valsi 2) then true
  else false

/-- tarmi.ts:168-175. -/
def jsIsGismu (allowMz : Bool) (valsi : Str) : Bool :=
  if !jsIsGismuShape valsi then false
  else if jsIsVowel (jsAt valsi 1) then (if allowMz then MZ_VALID else VALID).contains (slice valsi 2 4)
  else INITIAL.contains (slice valsi 0 2)

/-- tarmi.ts:184-191: the test made by `addToResult`. -/
def jsBadGlide (vowels new : Str) : Bool :=
  let newVowels := dropLastN vowels new.length
  if jsAt new 0 = some s%"i" ∧ [s%"ai", s%"ei", s%"oi"].contains (lastN newVowels 2) then true
  else if jsAt new 0 = some s%"u" ∧ lastN newVowels 2 = s%"au" then true
  else false

/-- tarmi.ts:195-208: the loop; the first argument is fuel. -/
def jsSplitVowelsLoop : Nat → Str → List Str → Except JsErr (List Str)
  | 0, _, _ => .error .fuel
  | fuel + 1, vowels, result =>
    if vowels.length > 3 ∧ FOLLOW_VOWEL_CLUSTERS.contains (lastN vowels 3) then
      if jsBadGlide vowels (lastN vowels 3) then .error .decomposition
      else jsSplitVowelsLoop fuel (dropLastN vowels 3) (lastN vowels 3 :: result)
    else if vowels.length > 2 ∧ FOLLOW_VOWEL_CLUSTERS.contains (lastN vowels 2) then
      if jsBadGlide vowels (lastN vowels 2) then .error .decomposition
      else jsSplitVowelsLoop fuel (dropLastN vowels 2) (lastN vowels 2 :: result)
    else if START_VOWEL_CLUSTERS.contains vowels || FOLLOW_VOWEL_CLUSTERS.contains vowels then
      .ok (vowels :: result)
    else .error .decomposition

/-- tarmi.ts:183-209. -/
def jsSplitVowelCluster (vowels : Str) : Except JsErr (List Str) :=
  jsSplitVowelsLoop (vowels.length + 1) vowels []

/-- tarmi.ts:217-228. -/
def jsIsZihevlaInitialCluster (cluster : Str) : Bool :=
  if cluster.length > 3 then false
  else if cluster.length = 3 then
    if !INITIAL.contains (slice cluster 0 2) || !ZIhEVLA_INITIAL.contains (cluster.drop 1) then false else true
  else if cluster.length = 2 then
    if !INITIAL.contains cluster then false else true
  else true

/-- tarmi.ts:236-267. The three patterns are those of `tarmi.py` with `^` and `$` for `fullmatch`;
`match[match.length - 2]` is group 1 of the two-group pattern and group 3 of the four-group pattern. -/
def jsIsZihevlaMiddleCluster (cluster : Str) : Bool :=
  if cluster.length = 3 then
    if jsIncludes s%"lmnr" (jsAt cluster 1) then true
    else VALID.contains (slice cluster 0 2) && INITIAL.contains (cluster.drop 1)
  else if cluster.length < 3 then true
  else
    let groupM2 : Option (Option Str) :=
      if slice cluster (cluster.length - 2) (cluster.length - 1) = s%"m" ∧ INITIAL.contains (lastN cluster 2) then
        if jsIsZihevlaInitialCluster (lastN cluster 3) then
          (reShort.fullmatch (dropLastN cluster 3)).map (·.get 1)
        else
          (reShort.fullmatch (dropLastN cluster 2)).map (·.get 1)
      else (reLong.fullmatch cluster).map (·.get 3)
    match groupM2 with
    | none => false
    | some (some g) => if !jsIsZihevlaInitialCluster g then false else true
    | some none => true

/-- tarmi.ts:328-334: `case 5` of the switch. -/
def jsTarmi5 (rafsi : Str) : Tarmi :=
  if jsIsGismuShape rafsi then
    if jsIsVowel (jsAt rafsi 2) then .ccvcv else .cvccv
  else .other

/-- tarmi.ts:316-327: `case 4`, falling through to `case 5`. -/
def jsTarmi4 (rafsi : Str) : Tarmi :=
  if jsIsVowel (jsAt rafsi 1) then
    if jsIsVowel (jsAt rafsi 3) then
      if jsAt rafsi 2 = some s%"'" then .cvhv else jsTarmi5 rafsi
    else if jsIsConsonant (jsAt rafsi 2) && jsIsConsonant (jsAt rafsi 3) then .cvcc
    else jsTarmi5 rafsi
  else if jsIsConsonant (jsAt rafsi 1) && jsIsVowel (jsAt rafsi 2) && jsIsConsonant (jsAt rafsi 3) then .ccvc
  else jsTarmi5 rafsi

/-- tarmi.ts:306-315: `case 3`, falling through to `case 4`. -/
def jsTarmi3 (rafsi : Str) : Tarmi :=
  if !jsIsVowel (jsAt rafsi 2) then
    if jsIsVowel (jsAt rafsi 1) && jsIsConsonant (jsAt rafsi 2) then .cvc else jsTarmi4 rafsi
  else if jsIsVowel (jsAt rafsi 1) then .cvv
  else if jsIsConsonant (jsAt rafsi 1) then .ccv
  else jsTarmi4 rafsi

/-- tarmi.ts:291-337. -/
def jsRafsiTarmi (rafsi : Str) : Tarmi :=
  if rafsi.length = 0 then .other
  else if rafsi = s%"'y" then .hyphen
  else if !jsIsConsonant (jsAt rafsi 0) && rafsi.length != 1 then .other
  else if rafsi.length = 1 then (if jsIsVowel (some rafsi) then .other else .hyphen)
  else if rafsi.length = 3 then jsTarmi3 rafsi
  else if rafsi.length = 4 then jsTarmi4 rafsi
  else if rafsi.length = 5 then jsTarmi5 rafsi
  else .other

/-- tarmi.ts:276-283. -/
def jsIsValidRafsi (allowMz : Bool) (rafsi : Str) : Bool :=
  match jsRafsiTarmi rafsi with
  | .cvccv | .cvcc => (if allowMz then MZ_VALID else VALID).contains (slice rafsi 2 4)
  | .ccvcv | .ccvc | .ccv => INITIAL.contains (slice rafsi 0 2)
  | t => 1 ≤ t.score && t.score ≤ 8

/-- tarmi.ts:345-347: the pattern `^['y]+|['y]+$`, replaced everywhere by nothing. -/
def jsStripHyphens (rafsi : Str) : Str := stripBoth isHyphenLetter rafsi

/-- tarmi.ts:355-357. -/
def jsTarmiIgnoringHyphen (rafsi : Str) : Tarmi := jsRafsiTarmi (jsStripHyphens rafsi)

/-! ## katna.ts: decomposition -/

/-- katna.ts:185-207: the hyphen at the start of `lujvo`, if one may be removed there. `res` is kept latest first. -/
def jsTakeHyphen (y : YHyphens) (lujvo : Str) (res : List Str) : Option Str :=
  match res with
  | [] => none
  | prev :: _ =>
    if prev.length = 1 then none
    else if jsAt lujvo 0 = some s%"y" then some (slice lujvo 0 1)
    else if y ≠ .forceY ∧ (jsRafsiTarmi prev = .cvv ∨ jsRafsiTarmi prev = .cvhv) ∧
        (slice lujvo 0 2 = s%"nr" ∨
          (jsAt lujvo 0 = some s%"r" ∧ jsIsConsonant (jsAt lujvo 1) ∧ jsAt lujvo 1 ≠ some s%"r")) then
      some (slice lujvo 0 1)
    else if y ≠ .standard ∧ slice lujvo 0 2 = s%"'y" then some (slice lujvo 0 2)
    else none

/-- katna.ts:209-273: drop a rafsi from the front of the non-empty string `lujvo`. -/
def jsTakeRafsi (allowMz : Bool) (original lujvo : Str) : Except JsErr Cut :=
  if jsRafsiTarmi (slice lujvo 0 3) = .cvv ∧
      [s%"ai", s%"ei", s%"oi", s%"au"].contains (slice lujvo 1 3) then
    .ok (.pieces [slice lujvo 0 3] (lujvo.drop 3))
  else if jsRafsiTarmi (slice lujvo 0 4) = .cvhv then
    .ok (.pieces [slice lujvo 0 4] (lujvo.drop 4))
  else
    -- katna.ts:226-245
    let four : Bool := jsRafsiTarmi (slice lujvo 0 4) = .cvcc || jsRafsiTarmi (slice lujvo 0 4) = .ccvc
    let bad : Bool :=
      if jsIsVowel (jsAt lujvo 1) then !(if allowMz then MZ_VALID else VALID).contains (slice lujvo 2 4)
      else !INITIAL.contains (slice lujvo 0 2)
    if four && bad then .error .invalidCluster
    else if four && (lujvo.length == 4 || jsAt lujvo 4 == some s%"y") then
      .ok (.pieces (slice lujvo 0 4 :: (if jsAt lujvo 4 = some s%"y" then [s%"y"] else [])) (lujvo.drop 5))
    else if jsRafsiTarmi lujvo = .cvccv ∨ jsRafsiTarmi lujvo = .ccvcv then
      .ok (.final lujvo)
    else if jsRafsiTarmi (slice lujvo 0 3) = .cvc then
      if BANNED_TRIPLES.contains (slice lujvo 2 5) then .error .invalidCluster
      else .ok (.pieces [slice lujvo 0 3] (lujvo.drop 3))
    else if jsRafsiTarmi (slice lujvo 0 3) = .ccv then
      if !INITIAL.contains (slice lujvo 0 2) then .error .invalidCluster
      else if lujvo = original ∧ slice lujvo 3 5 = s%"'y" then .error .notBrivla
      else .ok (.pieces [slice lujvo 0 3] (lujvo.drop 3))
    else .error .decomposition

/-- katna.ts:181-274: the loop. First argument: fuel. -/
def jsJvokaha2Loop (y : YHyphens) (allowMz : Bool) (original : Str) :
    Nat → Str → List Str → Except JsErr (List Str)
  | 0, _, _ => .error .fuel
  | fuel + 1, lujvo, res =>
    if lujvo = [] then .ok res.reverse
    else
      match jsTakeHyphen y lujvo res with
      | some h => jsJvokaha2Loop y allowMz original fuel (lujvo.drop h.length) (h :: res)
      | none => do
        match ← jsTakeRafsi allowMz original lujvo with
        | .pieces ps rest => jsJvokaha2Loop y allowMz original fuel rest (ps.reverse ++ res)
        | .final p => .ok (p :: res).reverse

/-- katna.ts:172-275. -/
def jsJvokaha2 (y : YHyphens) (allowMz : Bool) (lujvo : Str) : Except JsErr (List Str) :=
  jsJvokaha2Loop y allowMz lujvo (lujvo.length + 1) lujvo []

/-- katna.ts:78-100, from index `i` of `other`. -/
def jsCompareLoop (other : List Str) : List Str → Nat → Bool
  | [], i => i == other.length
  | part :: corr, i =>
    if some part = other[i]? then jsCompareLoop other corr (i + 1)
    else
      let skip : Bool :=
        0 < i && i + 1 < other.length && jsIncludes s%"rn" other[i]? &&
        (match other[i - 1]? with
          | some p => jsRafsiTarmi p = .cvv || jsRafsiTarmi p = .cvhv
          | none => false) &&
        (1 < i || (match other[i + 1]? with
          | some q => jsRafsiTarmi q = .ccvcv || jsRafsiTarmi q = .ccvc || jsRafsiTarmi q = .ccv
          | none => false))
      let i := if skip then i + 1 else i
      if some part = other[i]? then jsCompareLoop other corr (i + 1) else false

/-- katna.ts:76-101. -/
def jsComparePieces (corr other : List Str) : Bool := jsCompareLoop other corr 0

/-! ## tools.ts: zi'evla -/

/-- The functions through which the JavaScript version recurses. -/
structure JsRec where
  analyse : Settings → Str → Except JsErr (BType × List Str)
  slinkuhi : YHyphens → Bool → Str → Except JsErr Bool

/-- tools.ts:17-24. -/
def jsNormalise (word : Str) : Str :=
  let word := if jsAt word 0 = some s%"." then word.drop 1 else word
  let word := lower word
  let word := word.map (fun c => if c = 'h' then '\'' else c)
  word.filter (fun c => c != ',')

/-- tools.ts:138-170: a consonant chunk. -/
def jsZihConsonants (allowMz : Bool) (chunk : Str) (st : ZState) : Except JsErr ZState :=
  if chunk.length ≥ 2 ∧ st.clusterPos = none ∧ st.numConsonants > 1 then .error .notZihevla
  else
    let clusterPos := if chunk.length ≥ 2 ∧ st.clusterPos = none then some st.pos else st.clusterPos
    if st.numSyllables = 0 ∧ chunk.length ≥ 2 ∧ !INITIAL.contains (slice chunk 0 2) then .error .notZihevla
    else if hasBadPair (if allowMz then MZ_VALID else VALID) chunk then .error .notZihevla
    else if hasBannedTriple chunk then .error .notZihevla
    else if st.pos = 0 ∧ !jsIsZihevlaInitialCluster chunk then .error .notZihevla
    else if st.pos ≠ 0 ∧ !jsIsZihevlaMiddleCluster chunk then .error .notZihevla
    else .ok { pos := st.pos + chunk.length, numSyllables := st.numSyllables, clusterPos,
               numConsonants := st.numConsonants + chunk.length, finalConsonantPos := st.pos }

/-- tools.ts:178-196: a vowel chunk. `valsiCopy[-1]` is `undefined`. -/
def jsZihVowels (valsi chunk : Str) (st : ZState) : Except JsErr ZState :=
  match jsSplitVowelCluster chunk with
  | .error .decomposition => .error .notZihevla
  | .error e => .error e
  | .ok syllables =>
    let before := if st.pos = 0 then none else jsAt valsi (st.pos - 1)
    if st.clusterPos = none ∧ before ≠ some s%"'" ∧ syllables.length ≥ 2 ∧
        st.pos + (join syllables).length = valsi.length then .error .notZihevla
    else if st.pos != 0 && (match syllables with | [] => false | s :: _ => FOLLOW_VOWEL_CLUSTERS.contains s) then
      .error .notZihevla
    else .ok { st with pos := st.pos + chunk.length, numSyllables := st.numSyllables + syllables.length }

/-- tools.ts:131-212: the scanning loop. `rest` is the unread part of `valsi`. First argument: fuel. -/
def jsZihScan (allowMz : Bool) (valsi : Str) : Nat → Str → ZState → Except JsErr ZState
  | 0, _, _ => .error .fuel
  | _ + 1, [], st => .ok st
  | fuel + 1, c :: cs, st =>
    if jsIsConsonant (some [c]) then do
      let chunk := (c :: cs).takeWhile (fun d => jsIsConsonant (some [d]))
      let st ← jsZihConsonants allowMz chunk st
      jsZihScan allowMz valsi fuel ((c :: cs).dropWhile (fun d => jsIsConsonant (some [d]))) st
    else if jsIsVowel (some [c]) then do
      let chunk := (c :: cs).takeWhile (fun d => jsIsVowel (some [d]))
      let st ← jsZihVowels valsi chunk st
      jsZihScan allowMz valsi fuel ((c :: cs).dropWhile (fun d => jsIsVowel (some [d]))) st
    else if c = '\'' then
      if st.pos < 1 || !jsIsVowel (jsAt valsi (st.pos - 1)) then .error .notZihevla
      else if cs.length = 0 || !jsIsVowel (jsAt valsi (st.pos + 1)) then .error .notZihevla
      else jsZihScan allowMz valsi fuel cs { st with pos := st.pos + 1 }
    else .error .notZihevla

/-- tools.ts:262-281: `isBrivla`. -/
def jsIsBrivlaR (J : JsRec) (s : Settings) (valsi : Str) : Except JsErr Bool :=
  match J.analyse s valsi with
  | .ok (t, _) => .ok (t ≠ .cmevla)
  | .error .notBrivla => .ok false
  | .error e => .error e

/-- tools.ts:222-227: `for (let i = 1; i < clusterPos; i++)`, from `i` on with `k` iterations left. -/
def jsFallsApartBefore (J : JsRec) (y : YHyphens) (valsi : Str) (clusterPos : Nat) : Nat → Nat → Except JsErr Unit
  | 0, _ => .ok ()
  | k + 1, i => do
    let suffix := valsi.drop (clusterPos - i)
    if jsIsConsonant (jsAt valsi (clusterPos - i)) || jsIsGlide suffix then
      if ← jsIsBrivlaR J { yHyphens := y } suffix then .error .notZihevla
      else jsFallsApartBefore J y valsi clusterPos k (i + 1)
    else jsFallsApartBefore J y valsi clusterPos k (i + 1)

/-- tools.ts:110-249. -/
def jsCheckZihevlaOrRafsi (J : JsRec) (requireZihevla : Bool) (y : YHyphens) (expRafsi allowMz : Bool)
    (valsi : Str) : Except JsErr Shape := do
  if requireZihevla ∧ valsi.length < 4 then .error .notZihevla
  else
  let st ← jsZihScan allowMz valsi (valsi.length + 1) valsi {}
  -- tools.ts:214-229
  if st.numSyllables < 2 ∧ (requireZihevla ∨ !expRafsi) then .error .notZihevla
  else
  let _ ← (match st.clusterPos with
    | some p =>
      if st.numSyllables > 2 ∧ p > 0 then do
        if ← jsIsBrivlaR J { yHyphens := y } (valsi.drop p) then .error .notZihevla
        else jsFallsApartBefore J y valsi p (p - 1) 1
      else Except.ok ()
    | none => Except.ok ())
  -- tools.ts:231-248
  match st.clusterPos with
  | none =>
    if requireZihevla then .error .notZihevla
    else if !jsIsConsonant (jsAt valsi 0) ∧ !expRafsi then .error .notZihevla
    else if st.numConsonants > 1 then .error .notZihevla
    else if st.finalConsonantPos > 0 then .error .notZihevla
    else .ok .rafsi
  | some _ =>
    if !(jsIsVowel (jsAt valsi 0) && jsIsConsonant (jsAt valsi 1)) then do
      if ← J.slinkuhi y allowMz valsi then .error .notZihevla else .ok .zihevla
    else .ok .zihevla

/-! ## jvozba.ts -/

/-- jvozba.ts:22-32. -/
def jsScore (rafsi : Str) : Int :=
  let tarmiScore : Nat := if jsTarmiIgnoringHyphen rafsi = .other then 0 else (jsTarmiIgnoringHyphen rafsi).score
  1000 * (rafsi.length : Int) + 100 * (rafsi.countP (fun c => c == 'y') : Int) - 10 * (tarmiScore : Int)
    - (rafsi.countP (fun c => (s%"aeiou").contains c) : Int)

/-- jvozba.ts:33-35. -/
def jsTiebreak (lujvo : Str) : Int :=
  if jsRafsiTarmi (slice lujvo 0 3) = .cvv ∧
     (jsRafsiTarmi (lujvo.drop 3) = .ccv ∨ jsRafsiTarmi (lujvo.drop 3) = .ccvc ∨
      jsRafsiTarmi (lujvo.drop 3) = .cvc ∨ jsRafsiTarmi (lujvo.drop 3) = .cvcc) then 1 else 0

/-- jvozba.ts:67-126. -/
def jsGetRafsiForRafsi (rafsi0 : Str) (rType : RType) (isFirst isLast : Bool)
    (consonants : Consonants) (glides : Bool) : Except JsErr (List RafsiOpt) :=
  let rafsi := if !isFirst && jsIsVowel (jsAt rafsi0 0) && !jsIsGlide rafsi0 then '\'' :: rafsi0 else rafsi0
  match rType with
  | .shortBrivla | .tarmi .ccvc | .tarmi .cvcc =>
    if !isLast then .ok [(rafsi ++ s%"y", 2)]
    else if !jsIsVowel (jsLast rafsi) then .ok [(rafsi, 2)] else .ok []
  | .longBrivla | .tarmi .ccvcv | .tarmi .cvccv =>
    if isLast then .ok [(rafsi, 2)] else .ok [(rafsi ++ s%"'y", 2)]
  | .experimental =>
    let n := if consonants ≠ .cluster ∧ (jsIsConsonant (jsAt rafsi 0) || (glides && jsIsGlide rafsi)) then 1 else 0
    if isLast then .ok [(rafsi, n)]
    else if !isFirst then .ok [(rafsi ++ s%"'y", n)]
    else .ok [(rafsi ++ s%"'", n)]
  | .tarmi .cvv | .tarmi .cvhv =>
    let n := if consonants = .cluster then 0 else 1
    if isFirst then .ok [(rafsi ++ s%"'", n), (rafsi, n)]
    else if !isLast then .ok [(rafsi ++ s%"'y", n), (rafsi, n)]
    else .ok [(rafsi, n)]
  | .tarmi .ccv => .ok [(rafsi, 2), (rafsi ++ s%"'y", 2)]
  | .tarmi .cvc => if !isLast then .ok [(rafsi, 2), (rafsi ++ s%"y", 2)] else .ok [(rafsi, 2)]
  | .tarmi .hyphen | .tarmi .other => .error .plain

/-- jvozba.ts:162-196: a component written `x-` (the argument is `x`). -/
def jsRafsiListShort (J : JsRec) (s : Settings) (isFirst isLast : Bool) (valsi : Str) :
    Except JsErr (List RafsiOpt) := do
  let (bType, _) ←
    (match J.analyse { yHyphens := s.yHyphens, expRafsi := s.expRafsi, allowMz := s.allowMz } (valsi ++ s%"a") with
    | .error .notBrivla => .error .noLujvo
    | x => x)
  if bType ≠ .zihevla ∧ bType ≠ .gismu then .error .noLujvo
  else if valsi.length ≥ 6 && jsIsConsonant (jsLast valsi) then
    match jsJvokaha2 s.yHyphens s.allowMz valsi with
    | .ok _ => .error .noLujvo
    | .error .decomposition | .error .invalidCluster =>
      jsGetRafsiForRafsi valsi .shortBrivla isFirst isLast s.consonants s.glides
    | .error e => .error e
  else jsGetRafsiForRafsi valsi .shortBrivla isFirst isLast s.consonants s.glides

/-- jvozba.ts:199-239: what kind of thing `x` is when a component `-x-` has no CLL rafsi shape. -/
def jsRafsiKind (J : JsRec) (s : Settings) (valsi : Str) : Except JsErr RType :=
  match J.analyse { yHyphens := s.yHyphens, expRafsi := s.expRafsi, allowMz := s.allowMz } valsi with
  | .ok (t, _) => if t = .zihevla then .ok .longBrivla else .error .notZihevla
  | .error .notBrivla =>
    if s.expRafsi then
      match jsCheckZihevlaOrRafsi J false s.yHyphens s.expRafsi s.allowMz valsi with
      | .ok .rafsi => .ok .experimental
      | .ok .zihevla => .error .notZihevla
      | .error .notZihevla => .error .noLujvo
      | .error e => .error e
    else .error .notZihevla
  | .error e => .error e

/-- jvozba.ts:197-249: a component written `-x-` (the argument is `x`). -/
def jsRafsiListRafsi (J : JsRec) (s : Settings) (isFirst isLast : Bool) (valsi : Str) :
    Except JsErr (List RafsiOpt) := do
  let raftai := jsRafsiTarmi valsi
  if raftai = .other then
    let rType ← jsRafsiKind J s valsi
    jsGetRafsiForRafsi valsi rType isFirst isLast s.consonants s.glides
  else if !jsIsValidRafsi s.allowMz valsi then .error .invalidCluster
  else jsGetRafsiForRafsi valsi (.tarmi raftai) isFirst isLast s.consonants s.glides

/-- jvozba.ts:255-264: the rafsi of a word listed in `RAFSI_LIST`. -/
def jsRafsiListTable (s : Settings) (isFirst isLast : Bool) : List Str → Except JsErr (List RafsiOpt)
  | [] => .ok []
  | r :: rs =>
    if jsRafsiTarmi r = .other ∧ !s.expRafsi then jsRafsiListTable s isFirst isLast rs
    else do
      let a ← jsGetRafsiForRafsi r (.tarmi (jsRafsiTarmi r)) isFirst isLast s.consonants s.glides
      let b ← jsRafsiListTable s isFirst isLast rs
      .ok (a ++ b)

/-- jvozba.ts:251-286: a component that is a word. -/
def jsRafsiListWord (J : JsRec) (s : Settings) (isFirst isLast : Bool) (valsi : Str) :
    Except JsErr (List RafsiOpt) := do
  if !jsIsOnlyLojban valsi then .error .nonLojban
  else
  let short ← jsRafsiListTable s isFirst isLast ((RAFSI_LIST.lookup valsi).getD [])
  let bType : Option BType ←
    (match J.analyse { yHyphens := s.yHyphens, expRafsi := s.expRafsi, allowMz := s.allowMz } valsi with
    | .ok (t, _) => Except.ok (some t)
    | .error .notBrivla => .ok none
    | .error e => .error e)
  let four ← (if bType = some .gismu then
      jsGetRafsiForRafsi (dropLastN valsi 1) .shortBrivla isFirst isLast s.consonants s.glides
    else Except.ok [])
  let long ← (if bType = some .gismu ∨ bType = some .zihevla then
      jsGetRafsiForRafsi valsi .longBrivla isFirst isLast s.consonants s.glides
    else Except.ok [])
  .ok (short ++ four ++ long)

/-- jvozba.ts:151-287: the rafsi list of one component. `replace(/^\-+|\-+$/g, '')` strips hyphens from both ends. -/
def jsRafsiListFor (J : JsRec) (s : Settings) (isFirst isLast : Bool) (valsi : Str) :
    Except JsErr (List RafsiOpt) :=
  if jsLast valsi = some s%"-" then
    let isShortBrivla := jsAt valsi 0 ≠ some s%"-"
    let valsi := stripBoth (· == '-') valsi
    if !jsIsOnlyLojban valsi then .error .nonLojban
    else if jsLast valsi = some s%"'" then .error .nonLojban
    else if isShortBrivla then jsRafsiListShort J s isFirst isLast valsi
    else jsRafsiListRafsi J s isFirst isLast valsi
  else jsRafsiListWord J s isFirst isLast valsi

/-- jvozba.ts:150-288, from component number `i` on, `valsiList.length = n`. -/
def jsRafsiListListFrom (J : JsRec) (s : Settings) (n : Nat) : Nat → List Str → Except JsErr (List (List RafsiOpt))
  | _, [] => .ok []
  | i, v :: vs => do
    let a ← jsRafsiListFor J s (i == 0) (i + 1 == n) v
    let b ← jsRafsiListListFrom J s n (i + 1) vs
    .ok (a :: b)

/-- jvozba.ts:139-290. -/
def jsGetRafsiListList (J : JsRec) (s : Settings) (valsiList : List Str) : Except JsErr (List (List RafsiOpt)) :=
  jsRafsiListListFrom J s valsiList.length 0 valsiList

/-- jvozba.ts:357-379: the hyphen between `lujvo` and `rafsi` (`none`: `combine` returns `null`). -/
def jsChooseHyphen (o : CombineOpts) (lujvo rafsi : Str) (raftai1 : Tarmi) : Option Str :=
  if jsLast lujvo = some s%"'" then
    if jsAt rafsi 0 = some s%"'" ∨ o.yHyphens ≠ .standard then some s%"y" else none
  else if lujvo.length = 5 ∧ jsRafsiTarmi (slice lujvo 0 3) = .ccv ∧ lujvo.drop 3 = s%"'y" then none
  else if lujvo.length ≤ 5 ∧ !o.generateCmevla then
    let raftai0 := jsTarmiIgnoringHyphen lujvo
    let hyphen : Str :=
      if raftai0 = .cvhv ∨ raftai0 = .cvv then
        if o.yHyphens = .forceY then s%"'y"
        else if jsAt rafsi 0 = some s%"r" then s%"n"
        else s%"r"
      else []
    if o.tanruLen = 2 ∧ raftai1 = .ccv then some [] else some hyphen
  else some []

/-- jvozba.ts:381-399: the new tosmabru state (`none`: `combine` returns `null`). -/
def jsNextTos (tos : Tos) (lujvo rafsi : Str) (raftai1 : Tarmi) : Option Tos :=
  match tos with
  | .tosmabru =>
    if !INITIAL.contains ((jsLast lujvo).getD [] ++ (jsAt rafsi 0).getD s%"undefined") then some .tosynone
    else if raftai1 = .cvccv then
      if INITIAL.contains (slice rafsi 2 4) then none else some .tosynone
    else if raftai1 = .cvc then
      if jsLast rafsi = some s%"y" then none else some .tosmabru
    else some .tosynone
  | .tosyhuhu =>
    if jsAt rafsi 0 ≠ some s%"'" || jsContainsConsonant rafsi then some .tosynone else some .tosyhuhu
  | .tosynone => some .tosynone

/-- jvozba.ts:405-423: the consonants contributed by the new rafsi. The first `while` loop stops at `lujvo[-1]`, which is
`undefined`; the second at the end of `rafsi`. -/
def jsNewConsonants (o : CombineOpts) (lujvo rafsi : Str) (hyphen : Str) (rafsiConsonants : Nat) : Nat :=
  if hyphen.length > 0 && jsIncludes s%"nr" (some hyphen) then 2
  else if o.consonants = .cluster then
    if rafsiConsonants ≠ 2 then
      let l := (lujvo.reverse.dropWhile (fun c => jsIncludes s%"'y" (some [c]))).head?.map fun c => [c]
      let r := rafsi.dropWhile (· == '\'')
      if jsIsConsonant l && (jsIsConsonant (jsAt r 0) || (o.glides && jsIsGlide r)) then 2 else 0
    else rafsiConsonants
  else rafsiConsonants

/-- jvozba.ts:312-436 (`none` is `null`). `indexList.slice(-1)[0][0]` throws a `TypeError` if `indexList` is empty; it never
is, and `(0, 0)` stands for the pair here. -/
def jsCombine (o : CombineOpts) (lujvo rafsi : Str) (lujvoConsonants rafsiConsonants : Nat)
    (lujvoScore : Int) (indexList : List (Nat × Nat)) (tos : Tos) : Option Cand :=
  let lujvoFinal := jsLast lujvo
  let rafsiInitial := jsAt rafsi 0
  if jsIsConsonant lujvoFinal && jsIsConsonant rafsiInitial &&
      !(if o.allowMz then MZ_VALID else VALID).contains (lujvoFinal.getD [] ++ rafsiInitial.getD s%"undefined") then none
  else if BANNED_TRIPLES.contains (lujvoFinal.getD [] ++ slice rafsi 0 2) then none
  else
  let raftai1 := jsTarmiIgnoringHyphen rafsi
  if !jsIncludes s%"y'" lujvoFinal ∧ raftai1 = .other then none
  else
  let prev := indexList.getLast?.getD (0, 0)
  let prulamrafsi := slice lujvo prev.1 prev.2
  -- jvozba.ts:346-355
  if (jsRafsiTarmi prulamrafsi = .cvv ∨ jsRafsiTarmi prulamrafsi = .cvc) ∧
      (rafsi ≠ [] ∧ rafsi.all (fun c => (s%"aeiou'").contains c)) ∧
      (rafsiInitial = some s%"'" ∨ (jsIsGlide rafsi ∧ !o.glides ∧ o.consonants = .cluster)) then none
  else
  match jsChooseHyphen o lujvo rafsi raftai1 with
  | none => none
  | some hyphen =>
  match jsNextTos tos lujvo rafsi raftai1 with
  | none => none
  | some tos' =>
    let rafsiStart := lujvo.length + hyphen.length + (if rafsiInitial = some s%"'" then 1 else 0)
    let rafsiEnd := rafsiStart + (jsStripHyphens rafsi).length
    let new := jsNewConsonants o lujvo rafsi hyphen rafsiConsonants
    let total := min 2 (lujvoConsonants + new)
    let total := if o.consonants = .oneConsonant ∧ total > 0 then 2 else total
    let res := lujvo ++ hyphen ++ rafsi
    some {
      tos := tos'
      consonants := total
      score := lujvoScore + jsScore hyphen + jsScore rafsi - jsTiebreak res
      lujvo := res
      indices := indexList ++ [(rafsiStart, rafsiEnd)] }

/-- jvozba.ts:445-457. A `Map` keeps insertion order like a `dict`. SIMPLIFICATION: a candidate without letters, whose key
would be the empty string, is not stored; there is none. -/
def jsUpdateCurrentBest (cand : Option Cand) (best : Best) : Best :=
  match cand with
  | none => best
  | some c =>
    match c.lujvo.getLast? with
    | none => best
    | some l => bestInsert (c.tos, c.consonants, l) (c.lujvo, c.score, c.indices) best

/-- jvozba.ts:487-489. -/
def jsInitialTos (generateCmevla : Bool) (rafsi0 : Str) : Tos :=
  if jsTarmiIgnoringHyphen rafsi0 = .cvc ∧ !generateCmevla then
    if jsLast rafsi0 = some s%"y" then .tosyhuhu else .tosmabru
  else .tosynone

/-- jvozba.ts:485-508. -/
def jsFirstStage (o : CombineOpts) (l0 l1 : List RafsiOpt) : Best :=
  l0.foldl (fun best r0 =>
    l1.foldl (fun best r1 =>
      jsUpdateCurrentBest (jsCombine o r0.1 r1.1 r0.2 r1.2 (jsScore r0.1) [(0, (jsStripHyphens r0.1).length)]
        (jsInitialTos o.generateCmevla r0.1)) best) best) []

/-- jvozba.ts:510-537. -/
def jsNextStage (o : CombineOpts) (prev : Best) (l : List RafsiOpt) : Best :=
  l.foldl (fun best r =>
    [Tos.tosynone, .tosmabru, .tosyhuhu].foldl (fun best tos =>
      [0, 1, 2].foldl (fun best n =>
        (bucket prev tos n).foldl (fun best e =>
          jsUpdateCurrentBest (jsCombine o e.2.1 r.1 n r.2 e.2.2.1 e.2.2.2 tos) best) best) best) best) []

/-- jvozba.ts:484-537. `rafsiListList.length` is passed to `combine` in both loops. `undefined.forEach` throws a
`TypeError`. -/
def jsSearchStages (o : CombineOpts) (ll : List (List RafsiOpt)) : Except JsErr Best :=
  match ll with
  | [] => .error .type
  | [l0] => if l0.isEmpty then .ok [] else .error .type
  | l0 :: l1 :: rest =>
    let o := { o with tanruLen := ll.length }
    .ok (rest.foldl (fun b l => jsNextStage o b l) (jsFirstStage o l0 l1))

/-- jvozba.ts:538-549 (`none`: `bestLujvo` is still the empty string). -/
def jsPickBest (generateCmevla : Bool) (b : Best) : Option (Str × Int × List (Nat × Nat)) :=
  ((bucket b .tosynone 2).foldl (fun (acc : Option (Str × Int × List (Nat × Nat)) × Int) e =>
    if (jsIsVowel (some [e.1]) && !generateCmevla) || (jsIsConsonant (some [e.1]) && generateCmevla) then
      if e.2.2.1 < acc.2 then (some e.2, e.2.2.1) else acc
    else acc) (none, 10 ^ 100)).1

/-- jvozba.ts:472-553. -/
def jsGetLujvoFromList (J : JsRec) (s : Settings) (generateCmevla : Bool) (valsiList : List Str) :
    Except JsErr (Str × Int × List (Nat × Nat)) := do
  let ll ← jsGetRafsiListList J s valsiList
  let best ← jsSearchStages (combineOpts s generateCmevla) ll
  match jsPickBest generateCmevla best with
  | none => .error .noLujvo
  | some r =>
    if !generateCmevla then
      if ← J.slinkuhi s.yHyphens s.allowMz r.1 then .error .noLujvo else .ok r
    else .ok r

/-! ## katna.ts: checking a decomposition -/

/-- katna.ts:115-160. The correct lujvo is cut with the standard hyphens, whatever `yHyphens` is (katna.ts:153). -/
def jsJvokaha (J : JsRec) (y : YHyphens) (consonants : Consonants) (glides allowMz : Bool) (lujvo : Str) :
    Except JsErr (List Str) := do
  let arr ← jsJvokaha2 y allowMz lujvo
  let rafsiTanru := (arr.filter (fun x => x.length > 2)).map (fun x => s%"-" ++ x ++ s%"-")
  if rafsiTanru.length = 1 then .error .type
  else
  match arr.getLast? with
  | none => .error .type
  | some lastPiece => do
    let r ← (match jsGetLujvoFromList J
          { yHyphens := y, consonants := consonants, glides := glides, allowMz := allowMz }
          (jsIsConsonant (jsLast lastPiece)) rafsiTanru with
      | .error .noLujvo => Except.error .decomposition
      | x => x)
    let correctLujvo := r.1
    let good ← (if y = .forceY then Except.ok (correctLujvo == lujvo)
      else do
        let corr ← jsJvokaha2 .standard allowMz correctLujvo
        Except.ok (jsComparePieces corr arr))
    if good then .ok arr else .error .decomposition

/-- tools.ts:75-95. -/
def jsIsSlinkuhi (J : JsRec) (y : YHyphens) (allowMz : Bool) (string : Str) : Except JsErr Bool :=
  if jsIsVowel (jsAt string 0) then .ok false
  else
    match jsJvokaha J y .cluster false allowMz (s%"to" ++ string) with
    | .ok _ => .ok true
    | .error .decomposition => .ok false
    | .error .invalidCluster => .ok false
    | .error e => .error e

/-! ## tools.ts: analyseBrivla -/

/-- tools.ts:366-382: a leading `'` of a part. Returns the part without it and whether it was there. -/
def jsStripLeadingH (i : Nat) (part : Str) : Except JsErr (Str × Bool) :=
  if part.length = 0 then .error .notBrivla
  else if jsAt part 0 = some s%"'" then
    let part := part.drop 1
    if part.length = 0 then .error .notBrivla
    else if !jsIsVowel (jsAt part 0) then .error .notBrivla
    else do
      let syllables ← jsSplitVowelCluster (part.takeWhile (fun c => jsIsVowel (some [c])))
      if (match syllables with | [] => false | s0 :: _ => FOLLOW_VOWEL_CLUSTERS.contains s0) then .error .notBrivla
      else .ok (part, true)
  else if i > 0 && jsIsVowel (jsAt part 0) && !jsIsGlide part then .error .notBrivla
  else .ok (part, false)

/-- tools.ts:400-420. -/
def jsPartForm (ctx : ACtx) (i : Nat) (hasCluster : Bool) (part : Str) : Except JsErr PartForm :=
  let partA := part ++ s%"a"
  if jsLast part = some s%"'" then
    let requireCluster : Bool := ctx.s.yHyphens = .standard ∧ !hasCluster ∧ i + 1 < ctx.yParts.length ∧
      jsAt ((ctx.yParts[i + 1]?).getD []) 0 ≠ some s%"'"
    let part' := dropLastN part 1
    if !jsIsVowel (jsLast part') then .error .notBrivla
    else .ok { part := part', partCopy := part', partA, canBeRafsi := true, requireCluster,
               didAddA := false, trailingH := true }
  else if i + 1 < ctx.yParts.length ∨ ctx.isCmevlatai then
    .ok { part := partA, partCopy := part, partA, canBeRafsi := !jsIsVowel (jsLast part), requireCluster := true,
          didAddA := true, trailingH := false }
  else
    .ok { part, partCopy := part, partA, canBeRafsi := true, requireCluster := false,
          didAddA := false, trailingH := false }

/-- tools.ts:444-452. -/
def jsCountFound : List Str → Nat × Bool → Nat × Bool
  | [], acc => acc
  | p :: ps, (n, c) =>
    match jsRafsiTarmi p with
    | .cvv | .cvhv => jsCountFound ps (n + 1, c)
    | .other => jsCountFound ps (n, c)
    | _ => jsCountFound ps (n + 2, true)

/-- tools.ts:422-453: try to read the part as rafsi. Whatever `analyseBrivla` throws here is caught (tools.ts:428). An empty
`foundParts` makes `isValidRafsi(undefined)` throw a `TypeError`, which is caught. -/
def jsTryKaha (J : JsRec) (ctx : ACtx) (f : PartForm) : Except JsErr (List Str × Bool) := do
  let _ ← (if ¬ (s%"'a").isSuffixOf f.partA ∧ !jsIsGismu ctx.s.allowMz (lastN f.partA 5) then
      match J.analyse { yHyphens := ctx.s.yHyphens, allowMz := ctx.s.allowMz } f.partA with
      | .error .fuel => Except.error .fuel
      | .error _ => Except.ok ()
      | .ok (t, _) => if t = .lujvo then .error .notBrivla else .ok ()
    else Except.ok ())
  match jsJvokaha2 ctx.s.yHyphens ctx.s.allowMz f.partCopy with
  | .error .decomposition | .error .invalidCluster | .error .type => .ok ([f.part], false)
  | .error e => .error e
  | .ok found =>
    match found with
    | [] => .ok ([], false)
    | [p] => if !jsIsValidRafsi ctx.s.allowMz p then .error .notBrivla else .ok (found, true)
    | _ => .ok (found, true)

/-- tools.ts:467-500: the tosmabru test on the first part. -/
def jsTosmabruTest (J : JsRec) (ctx : ACtx) (f : PartForm) : Except JsErr Unit :=
  let toPart : Str :=
    if jsRafsiTarmi (slice f.part 0 4) = .cvhv then slice f.part 0 4
    else if jsRafsiTarmi (slice f.part 0 3) = .cvv then slice f.part 0 3
    else if jsIsConsonant (jsAt f.part 0) && jsIsVowel (jsAt f.part 1) then slice f.part 0 2
    else []
  let smabru0 : Str := if toPart.isEmpty then [] else f.part.drop toPart.length
  if smabru0.isEmpty then .ok ()
  else
  let smabru := if f.didAddA then dropLastN smabru0 1 else jsStripHyphens smabru0
  -- tools.ts:489-490
  if jsIsValidRafsi false smabru &&
      !(jsRafsiTarmi smabru = .ccv && jsAt (((ctx.yParts[0]?).getD []).drop toPart.length) 3 = some s%"'") then
    .error .notBrivla
  else
  -- tools.ts:492-498
  match jsJvokaha J ctx.s.yHyphens .cluster false ctx.s.allowMz smabru with
  | .ok _ => .error .notBrivla
  | .error .decomposition | .error .invalidCluster | .error .type => .ok ()
  | .error e => .error e

/-- tools.ts:361-541: one part. -/
def jsAnalysePart (J : JsRec) (ctx : ACtx) (i : Nat) (part0 : Str) (st : AState) : Except JsErr AState := do
  let nextHyphen := if i ≠ 0 then st.nextHyphen ++ s%"y" else st.nextHyphen
  let (part, leadingH) ← jsStripLeadingH i part0
  let nextHyphen := if leadingH then nextHyphen ++ s%"'" else nextHyphen
  let resultParts := if nextHyphen.isEmpty then st.resultParts else st.resultParts ++ [nextHyphen]
  -- tools.ts:388-393
  if jsRafsiTarmi part = .cvc then
    .ok { st with resultParts := resultParts ++ [part], nextHyphen := [],
                  consonantBeforeBreak := true, numConsonants := st.numConsonants + 2 }
  else
  -- tools.ts:395-398
  let isMahortai := if i > 0 && (jsIsConsonant (jsAt part 0) || jsIsGlide part) then false else st.isMahortai
  let hasCluster :=
    if st.consonantBeforeBreak && (jsIsConsonant (jsAt part 0) || (ctx.s.glides && jsIsGlide part)) then true
    else st.hasCluster
  let f ← jsPartForm ctx i hasCluster part
  let nextHyphen : Str := if f.trailingH then s%"'" else []
  -- tools.ts:422-453
  let (found, didKaha) ← (if f.canBeRafsi then jsTryKaha J ctx f else Except.ok ([], false))
  let resultParts := if didKaha then resultParts ++ found else resultParts
  let (numConsonants, hasCluster) := jsCountFound found (st.numConsonants, hasCluster)
  if didKaha then do
    -- tools.ts:456-465
    if (jsRafsiTarmi f.part = .cvv ∨ jsRafsiTarmi f.part = .cvhv) ∧
        !ctx.isCmevlatai ∧ f.requireCluster ∧ !hasCluster ∧
        (ctx.s.yHyphens = .standard ∨
          ¬ (i + 2 = ctx.yParts.length ∧
              (jsRafsiTarmi ((ctx.yParts[1]?).getD []) = .cvv ∨ jsRafsiTarmi ((ctx.yParts[1]?).getD []) = .ccv)))
    then .error .notBrivla
    else
    let _ ← (if i = 0 then jsTosmabruTest J ctx f else Except.ok ())
    .ok { resultParts, nextHyphen, hasCluster, isMahortai, consonantBeforeBreak := false, numConsonants }
  else do
    -- tools.ts:503-538
    let requireZihevla := f.requireCluster || !ctx.s.expRafsi
    let shape ←
      (match jsCheckZihevlaOrRafsi J requireZihevla ctx.s.yHyphens ctx.s.expRafsi ctx.s.allowMz f.part with
      | .error .notZihevla => Except.error .notBrivla
      | x => x)
    let _ ← (if shape = .zihevla ∧ f.didAddA then
        match jsJvokaha2 ctx.s.yHyphens ctx.s.allowMz f.part with
        | .ok _ => Except.error .notBrivla
        | .error .decomposition | .error .invalidCluster => .ok ()
        | .error e => .error e
      else Except.ok ())
    let hasCluster := if shape = .zihevla then true else hasCluster
    let numConsonants :=
      if jsIsConsonant (jsAt f.part 0) || (ctx.s.glides && jsIsGlide f.part) then numConsonants + 1 else numConsonants
    .ok { resultParts := resultParts ++ [f.partCopy], nextHyphen, hasCluster, isMahortai,
          consonantBeforeBreak := false, numConsonants }

/-- tools.ts:360-542: the loop over the parts, from part number `i` on. -/
def jsAnalyseLoop (J : JsRec) (ctx : ACtx) : Nat → List Str → AState → Except JsErr AState
  | _, [], st => .ok st
  | i, p :: ps, st => do
    let st ← jsAnalysePart J ctx i p st
    jsAnalyseLoop J ctx (i + 1) ps st

/-- tools.ts:544-553. -/
def jsConsonantsOk (ctx : ACtx) (st : AState) : Bool :=
  if !st.hasCluster && !ctx.isCmevlatai then
    match ctx.s.consonants with
    | .cluster => false
    | .twoConsonants => if st.numConsonants < 2 then false else !st.isMahortai
    | .oneConsonant => if st.numConsonants < 1 then false else !st.isMahortai
  else true

/-- tools.ts:353-560: a word with at least one `y`, already normalised. -/
def jsAnalyseY (J : JsRec) (s : Settings) (isCmevlatai : Bool) (valsi : Str) (yParts : List Str) :
    Except JsErr (BType × List Str) := do
  let ctx : ACtx := { s, isCmevlatai, yParts }
  let st ← jsAnalyseLoop J ctx 0 yParts {}
  if !jsConsonantsOk ctx st then .error .notBrivla
  else
  let bad ← (if !(jsIsVowel (jsAt valsi 0) && (jsIsConsonant (jsAt valsi 1) || jsAt valsi 1 = some s%"y")) then
      jsIsSlinkuhi J s.yHyphens s.allowMz valsi
    else Except.ok false)
  if bad then .error .notBrivla
  else .ok (if isCmevlatai then .cmevla else .extendedLujvo, st.resultParts)

/-- tools.ts:333-560: a word that is neither a gismu nor a plain lujvo. -/
def jsAnalyseRest (J : JsRec) (s : Settings) (isCmevlatai : Bool) (valsi : Str) : Except JsErr (BType × List Str) :=
  if !(jsIsVowel (jsAt valsi 0) || jsIsConsonant (jsAt valsi 0)) then .error .notBrivla
  else if (splitOn 'y' valsi).length = 1 then
    if isCmevlatai then .error .notBrivla
    else
    match jsCheckZihevlaOrRafsi J true s.yHyphens s.expRafsi s.allowMz valsi with
    | .ok _ => .ok (.zihevla, [valsi])
    | .error .notZihevla => .error .notBrivla
    | .error e => .error e
  else jsAnalyseY J s isCmevlatai valsi (splitOn 'y' valsi)

/-- tools.ts:297-561. -/
def jsAnalyseR (J : JsRec) (s : Settings) (valsi : Str) : Except JsErr (BType × List Str) :=
  let valsi := jsNormalise valsi
  if valsi.length = 0 then .error .notBrivla
  else if !jsIsConsonant (jsLast valsi) && !jsIsVowel (jsLast valsi) then .error .notBrivla
  else
  let isCmevlatai := jsIsConsonant (jsLast valsi)
  if isCmevlatai && jsIsGismu s.allowMz (valsi ++ s%"a") then .error .notBrivla
  else if !isCmevlatai && jsIsGismu s.allowMz valsi then .ok (.gismu, [valsi])
  else
  match jsJvokaha J s.yHyphens s.consonants s.glides s.allowMz valsi with
  | .ok parts => .ok (if isCmevlatai then .cmevla else .lujvo, parts)
  | .error .decomposition | .error .invalidCluster | .error .type => jsAnalyseRest J s isCmevlatai valsi
  | .error e => .error e

/-! ## Tying the knot, and the API -/

/-- `n` levels of recursion. -/
def jsRecN : Nat → JsRec
  | 0 => { analyse := fun _ _ => .error .fuel, slinkuhi := fun _ _ _ => .error .fuel }
  | n + 1 => { analyse := jsAnalyseR (jsRecN n), slinkuhi := jsIsSlinkuhi (jsRecN n) }

/-- tools.ts:297-561, `analyseBrivla`. -/
def jsAnalyseBrivla (s : Settings) (valsi : Str) : Except JsErr (BType × List Str) :=
  jsAnalyseR (jsRecN (budget valsi.length)) s valsi

/-- tools.ts:262-281, `isBrivla`. -/
def jsIsBrivla (s : Settings) (valsi : Str) : Except JsErr Bool :=
  match jsAnalyseBrivla s valsi with
  | .ok (t, _) => .ok (t ≠ .cmevla)
  | .error .notBrivla => .ok false
  | .error e => .error e

/-- The characters that `\s` matches and `trim` removes. -/
def jsIsSpace (c : Char) : Bool :=
  let n := c.toNat
  (9 ≤ n && n ≤ 13) || n == 32 || n == 0xA0 || n == 0x1680 || (0x2000 ≤ n && n ≤ 0x200A) || n == 0x2028 ||
  n == 0x2029 || n == 0x202F || n == 0x205F || n == 0x3000 || n == 0xFEFF

/-- Auxiliary for `jsSplitSpaces`: `acc` is the word being read, reversed. -/
def jsSplitAux : Str → Str → List Str
  | acc, [] => [acc.reverse]
  | acc, c :: cs =>
    if jsIsSpace c then acc.reverse :: jsSplitAux [] (cs.dropWhile jsIsSpace) else jsSplitAux (c :: acc) cs
  termination_by _ s => s.length
  decreasing_by
    · have := (List.dropWhile_sublist jsIsSpace (l := cs)).length_le
      simp; omega
    · simp

/-- JavaScript's `s.trim().split(/\s+/)`: the empty string gives one empty word. -/
def jsSplitSpaces (s : Str) : List Str := jsSplitAux [] (stripBoth jsIsSpace s)

/-- jvozba.ts:43-54. -/
def jsProcessTanru (t : Tanru) : List Str :=
  (match t with
   | .str s => jsSplitSpaces s
   | .list l => l).map jsNormalise

/-- jvozba.ts:568-587, `getLujvoWithAnalytics`. -/
def jsGetLujvoWithAnalytics (s : Settings) (generateCmevla : Bool) (t : Tanru) :
    Except JsErr (Str × Int × List (Nat × Nat)) :=
  let l := jsProcessTanru t
  jsGetLujvoFromList (jsRecN (budget (l.map List.length).sum)) s generateCmevla l

/-- jvozba.ts:601-620, `getLujvo`. -/
def jsGetLujvo (s : Settings) (generateCmevla : Bool) (t : Tanru) : Except JsErr Str := do
  let r ← jsGetLujvoWithAnalytics s generateCmevla t
  .ok r.1

/-! ## katna.ts: veljvo -/

/-- katna.ts:15-28. -/
def jsSearchSelrafsi (rafsi : Str) : Option Str :=
  let candidates : List Str :=
    if rafsi ≠ s%"brod" ∧ rafsi.length = 4 ∧ !jsIncludes rafsi (some s%"'") then
      (s%"aeiou").map (fun u => rafsi ++ [u])
    else []
  match candidates.find? (fun g => (RAFSI_LIST.lookup g).isSome) with
  | some g => some g
  | none => (RAFSI_LIST.find? (fun e => e.2.contains rafsi)).map (·.1)

/-- katna.ts:52-63: the display form of piece number `i` (not a hyphen, not empty) of `pieces`. -/
def jsFormatPiece (s : Settings) (pieces : List Str) (i : Nat) (piece : Str) : Except JsErr Str :=
  let st : Settings := { yHyphens := s.yHyphens, allowMz := s.allowMz }
  match jsSearchSelrafsi piece with
  | some g => .ok g
  | none => do
    let y1 ← (if i + 2 < pieces.length ∧ jsAt ((pieces[i + 1]?).getD []) 0 = some s%"y" then
        jsIsBrivla st (piece ++ s%"a")
      else Except.ok false)
    if y1 then .ok (piece ++ s%"-")
    else if ← jsIsBrivla st piece then .ok piece
    else
    let y3 ← (if i + 1 = pieces.length then jsIsBrivla st (piece ++ s%"a") else Except.ok false)
    if y3 then .ok (piece ++ s%"-") else .ok (s%"-" ++ piece ++ s%"-")

/-- katna.ts:42-66, from piece number `i` on. -/
def jsSelrafsiFrom (s : Settings) (pieces : List Str) : Nat → List Str → Except JsErr (List Str)
  | _, [] => .ok []
  | i, p :: ps =>
    if HYPHENS.contains p || p.isEmpty then jsSelrafsiFrom s pieces (i + 1) ps
    else do
      let a ← jsFormatPiece s pieces i p
      let r ← jsSelrafsiFrom s pieces (i + 1) ps
      .ok (a :: r)

/-- katna.ts:319-343, `getVeljvo`. -/
def jsGetVeljvo (s : Settings) (lujvo : Str) : Except JsErr (List Str) := do
  let (t, pieces) ← jsAnalyseBrivla s lujvo
  if t = .gismu ∨ t = .zihevla then .error .decomposition
  else jsSelrafsiFrom s pieces 0 pieces

/-- katna.ts:304: the summand for one piece. Python has 1000 here, not 1100. -/
def jsPieceScore (r : Str) : Int :=
  if r = s%"y" ∨ r = s%"n" ∨ r = s%"r" ∨ r = [] then 1100 * (r.length : Int) else jsScore r

/-- katna.ts:283-306, `scoreLujvo`. SIMPLIFICATION: `reduce` of an empty list throws; `analyseBrivla` gives no empty list. -/
def jsScoreLujvo (s : Settings) (lujvo : Str) : Except JsErr Int := do
  let _ ← jsGetVeljvo s lujvo
  let (_, decomp) ← jsAnalyseBrivla s lujvo
  .ok ((decomp.map jsPieceScore).sum - jsTiebreak lujvo)

end Jvotci
