import Verif.Jvozba

/-!
# Model of `tools.py`, `katna.py` and the rest of `jvozba.py`

`analyse_brivla`, `check_zihevla_or_rafsi`, `is_brivla`, `is_slinkuhi`, `jvokaha`, `get_rafsi_list_list` and
`get_lujvo_from_list` are mutually recursive in Python.  Here every function takes a record `R : Rec` holding
the two functions through which all recursion goes, and `recN` ties the knot with a recursion budget:
at budget 0 every call gives the artificial error `Err.fuel`.  `analyseBrivla` etc. use a budget that
grows with the input; `Verif/Props` proves that it is never exhausted, so that the budget is not visible.
-/

namespace Jvotci

/-- Which program is modelled.  `jvozba.py:501` calls `is_slinkuhi`, a function of `tools.py` that
`jvozba.py` neither defines nor imports (`jvozba.py:8-12`; `tarmi` does not export it either), so at the
pinned commit that line raises `NameError` whenever it is reached.  `pinned` is the code as it is; `linked`
is the code with `is_slinkuhi` added to the import of `jvozba.py:9`, as in the JavaScript and Rust versions
(`js/src/jvozba.ts:550`, `rs/src/jvozba.rs:28`).  Everything else is the same.  Theorems are stated for both
(`∀ b : Build`) wherever they hold for both. -/
inductive Build where
  | pinned | linked
  deriving DecidableEq, Repr

/-- The functions through which the package recurses, and which program they belong to. -/
structure Rec where
  build : Build
  /-- `analyse_brivla` (tools.py:239) -/
  analyse : Settings → Str → Except Err (BType × List Str)
  /-- `is_slinkuhi` (tools.py:57) -/
  slinkuhi : YHyphens → Bool → Str → Except Err Bool

/-! ## katna.py: decomposition -/

/-- katna.py:175-190: the hyphen at the start of `lujvo`, if one may be removed there.
`res` is the list of pieces found so far, latest first. `some h` means `h` is appended to `res` and removed.
`lujvo[1]` can raise `IndexError` (katna.py:182). -/
def takeHyphen (y : YHyphens) (lujvo : Str) (res : List Str) : Except Err (Option Str) :=
  match res with
  | [] => .ok none
  | prev :: _ =>
    if prev.length = 1 then .ok none
    else match lujvo with
      | [] => .ok none
      | c0 :: cs =>
        if c0 = 'y' then .ok (some s%"y")
        else do
          let rn ← (if y ≠ .forceY then
              if slice lujvo 0 2 = s%"nr" then Except.ok true
              else if c0 = 'r' then
                match cs with
                | [] => .error .index
                | c1 :: _ => .ok (isConsonant c1 && c1 != 'r')
              else .ok false
            else Except.ok false)
          if rn && (rafsiTarmi prev = .cvv || rafsiTarmi prev = .cvhv) then .ok (some [c0])
          else if y ≠ .standard ∧ slice lujvo 0 2 = s%"'y" then .ok (some s%"'y")
          else .ok none

/-- What one pass through the rafsi part of the loop of `jvokaha_2` does (katna.py:192-247). -/
inductive Cut where
  /-- append the pieces (latest last), continue with the rest -/
  | pieces (ps : List Str) (rest : Str)
  /-- append the piece and return -/
  | final (p : Str)

/-- katna.py:208-213: the consonant pair of a four-letter rafsi at the front of `lujvo` is not allowed. -/
def badFour (allowMz : Bool) (lujvo : Str) : Bool :=
  match lujvo[1]? with
  | some c => if isVowel c then !(validPairs allowMz).contains (slice lujvo 2 4)
              else !INITIAL.contains (slice lujvo 0 2)
  | none => false

/-- katna.py:192-247: drop a rafsi from the front of the non-empty string `lujvo`. -/
def takeRafsi (allowMz : Bool) (original lujvo : Str) : Except Err Cut :=
  if rafsiTarmi (slice lujvo 0 3) = .cvv ∧
      [s%"ai", s%"ei", s%"oi", s%"au"].contains (slice lujvo 1 3) then
    .ok (.pieces [slice lujvo 0 3] (lujvo.drop 3))
  else if rafsiTarmi (slice lujvo 0 4) = .cvhv then
    .ok (.pieces [slice lujvo 0 4] (lujvo.drop 4))
  else
    -- katna.py:206-223
    let four : Bool := rafsiTarmi (slice lujvo 0 4) = .cvcc || rafsiTarmi (slice lujvo 0 4) = .ccvc
    if four && badFour allowMz lujvo then
      .error .invalidCluster
    else if four && (lujvo.length == 4 || lujvo[4]? == some 'y') then
      .ok (.pieces (slice lujvo 0 4 :: (if lujvo[4]? = some 'y' then [s%"y"] else [])) (lujvo.drop 5))
    else if rafsiTarmi lujvo = .cvccv ∨ rafsiTarmi lujvo = .ccvcv then
      .ok (.final lujvo)
    else if rafsiTarmi (slice lujvo 0 3) = .cvc then
      if BANNED_TRIPLES.contains (slice lujvo 2 5) then .error .invalidCluster
      else .ok (.pieces [slice lujvo 0 3] (lujvo.drop 3))
    else if rafsiTarmi (slice lujvo 0 3) = .ccv then
      if !INITIAL.contains (slice lujvo 0 2) then .error .invalidCluster
      else if lujvo = original ∧ slice lujvo 3 5 = s%"'y" then .error .notBrivla
      else .ok (.pieces [slice lujvo 0 3] (lujvo.drop 3))
    else .error .decomposition

/-- katna.py:170-247: the loop. First argument: fuel (every pass removes a letter or returns).
`res` is kept latest first. -/
def jvokaha2Loop (y : YHyphens) (allowMz : Bool) (original : Str) :
    Nat → Str → List Str → Except Err (List Str)
  | 0, _, _ => .error .fuel
  | fuel + 1, lujvo, res =>
    if lujvo = [] then .ok res.reverse
    else do
      match ← takeHyphen y lujvo res with
      | some h => jvokaha2Loop y allowMz original fuel (lujvo.drop h.length) (h :: res)
      | none =>
        match ← takeRafsi allowMz original lujvo with
        | .pieces ps rest => jvokaha2Loop y allowMz original fuel rest (ps.reverse ++ res)
        | .final p => .ok (p :: res).reverse

/-- katna.py:153-247. -/
def jvokaha2 (y : YHyphens) (allowMz : Bool) (lujvo : Str) : Except Err (List Str) :=
  jvokaha2Loop y allowMz lujvo (lujvo.length + 1) lujvo []

/-- katna.py:76-94: the loop of `compare_lujvo_pieces`, from index `i` of `other`. -/
def comparePiecesLoop (other : List Str) : List Str → Nat → Except Err Bool
  | [], i => .ok (i == other.length)
  | part :: corr, i =>
    match other[i]? with
    | none => .error .index
    | some o =>
      if part = o then comparePiecesLoop other corr (i + 1)
      else
        let skip : Bool :=
          0 < i && i + 1 < other.length && (o = s%"r" || o = s%"n") &&
          (match other[i - 1]? with
            | some p => rafsiTarmi p = .cvv || rafsiTarmi p = .cvhv
            | none => false) &&
          (1 < i || (match other[i + 1]? with
            | some q => rafsiTarmi q = .ccvcv || rafsiTarmi q = .ccvc || rafsiTarmi q = .ccv
            | none => false))
        let i := if skip then i + 1 else i
        match other[i]? with
        | none => .error .index
        | some o => if part = o then comparePiecesLoop other corr (i + 1) else .ok false

/-- katna.py:67-94. -/
def compareLujvoPieces (corr other : List Str) : Except Err Bool := comparePiecesLoop other corr 0

/-! ## tools.py: zi'evla -/

/-- The local variables of the scanning loop of `check_zihevla_or_rafsi` (tools.py:106-111). -/
structure ZState where
  pos : Nat := 0
  numSyllables : Nat := 0
  clusterPos : Option Nat := none
  numConsonants : Nat := 0
  finalConsonantPos : Nat := 0
  deriving DecidableEq, Repr

/-- tools.py:127-130: some adjacent pair of `chunk` is not in `pairs`. -/
def hasBadPair (pairs : List Str) : Str → Bool
  | a :: b :: rest => !pairs.contains [a, b] || hasBadPair pairs (b :: rest)
  | _ => false

/-- tools.py:132-135: some three consecutive letters of `chunk` are banned. -/
def hasBannedTriple : Str → Bool
  | a :: b :: c :: rest => BANNED_TRIPLES.contains [a, b, c] || hasBannedTriple (b :: c :: rest)
  | _ => false

/-- tools.py:118-147: a consonant chunk. -/
def zihConsonants (allowMz : Bool) (chunk : Str) (st : ZState) : Except Err ZState :=
  if chunk.length ≥ 2 ∧ st.clusterPos = none ∧ st.numConsonants > 1 then .error .notZihevla
  else
    let clusterPos := if chunk.length ≥ 2 ∧ st.clusterPos = none then some st.pos else st.clusterPos
    if st.numSyllables = 0 ∧ chunk.length ≥ 2 ∧ !INITIAL.contains (slice chunk 0 2) then .error .notZihevla
    else if hasBadPair (validPairs allowMz) chunk then .error .notZihevla
    else if hasBannedTriple chunk then .error .notZihevla
    else if st.pos = 0 ∧ !isZihevlaInitialCluster chunk then .error .notZihevla
    else if st.pos ≠ 0 ∧ !isZihevlaMiddleCluster chunk then .error .notZihevla
    else .ok { pos := st.pos + chunk.length, numSyllables := st.numSyllables, clusterPos,
               numConsonants := st.numConsonants + chunk.length, finalConsonantPos := st.pos }

/-- tools.py:154-167: a vowel chunk. `valsi_copy[pos - 1]` is the last character when `pos` is 0. -/
def zihVowels (valsi chunk : Str) (st : ZState) : Except Err ZState :=
  match splitVowelCluster chunk with
  | .error .decomposition => .error .notZihevla
  | .error e => .error e
  | .ok syllables =>
    let before := if st.pos = 0 then valsi.getLast? else valsi[st.pos - 1]?
    if st.clusterPos = none ∧ before ≠ some '\'' ∧ syllables.length ≥ 2 ∧
        st.pos + (join syllables).length = valsi.length then .error .notZihevla
    else if st.pos != 0 && (match syllables with | [] => false | s :: _ => FOLLOW_VOWEL_CLUSTERS.contains s) then
      .error .notZihevla
    else .ok { st with pos := st.pos + chunk.length, numSyllables := st.numSyllables + syllables.length }

/-- tools.py:112-181: the scanning loop. `rest` is the unread part of `valsi`. First argument: fuel. -/
def zihScan (allowMz : Bool) (valsi : Str) : Nat → Str → ZState → Except Err ZState
  | 0, _, _ => .error .fuel
  | _ + 1, [], st => .ok st
  | fuel + 1, c :: cs, st =>
    if isConsonant c then do
      let chunk := (c :: cs).takeWhile isConsonant
      let st ← zihConsonants allowMz chunk st
      zihScan allowMz valsi fuel ((c :: cs).dropWhile isConsonant) st
    else if isVowel c then do
      let chunk := (c :: cs).takeWhile isVowel
      let st ← zihVowels valsi chunk st
      zihScan allowMz valsi fuel ((c :: cs).dropWhile isVowel) st
    else if c = '\'' then
      if st.pos < 1 || !(match valsi[st.pos - 1]? with | some v => isVowel v | none => false) then
        .error .notZihevla
      else if cs.isEmpty || !(match valsi[st.pos + 1]? with | some v => isVowel v | none => false) then
        .error .notZihevla
      else zihScan allowMz valsi fuel cs { st with pos := st.pos + 1 }
    else .error .notZihevla

/-- tools.py:213-236: `is_brivla`. -/
def isBrivlaR (R : Rec) (s : Settings) (valsi : Str) : Except Err Bool :=
  match R.analyse s valsi with
  | .ok (t, _) => .ok (t ≠ .cmevla)
  | .error .notBrivla => .ok false
  | .error e => .error e

/-- tools.py:191-194: `for i in range(1, cluster_pos)`, from `i` on with `k` iterations left. Only
`y_hyphens` is passed on to `is_brivla`. -/
def fallsApartBefore (R : Rec) (y : YHyphens) (valsi : Str) (clusterPos : Nat) : Nat → Nat → Except Err Unit
  | 0, _ => .ok ()
  | k + 1, i => do
    let suffix := valsi.drop (clusterPos - i)
    let c ← idx valsi (clusterPos - i)
    if isConsonant c || isGlide suffix then
      if ← isBrivlaR R { yHyphens := y } suffix then .error .notZihevla
      else fallsApartBefore R y valsi clusterPos k (i + 1)
    else fallsApartBefore R y valsi clusterPos k (i + 1)

/-- tools.py:78-210. -/
def checkZihevlaOrRafsi (R : Rec) (requireZihevla : Bool) (y : YHyphens) (expRafsi allowMz : Bool)
    (valsi : Str) : Except Err Shape := do
  if requireZihevla ∧ valsi.length < 4 then .error .notZihevla
  else
  let st ← zihScan allowMz valsi (valsi.length + 1) valsi {}
  -- tools.py:183-194
  if st.numSyllables < 2 ∧ (requireZihevla ∨ !expRafsi) then .error .notZihevla
  else
  let _ ← (match st.clusterPos with
    | some p =>
      if st.numSyllables > 2 ∧ p > 0 then do
        if ← isBrivlaR R { yHyphens := y } (valsi.drop p) then .error .notZihevla
        else fallsApartBefore R y valsi p (p - 1) 1
      else Except.ok ()
    | none => Except.ok ())
  -- tools.py:196-210
  match st.clusterPos with
  | none =>
    if requireZihevla then .error .notZihevla
    else do
      let c ← idx valsi 0
      if !isConsonant c ∧ !expRafsi then .error .notZihevla
      else if st.numConsonants > 1 then .error .notZihevla
      else if st.finalConsonantPos > 0 then .error .notZihevla
      else .ok .rafsi
  | some _ => do
    let c ← idx valsi 0
    let skip ← (if isVowel c then do
        let d ← idx valsi 1
        Except.ok (isConsonant d)
      else Except.ok false)
    if !skip then
      if ← R.slinkuhi y allowMz valsi then .error .notZihevla else .ok .zihevla
    else .ok .zihevla

/-! ## jvozba.py: rafsi lists and the search -/

/-- Catch `NotBrivlaError`, re-raising it as `e'`; other exceptions pass. -/
def catchNotBrivla {α : Type} (e' : Err) : Except Err α → Except Err α
  | .error .notBrivla => .error e'
  | x => x

/-- jvozba.py:178-201: a component written `x-` (the argument is `x`). -/
def rafsiListShort (R : Rec) (s : Settings) (isFirst isLast : Bool) (valsi : Str) :
    Except Err (List RafsiOpt) := do
  let (bType, _) ← catchNotBrivla .noLujvo
    (R.analyse { yHyphens := s.yHyphens, expRafsi := s.expRafsi, allowMz := s.allowMz } (valsi ++ s%"a"))
  if bType ≠ .zihevla ∧ bType ≠ .gismu then .error .noLujvo
  else
  let l ← idxLast valsi
  if valsi.length ≥ 6 && isConsonant l then
    match jvokaha2 s.yHyphens s.allowMz valsi with
    | .ok _ => .error .noLujvo
    | .error .decomposition | .error .invalidCluster =>
      getRafsiForRafsi valsi .shortBrivla isFirst isLast s.consonants s.glides
    | .error e => .error e
  else getRafsiForRafsi valsi .shortBrivla isFirst isLast s.consonants s.glides

/-- jvozba.py:206-235: what kind of thing `x` is when a component `-x-` has no CLL rafsi shape. -/
def rafsiKind (R : Rec) (s : Settings) (valsi : Str) : Except Err RType :=
  match R.analyse { yHyphens := s.yHyphens, expRafsi := s.expRafsi, allowMz := s.allowMz } valsi with
  | .ok (t, _) => if t = .zihevla then .ok .longBrivla else .error .notZihevla
  | .error .notBrivla =>
    if s.expRafsi then
      match checkZihevlaOrRafsi R false s.yHyphens s.expRafsi s.allowMz valsi with
      | .ok .rafsi => .ok .experimental
      | .ok .zihevla => .error .notZihevla
      | .error .notZihevla => .error .noLujvo
      | .error e => .error e
    else .error .notZihevla
  | .error e => .error e

/-- jvozba.py:203-242: a component written `-x-` (the argument is `x`). -/
def rafsiListRafsi (R : Rec) (s : Settings) (isFirst isLast : Bool) (valsi : Str) :
    Except Err (List RafsiOpt) := do
  let raftai := rafsiTarmi valsi
  if raftai = .other then
    let rType ← rafsiKind R s valsi
    getRafsiForRafsi valsi rType isFirst isLast s.consonants s.glides
  else if !isValidRafsi s.allowMz valsi then .error .invalidCluster
  else getRafsiForRafsi valsi (.tarmi raftai) isFirst isLast s.consonants s.glides

/-- jvozba.py:248-260: the rafsi of a word listed in `RAFSI_LIST`. -/
def rafsiListTable (s : Settings) (isFirst isLast : Bool) : List Str → Except Err (List RafsiOpt)
  | [] => .ok []
  | r :: rs =>
    if rafsiTarmi r = .other ∧ !s.expRafsi then rafsiListTable s isFirst isLast rs
    else do
      let a ← getRafsiForRafsi r (.tarmi (rafsiTarmi r)) isFirst isLast s.consonants s.glides
      let b ← rafsiListTable s isFirst isLast rs
      .ok (a ++ b)

/-- jvozba.py:244-276: a component that is a word. -/
def rafsiListWord (R : Rec) (s : Settings) (isFirst isLast : Bool) (valsi : Str) :
    Except Err (List RafsiOpt) := do
  if !isOnlyLojban valsi then .error .nonLojban
  else
  let short ← rafsiListTable s isFirst isLast ((RAFSI_LIST.lookup valsi).getD [])
  let bType : Option BType ←
    (match R.analyse { yHyphens := s.yHyphens, expRafsi := s.expRafsi, allowMz := s.allowMz } valsi with
    | .ok (t, _) => Except.ok (some t)
    | .error .notBrivla => .ok none
    | .error e => .error e)
  let four ← (if bType = some .gismu then
      getRafsiForRafsi (dropLastN valsi 1) .shortBrivla isFirst isLast s.consonants s.glides
    else Except.ok [])
  let long ← (if bType = some .gismu ∨ bType = some .zihevla then
      getRafsiForRafsi valsi .longBrivla isFirst isLast s.consonants s.glides
    else Except.ok [])
  .ok (short ++ four ++ long)

/-- jvozba.py:166-278: the rafsi list of one component. -/
def rafsiListFor (R : Rec) (s : Settings) (isFirst isLast : Bool) (valsi : Str) :
    Except Err (List RafsiOpt) := do
  let l ← idxLast valsi
  if l = '-' then
    let first ← idx valsi 0
    let valsi := stripBoth (· == '-') valsi
    if !isOnlyLojban valsi then .error .nonLojban
    else
    let l ← idxLast valsi
    if l = '\'' then .error .nonLojban
    else if first ≠ '-' then rafsiListShort R s isFirst isLast valsi
    else rafsiListRafsi R s isFirst isLast valsi
  else rafsiListWord R s isFirst isLast valsi

/-- jvozba.py:165-279, from component number `i` on, `len(valsi_list) = n`. -/
def rafsiListListFrom (R : Rec) (s : Settings) (n : Nat) : Nat → List Str → Except Err (List (List RafsiOpt))
  | _, [] => .ok []
  | i, v :: vs => do
    let a ← rafsiListFor R s (i == 0) (i + 1 == n) v
    let b ← rafsiListListFrom R s n (i + 1) vs
    .ok (a :: b)

/-- jvozba.py:144-279. -/
def getRafsiListList (R : Rec) (s : Settings) (valsiList : List Str) : Except Err (List (List RafsiOpt)) :=
  rafsiListListFrom R s valsiList.length 0 valsiList

/-- The options passed to `combine` (jvozba.py:452-466, 475-488), apart from `tanru_len`. -/
def combineOpts (s : Settings) (generateCmevla : Bool) : CombineOpts :=
  { generateCmevla, tanruLen := 0, yHyphens := s.yHyphens, consonants := s.consonants,
    glides := s.glides, allowMz := s.allowMz }

/-- jvozba.py:501: what calling the name `is_slinkuhi` inside `jvozba.py` does. -/
def slinkuhiInJvozba (R : Rec) (y : YHyphens) (allowMz : Bool) (string : Str) : Except Err Bool :=
  match R.build with
  | .pinned => .error .name
  | .linked => R.slinkuhi y allowMz string

/-- jvozba.py:422-505. -/
def getLujvoFromList (R : Rec) (s : Settings) (generateCmevla : Bool) (valsiList : List Str) :
    Except Err (Str × Int × List (Nat × Nat)) := do
  let ll ← getRafsiListList R s valsiList
  let best ← searchStages (combineOpts s generateCmevla) ll
  match pickBest generateCmevla best with
  | none => .error .noLujvo
  | some r =>
    if !generateCmevla then
      if ← slinkuhiInJvozba R s.yHyphens s.allowMz r.1 then .error .noLujvo else .ok r
    else .ok r

/-! ## katna.py: checking a decomposition -/

/-- katna.py:101-146. -/
def jvokaha (R : Rec) (y : YHyphens) (consonants : Consonants) (glides allowMz : Bool) (lujvo : Str) :
    Except Err (List Str) := do
  let arr ← jvokaha2 y allowMz lujvo
  let rafsiTanru := (arr.filter (fun x => x.length > 2)).map (fun x => s%"-" ++ x ++ s%"-")
  if rafsiTanru.length = 1 then .error .decomposition
  else
  match arr.getLast? with
  | none => .error .index
  | some lastPiece => do
    let l ← idxLast lastPiece
    let r ← (match getLujvoFromList R
          { yHyphens := y, consonants := consonants, glides := glides, allowMz := allowMz }
          (isConsonant l) rafsiTanru with
      | .error .noLujvo => Except.error .decomposition
      | x => x)
    let correctLujvo := r.1
    let good ← (if y = .forceY then Except.ok (correctLujvo == lujvo)
      else do
        let corr ← jvokaha2 y allowMz correctLujvo
        compareLujvoPieces corr arr)
    if good then .ok arr else .error .decomposition

/-- `try: …; except (DecompositionError, InvalidClusterError)`: did the computation succeed? -/
def succeeds {α : Type} : Except Err α → Except Err Bool
  | .ok _ => .ok true
  | .error .decomposition => .ok false
  | .error .invalidCluster => .ok false
  | .error e => .error e

/-- tools.py:57-75. -/
def isSlinkuhi (R : Rec) (y : YHyphens) (allowMz : Bool) (string : Str) : Except Err Bool := do
  let c ← idx string 0
  if isVowel c then .ok false
  else succeeds (jvokaha R y .cluster false allowMz (s%"to" ++ string))

/-- tools.py:30-54. -/
def isGismuOrLujvo (R : Rec) (y : YHyphens) (allowMz : Bool) (aString : Str) : Except Err Bool := do
  if aString.length < 5 then .ok false
  else
  let l ← idxLast aString
  if !isVowel l then .ok false
  else if isGismu allowMz aString then .ok true
  else succeeds (jvokaha R y .cluster false allowMz aString)

/-! ## tools.py: analyse_brivla -/

/-- The variables carried through the loop over y-parts (tools.py:304-309); `resultParts` in order. -/
structure AState where
  resultParts : List Str := []
  nextHyphen : Str := []
  hasCluster : Bool := false
  isMahortai : Bool := true
  consonantBeforeBreak : Bool := false
  numConsonants : Nat := 0
  deriving DecidableEq, Repr

/-- The settings and word-wide facts the loop reads. -/
structure ACtx where
  s : Settings
  isCmevlatai : Bool
  yParts : List Str

/-- tools.py:318-330: a leading `'` of a part. Returns the part without it and whether it was there. -/
def stripLeadingH (i : Nat) (part : Str) : Except Err (Str × Bool) :=
  match part with
  | [] => .error .notBrivla
  | c :: cs =>
    if c = '\'' then
      match cs with
      | [] => .error .notBrivla
      | v :: _ => do
        let vchunk := cs.takeWhile isVowel
        if !isVowel v then .error .notBrivla
        else
        match ← splitVowelCluster vchunk with
        | [] => .error .index
        | s0 :: _ => if FOLLOW_VOWEL_CLUSTERS.contains s0 then .error .notBrivla else .ok (cs, true)
    else if i > 0 && isVowel c && !isGlide part then .error .notBrivla
    else .ok (part, false)

/-- The local variables set at tools.py:346-364. -/
structure PartForm where
  /-- `part` after the possible removal of a final `'` or addition of `a` -/
  part : Str
  /-- `part_copy` -/
  partCopy : Str
  partA : Str
  canBeRafsi : Bool
  requireCluster : Bool
  didAddA : Bool
  /-- the `'` carried over to the next hyphen -/
  trailingH : Bool
  deriving DecidableEq, Repr

/-- tools.py:346-364. `part` is not empty. -/
def partForm (ctx : ACtx) (i : Nat) (hasCluster : Bool) (part : Str) : Except Err PartForm := do
  let partA := part ++ s%"a"
  let l ← idxLast part
  if l = '\'' then
    let requireCluster ←
      (if ctx.s.yHyphens = .standard ∧ !hasCluster ∧ i + 1 < ctx.yParts.length then do
          let c ← idx ((ctx.yParts[i + 1]?).getD []) 0
          Except.ok (c != '\'')
        else Except.ok false)
    let part' := dropLastN part 1
    let l' ← idxLast part'
    if !isVowel l' then .error .notBrivla
    else .ok { part := part', partCopy := part', partA, canBeRafsi := true, requireCluster,
               didAddA := false, trailingH := true }
  else if i + 1 < ctx.yParts.length ∨ ctx.isCmevlatai then
    .ok { part := partA, partCopy := part, partA, canBeRafsi := !isVowel l, requireCluster := true,
          didAddA := true, trailingH := false }
  else
    .ok { part, partCopy := part, partA, canBeRafsi := true, requireCluster := false,
          didAddA := false, trailingH := false }

/-- tools.py:386-392. -/
def countFound : List Str → Nat × Bool → Nat × Bool
  | [], acc => acc
  | p :: ps, (n, c) =>
    match rafsiTarmi p with
    | .cvv | .cvhv => countFound ps (n + 1, c)
    | .other => countFound ps (n, c)
    | _ => countFound ps (n + 2, true)

/-- tools.py:367-392: try to read the part as rafsi. Returns `found_parts` and `did_kaha`. -/
def tryKaha (R : Rec) (ctx : ACtx) (f : PartForm) : Except Err (List Str × Bool) := do
  -- tools.py:368-375
  let _ ← (if ¬ (s%"'a").isSuffixOf f.partA ∧ !isGismu ctx.s.allowMz (lastN f.partA 5) then
      match R.analyse { yHyphens := ctx.s.yHyphens, allowMz := ctx.s.allowMz } f.partA with
      | .error .notBrivla => Except.ok ()
      | .error e => .error e
      | .ok (t, _) => if t = .lujvo then .error .notBrivla else .ok ()
    else Except.ok ())
  -- tools.py:376-384
  match jvokaha2 ctx.s.yHyphens ctx.s.allowMz f.partCopy with
  | .error .decomposition | .error .invalidCluster | .error .index => .ok ([f.part], false)
  | .error e => .error e
  | .ok found =>
    match found with
    | [] => .ok ([], false)
    | [p] => if !isValidRafsi ctx.s.allowMz p then .error .notBrivla else .ok (found, true)
    | _ => .ok (found, true)

/-- tools.py:402-427: the tosmabru test on the first part. -/
def tosmabruTest (R : Rec) (ctx : ACtx) (f : PartForm) : Except Err Unit := do
  let toPart : Str ←
    (if rafsiTarmi (slice f.part 0 4) = .cvhv then Except.ok (slice f.part 0 4)
     else if rafsiTarmi (slice f.part 0 3) = .cvv then .ok (slice f.part 0 3)
     else do
      let a ← idx f.part 0
      if isConsonant a then
        let b ← idx f.part 1
        if isVowel b then .ok (slice f.part 0 2) else .ok []
      else .ok [])
  let smabru0 : Str := if toPart.isEmpty then [] else f.part.drop toPart.length
  if smabru0.isEmpty then .ok ()
  else
  let smabru := if f.didAddA then dropLastN smabru0 1 else stripHyphens smabru0
  -- tools.py:420-421
  let bad ← (if isValidRafsi false smabru then
      if rafsiTarmi smabru = .ccv then do
        let c ← idx ((ctx.yParts[0]?).getD []) (toPart.length + 3)
        Except.ok (c != '\'')
      else .ok true
    else Except.ok false)
  if bad then .error .notBrivla
  else
  -- tools.py:423-427
  if ← succeeds (jvokaha R ctx.s.yHyphens .cluster false ctx.s.allowMz smabru) then .error .notBrivla
  else .ok ()

/-- tools.py:311-454: one part. -/
def analysePart (R : Rec) (ctx : ACtx) (i : Nat) (part0 : Str) (st : AState) : Except Err AState := do
  let nextHyphen := if i ≠ 0 then st.nextHyphen ++ s%"y" else st.nextHyphen
  let (part, leadingH) ← stripLeadingH i part0
  let nextHyphen := if leadingH then nextHyphen ++ s%"'" else nextHyphen
  let resultParts := if nextHyphen.isEmpty then st.resultParts else st.resultParts ++ [nextHyphen]
  -- tools.py:335-339
  if rafsiTarmi part = .cvc then
    .ok { st with resultParts := resultParts ++ [part], nextHyphen := [],
                  consonantBeforeBreak := true, numConsonants := st.numConsonants + 2 }
  else
  let c0 ← idx part 0
  -- tools.py:341-344
  let isMahortai := if i > 0 && (isConsonant c0 || isGlide part) then false else st.isMahortai
  let hasCluster :=
    if st.consonantBeforeBreak && (isConsonant c0 || (ctx.s.glides && isGlide part)) then true
    else st.hasCluster
  let f ← partForm ctx i hasCluster part
  let nextHyphen : Str := if f.trailingH then s%"'" else []
  -- tools.py:366-392
  let (found, didKaha) ← (if f.canBeRafsi then tryKaha R ctx f else Except.ok ([], false))
  let resultParts := if didKaha then resultParts ++ found else resultParts
  let (numConsonants, hasCluster) := countFound found (st.numConsonants, hasCluster)
  if didKaha then do
    -- tools.py:395-399
    if (rafsiTarmi f.part = .cvv ∨ rafsiTarmi f.part = .cvhv) ∧
        f.requireCluster ∧ !hasCluster ∧ !ctx.isCmevlatai ∧
        (ctx.s.yHyphens = .standard ∨
          ¬ (i + 2 = ctx.yParts.length ∧
              (rafsiTarmi ((ctx.yParts[1]?).getD []) = .cvv ∨ rafsiTarmi ((ctx.yParts[1]?).getD []) = .ccv)))
    then .error .notBrivla
    else
    let _ ← (if i = 0 then tosmabruTest R ctx f else Except.ok ())
    .ok { resultParts, nextHyphen, hasCluster, isMahortai, consonantBeforeBreak := false, numConsonants }
  else do
    -- tools.py:429-452
    let requireZihevla := f.requireCluster || !ctx.s.expRafsi
    let shape ← (match checkZihevlaOrRafsi R requireZihevla ctx.s.yHyphens ctx.s.expRafsi ctx.s.allowMz f.part with
      | .error .notZihevla => Except.error .notBrivla
      | x => x)
    let _ ← (if shape = .zihevla ∧ f.didAddA then do
        if ← succeeds (jvokaha2 ctx.s.yHyphens ctx.s.allowMz f.part) then Except.error .notBrivla
        else .ok ()
      else Except.ok ())
    let hasCluster := if shape = .zihevla then true else hasCluster
    let p0 ← idx f.part 0
    let numConsonants :=
      if isConsonant p0 || (ctx.s.glides && isGlide f.part) then numConsonants + 1 else numConsonants
    .ok { resultParts := resultParts ++ [f.partCopy], nextHyphen, hasCluster, isMahortai,
          consonantBeforeBreak := false, numConsonants }

/-- tools.py:310-454: the loop over the parts, from part number `i` on. -/
def analyseLoop (R : Rec) (ctx : ACtx) : Nat → List Str → AState → Except Err AState
  | _, [], st => .ok st
  | i, p :: ps, st => do
    let st ← analysePart R ctx i p st
    analyseLoop R ctx (i + 1) ps st

/-- tools.py:456-464. -/
def consonantsOk (ctx : ACtx) (st : AState) : Bool :=
  if !st.hasCluster && !ctx.isCmevlatai then
    match ctx.s.consonants with
    | .cluster => false
    | .twoConsonants => if st.numConsonants < 2 then false else !st.isMahortai
    | .oneConsonant => if st.numConsonants < 1 then false else !st.isMahortai
  else true

/-- tools.py:304-470: a word with at least one `y`, already normalised. -/
def analyseY (R : Rec) (s : Settings) (isCmevlatai : Bool) (valsi : Str) (yParts : List Str) :
    Except Err (BType × List Str) := do
  let ctx : ACtx := { s, isCmevlatai, yParts }
  let st ← analyseLoop R ctx 0 yParts {}
  if !consonantsOk ctx st then .error .notBrivla
  else
  let c0 ← idx valsi 0
  let skip ← (if isVowel c0 then do
      let c1 ← idx valsi 1
      Except.ok (isConsonant c1 || c1 == 'y')
    else Except.ok false)
  let bad ← (if !skip then isSlinkuhi R s.yHyphens s.allowMz valsi else Except.ok false)
  if bad then .error .notBrivla
  else .ok (if isCmevlatai then .cmevla else .extendedLujvo, st.resultParts)

/-- tools.py:288-302 and 304-470: a word that is neither a gismu nor a plain lujvo. `c0 = valsi[0]`. -/
def analyseRest (R : Rec) (s : Settings) (isCmevlatai : Bool) (c0 : Char) (valsi : Str) :
    Except Err (BType × List Str) :=
  if !(isVowel c0 || isConsonant c0) then .error .notBrivla
  else if (splitOn 'y' valsi).length = 1 then
    if isCmevlatai then .error .notBrivla
    else
    match checkZihevlaOrRafsi R true s.yHyphens s.expRafsi s.allowMz valsi with
    | .ok _ => .ok (.zihevla, [valsi])
    | .error .notZihevla => .error .notBrivla
    | .error e => .error e
  else analyseY R s isCmevlatai valsi (splitOn 'y' valsi)

/-- tools.py:266-470, after normalisation. -/
def analyseNorm (R : Rec) (s : Settings) (valsi : Str) : Except Err (BType × List Str) :=
  match valsi.head?, valsi.getLast? with
  | some c0, some last =>
    if !isConsonant last && !isVowel last then .error .notBrivla
    else
    let isCmevlatai := isConsonant last
    if isCmevlatai && isGismu s.allowMz (valsi ++ s%"a") then .error .notBrivla
    else if !isCmevlatai && isGismu s.allowMz valsi then .ok (.gismu, [valsi])
    else
    match jvokaha R s.yHyphens s.consonants s.glides s.allowMz valsi with
    | .ok parts => .ok (if isCmevlatai then .cmevla else .lujvo, parts)
    | .error .decomposition | .error .invalidCluster | .error .index =>
      analyseRest R s isCmevlatai c0 valsi
    | .error e => .error e
  | _, _ => .error .notBrivla

/-- tools.py:239-470. -/
def analyseR (R : Rec) (s : Settings) (valsi : Str) : Except Err (BType × List Str) := do
  let valsi ← normalise valsi
  analyseNorm R s valsi

/-! ## Tying the knot, and the API -/

/-- `n` levels of recursion. -/
def recN (b : Build) : Nat → Rec
  | 0 => { build := b, analyse := fun _ _ => .error .fuel, slinkuhi := fun _ _ _ => .error .fuel }
  | n + 1 => { build := b, analyse := analyseR (recN b n), slinkuhi := isSlinkuhi (recN b n) }

/-- The recursion budget used for an input of `n` characters. -/
def budget (n : Nat) : Nat := 2 * n + 8

/-- tools.py:239-470, `analyse_brivla`. -/
def analyseBrivla (b : Build) (s : Settings) (valsi : Str) : Except Err (BType × List Str) :=
  analyseR (recN b (budget valsi.length)) s valsi

/-- tools.py:213-236, `is_brivla`. -/
def isBrivla (b : Build) (s : Settings) (valsi : Str) : Except Err Bool :=
  match analyseBrivla b s valsi with
  | .ok (t, _) => .ok (t ≠ .cmevla)
  | .error .notBrivla => .ok false
  | .error e => .error e

/-- tools.py:473-491, `get_rafsi_indices`. -/
def rafsiIndicesFrom : Nat → List Str → List (Nat × Nat)
  | _, [] => []
  | pos, p :: ps =>
    if HYPHENS.contains p then rafsiIndicesFrom (pos + p.length) ps
    else (pos, pos + p.length) :: rafsiIndicesFrom (pos + p.length) ps

/-- tools.py:473-491. -/
def getRafsiIndices (l : List Str) : List (Nat × Nat) := rafsiIndicesFrom 0 l

/-- jvozba.py:508-537, `get_lujvo_with_analytics`. -/
def getLujvoWithAnalytics (b : Build) (s : Settings) (generateCmevla : Bool) (t : Tanru) :
    Except Err (Str × Int × List (Nat × Nat)) := do
  let l ← processTanru t
  getLujvoFromList (recN b (budget (l.map List.length).sum)) s generateCmevla l

/-- jvozba.py:540-568, `get_lujvo`. -/
def getLujvo (b : Build) (s : Settings) (generateCmevla : Bool) (t : Tanru) : Except Err Str := do
  let r ← getLujvoWithAnalytics b s generateCmevla t
  .ok r.1

/-! ## katna.py: veljvo -/

/-- katna.py:15-30. -/
def searchSelrafsi (rafsi : Str) : Option Str :=
  let candidates : List Str :=
    if rafsi ≠ s%"brod" ∧ rafsi.length = 4 ∧ !rafsi.contains '\'' then
      (s%"aeiou").map (fun u => rafsi ++ [u])
    else []
  match candidates.find? (fun g => (RAFSI_LIST.lookup g).isSome) with
  | some g => some g
  | none => (RAFSI_LIST.find? (fun e => e.2.contains rafsi)).map (·.1)

/-- katna.py:48-62: the display form of piece number `i` (not a hyphen, not empty) of `pieces`. -/
def formatPiece (b : Build) (s : Settings) (pieces : List Str) (i : Nat) (piece : Str) : Except Err Str :=
  let st : Settings := { yHyphens := s.yHyphens, allowMz := s.allowMz }
  match searchSelrafsi piece with
  | some g => .ok g
  | none => do
    let nextY ← (if i + 2 < pieces.length then do
        let c ← idx ((pieces[i + 1]?).getD []) 0
        Except.ok (c == 'y')
      else Except.ok false)
    let y1 ← (if nextY then isBrivla b st (piece ++ s%"a") else Except.ok false)
    if y1 then .ok (piece ++ s%"-")
    else if ← isBrivla b st piece then .ok piece
    else
    let y3 ← (if i + 1 = pieces.length then isBrivla b st (piece ++ s%"a") else Except.ok false)
    if y3 then .ok (piece ++ s%"-") else .ok (s%"-" ++ piece ++ s%"-")

/-- katna.py:46-63, from piece number `i` on. Hyphens (and empty strings) give no output. -/
def selrafsiFrom (b : Build) (s : Settings) (pieces : List Str) : Nat → List Str → Except Err (List Str)
  | _, [] => .ok []
  | i, p :: ps =>
    if HYPHENS.contains p || p.isEmpty then selrafsiFrom b s pieces (i + 1) ps
    else do
      let a ← formatPiece b s pieces i p
      let r ← selrafsiFrom b s pieces (i + 1) ps
      .ok (a :: r)

/-- katna.py:33-63. -/
def selrafsiList (b : Build) (s : Settings) (pieces : List Str) : Except Err (List Str) := selrafsiFrom b s pieces 0 pieces

/-- katna.py:268-298, `get_veljvo`. -/
def getVeljvo (b : Build) (s : Settings) (lujvo : Str) : Except Err (List Str) := do
  let (t, pieces) ← analyseBrivla b s lujvo
  if t = .gismu ∨ t = .zihevla then .error .decomposition
  else selrafsiList b s pieces

/-- katna.py:260-265: the summand for one piece. -/
def pieceScore (r : Str) : Int :=
  if r = s%"y" ∨ r = s%"n" ∨ r = s%"r" ∨ r = [] then 1000 * (r.length : Int) else score r

/-- katna.py:251-265, `score_lujvo`. -/
def scoreLujvo (b : Build) (s : Settings) (lujvo : Str) : Except Err Int := do
  let _ ← getVeljvo b s lujvo
  let (_, decomp) ← analyseBrivla b s lujvo
  .ok ((decomp.map pieceScore).sum - tiebreak lujvo)

end Jvotci
