import Verif.Count

/-!
# The functions that call each other, with a counter

The functions of `Core.lean` that lead back to `analyse_brivla` or `is_slinkuhi`, with a counter that goes up by one
at every call of one of these two (tools.py:57-75 and 239-470), however deep. `Lemmas/Calls.lean` proves that they
compute what the functions of `Core.lean` compute. What makes no such call is taken from `Core.lean` (`uncounted`).
-/

namespace Jvotci

/-- `analyse_brivla` and `is_slinkuhi`, counting. -/
structure RecC where
  build : Build
  analyse : Settings → Str → Counted (BType × List Str)
  slinkuhi : YHyphens → Bool → Str → Counted Bool

/-- One more call. -/
def tick {α : Type} (x : Counted α) : Counted α := fun calls => x (calls + 1)

/-- Go on with the outcome of `x`, an exception included (`try … except …`). -/
def outcome {α β : Type} (x : Counted α) (h : Except Err α → Counted β) : Counted β := fun calls =>
  h (x calls).1 (x calls).2

/-- tools.py:213-236: `is_brivla`. -/
def isBrivlaC (R : RecC) (s : Settings) (valsi : Str) : Counted Bool :=
  outcome (R.analyse s valsi) fun r => uncounted (match r with
    | .ok (t, _) => .ok (t ≠ .cmevla)
    | .error .notBrivla => .ok false
    | .error e => .error e)

/-- tools.py:191-194. -/
def fallsApartBeforeC (R : RecC) (y : YHyphens) (valsi : Str) (clusterPos : Nat) : Nat → Nat → Counted Unit
  | 0, _ => uncounted (.ok ())
  | k + 1, i => do
    let suffix := valsi.drop (clusterPos - i)
    let c ← uncounted (idx valsi (clusterPos - i))
    if isConsonant c || isGlide suffix then
      if ← isBrivlaC R { yHyphens := y } suffix then uncounted (.error .notZihevla)
      else fallsApartBeforeC R y valsi clusterPos k (i + 1)
    else fallsApartBeforeC R y valsi clusterPos k (i + 1)

/-- tools.py:188-194. -/
def fallsApartC (R : RecC) (y : YHyphens) (valsi : Str) (p : Nat) : Counted Unit := do
  if ← isBrivlaC R { yHyphens := y } (valsi.drop p) then uncounted (.error .notZihevla)
  else fallsApartBeforeC R y valsi p (p - 1) 1

/-- tools.py:78-210. -/
def checkZihevlaOrRafsiC (R : RecC) (requireZihevla : Bool) (y : YHyphens) (expRafsi allowMz : Bool)
    (valsi : Str) : Counted Shape := do
  if requireZihevla ∧ valsi.length < 4 then uncounted (.error .notZihevla)
  else
  let st ← uncounted (zihScan allowMz valsi (valsi.length + 1) valsi {})
  if st.numSyllables < 2 ∧ (requireZihevla ∨ !expRafsi) then uncounted (.error .notZihevla)
  else
  let _ ← (match st.clusterPos with
    | some p =>
      if st.numSyllables > 2 ∧ p > 0 then fallsApartC R y valsi p
      else uncounted (.ok ())
    | none => uncounted (.ok ()))
  match st.clusterPos with
  | none =>
    if requireZihevla then uncounted (.error .notZihevla)
    else uncounted (do
      let c ← idx valsi 0
      if !isConsonant c ∧ !expRafsi then .error .notZihevla
      else if st.numConsonants > 1 then .error .notZihevla
      else if st.finalConsonantPos > 0 then .error .notZihevla
      else .ok .rafsi)
  | some _ => do
    let c ← uncounted (idx valsi 0)
    let skip ← uncounted (if isVowel c then do
        let d ← idx valsi 1
        Except.ok (isConsonant d)
      else Except.ok false)
    if !skip then
      if ← R.slinkuhi y allowMz valsi then uncounted (.error .notZihevla) else uncounted (.ok .zihevla)
    else uncounted (.ok .zihevla)

/-- jvozba.py:178-201. -/
def rafsiListShortC (R : RecC) (s : Settings) (isFirst isLast : Bool) (valsi : Str) : Counted (List RafsiOpt) :=
  outcome (R.analyse { yHyphens := s.yHyphens, expRafsi := s.expRafsi, allowMz := s.allowMz } (valsi ++ s%"a"))
    fun r => uncounted (do
      let (bType, _) ← catchNotBrivla .noLujvo r
      if bType ≠ .zihevla ∧ bType ≠ .gismu then .error .noLujvo
      else
      let l ← idxLast valsi
      if valsi.length ≥ 6 && isConsonant l then
        match jvokaha2 s.yHyphens s.allowMz valsi with
        | .ok _ => .error .noLujvo
        | .error .decomposition | .error .invalidCluster =>
          getRafsiForRafsi valsi .shortBrivla isFirst isLast s.consonants s.glides
        | .error e => .error e
      else getRafsiForRafsi valsi .shortBrivla isFirst isLast s.consonants s.glides)

/-- jvozba.py:206-235. -/
def rafsiKindC (R : RecC) (s : Settings) (valsi : Str) : Counted RType :=
  outcome (R.analyse { yHyphens := s.yHyphens, expRafsi := s.expRafsi, allowMz := s.allowMz } valsi) fun r =>
    match r with
    | .ok (t, _) => uncounted (if t = .zihevla then .ok .longBrivla else .error .notZihevla)
    | .error .notBrivla =>
      if s.expRafsi then
        outcome (checkZihevlaOrRafsiC R false s.yHyphens s.expRafsi s.allowMz valsi) fun r => uncounted (match r with
          | .ok .rafsi => .ok .experimental
          | .ok .zihevla => .error .notZihevla
          | .error .notZihevla => .error .noLujvo
          | .error e => .error e)
      else uncounted (.error .notZihevla)
    | .error e => uncounted (.error e)

/-- jvozba.py:203-242. -/
def rafsiListRafsiC (R : RecC) (s : Settings) (isFirst isLast : Bool) (valsi : Str) : Counted (List RafsiOpt) :=
  if rafsiTarmi valsi = .other then do
    let rType ← rafsiKindC R s valsi
    uncounted (getRafsiForRafsi valsi rType isFirst isLast s.consonants s.glides)
  else uncounted (if !isValidRafsi s.allowMz valsi then .error .invalidCluster
    else getRafsiForRafsi valsi (.tarmi (rafsiTarmi valsi)) isFirst isLast s.consonants s.glides)

/-- jvozba.py:244-276. -/
def rafsiListWordC (R : RecC) (s : Settings) (isFirst isLast : Bool) (valsi : Str) : Counted (List RafsiOpt) := do
  if !isOnlyLojban valsi then uncounted (.error .nonLojban)
  else
  let short ← uncounted (rafsiListTable s isFirst isLast ((RAFSI_LIST.lookup valsi).getD []))
  outcome (R.analyse { yHyphens := s.yHyphens, expRafsi := s.expRafsi, allowMz := s.allowMz } valsi)
    fun r => uncounted (do
      let bType : Option BType ← (match r with
        | .ok (t, _) => Except.ok (some t)
        | .error .notBrivla => .ok none
        | .error e => .error e)
      let four ← (if bType = some .gismu then
          getRafsiForRafsi (dropLastN valsi 1) .shortBrivla isFirst isLast s.consonants s.glides
        else Except.ok [])
      let long ← (if bType = some .gismu ∨ bType = some .zihevla then
          getRafsiForRafsi valsi .longBrivla isFirst isLast s.consonants s.glides
        else Except.ok [])
      .ok (short ++ four ++ long))

/-- jvozba.py:166-278. -/
def rafsiListForC (R : RecC) (s : Settings) (isFirst isLast : Bool) (valsi : Str) : Counted (List RafsiOpt) := do
  let l ← uncounted (idxLast valsi)
  if l = '-' then
    let first ← uncounted (idx valsi 0)
    let valsi := stripBoth (· == '-') valsi
    if !isOnlyLojban valsi then uncounted (.error .nonLojban)
    else
    let l ← uncounted (idxLast valsi)
    if l = '\'' then uncounted (.error .nonLojban)
    else if first ≠ '-' then rafsiListShortC R s isFirst isLast valsi
    else rafsiListRafsiC R s isFirst isLast valsi
  else rafsiListWordC R s isFirst isLast valsi

/-- jvozba.py:165-279. -/
def rafsiListListFromC (R : RecC) (s : Settings) (n : Nat) : Nat → List Str → Counted (List (List RafsiOpt))
  | _, [] => uncounted (.ok [])
  | i, v :: vs => do
    let a ← rafsiListForC R s (i == 0) (i + 1 == n) v
    let b ← rafsiListListFromC R s n (i + 1) vs
    uncounted (.ok (a :: b))

/-- jvozba.py:501: what calling the name `is_slinkuhi` inside `jvozba.py` does. -/
def slinkuhiInJvozbaC (R : RecC) (y : YHyphens) (allowMz : Bool) (string : Str) : Counted Bool :=
  match R.build with
  | .pinned => uncounted (.error .name)
  | .linked => R.slinkuhi y allowMz string

/-- jvozba.py:422-505. -/
def getLujvoFromListC (R : RecC) (s : Settings) (generateCmevla : Bool) (valsiList : List Str) :
    Counted (Str × Int × List (Nat × Nat)) := do
  let ll ← rafsiListListFromC R s valsiList.length 0 valsiList
  let best ← uncounted (searchStages (combineOpts s generateCmevla) ll)
  match pickBest generateCmevla best with
  | none => uncounted (.error .noLujvo)
  | some r =>
    if !generateCmevla then
      if ← slinkuhiInJvozbaC R s.yHyphens s.allowMz r.1 then uncounted (.error .noLujvo) else uncounted (.ok r)
    else uncounted (.ok r)

/-- katna.py:101-146. -/
def jvokahaC (R : RecC) (y : YHyphens) (consonants : Consonants) (glides allowMz : Bool) (lujvo : Str) :
    Counted (List Str) := do
  let arr ← uncounted (jvokaha2 y allowMz lujvo)
  let rafsiTanru := (arr.filter (fun x => x.length > 2)).map (fun x => s%"-" ++ x ++ s%"-")
  if rafsiTanru.length = 1 then uncounted (.error .decomposition)
  else
  match arr.getLast? with
  | none => uncounted (.error .index)
  | some lastPiece => do
    let l ← uncounted (idxLast lastPiece)
    let r ← outcome (getLujvoFromListC R
          { yHyphens := y, consonants := consonants, glides := glides, allowMz := allowMz }
          (isConsonant l) rafsiTanru) fun r => uncounted (match r with
      | .error .noLujvo => Except.error .decomposition
      | x => x)
    let correctLujvo := r.1
    let good ← uncounted (if y = .forceY then Except.ok (correctLujvo == lujvo)
      else do
        let corr ← jvokaha2 y allowMz correctLujvo
        compareLujvoPieces corr arr)
    if good then uncounted (.ok arr) else uncounted (.error .decomposition)

/-- `try: …; except (DecompositionError, InvalidClusterError)`. -/
def succeedsC {α : Type} (x : Counted α) : Counted Bool := outcome x fun r => uncounted (succeeds r)

/-- tools.py:57-75. -/
def isSlinkuhiC (R : RecC) (y : YHyphens) (allowMz : Bool) (string : Str) : Counted Bool := do
  let c ← uncounted (idx string 0)
  if isVowel c then uncounted (.ok false)
  else succeedsC (jvokahaC R y .cluster false allowMz (s%"to" ++ string))

/-- tools.py:367-392. -/
def tryKahaC (R : RecC) (ctx : ACtx) (f : PartForm) : Counted (List Str × Bool) := do
  let _ ← (if ¬ (s%"'a").isSuffixOf f.partA ∧ !isGismu ctx.s.allowMz (lastN f.partA 5) then
      outcome (R.analyse { yHyphens := ctx.s.yHyphens, allowMz := ctx.s.allowMz } f.partA) fun r =>
        uncounted (match r with
        | .error .notBrivla => Except.ok ()
        | .error e => .error e
        | .ok (t, _) => if t = .lujvo then .error .notBrivla else .ok ())
    else uncounted (Except.ok ()))
  uncounted (match jvokaha2 ctx.s.yHyphens ctx.s.allowMz f.partCopy with
  | .error .decomposition | .error .invalidCluster | .error .index => .ok ([f.part], false)
  | .error e => .error e
  | .ok found =>
    match found with
    | [] => .ok ([], false)
    | [p] => if !isValidRafsi ctx.s.allowMz p then .error .notBrivla else .ok (found, true)
    | _ => .ok (found, true))

/-- tools.py:402-427. -/
def tosmabruTestC (R : RecC) (ctx : ACtx) (f : PartForm) : Counted Unit := do
  let toPart : Str ← uncounted
    (if rafsiTarmi (slice f.part 0 4) = .cvhv then Except.ok (slice f.part 0 4)
     else if rafsiTarmi (slice f.part 0 3) = .cvv then .ok (slice f.part 0 3)
     else do
      let a ← idx f.part 0
      if isConsonant a then
        let b ← idx f.part 1
        if isVowel b then .ok (slice f.part 0 2) else .ok []
      else .ok [])
  let smabru0 : Str := if toPart.isEmpty then [] else f.part.drop toPart.length
  if smabru0.isEmpty then uncounted (.ok ())
  else
  let smabru := if f.didAddA then dropLastN smabru0 1 else stripHyphens smabru0
  let bad ← uncounted (if isValidRafsi false smabru then
      if rafsiTarmi smabru = .ccv then do
        let c ← idx ((ctx.yParts[0]?).getD []) (toPart.length + 3)
        Except.ok (c != '\'')
      else .ok true
    else Except.ok false)
  if bad then uncounted (.error .notBrivla)
  else
  if ← succeedsC (jvokahaC R ctx.s.yHyphens .cluster false ctx.s.allowMz smabru) then uncounted (.error .notBrivla)
  else uncounted (.ok ())

/-- tools.py:311-454. -/
def analysePartC (R : RecC) (ctx : ACtx) (i : Nat) (part0 : Str) (st : AState) : Counted AState := do
  let nextHyphen := if i ≠ 0 then st.nextHyphen ++ s%"y" else st.nextHyphen
  let (part, leadingH) ← uncounted (stripLeadingH i part0)
  let nextHyphen := if leadingH then nextHyphen ++ s%"'" else nextHyphen
  let resultParts := if nextHyphen.isEmpty then st.resultParts else st.resultParts ++ [nextHyphen]
  if rafsiTarmi part = .cvc then
    uncounted (.ok { st with resultParts := resultParts ++ [part], nextHyphen := [],
                             consonantBeforeBreak := true, numConsonants := st.numConsonants + 2 })
  else
  let c0 ← uncounted (idx part 0)
  let isMahortai := if i > 0 && (isConsonant c0 || isGlide part) then false else st.isMahortai
  let hasCluster :=
    if st.consonantBeforeBreak && (isConsonant c0 || (ctx.s.glides && isGlide part)) then true
    else st.hasCluster
  let f ← uncounted (partForm ctx i hasCluster part)
  let nextHyphen : Str := if f.trailingH then s%"'" else []
  let (found, didKaha) ← (if f.canBeRafsi then tryKahaC R ctx f else uncounted (Except.ok ([], false)))
  let resultParts := if didKaha then resultParts ++ found else resultParts
  let (numConsonants, hasCluster) := countFound found (st.numConsonants, hasCluster)
  if didKaha then do
    if (rafsiTarmi f.part = .cvv ∨ rafsiTarmi f.part = .cvhv) ∧
        f.requireCluster ∧ !hasCluster ∧ !ctx.isCmevlatai ∧
        (ctx.s.yHyphens = .standard ∨
          ¬ (i + 2 = ctx.yParts.length ∧
              (rafsiTarmi ((ctx.yParts[1]?).getD []) = .cvv ∨ rafsiTarmi ((ctx.yParts[1]?).getD []) = .ccv)))
    then uncounted (.error .notBrivla)
    else
    let _ ← (if i = 0 then tosmabruTestC R ctx f else uncounted (Except.ok ()))
    uncounted (.ok { resultParts, nextHyphen, hasCluster, isMahortai, consonantBeforeBreak := false, numConsonants })
  else do
    let requireZihevla := f.requireCluster || !ctx.s.expRafsi
    let shape ← outcome (checkZihevlaOrRafsiC R requireZihevla ctx.s.yHyphens ctx.s.expRafsi ctx.s.allowMz f.part)
      fun r => uncounted (match r with
      | .error .notZihevla => Except.error .notBrivla
      | x => x)
    uncounted (do
      let _ ← (if shape = .zihevla ∧ f.didAddA then do
          if ← succeeds (jvokaha2 ctx.s.yHyphens ctx.s.allowMz f.part) then Except.error .notBrivla
          else .ok ()
        else Except.ok ())
      let hasCluster := if shape = .zihevla then true else hasCluster
      let p0 ← idx f.part 0
      let numConsonants :=
        if isConsonant p0 || (ctx.s.glides && isGlide f.part) then numConsonants + 1 else numConsonants
      .ok { resultParts := resultParts ++ [f.partCopy], nextHyphen, hasCluster, isMahortai,
            consonantBeforeBreak := false, numConsonants })

/-- tools.py:310-454. -/
def analyseLoopC (R : RecC) (ctx : ACtx) : Nat → List Str → AState → Counted AState
  | _, [], st => uncounted (.ok st)
  | i, p :: ps, st => do
    let st ← analysePartC R ctx i p st
    analyseLoopC R ctx (i + 1) ps st

/-- tools.py:304-470. The call of `is_slinkuhi` at the end counts, too. -/
def analyseYC (R : RecC) (s : Settings) (isCmevlatai : Bool) (valsi : Str) (yParts : List Str) :
    Counted (BType × List Str) := do
  let ctx : ACtx := { s, isCmevlatai, yParts }
  let st ← analyseLoopC R ctx 0 yParts {}
  if !consonantsOk ctx st then uncounted (.error .notBrivla)
  else
  let c0 ← uncounted (idx valsi 0)
  let skip ← uncounted (if isVowel c0 then do
      let c1 ← idx valsi 1
      Except.ok (isConsonant c1 || c1 == 'y')
    else Except.ok false)
  let bad ← (if !skip then tick (isSlinkuhiC R s.yHyphens s.allowMz valsi) else uncounted (Except.ok false))
  if bad then uncounted (.error .notBrivla)
  else uncounted (.ok (if isCmevlatai then .cmevla else .extendedLujvo, st.resultParts))

/-- tools.py:288-302 and 304-470. -/
def analyseRestC (R : RecC) (s : Settings) (isCmevlatai : Bool) (c0 : Char) (valsi : Str) :
    Counted (BType × List Str) :=
  if !(isVowel c0 || isConsonant c0) then uncounted (.error .notBrivla)
  else if (splitOn 'y' valsi).length = 1 then
    if isCmevlatai then uncounted (.error .notBrivla)
    else
    outcome (checkZihevlaOrRafsiC R true s.yHyphens s.expRafsi s.allowMz valsi) fun r => uncounted (match r with
    | .ok _ => .ok (.zihevla, [valsi])
    | .error .notZihevla => .error .notBrivla
    | .error e => .error e)
  else analyseYC R s isCmevlatai valsi (splitOn 'y' valsi)

/-- tools.py:266-470, after normalisation. -/
def analyseNormC (R : RecC) (s : Settings) (valsi : Str) : Counted (BType × List Str) :=
  match valsi.head?, valsi.getLast? with
  | some c0, some last =>
    if !isConsonant last && !isVowel last then uncounted (.error .notBrivla)
    else
    let isCmevlatai := isConsonant last
    if isCmevlatai && isGismu s.allowMz (valsi ++ s%"a") then uncounted (.error .notBrivla)
    else if !isCmevlatai && isGismu s.allowMz valsi then uncounted (.ok (.gismu, [valsi]))
    else
    outcome (jvokahaC R s.yHyphens s.consonants s.glides s.allowMz valsi) fun r =>
      match r with
      | .ok parts => uncounted (.ok (if isCmevlatai then .cmevla else .lujvo, parts))
      | .error .decomposition | .error .invalidCluster | .error .index =>
        analyseRestC R s isCmevlatai c0 valsi
      | .error e => uncounted (.error e)
  | _, _ => uncounted (.error .notBrivla)

/-- tools.py:239-470. -/
def analyseRC (R : RecC) (s : Settings) (valsi : Str) : Counted (BType × List Str) := do
  let valsi ← uncounted (normalise valsi)
  analyseNormC R s valsi

/-- `n` levels of recursion. Every call counts. -/
def recNC (b : Build) : Nat → RecC
  | 0 => { build := b, analyse := fun _ _ => tick (uncounted (.error .fuel)),
           slinkuhi := fun _ _ _ => tick (uncounted (.error .fuel)) }
  | n + 1 => { build := b, analyse := fun s w => tick (analyseRC (recNC b n) s w),
               slinkuhi := fun y mz w => tick (isSlinkuhiC (recNC b n) y mz w) }

/-- tools.py:239-470, `analyse_brivla`. -/
def analyseBrivlaC (b : Build) (s : Settings) (valsi : Str) : Counted (BType × List Str) :=
  tick (analyseRC (recNC b (budget valsi.length)) s valsi)

/-- jvozba.py:508-537, `get_lujvo_with_analytics`. -/
def getLujvoWithAnalyticsC (b : Build) (s : Settings) (generateCmevla : Bool) (t : Tanru) :
    Counted (Str × Int × List (Nat × Nat)) := do
  let l ← uncounted (processTanru t)
  getLujvoFromListC (recNC b (budget (l.map List.length).sum)) s generateCmevla l

/-- tools.py:213-236, `is_brivla`. -/
def isBrivlaTopC (b : Build) (s : Settings) (valsi : Str) : Counted Bool :=
  outcome (analyseBrivlaC b s valsi) fun r => uncounted (match r with
    | .ok (t, _) => .ok (t ≠ .cmevla)
    | .error .notBrivla => .ok false
    | .error e => .error e)

/-- katna.py:48-62. -/
def formatPieceC (b : Build) (s : Settings) (pieces : List Str) (i : Nat) (piece : Str) : Counted Str :=
  let st : Settings := { yHyphens := s.yHyphens, allowMz := s.allowMz }
  match searchSelrafsi piece with
  | some g => uncounted (.ok g)
  | none => do
    let nextY ← uncounted (if i + 2 < pieces.length then do
        let c ← idx ((pieces[i + 1]?).getD []) 0
        Except.ok (c == 'y')
      else Except.ok false)
    let y1 ← (if nextY then isBrivlaTopC b st (piece ++ s%"a") else uncounted (Except.ok false))
    if y1 then uncounted (.ok (piece ++ s%"-"))
    else if ← isBrivlaTopC b st piece then uncounted (.ok piece)
    else
    let y3 ← (if i + 1 = pieces.length then isBrivlaTopC b st (piece ++ s%"a") else uncounted (Except.ok false))
    if y3 then uncounted (.ok (piece ++ s%"-")) else uncounted (.ok (s%"-" ++ piece ++ s%"-"))

/-- katna.py:46-63. -/
def selrafsiFromC (b : Build) (s : Settings) (pieces : List Str) : Nat → List Str → Counted (List Str)
  | _, [] => uncounted (.ok [])
  | i, p :: ps =>
    if HYPHENS.contains p || p.isEmpty then selrafsiFromC b s pieces (i + 1) ps
    else do
      let a ← formatPieceC b s pieces i p
      let r ← selrafsiFromC b s pieces (i + 1) ps
      uncounted (.ok (a :: r))

/-- katna.py:268-298, `get_veljvo`. -/
def getVeljvoC (b : Build) (s : Settings) (lujvo : Str) : Counted (List Str) := do
  let (t, pieces) ← analyseBrivlaC b s lujvo
  if t = .gismu ∨ t = .zihevla then uncounted (.error .decomposition)
  else selrafsiFromC b s pieces 0 pieces

/-- katna.py:251-265, `score_lujvo`. -/
def scoreLujvoC (b : Build) (s : Settings) (lujvo : Str) : Counted Int := do
  let _ ← getVeljvoC b s lujvo
  let (_, decomp) ← analyseBrivlaC b s lujvo
  uncounted (.ok ((decomp.map pieceScore).sum - tiebreak lujvo))

end Jvotci
