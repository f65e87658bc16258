import Verif.Js
import Verif.RsSettings

/-!
# Model of the Rust crate: `/repo/rs/src/tarmi.rs`, `jvozba.rs`, `katna.rs` and a part of `tools.rs`

The Rust crate is a third version of the same program, kept by hand. It is modelled here from its own text, so that
`Verif/Props/RsTarmi.lean` and `Verif/Props/RsLujvo.lean` can compare it with the Python version. `analyze_brivla` is
modelled only as far as its test for gismu (`rsAnalyse`); what comes after that, and `check_zihevla_or_rafsi`, is a
parameter (`RsRest`), and nothing is assumed of it.

The tables of `data.rs` and `rafsi.rs` have the same entries in the same order as `data.py` and `rafsi.py` (compared by
a script), so the lists of `Verif/Data.lean` and `Verif/Rafsi.lean` serve for both. An `IndexMap` keeps the order of
insertion, like a Python dict.

SIMPLIFICATIONS: a string is a list of characters. Rust measures and slices strings in bytes, so the model is that of
the program on ASCII text only. Scores are integers, where Rust has `i32`; a sum beyond `i32` panics or wraps around in
Rust and does neither here. Messages are left out.
-/

namespace Jvotci

/-- The errors of `rs/src/exceptions.rs`: those of the JavaScript version, where `type` stands for `FakeTypeError` and
`plain` for a panic. -/
abbrev RsErr := JsErr

/-! ## Strings -/

/-- tools.rs:41-51, `strin!(s, i)` for `i ≥ 0`: beyond the end it is `char::default()`, which is `'\0'`. -/
def rsAt (s : Str) (i : Nat) : Char := (s[i]?).getD '\x00'

/-- tools.rs:41-51, `strin!(s, -k)`. -/
def rsBack (s : Str) (k : Nat) : Char := if k ≤ s.length then rsAt s (s.length - k) else '\x00'

/-! ## tarmi.rs -/

/-- tarmi.rs:225. -/
def rsIsVowel (c : Char) : Bool := (s%"aeiou").contains c

/-- tarmi.rs:230. -/
def rsIsConsonant (c : Char) : Bool := (s%"bcdfgjklmnprstvxz").contains c

/-- tarmi.rs:236-238. -/
def rsIsGlide (s : Str) : Bool := s.length ≥ 2 && (s%"iu").contains (rsAt s 0) && rsIsVowel (rsAt s 1)

/-- tarmi.rs:243-245. -/
def rsIsOnlyLojban (s : Str) : Bool := !s.isEmpty && s.all (fun c => (s%"aeioubcdfgjklmnprstvxz'").contains c)

/-- tarmi.rs:248. -/
def rsContainsConsonant (s : Str) : Bool := s.any rsIsConsonant

/-- tarmi.rs:252-259. -/
def rsIsGismuShape (v : Str) : Bool :=
  v.length == 5 && rsIsConsonant (rsAt v 0) && rsIsConsonant (rsAt v 3) && rsIsVowel (rsAt v 4) &&
    (rsIsVowel (rsAt v 1) && rsIsConsonant (rsAt v 2) || rsIsConsonant (rsAt v 1) && rsIsVowel (rsAt v 2))

/-- tarmi.rs:262-269. -/
def rsIsGismu (allowMz : Bool) (v : Str) : Bool :=
  rsIsGismuShape v &&
    if rsIsVowel (rsAt v 1) then (if allowMz then MZ_VALID else VALID).contains (slice v 2 4)
    else INITIAL.contains (slice v 0 2)

/-- tarmi.rs:278-288, the macro `add_to_res!`: is the syllable refused? -/
def rsBadGlide (v new : Str) : Bool :=
  let newV := dropLastN v new.length
  rsAt new 0 == 'i' && [s%"ai", s%"ei", s%"oi"].contains (lastN newV 2) || rsAt new 0 == 'u' && lastN newV 2 == s%"au"

/-- tarmi.rs:289-303: the loop; the first argument is fuel. -/
def rsSplitVowelsLoop : Nat → Str → List Str → Except RsErr (List Str)
  | 0, _, _ => .error .fuel
  | fuel + 1, v, res =>
    if v.length > 3 && FOLLOW_VOWEL_CLUSTERS.contains (lastN v 3) then
      if rsBadGlide v (lastN v 3) then .error .decomposition
      else rsSplitVowelsLoop fuel (dropLastN v 3) (lastN v 3 :: res)
    else if v.length > 2 && FOLLOW_VOWEL_CLUSTERS.contains (lastN v 2) then
      if rsBadGlide v (lastN v 2) then .error .decomposition
      else rsSplitVowelsLoop fuel (dropLastN v 2) (lastN v 2 :: res)
    else if START_VOWEL_CLUSTERS.contains v || FOLLOW_VOWEL_CLUSTERS.contains v then .ok (v :: res)
    else .error .decomposition

/-- tarmi.rs:274-304. -/
def rsSplitVowelCluster (v : Str) : Except RsErr (List Str) := rsSplitVowelsLoop (v.length + 1) v []

/-- tarmi.rs:315-322. -/
def rsIsZihevlaInitialCluster (c : Str) : Bool :=
  if c.length = 1 then true
  else if c.length = 2 then INITIAL.contains c
  else if c.length = 3 then INITIAL.contains (slice c 0 2) && ZIhEVLA_INITIAL.contains (c.drop 1)
  else false

/-- tarmi.rs:337-354. The patterns of tarmi.rs:325-334 are those of `tarmi.py` with `^` and `$`; `m.len() - 2` is group 1
of the two-group pattern and group 3 of the four-group pattern. -/
def rsIsZihevlaMiddleCluster (c : Str) : Bool :=
  if c.length < 3 || c.length == 3 &&
      ((s%"lmnr").contains (rsAt c 1) || VALID.contains (slice c 0 2) && INITIAL.contains (c.drop 1)) then true
  else
    let matched : Option (Option Str) :=
      if rsBack c 2 = 'm' && INITIAL.contains (lastN c 2) then
        (reShort.fullmatch (dropLastN c (2 + (if rsIsZihevlaInitialCluster (lastN c 3) then 1 else 0)))).map (·.get 1)
      else (reLong.fullmatch c).map (·.get 3)
    match matched with
    | none => false
    | some none => true
    | some (some g) => rsIsZihevlaInitialCluster g

/-- tarmi.rs:379-384: the arm for three letters. -/
def rsTarmi3 (r : Str) : Tarmi :=
  match rsIsVowel (rsAt r 1), rsIsVowel (rsAt r 2) with
  | true, false => if rsIsConsonant (rsAt r 2) then .cvc else .other
  | true, true => .cvv
  | false, true => .ccv
  | false, false => .other

/-- tarmi.rs:386-391: the arm for four letters, the last of which is not `'`. -/
def rsTarmi4 (r : Str) : Tarmi :=
  if rsIsVowel (rsAt r 1) && rsAt r 2 == '\'' && rsIsVowel (rsAt r 3) then .cvhv
  else if rsIsVowel (rsAt r 1) && !rsIsVowel (rsAt r 3) && rsIsConsonant (rsAt r 3) then .cvcc
  else if !rsIsVowel (rsAt r 1) && !rsIsVowel (rsAt r 3) && rsIsVowel (rsAt r 2) then .ccvc
  else .other

/-- tarmi.rs:372-402. The arms are tried in order. -/
def rsRafsiTarmi (r : Str) : Tarmi :=
  if r.length = 1 ∧ !rsIsVowel (rsAt r 0) then .hyphen
  else if !rsIsConsonant (rsAt r 0) then .other
  else if r.length = 2 ∧ r = s%"'y" then .hyphen
  else if r.length = 3 then rsTarmi3 r
  else if r.length = 4 ∧ rsAt r 3 ≠ '\'' then rsTarmi4 r
  else if r.length = 5 ∧ rsIsGismuShape r then (if rsIsVowel (rsAt r 2) then .ccvcv else .cvccv)
  else .other

/-- tarmi.rs:358-367. -/
def rsIsValidRafsi (allowMz : Bool) (r : Str) : Bool :=
  let t := rsRafsiTarmi r
  if t = .cvccv ∨ t = .cvcc then (if allowMz then MZ_VALID else VALID).contains (slice r 2 4)
  else if t = .ccvcv ∨ t = .ccvc ∨ t = .ccv then INITIAL.contains (slice r 0 2)
  else 1 ≤ t.score && t.score ≤ 8

/-- tarmi.rs:404-407: the pattern `^['y]+|['y]+$`, replaced everywhere by nothing. -/
def rsStripHyphens (r : Str) : Str := stripBoth isHyphenLetter r

/-- tarmi.rs:411. -/
def rsTarmiIgnoringHyphen (r : Str) : Tarmi := rsRafsiTarmi (rsStripHyphens r)

/-! ## jvozba.rs -/

/-- jvozba.rs:52-60. `Tarmi` is numbered from 0 in the order of tarmi.rs:21-32, as in Python. -/
def rsScore (r : Str) : Int :=
  let t := (rsTarmiIgnoringHyphen r).score % 9
  1000 * (r.length : Int) + 100 * ((r.filter (· == 'y')).length : Int) - 10 * (t : Int) - ((r.filter rsIsVowel).length : Int)

/-- jvozba.rs:64-67. -/
def rsTiebreak (lujvo : Str) : Int :=
  if rsRafsiTarmi (slice lujvo 0 3) = .cvv ∧
     (rsRafsiTarmi (lujvo.drop 3) = .ccv ∨ rsRafsiTarmi (lujvo.drop 3) = .ccvc ∨
      rsRafsiTarmi (lujvo.drop 3) = .cvc ∨ rsRafsiTarmi (lujvo.drop 3) = .cvcc) then 1 else 0

/-- jvozba.rs:79-141. The names of the types are the strings of jvozba.rs:95-136; `"Hyphen"` and `"OtherRafsi"` are none of
them. -/
def rsGetRafsiForRafsi (r0 : Str) (rType : RType) (first last : Bool) (consonants : Consonants) (glides : Bool) :
    Except RsErr (List RafsiOpt) :=
  let r : Str := if !first && rsIsVowel (rsAt r0 0) && !rsIsGlide r0 then '\'' :: r0 else r0
  match rType with
  | .shortBrivla | .tarmi .ccvc | .tarmi .cvcc =>
    if !last then .ok [(r ++ s%"y", 2)]
    else if !rsIsVowel (rsBack r 1) then .ok [(r, 2)]
    else .ok []
  | .longBrivla | .tarmi .ccvcv | .tarmi .cvccv => if last then .ok [(r, 2)] else .ok [(r ++ s%"'y", 2)]
  | .experimental =>
    let n := if consonants ≠ .cluster ∧ (rsIsConsonant (rsAt r 0) || (glides && rsIsGlide r)) then 1 else 0
    if last then .ok [(r, n)]
    else if !first then .ok [(r ++ s%"'y", n)]
    else .ok [(r ++ s%"'", n)]
  | .tarmi .cvv | .tarmi .cvhv =>
    let n := if consonants ≠ .cluster then 1 else 0
    .ok ((if first then [(r ++ s%"'", n)] else if !last then [(r ++ s%"'y", n)] else []) ++ [(r, n)])
  | .tarmi .ccv => .ok [(r, 2), (r ++ s%"'y", 2)]
  | .tarmi .cvc => .ok ((r, 2) :: (if !last then [(r ++ s%"y", 2)] else []))
  | .tarmi .hyphen | .tarmi .other => .error .type

/-- What the model takes from the rest of the crate: what `analyze_brivla` does after its test for gismu
(tools.rs:397-666), and `check_zihevla_or_rafsi` with `require_cluster` false (tools.rs:141-334). -/
structure RsRest where
  analyse : Settings → Str → Except RsErr (BType × List Str)
  check : Settings → Str → Except RsErr Shape

/-- tools.rs:89-91, `normalize`. -/
def rsNormalise (word : Str) : Str :=
  ((stripBoth (· == '.') (lower word)).map (fun c => if c = 'h' then '\'' else c)).filter (fun c => c != ',')

/-- tools.rs:373-396, `analyze_brivla` as far as the test for gismu. -/
def rsAnalyse (A : RsRest) (s : Settings) (word : Str) : Except RsErr (BType × List Str) :=
  let valsi := rsNormalise word
  if valsi.isEmpty then .error .notBrivla
  else
    let isCmetai := rsIsConsonant (rsBack valsi 1)
    if !isCmetai && !rsIsVowel (rsBack valsi 1) then .error .notBrivla
    else if isCmetai && rsIsGismu s.allowMz (valsi ++ s%"a") then .error .notBrivla
    else if !isCmetai && rsIsGismu s.allowMz valsi then .ok (.gismu, [valsi])
    else A.analyse s valsi

/-! ### katna.rs: decomposition -/

/-- katna.rs:166-184: the hyphen at the start of `lujvo`, if one may be removed there. `res` is kept latest first. -/
def rsTakeHyphen (y : YHyphens) (lujvo : Str) (res : List Str) : Option Str :=
  match res with
  | [] => none
  | prev :: _ =>
    if prev.length = 1 then none
    else if rsAt lujvo 0 = 'y' ∨
        y ≠ .forceY ∧ (rsRafsiTarmi prev = .cvv ∨ rsRafsiTarmi prev = .cvhv) ∧
          (slice lujvo 0 2 = s%"nr" ∨ rsAt lujvo 0 = 'r' ∧ rsIsConsonant (rsAt lujvo 1) ∧ rsAt lujvo 1 ≠ 'r') then
      some (slice lujvo 0 1)
    else if y ≠ .standard ∧ slice lujvo 0 2 = s%"'y" then some (slice lujvo 0 2)
    else none

/-- katna.rs:185-248: drop a rafsi from the front of the non-empty string `lujvo`. -/
def rsTakeRafsi (allowMz : Bool) (orig lujvo : Str) : Except RsErr Cut :=
  if rsRafsiTarmi (slice lujvo 0 3) = .cvv ∧ [s%"ai", s%"ei", s%"oi", s%"au"].contains (slice lujvo 1 3) then
    .ok (.pieces [slice lujvo 0 3] (lujvo.drop 3))
  else if rsRafsiTarmi (slice lujvo 0 4) = .cvhv then
    .ok (.pieces [slice lujvo 0 4] (lujvo.drop 4))
  else
    -- katna.rs:197-220
    let four : Bool := rsRafsiTarmi (slice lujvo 0 4) = .cvcc || rsRafsiTarmi (slice lujvo 0 4) = .ccvc
    let bad : Bool :=
      if rsIsVowel (rsAt lujvo 1) then !(if allowMz then MZ_VALID else VALID).contains (slice lujvo 2 4)
      else !INITIAL.contains (slice lujvo 0 2)
    if four && bad then .error .invalidCluster
    else if four && (lujvo.length == 4 || rsAt lujvo 4 == 'y') then
      .ok (.pieces (slice lujvo 0 4 :: (if rsAt lujvo 4 = 'y' then [s%"y"] else [])) (lujvo.drop 5))
    -- katna.rs:221-224
    else if rsRafsiTarmi lujvo = .cvccv ∨ rsRafsiTarmi lujvo = .ccvcv then .ok (.final lujvo)
    -- katna.rs:225-234
    else if rsRafsiTarmi (slice lujvo 0 3) = .cvc then
      if BANNED_TRIPLES.contains (slice lujvo 2 5) then .error .invalidCluster
      else .ok (.pieces [slice lujvo 0 3] (lujvo.drop 3))
    -- katna.rs:235-248
    else if rsRafsiTarmi (slice lujvo 0 3) = .ccv then
      if !INITIAL.contains (slice lujvo 0 2) then .error .invalidCluster
      else if lujvo = orig ∧ slice lujvo 3 5 = s%"'y" then .error .notBrivla
      else .ok (.pieces [slice lujvo 0 3] (lujvo.drop 3))
    else .error .decomposition

/-- katna.rs:162-250: the loop. First argument: fuel. -/
def rsJvokaha2Loop (y : YHyphens) (allowMz : Bool) (orig : Str) : Nat → Str → List Str → Except RsErr (List Str)
  | 0, _, _ => .error .fuel
  | fuel + 1, lujvo, res =>
    if lujvo = [] then .ok res.reverse
    else
      match rsTakeHyphen y lujvo res with
      | some h => rsJvokaha2Loop y allowMz orig fuel (lujvo.drop h.length) (h :: res)
      | none => do
        match ← rsTakeRafsi allowMz orig lujvo with
        | .pieces ps rest => rsJvokaha2Loop y allowMz orig fuel rest (ps.reverse ++ res)
        | .final p => .ok (p :: res).reverse

/-- katna.rs:158-251. -/
def rsJvokaha2 (y : YHyphens) (allowMz : Bool) (lujvo : Str) : Except RsErr (List Str) :=
  rsJvokaha2Loop y allowMz lujvo (lujvo.length + 1) lujvo []

/-- katna.rs:81-103, from index `i` of `other`. An index beyond the end is a panic. `"rn".contains(&other[i])` is a test for a
substring. -/
def rsCompareLoop (other : List Str) : List Str → Nat → Except RsErr Bool
  | [], i => .ok (i == other.length)
  | part :: corr, i =>
    match other[i]? with
    | none => .error .plain
    | some o =>
      if part = o then rsCompareLoop other corr (i + 1)
      else
        let skip : Bool :=
          0 < i && i + 1 < other.length && occursIn o s%"rn" &&
          (match other[i - 1]? with
            | some p => rsRafsiTarmi p = .cvv || rsRafsiTarmi p = .cvhv
            | none => false) &&
          (1 < i || (match other[i + 1]? with
            | some q => rsRafsiTarmi q = .ccvcv || rsRafsiTarmi q = .ccvc || rsRafsiTarmi q = .ccv
            | none => false))
        let i := if skip then i + 1 else i
        match other[i]? with
        | none => .error .plain
        | some o => if part = o then rsCompareLoop other corr (i + 1) else .ok false

/-- katna.rs:80-104. -/
def rsComparePieces (corr other : List Str) : Except RsErr Bool := rsCompareLoop other corr 0

/-! ### The rafsi of the components -/

/-- jvozba.rs:191-233: a component written `x-` (the argument is `x`). -/
def rsRafsiListShort (A : RsRest) (s : Settings) (first last : Bool) (valsi : Str) : Except RsErr (List RafsiOpt) := do
  let (bType, _) ← (match rsAnalyse A { yHyphens := s.yHyphens, expRafsi := s.expRafsi, allowMz := s.allowMz } (valsi ++ s%"a") with
    | .error .notBrivla => Except.error .noLujvo
    | x => x)
  if bType ≠ .zihevla ∧ bType ≠ .gismu then .error .noLujvo
  else if valsi.length > 5 && rsIsConsonant (rsBack valsi 1) then
    match rsJvokaha2 s.yHyphens s.allowMz valsi with
    | .ok _ => .error .noLujvo
    | .error .decomposition | .error .invalidCluster =>
      rsGetRafsiForRafsi valsi .shortBrivla first last s.consonants s.glides
    | .error e => .error e
  else rsGetRafsiForRafsi valsi .shortBrivla first last s.consonants s.glides

/-- jvozba.rs:237-280: what kind of thing `x` is when a component `-x-` has no CLL rafsi shape. -/
def rsRafsiKind (A : RsRest) (s : Settings) (valsi : Str) : Except RsErr RType :=
  let s' : Settings := { yHyphens := s.yHyphens, expRafsi := s.expRafsi, allowMz := s.allowMz }
  match rsAnalyse A s' valsi with
  | .ok (t, _) => if t = .zihevla then .ok .longBrivla else .error .notZihevla
  | .error .notBrivla =>
    if s.expRafsi then
      match A.check s' valsi with
      | .ok .rafsi => .ok .experimental
      | .ok .zihevla => .error .notZihevla
      | .error .notZihevla => .error .noLujvo
      | .error e => .error e
    else .error .notZihevla
  | .error e => .error e

/-- jvozba.rs:234-302: a component written `-x-` (the argument is `x`). -/
def rsRafsiListRafsi (A : RsRest) (s : Settings) (first last : Bool) (valsi : Str) : Except RsErr (List RafsiOpt) := do
  let raftai := rsRafsiTarmi valsi
  if raftai = .other then
    let rType ← rsRafsiKind A s valsi
    rsGetRafsiForRafsi valsi rType first last s.consonants s.glides
  else if !rsIsValidRafsi s.allowMz valsi then .error .invalidCluster
  else rsGetRafsiForRafsi valsi (.tarmi raftai) first last s.consonants s.glides

/-- jvozba.rs:309-324: the rafsi of a word listed in `RAFSI`. -/
def rsRafsiListTable (s : Settings) (first last : Bool) : List Str → Except RsErr (List RafsiOpt)
  | [] => .ok []
  | r :: rs =>
    if rsRafsiTarmi r = .other ∧ !s.expRafsi then rsRafsiListTable s first last rs
    else do
      let a ← rsGetRafsiForRafsi r (.tarmi (rsRafsiTarmi r)) first last s.consonants s.glides
      let b ← rsRafsiListTable s first last rs
      .ok (a ++ b)

/-- jvozba.rs:303-352: a component that is a word. -/
def rsRafsiListWord (A : RsRest) (s : Settings) (first last : Bool) (valsi : Str) : Except RsErr (List RafsiOpt) := do
  if !rsIsOnlyLojban valsi then .error .nonLojban
  else
  let short ← rsRafsiListTable s first last ((RAFSI_LIST.lookup valsi).getD [])
  let bType : Option BType ←
    (match rsAnalyse A { yHyphens := s.yHyphens, expRafsi := s.expRafsi, allowMz := s.allowMz } valsi with
    | .ok (t, _) => Except.ok (some t)
    | .error .notBrivla => .ok none
    | .error e => .error e)
  let four ← (if bType = some .gismu then
      rsGetRafsiForRafsi (dropLastN valsi 1) .shortBrivla first last s.consonants s.glides
    else Except.ok [])
  let long ← (if bType = some .gismu ∨ bType = some .zihevla then
      rsGetRafsiForRafsi valsi .longBrivla first last s.consonants s.glides
    else Except.ok [])
  .ok (short ++ four ++ long)

/-- jvozba.rs:175-353: the rafsi list of one component. `^-+|-+$` is replaced by nothing (jvozba.rs:146, 179). -/
def rsRafsiListFor (A : RsRest) (s : Settings) (first last : Bool) (valsi : Str) : Except RsErr (List RafsiOpt) :=
  if rsBack valsi 1 = '-' then
    let isShortBrivla := rsAt valsi 0 ≠ '-'
    let valsi := stripBoth (· == '-') valsi
    if !rsIsOnlyLojban valsi then .error .nonLojban
    else if rsBack valsi 1 = '\'' then .error .nonLojban
    else if isShortBrivla then rsRafsiListShort A s first last valsi
    else rsRafsiListRafsi A s first last valsi
  else rsRafsiListWord A s first last valsi

/-- jvozba.rs:174-354, from component number `i` on, `valsi_list.len() = n`. -/
def rsRafsiListListFrom (A : RsRest) (s : Settings) (n : Nat) : Nat → List Str → Except RsErr (List (List RafsiOpt))
  | _, [] => .ok []
  | i, v :: vs => do
    let a ← rsRafsiListFor A s (i == 0) (i + 1 == n) v
    let b ← rsRafsiListListFrom A s n (i + 1) vs
    .ok (a :: b)

/-! ### The search -/

/-- jvozba.rs:404-427: the hyphen between `lujvo` and `rafsi` (`none`: `combine` returns `None`). -/
def rsChooseHyphen (o : CombineOpts) (lujvo rafsi : Str) (raftai1 : Tarmi) : Option Str :=
  if rsBack lujvo 1 = '\'' then
    if rsAt rafsi 0 = '\'' ∨ o.yHyphens ≠ .standard then some s%"y" else none
  else if lujvo.length = 5 ∧ rsRafsiTarmi (slice lujvo 0 3) = .ccv ∧ lujvo.drop 3 = s%"'y" then none
  else if lujvo.length ≤ 5 ∧ !o.generateCmevla then
    let raftai0 := rsTarmiIgnoringHyphen lujvo
    let hyphen : Str :=
      if raftai0 = .cvhv ∨ raftai0 = .cvv then
        if o.yHyphens = .forceY then s%"'y"
        else if rsAt rafsi 0 = 'r' then s%"n"
        else s%"r"
      else []
    if o.tanruLen = 2 ∧ raftai1 = .ccv then some [] else some hyphen
  else some []

/-- jvozba.rs:428-445: the new tosmabru state (`none`: `combine` returns `None`). -/
def rsNextTos (tos : Tos) (lujvo rafsi : Str) (raftai1 : Tarmi) : Option Tos :=
  match tos with
  | .tosmabru =>
    if !INITIAL.contains [rsBack lujvo 1, rsAt rafsi 0] then some .tosynone
    else if raftai1 = .cvccv then
      if INITIAL.contains (slice rafsi 2 4) then none else some .tosynone
    else if raftai1 = .cvc then
      if rsBack rafsi 1 = 'y' then none else some .tosmabru
    else some .tosynone
  | .tosyhuhu =>
    if rsAt rafsi 0 ≠ '\'' || rsContainsConsonant rafsi then some .tosynone else some .tosyhuhu
  | .tosynone => some .tosynone

/-- jvozba.rs:449-464: the consonants contributed by the new rafsi. The `while` loops stop at the ends of the strings, where
`strin!` gives `'\0'`. -/
def rsNewConsonants (o : CombineOpts) (lujvo rafsi : Str) (hyphen : Str) (rafsiC : Nat) : Nat :=
  if !hyphen.isEmpty && occursIn hyphen s%"nr" then 2
  else if o.consonants = .cluster ∧ rafsiC ≠ 2 then
    let l := ((lujvo.reverse.dropWhile (fun c => (s%"'y").contains c)).head?).getD '\x00'
    let r := rafsi.dropWhile (· == '\'')
    if rsIsConsonant l && (rsIsConsonant (rsAt r 0) || (o.glides && rsIsGlide r)) then 2 else 0
  else rafsiC

/-- jvozba.rs:371-476. `indices` is never empty, and `(0, 0)` stands for its last element if it is. -/
def rsCombine (o : CombineOpts) (lujvo rafsi : Str) (lujvoC rafsiC : Nat) (lujvoScore : Int) (indices : List (Nat × Nat))
    (tos : Tos) : Option Cand :=
  let lujvoF := rsBack lujvo 1
  let rafsiI := rsAt rafsi 0
  let raftai1 := rsTarmiIgnoringHyphen rafsi
  let prev := (indices.getLast?).getD (0, 0)
  let prulamrafsi := slice lujvo prev.1 prev.2
  if rsIsConsonant lujvoF && rsIsConsonant rafsiI && !(if o.allowMz then MZ_VALID else VALID).contains [lujvoF, rafsiI] then none
  else if BANNED_TRIPLES.contains (lujvoF :: slice rafsi 0 2) then none
  else if !(s%"y'").contains lujvoF ∧ raftai1 = .other then none
  else if (rsRafsiTarmi prulamrafsi = .cvv ∨ rsRafsiTarmi prulamrafsi = .cvc) ∧ rafsi.all (fun c => (s%"aeiou'").contains c) ∧
      (rafsiI = '\'' ∨ (rsIsGlide rafsi ∧ !o.glides ∧ o.consonants = .cluster)) then none
  else
    match rsChooseHyphen o lujvo rafsi raftai1 with
    | none => none
    | some hyphen =>
    match rsNextTos tos lujvo rafsi raftai1 with
    | none => none
    | some tos' =>
      let rafsiStart := lujvo.length + hyphen.length + (if rafsiI = '\'' then 1 else 0)
      let rafsiEnd := rafsiStart + (rsStripHyphens rafsi).length
      let total := min 2 (lujvoC + rsNewConsonants o lujvo rafsi hyphen rafsiC)
      let total := if o.consonants = .oneConsonant ∧ total > 0 then 2 else total
      let res := lujvo ++ hyphen ++ rafsi
      some {
        tos := tos'
        consonants := total
        score := lujvoScore + rsScore hyphen + rsScore rafsi - rsTiebreak res
        lujvo := res
        indices := indices ++ [(rafsiStart, rafsiEnd)] }

/-- jvozba.rs:481-500. `Best` is as in `Jvozba.lean`; replacing a value keeps its place in an `IndexMap`. -/
def rsUpdateCurrentBest (cand : Option Cand) (best : Best) : Best :=
  match cand with
  | none => best
  | some c => bestInsert (c.tos, c.consonants, rsBack c.lujvo 1) (c.lujvo, c.score, c.indices) best

/-- jvozba.rs:531-536. -/
def rsInitialTos (generateCmevla : Bool) (rafsi0 : Str) : Tos :=
  if rsTarmiIgnoringHyphen rafsi0 = .cvc ∧ !generateCmevla then
    if rsBack rafsi0 1 = 'y' then .tosyhuhu else .tosmabru
  else .tosynone

/-- jvozba.rs:529-558. -/
def rsFirstStage (o : CombineOpts) (l0 l1 : List RafsiOpt) : Best :=
  l0.foldl (fun best r0 =>
    l1.foldl (fun best r1 =>
      rsUpdateCurrentBest (rsCombine o r0.1 r1.1 r0.2 r1.2 (rsScore r0.1) [(0, (rsStripHyphens r0.1).length)]
        (rsInitialTos o.generateCmevla r0.1)) best) best) []

/-- jvozba.rs:560-596: the loops over the rafsi of one later component. -/
def rsNextStage (o : CombineOpts) (prev : Best) (l : List RafsiOpt) : Best :=
  l.foldl (fun best r =>
    [Tos.tosynone, .tosmabru, .tosyhuhu].foldl (fun best tos =>
      [0, 1, 2].foldl (fun best n =>
        (bucket prev tos n).foldl (fun best e =>
          rsUpdateCurrentBest (rsCombine o e.2.1 r.1 n r.2 e.2.2.1 e.2.2.2 tos) best) best) best) best) []

/-- jvozba.rs:526-597: the search over all components; fewer than two are refused (jvozba.rs:526-528). -/
def rsSearchStages (o : CombineOpts) (ll : List (List RafsiOpt)) : Except RsErr Best :=
  match ll with
  | l0 :: l1 :: rest =>
    let o := { o with tanruLen := ll.length }
    .ok (rest.foldl (fun b l => rsNextStage o b l) (rsFirstStage o l0 l1))
  | _ => .error .type

/-- jvozba.rs:598-606; `i32::MAX` is `2 ^ 31 - 1` (`none`: `best_lujvo` is still the empty string). -/
def rsPickBest (generateCmevla : Bool) (b : Best) : Option (Str × Int × List (Nat × Nat)) :=
  ((bucket b .tosynone 2).foldl (fun (acc : Option (Str × Int × List (Nat × Nat)) × Int) e =>
    if ((rsIsVowel e.1 && !generateCmevla) || (rsIsConsonant e.1 && generateCmevla)) && e.2.2.1 < acc.2 then
      (some e.2, e.2.2.1)
    else acc) (none, 2 ^ 31 - 1)).1

/-- jvozba.rs:512-620. `slinkuhi` is `is_slinkuhi`. -/
def rsLujvoFromList (A : RsRest) (slinkuhi : YHyphens → Bool → Str → Except RsErr Bool) (s : Settings) (generateCmevla : Bool)
    (valsiList : List Str) : Except RsErr (Str × Int × List (Nat × Nat)) := do
  let ll ← rsRafsiListListFrom A s valsiList.length 0 valsiList
  let best ← rsSearchStages (combineOpts s generateCmevla) ll
  match rsPickBest generateCmevla best with
  | none => .error .noLujvo
  | some r =>
    if !generateCmevla then
      if ← slinkuhi s.yHyphens s.allowMz r.1 then .error .noLujvo else .ok r
    else .ok r

/-- katna.rs:112-143. The correct lujvo is cut with the standard hyphens, whatever `y_hyphens` is (katna.rs:134). -/
def rsJvokaha (A : RsRest) (slinkuhi : YHyphens → Bool → Str → Except RsErr Bool) (y : YHyphens) (consonants : Consonants)
    (glides allowMz : Bool) (lujvo : Str) : Except RsErr (List Str) := do
  let arr ← rsJvokaha2 y allowMz lujvo
  let rafsiTanru := (arr.filter (fun x => x.length > 2)).map (fun x => s%"-" ++ x ++ s%"-")
  if rafsiTanru.length = 1 then .error .decomposition
  else
  match arr.getLast? with
  | none => .error .plain
  | some lastPiece => do
    let r ← (match rsLujvoFromList A slinkuhi { yHyphens := y, consonants, glides, allowMz } (rsIsConsonant (rsBack lastPiece 1))
        rafsiTanru with
      | .error .noLujvo => Except.error .decomposition
      | x => x)
    let correctLujvo := r.1
    let good ← (if y = .forceY then Except.ok (correctLujvo == lujvo)
      else do
        let corr ← rsJvokaha2 .standard allowMz correctLujvo
        rsComparePieces corr arr)
    if good then .ok arr else .error .decomposition

/-- tools.rs:117-131. The first argument is fuel for the recursion `is_slinkuhi` → `jvokaha` → `get_lujvo_from_list` →
`is_slinkuhi`. -/
def rsSlinkuhi (A : RsRest) : Nat → YHyphens → Bool → Str → Except RsErr Bool
  | 0, _, _, _ => .error .fuel
  | n + 1, y, allowMz, w =>
    if rsIsVowel (rsAt w 0) then .ok false
    else
      match rsJvokaha A (rsSlinkuhi A n) y .cluster false allowMz (s%"pa" ++ w) with
      | .ok _ => .ok true
      | .error .decomposition | .error .invalidCluster => .ok false
      | .error e => .error e

/-- jvozba.rs:512-620, `get_lujvo_from_list`, with the recursion of `is_slinkuhi` limited to `n` levels. -/
def rsGetLujvoFromList (A : RsRest) (n : Nat) (s : RsSettings) (valsiList : List Str) :
    Except RsErr (Str × Int × List (Nat × Nat)) :=
  rsLujvoFromList A (rsSlinkuhi A n)
    { yHyphens := s.yHyphens, expRafsi := s.expRafsi, consonants := s.consonants, glides := s.glides, allowMz := s.allowMz }
    s.generateCmevla valsiList

end Jvotci
