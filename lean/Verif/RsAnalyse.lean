import Verif.RsApi

/-!
# Model of the Rust crate: analysis of lujvo

`analyze_brivla` is modelled here as far as its use of `jvokaha` (tools.rs:373-411); what comes after that is a parameter,
which can say anything but that the word is a gismu or a CLL lujvo. The simplifications are those of `Verif/Rs.lean`.
-/

namespace Jvotci

/-- What tools.rs:412-666 can say of a word. -/
inductive RsKind where
  | zihevla | extendedLujvo | cmevla
  deriving DecidableEq, Repr

/-- The same as a type of brivla. -/
def RsKind.type : RsKind → BType
  | .zihevla => .zihevla
  | .extendedLujvo => .extendedLujvo
  | .cmevla => .cmevla

/-- The parts of the crate that are not modelled: those that `get_lujvo_from_list` uses, and tools.rs:412-666. -/
structure RsOther where
  inner : RsRest
  rest : Settings → Bool → Str → Except RsErr (RsKind × List Str)

/-- tools.rs:373-411, `analyze_brivla`. `n` limits the recursion of `is_slinkuhi`. -/
def rsAnalyseBrivla (O : RsOther) (n : Nat) (s : Settings) (word : Str) : Except RsErr (BType × List Str) :=
  let valsi := rsNormalise word
  if valsi.isEmpty then .error .notBrivla
  else
    let isCmetai := rsIsConsonant (rsBack valsi 1)
    if !isCmetai && !rsIsVowel (rsBack valsi 1) then .error .notBrivla
    else if isCmetai && rsIsGismu s.allowMz (valsi ++ s%"a") then .error .notBrivla
    else if !isCmetai && rsIsGismu s.allowMz valsi then .ok (.gismu, [valsi])
    else
      match rsJvokaha O.inner (rsSlinkuhi O.inner n) s.yHyphens s.consonants s.glides s.allowMz valsi with
      | .ok parts => .ok (if isCmetai then .cmevla else .lujvo, parts)
      | .error .decomposition | .error .invalidCluster | .error .type =>
        match O.rest s isCmetai valsi with
        | .ok (k, parts) => .ok (k.type, parts)
        | .error e => .error e
      | .error e => .error e

/-- tools.rs:338-344, `is_brivla`. -/
def rsIsBrivla (O : RsOther) (n : Nat) (s : Settings) (valsi : Str) : Bool :=
  match rsAnalyseBrivla O n s valsi with
  | .ok (t, _) => t ≠ .cmevla
  | .error _ => false

/-- katna.rs:53-72: the display form of piece number `i` (not a hyphen) of `pieces`. -/
def rsFormatPiece (O : RsOther) (n : Nat) (s : Settings) (pieces : List Str) (i : Nat) (piece : Str) : Str :=
  let st : Settings := { yHyphens := s.yHyphens, allowMz := s.allowMz }
  match rsSearchSelrafsi piece with
  | some g => g
  | none =>
    if pieces.length ≥ 2 && i < pieces.length - 2 && rsAt ((pieces[i + 1]?).getD []) 0 == 'y' &&
        rsIsBrivla O n st (piece ++ s%"a") then piece ++ s%"-"
    else if rsIsBrivla O n st piece then piece
    else if i == pieces.length - 1 && rsIsBrivla O n st (piece ++ s%"a") then piece ++ s%"-"
    else s%"-" ++ piece ++ s%"-"

/-- katna.rs:43-74, from piece number `i` on. Hyphens (and empty strings) give no output. -/
def rsSelrafsiFrom (O : RsOther) (n : Nat) (s : Settings) (pieces : List Str) : Nat → List Str → List Str
  | _, [] => []
  | i, p :: ps =>
    if HYPHENS.contains p || p.isEmpty then rsSelrafsiFrom O n s pieces (i + 1) ps
    else rsFormatPiece O n s pieces i p :: rsSelrafsiFrom O n s pieces (i + 1) ps

/-- katna.rs:273-294, `get_veljvo`. -/
def rsGetVeljvo (O : RsOther) (n : Nat) (s : Settings) (lujvo : Str) : Except RsErr (List Str) :=
  match rsAnalyseBrivla O n s lujvo with
  | .ok (t, pieces) =>
    if t = .lujvo ∨ t = .extendedLujvo ∨ t = .cmevla then .ok (rsSelrafsiFrom O n s pieces 0 pieces) else .error .decomposition
  | .error e => .error e

/-- katna.rs:261-263: the summand for one piece. -/
def rsPieceScore (r : Str) : Int :=
  if [s%"y", s%"n", s%"r", []].contains r then 1100 * (r.length : Int) else rsScore r

/-- katna.rs:256-266, `score_lujvo`. -/
def rsScoreLujvo (O : RsOther) (n : Nat) (s : Settings) (lujvo : Str) : Except RsErr Int :=
  match rsGetVeljvo O n s lujvo with
  | .error e => .error e
  | .ok _ =>
    match rsAnalyseBrivla O n s lujvo with
    | .ok (_, decomp) => .ok ((decomp.map rsPieceScore).sum - rsTiebreak lujvo)
    | .error e => .error e

end Jvotci
