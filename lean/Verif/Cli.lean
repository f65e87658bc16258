import Verif.Core

/-!
# Model of the command-line loops under `if __name__ == "__main__"` in `jvozba.py` and `katna.py`

A session is the list of lines typed. What the loop prints is a list of `Event`s; exception messages are not modelled,
so a caught exception appears as the exception.
-/

namespace Jvotci

/-- What a loop prints. -/
inductive Event where
  /-- the argument of `input` -/
  | prompt (text : Str)
  /-- `print(get_lujvo_with_analytics(...))`, jvozba.py:619 -/
  | lujvo (r : Str × Int × List (Nat × Nat))
  /-- `print(analyse_brivla(...))`, katna.py:343 -/
  | analysis (r : BType × List Str)
  /-- `print(get_veljvo(...))`, katna.py:344 -/
  | veljvo (r : List Str)
  /-- the message of a caught exception: `print(e)`, jvozba.py:623; `print(f"Error: {e}")`, katna.py:346 -/
  | message (e : Err)
  deriving DecidableEq, Repr

/-- How a loop ends. -/
inductive End where
  /-- at an empty line: `break` (jvozba.py:582-583, katna.py:310-311) -/
  | done
  /-- there is no further line: `input` raises `EOFError` -/
  | eof
  /-- an exception that is not caught -/
  | raised (e : Err)
  deriving DecidableEq, Repr

/-- `str(b)[0]` for a `bool`. -/
def boolLetter (b : Bool) : Char := if b then 'T' else 'F'

/-- `y_setting[0]` (tarmi.py:33-35). -/
def yLetter : YHyphens → Char
  | .standard => 'S'
  | .allowY => 'A'
  | .forceY => 'F'

/-- `con_setting[0]` (tarmi.py:37-39). -/
def consonantsLetter : Consonants → Char
  | .cluster => 'C'
  | .twoConsonants => 'T'
  | .oneConsonant => 'O'

/-- katna.py:314-339, one word of a command. -/
def changeSetting (s : Settings) (change : Str) : Settings :=
  if change = s%"standard" then { s with yHyphens := .standard }
  else if change = s%"allow" then { s with yHyphens := .allowY }
  else if change = s%"force" then { s with yHyphens := .forceY }
  else if change = s%"more" then { s with expRafsi := true }
  else if change = s%"less" then { s with expRafsi := false }
  else if change = s%"cluster" then { s with consonants := .cluster }
  else if change = s%"2c" then { s with consonants := .twoConsonants }
  else if change = s%"1c" then { s with consonants := .oneConsonant }
  else if change = s%"glide" then { s with glides := true }
  else if change = s%"glidnt" then { s with glides := false }
  else if change = s%"mz" then { s with allowMz := true }
  else if change = s%"mznt" then { s with allowMz := false }
  else s

/-- jvozba.py:586-616, one word of a command: the words of `katna.py` and two more. -/
def changeBoth (st : Bool × Settings) (change : Str) : Bool × Settings :=
  if change = s%"cmevla" then (true, st.2)
  else if change = s%"brivla" then (false, st.2)
  else (st.1, changeSetting st.2 change)

/-- jvozba.py:580-581. -/
def jvozbaPrompt (st : Bool × Settings) : Str :=
  ['(', boolLetter st.1, yLetter st.2.yHyphens, boolLetter st.2.expRafsi, consonantsLetter st.2.consonants,
    boolLetter st.2.glides, boolLetter st.2.allowMz] ++ s%") Enter a tanru: "

/-- katna.py:309. -/
def katnaPrompt (s : Settings) : Str :=
  ['(', yLetter s.yHyphens, boolLetter s.expRafsi, consonantsLetter s.consonants, boolLetter s.glides,
    boolLetter s.allowMz] ++ s%") Enter a lujvo: "

/-- jvozba.py:571-623. -/
def jvozbaLoop (b : Build) (st : Bool × Settings) : List Str → List Event × End
  | [] => ([.prompt (jvozbaPrompt st)], .eof)
  | [] :: _ => ([.prompt (jvozbaPrompt st)], .done)
  | (c :: cs) :: lines =>
    if c = '/' then
      let rest := jvozbaLoop b ((splitWs (lower cs)).foldl changeBoth st) lines
      (.prompt (jvozbaPrompt st) :: rest.1, rest.2)
    else
      match getLujvoWithAnalytics b st.2 st.1 (.str (c :: cs)) with
      | .ok r =>
        let rest := jvozbaLoop b st lines
        (.prompt (jvozbaPrompt st) :: .lujvo r :: rest.1, rest.2)
      | .error e =>
        if e = .noLujvo ∨ e = .nonLojban ∨ e = .notZihevla then
          let rest := jvozbaLoop b st lines
          (.prompt (jvozbaPrompt st) :: .message e :: rest.1, rest.2)
        else ([.prompt (jvozbaPrompt st)], .raised e)

/-- katna.py:301-346. -/
def katnaLoop (b : Build) (s : Settings) : List Str → List Event × End
  | [] => ([.prompt (katnaPrompt s)], .eof)
  | [] :: _ => ([.prompt (katnaPrompt s)], .done)
  | (c :: cs) :: lines =>
    if c = '/' then
      let rest := katnaLoop b ((splitWs (lower cs)).foldl changeSetting s) lines
      (.prompt (katnaPrompt s) :: rest.1, rest.2)
    else
      match analyseBrivla b s (c :: cs) with
      | .error e =>
        if e = .decomposition ∨ e = .notBrivla then
          let rest := katnaLoop b s lines
          (.prompt (katnaPrompt s) :: .message e :: rest.1, rest.2)
        else ([.prompt (katnaPrompt s)], .raised e)
      | .ok a =>
        match getVeljvo b s (c :: cs) with
        | .ok v =>
          let rest := katnaLoop b s lines
          (.prompt (katnaPrompt s) :: .analysis a :: .veljvo v :: rest.1, rest.2)
        | .error e =>
          if e = .decomposition ∨ e = .notBrivla then
            let rest := katnaLoop b s lines
            (.prompt (katnaPrompt s) :: .analysis a :: .message e :: rest.1, rest.2)
          else ([.prompt (katnaPrompt s), .analysis a], .raised e)

/-- jvozba.py:571-623 from the start: the initial settings are the defaults of the API. -/
def jvozbaSession (b : Build) (lines : List Str) : List Event × End := jvozbaLoop b (false, {}) lines

/-- katna.py:301-346 from the start. -/
def katnaSession (b : Build) (lines : List Str) : List Event × End := katnaLoop b {} lines

end Jvotci
