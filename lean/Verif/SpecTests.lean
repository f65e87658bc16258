import Verif.Py

/-!
# Vocabulary for C74: array literals of JavaScript

A reader for the values that occur in a list of tests: strings in double quotes and arrays of values. It knows nothing of the
script that writes them.
-/

namespace Jvotci.Spec

/-- A string or an array. -/
inductive JsVal
  | str (s : Str)
  | arr (l : List JsVal)

/-- What has been read: the values of each array that is still open, innermost first, and the letters of a string that is still
open. -/
structure JsState where
  stack : List (List JsVal)
  text : Option Str

/-- One more value in the innermost array. -/
def JsState.value (st : JsState) (v : JsVal) : Option JsState :=
  match st.stack with
  | [] => none
  | l :: ls => some { stack := (l ++ [v]) :: ls, text := none }

/-- One character. Inside a string an escape (`\`) or the end of a line is not read. Outside, commas, spaces and ends of lines
separate. -/
def jsStep (st : JsState) (c : Char) : Option JsState :=
  match st.text with
  | some t =>
    if c = '"' then st.value (.str t)
    else if c = '\\' ∨ c = '\n' ∨ c = '\r' then none
    else some { st with text := some (t ++ [c]) }
  | none =>
    if c = '"' then some { st with text := some [] }
    else if c = '[' then some { stack := [] :: st.stack, text := none }
    else if c = ']' then
      match st.stack with
      | l :: ls => JsState.value { stack := ls, text := none } (.arr l)
      | [] => none
    else if c = ',' ∨ c = ' ' ∨ c = '\n' then some st
    else none

/-- A text, character by character. -/
def jsSteps : JsState → Str → Option JsState
  | st, [] => some st
  | st, c :: t => (jsStep st c).bind fun st => jsSteps st t

/-- The value of a text that is one string or array. -/
def readJs (t : Str) : Option JsVal :=
  match jsSteps { stack := [[]], text := none } t with
  | some { stack := [[v]], text := none } => some v
  | _ => none

/-- A cell that needs no escapes: no double quotes, backslashes or line ends. -/
def PlainCell (x : Str) : Prop := ∀ c ∈ x, c ≠ '"' ∧ c ≠ '\\' ∧ c ≠ '\n' ∧ c ≠ '\r'

instance (x : Str) : Decidable (PlainCell x) := inferInstanceAs (Decidable (∀ c ∈ x, _))

/-- An array of arrays of strings. -/
def jsTable (rows : List (List Str)) : JsVal := .arr (rows.map fun r => .arr (r.map .str))

/-- The rows of a list that are tests: those whose first cell is neither empty nor a comment. -/
def TestRow (r : List Str) : Bool := match r with
  | (c :: _) :: _ => c != '#'
  | _ => false

end Jvotci.Spec
