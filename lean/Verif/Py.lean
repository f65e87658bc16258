import Lean.Elab.Term

/-!
# Python primitives used by the model

`/repo/py` is Python 3.  A Python `str` is modelled as a list of characters, an exception as a value of
`Err` inside `Except Err`.  Nothing in this file is about Lojban.
-/

namespace Jvotci

/-- A Python `str`: a list of code points. (Lean's `Char` excludes lone surrogates, which are not
Lojban letters either; this is the only code points lost.) -/
abbrev Str := List Char

open Lean Elab Term Meta in
/-- `s%"abc"` is the literal list `['a', 'b', 'c']`. -/
elab:max "s%" s:str : term => return toExpr s.getString.toList

/-- The exceptions of `exceptions.py:7-34`, without their messages, plus the built-in ones the code can
raise (`IndexError`, `AssertionError`, `NameError`) and `fuel`, which is *not* a Python exception: it marks a
recursion that the model cut off.  `Verif/Props` proves that `fuel` never comes out of an API call. -/
inductive Err where
  | decomposition   -- DecompositionError, exceptions.py:7
  | invalidCluster  -- InvalidClusterError, exceptions.py:12
  | noLujvo         -- NoLujvoFoundError, exceptions.py:17
  | nonLojban       -- NonLojbanCharacterError, exceptions.py:22
  | notBrivla       -- NotBrivlaError, exceptions.py:27
  | notZihevla      -- NotZihevlaError, exceptions.py:32
  | index           -- IndexError
  | assertion       -- AssertionError
  | name            -- NameError (jvozba.py:501, see `Build`)
  | fuel            -- model artefact: recursion budget exhausted
  deriving DecidableEq, Repr

instance {ε α : Type} [DecidableEq ε] [DecidableEq α] : DecidableEq (Except ε α)
  | .ok a, .ok b => if h : a = b then .isTrue (by rw [h]) else .isFalse (fun e => h (by cases e; rfl))
  | .error a, .error b => if h : a = b then .isTrue (by rw [h]) else .isFalse (fun e => h (by cases e; rfl))
  | .ok _, .error _ => .isFalse (fun e => by cases e)
  | .error _, .ok _ => .isFalse (fun e => by cases e)

/-- Python's `s[a:b]` for `0 ≤ a`, `0 ≤ b`. -/
def slice (s : Str) (a b : Nat) : Str := (s.take b).drop a

/-- Python's `s[-n:]` for `n > 0` (the whole string when it is shorter than `n`). -/
def lastN (s : Str) (n : Nat) : Str := s.drop (s.length - n)

/-- Python's `s[:-n]` for `n > 0` (empty when the string is shorter than `n`). -/
def dropLastN (s : Str) (n : Nat) : Str := s.take (s.length - n)

/-- Python's `s[i]` for `i ≥ 0`, with its `IndexError`. -/
def idx (s : Str) (i : Nat) : Except Err Char :=
  match s[i]? with
  | some c => .ok c
  | none => .error .index

/-- Python's `s[-1]`, with its `IndexError`. -/
def idxLast (s : Str) : Except Err Char :=
  match s.getLast? with
  | some c => .ok c
  | none => .error .index

/-- Python's `"".join(parts)`. -/
def join (parts : List Str) : Str := parts.flatten

/-- Python's `s.split(c)` for a one-character separator: always at least one part. -/
def splitOn (sep : Char) : Str → List Str
  | [] => [[]]
  | c :: cs =>
    if c = sep then [] :: splitOn sep cs
    else match splitOn sep cs with
      | [] => [[c]]
      | p :: ps => (c :: p) :: ps

/-- Python's `s.count(c)` for a one-character argument. -/
def countChar (s : Str) (c : Char) : Nat := s.count c

/-- Strip characters satisfying `p` from both ends (`s.strip(chars)`). -/
def stripBoth (p : Char → Bool) (s : Str) : Str :=
  ((s.dropWhile p).reverse.dropWhile p).reverse

/-- The code points for which Python's `str.isspace` holds; `str.split()` with no argument separates
at runs of them. -/
def isSpace (c : Char) : Bool :=
  let n := c.toNat
  (9 ≤ n && n ≤ 13) || (28 ≤ n && n ≤ 32) || n == 0x85 || n == 0xA0 || n == 0x1680 ||
  (0x2000 ≤ n && n ≤ 0x200A) || n == 0x2028 || n == 0x2029 || n == 0x202F || n == 0x205F || n == 0x3000

/-- Auxiliary for `splitWs`: `acc` is the word being read, reversed. -/
def splitWsAux : Str → Str → List Str
  | acc, [] => if acc.isEmpty then [] else [acc.reverse]
  | acc, c :: cs =>
    if isSpace c then
      (if acc.isEmpty then splitWsAux [] cs else acc.reverse :: splitWsAux [] cs)
    else splitWsAux (c :: acc) cs

/-- Python's `s.split()`: maximal runs of non-whitespace, never empty. -/
def splitWs (s : Str) : List Str := splitWsAux [] s

/-- `str.lower()` on one character.  Exact for ASCII and for the only two non-ASCII characters whose
lower-case form contains an ASCII character (KELVIN SIGN and LATIN CAPITAL LETTER I WITH DOT ABOVE).
SIMPLIFICATION: any other non-ASCII character is left as it is, where Python may map it to another
non-ASCII character. Neither is a Lojban letter. -/
def lowerChar (c : Char) : Str :=
  if 'A' ≤ c ∧ c ≤ 'Z' then [Char.ofNat (c.toNat + 32)]
  else if c.toNat = 0x212A then ['k']
  else if c.toNat = 0x130 then ['i', Char.ofNat 0x307]
  else [c]

/-- `str.lower()`. -/
def lower (s : Str) : Str := s.flatMap lowerChar

end Jvotci
