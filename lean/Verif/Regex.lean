import Verif.Py

/-!
# A small backtracking regular-expression matcher

Models the fragment of Python's `re` used in `tarmi.py:231-237`: character classes, concatenation,
greedy `?` and `*`, alternation and numbered groups.  `Re.run r s` lists the ways `r` can match a prefix
of `s` in the order in which Python's backtracking engine tries them; `fullmatch` takes the first one
that consumes the whole string, which is the match `re.fullmatch` reports.
-/

namespace Jvotci

inductive Re where
  | eps
  | cls (p : Char → Bool)
  | seq (a b : Re)
  | alt (a b : Re)
  | opt (a : Re)
  | star (a : Re)
  | grp (n : Nat) (a : Re)

/-- Captured groups, latest first. -/
abbrev Groups := List (Nat × Str)

/-- Greedy iteration of a matcher `m`; `fuel` bounds the number of iterations (`s.length` suffices, as an
iteration that consumes nothing is not repeated). -/
def starRun (m : Str → List (Str × Groups)) : Nat → Str → List (Str × Groups)
  | 0, s => [(s, [])]
  | fuel + 1, s =>
    ((m s).filter (fun x => x.1.length < s.length)).flatMap
      (fun x => (starRun m fuel x.1).map (fun y => (y.1, y.2 ++ x.2)))
    ++ [(s, [])]

/-- All matches of a prefix of `s`, in priority order: (rest of the input, groups captured). -/
def Re.run : Re → Str → List (Str × Groups)
  | .eps, s => [(s, [])]
  | .cls p, s => match s with
    | [] => []
    | c :: cs => if p c then [(cs, [])] else []
  | .seq a b, s => (a.run s).flatMap (fun x => (b.run x.1).map (fun y => (y.1, y.2 ++ x.2)))
  | .alt a b, s => a.run s ++ b.run s
  | .opt a, s => a.run s ++ [(s, [])]
  | .star a, s => starRun a.run s.length s
  | .grp n a, s => (a.run s).map (fun x => (x.1, (n, s.take (s.length - x.1.length)) :: x.2))

/-- `re.fullmatch(r, s)`: the captured groups, or `none`. -/
def Re.fullmatch (r : Re) (s : Str) : Option Groups :=
  ((r.run s).find? (fun x => x.1.isEmpty)).map (·.2)

/-- `match.groups()[n-1]`. -/
def Groups.get (g : Groups) (n : Nat) : Option Str := g.lookup n

end Jvotci
