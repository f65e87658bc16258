import Verif.Core

/-!
# The search of `get_lujvo` with a counter

The loops of jvozba.py:445-490 as in `Jvozba.lean`, with a counter that goes up by one at every call of `combine`.
`Props/Work.lean` proves that they compute what the loops of `Jvozba.lean` compute.
-/

namespace Jvotci

/-- A computation with a counter, which is kept when an exception is raised. -/
abbrev Counted (α : Type) := ExceptT Err (StateM Nat) α

/-- jvozba.py:282-401: a call of `combine`. -/
def combineC (o : CombineOpts) (lujvo rafsi : Str) (lujvoConsonants rafsiConsonants : Nat)
    (lujvoScore : Int) (indexList : List (Nat × Nat)) (tos : Tos) : Counted (Option Cand) := fun calls =>
  (combine o lujvo rafsi lujvoConsonants rafsiConsonants lujvoScore indexList tos, calls + 1)

/-- A computation without calls of `combine`. -/
def uncounted {α : Type} (x : Except Err α) : Counted α := fun calls => (x, calls)

/-- jvozba.py:446-467. -/
def firstStageC (o : CombineOpts) (l0 l1 : List RafsiOpt) : Counted Best :=
  l0.foldlM (fun best r0 =>
    l1.foldlM (fun best r1 => do
      let c ← combineC o r0.1 r1.1 r0.2 r1.2 (score r0.1) [(0, (stripHyphens r0.1).length)]
        (initialTos o.generateCmevla r0.1)
      uncounted (updateCurrentBest c best)) best) []

/-- jvozba.py:471-489. -/
def nextStageC (o : CombineOpts) (prev : Best) (l : List RafsiOpt) : Counted Best :=
  l.foldlM (fun best r =>
    [Tos.tosynone, .tosmabru, .tosyhuhu].foldlM (fun best tos =>
      [0, 1, 2].foldlM (fun best n =>
        (bucket prev tos n).foldlM (fun best e => do
          let c ← combineC o e.2.1 r.1 n r.2 e.2.2.1 e.2.2.2 tos
          uncounted (updateCurrentBest c best)) best) best) best) []

/-- jvozba.py:445-490. -/
def searchStagesC (o : CombineOpts) (ll : List (List RafsiOpt)) : Counted Best :=
  match ll with
  | [] => uncounted (.error .index)
  | [l0] => uncounted (if l0.isEmpty then .ok [] else .error .index)
  | l0 :: l1 :: rest => do
    let b ← firstStageC { o with tanruLen := ll.length } l0 l1
    rest.foldlM (fun b l => nextStageC { o with tanruLen := 0 } b l) b

/-- jvozba.py:422-490: the search for the components `valsiList`, whose rafsi are found without counting. -/
def searchC (R : Rec) (s : Settings) (generateCmevla : Bool) (valsiList : List Str) : Counted Best := do
  let ll ← uncounted (getRafsiListList R s valsiList)
  searchStagesC (combineOpts s generateCmevla) ll

end Jvotci
