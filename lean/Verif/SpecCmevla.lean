import Verif.SpecExtended

/-!
# What keeps a cmevla with zi'evla in it from being accepted (C38)
-/

namespace Jvotci.Spec

open Jvotci

/-- What stands before the first y of the word consists of rafsi, and falls off. -/
def BeginningFallsOff (s : Settings) (w : Str) : Prop :=
  ∃ x v, ((w = x ++ s%"y" ++ v ∧ ∃ c, x.getLast? = some c ∧ Consonant c) ∨ (w = x ++ s%"'y" ++ v ∧ ∃ c, x.getLast? = some c ∧ Vowel c)) ∧
    'y' ∉ x ∧ (∃ qs, Reading s.yHyphens s.allowMz qs ∧ qs.flatten = x) ∧ FallsOff s x

/-- The word is a slinku'i: with `to` before it, it is a cmevla of rafsi. -/
def SlinkuhiCmevla (s : Settings) (w : Str) : Prop :=
  ConsonantInitial w ∧ ∃ qs, CmevlaPieces { yHyphens := s.yHyphens, allowMz := s.allowMz } qs ∧ qs.flatten = s%"to" ++ w

end Jvotci.Spec
