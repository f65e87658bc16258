import Verif.SpecPieces
import Verif.SpecLujvo

/-!
# The shape of a cmavo

README, `exp_rafsi_shapes`: "any cmavo shape without a y can be a short rafsi".
-/

namespace Jvotci.Spec

open Jvotci

/-- Vowels and diphthongs, an apostrophe between each two. -/
inductive Nuclei : Str → Prop
  | one {n} : Nucleus n → Nuclei n
  | more {n t} : Nucleus n → Nuclei t → Nuclei (n ++ '\'' :: t)

/-- A cmavo without y: nothing, one consonant or an on-glide, then vowels and diphthongs with apostrophes. -/
def CmavoShape (x : Str) : Prop :=
  ∃ o n, x = o ++ n ∧ Nuclei n ∧ (o = [] ∨ (∃ c, Consonant c ∧ o = [c]) ∨ o = ['i'] ∨ o = ['u'])

/-- The hyphen before the cmavo: y, with an apostrophe before a vowel that is not an on-glide. -/
def yBefore (x : Str) : Str := s%"y" ++ leading false x

end Jvotci.Spec
