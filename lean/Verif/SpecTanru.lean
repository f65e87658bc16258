import Verif.SpecLujvo

/-!
# Components as they may be typed
-/

namespace Jvotci

namespace Spec

/-- A component is written in Lojban letters other than `y`, at least one of them a vowel, with dashes at both ends, at the
end or nowhere; what stands before a dash does not end in an apostrophe. -/
def Spelled (v : Str) : Prop :=
  ∃ x i j, v = List.replicate i '-' ++ x ++ List.replicate j '-' ∧ (∃ c ∈ x, Vowel c) ∧
    (∀ c ∈ x, Vowel c ∨ Consonant c ∨ c = '\'') ∧ (j = 0 → i = 0) ∧ (j ≠ 0 → x.getLast? ≠ some '\'')

/-- `x` ends in `r` after two vowels, with or without an apostrophe between them. -/
def LateR (x : Str) : Prop := ∃ u a b, x = u ++ [a, b, 'r'] ∧ Vowel b ∧ (Vowel a ∨ a = '\'')

/-- A component without dashes, or one of the rafsi shapes of CLL with dashes behind it or at both ends. -/
def WordOrRafsi (allowMz : Bool) (v : Str) : Prop :=
  '-' ∉ v ∨ ∃ x i j, v = List.replicate i '-' ++ x ++ List.replicate (j + 1) '-' ∧ Rafsi allowMz x

/-- With `allow_mz` there is no mz in a word that is not a gismu. -/
def NoMzWord (s : Settings) (v : Str) : Prop := s.allowMz = true → Gismu true v ∨ ¬ Adjacent v 'm' 'z'

end Spec

end Jvotci
