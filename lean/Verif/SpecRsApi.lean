import Verif.RsApi
import Verif.Spec

/-!
# Specification: the words that the Rust crate reads as the Python version does
-/

namespace Jvotci.Spec

/-- A word with full stops that the Rust crate removes and the Python version does not: a second one at the beginning, or one
at the end. -/
inductive StrayDot : Str → Prop
  | two (u) : StrayDot ('.' :: '.' :: u)
  | last (u) : u ≠ [] → StrayDot (u ++ ['.'])

/-- A word of Lojban letters and y, without two y's in a row, that does not begin like "bla'y". -/
structure PlainWord (w : Str) : Prop where
  letters : ∀ c ∈ w, Letter c
  yy : ¬ Occurs s%"yy" w
  start : ∀ a b v u, w = a :: b :: v :: '\'' :: 'y' :: u → ¬ (Consonant a ∧ Consonant b ∧ Vowel v)

end Jvotci.Spec
