import Verif.Spec
import Verif.Py

/-!
# Specification: the strings whose shape the Rust crate sees differently
-/

namespace Jvotci.Spec

/-- The strings to which the Rust crate gives another shape than the Python version. No rafsi is among them. -/
inductive OddShape : Str → Prop
  /-- the hyphen `'y` -/
  | hyphen : OddShape s%"'y"
  /-- consonant, something else, vowel: CCV for Rust -/
  | three {a x v} : Consonant a → ¬ Vowel x → ¬ Consonant x → Vowel v → OddShape [a, x, v]
  /-- consonant, vowel, something that is no consonant, consonant: CVCC for Rust -/
  | cvcc {a v x c} : Consonant a → Vowel v → ¬ Consonant x → Consonant c → OddShape [a, v, x, c]
  /-- consonant, something, vowel, something, no vowels or final apostrophe there, and not both consonants: CCVC for Rust -/
  | ccvc {a x v z} : Consonant a → ¬ Vowel x → Vowel v → ¬ Vowel z → z ≠ '\'' → ¬ (Consonant x ∧ Consonant z) →
      OddShape [a, x, v, z]

/-- The strings the Rust crate takes for rafsi and the Python version does not: two consonants that may begin a word, a vowel,
and a letter that is no vowel, consonant or apostrophe (such as y). -/
inductive OddRafsi : Str → Prop
  | mk {a b v z} : InitialPair a b → Vowel v → ¬ Vowel z → ¬ Consonant z → z ≠ '\'' → OddRafsi [a, b, v, z]

/-- The consonant clusters the Rust crate lets stand between the vowels of a zi'evla and the Python version does not: three
letters, the last two of which may begin a word and the first two of which may not meet. -/
inductive OddCluster : Str → Prop
  | mk {a b c} : Consonant a → b ∉ s%"lmnr" → InitialPair b c → ¬ PermissiblePair false a b → OddCluster [a, b, c]

end Jvotci.Spec
