import Verif.Core

/-!
# Options that relax the rules
-/

namespace Jvotci

namespace Spec

/-- The options `s'` relax the options `s`: more hyphens, more rafsi, fewer consonants needed, glides taken as
consonants. -/
structure Looser (s s' : Settings) : Prop where
  mz : s'.allowMz = s.allowMz
  y : s'.yHyphens = s.yHyphens ∨ (s.yHyphens = .standard ∧ s'.yHyphens = .allowY)
  exp : s.expRafsi = true → s'.expRafsi = true
  /-- CLUSTER, TWO_CONSONANTS, ONE_CONSONANT in this order -/
  consonants : s'.consonants = s.consonants ∨ s.consonants = .cluster ∨ s'.consonants = .oneConsonant
  glides : s.glides = true → s'.glides = true

end Spec

end Jvotci
