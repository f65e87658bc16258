import Verif.RsSettings

/-!
# Specification: the flags of the Rust crate

Only the settings and strings are taken from the model.
-/

namespace Jvotci.Spec

/-- What a flag is about. -/
inductive FlagKind where
  | cmevla | hyphens | consonants | rafsi | glides | mz | none
  deriving DecidableEq

/-- The flags of the documentation, `cSAFC21rgz`. -/
def flagKind (c : Char) : FlagKind :=
  if c = 'c' then .cmevla
  else if c = 'S' ∨ c = 'A' ∨ c = 'F' then .hyphens
  else if c = 'C' ∨ c = '2' ∨ c = '1' then .consonants
  else if c = 'r' then .rafsi
  else if c = 'g' then .glides
  else if c = 'z' then .mz
  else .none

/-- The string has only flags, and no two about the same thing. -/
def GoodFlags (w : Str) : Prop := (∀ c ∈ w, flagKind c ≠ .none) ∧ w.Pairwise fun a b => flagKind a ≠ flagKind b

/-- The settings have what the flags in the string say, and the default for what no flag is about. -/
structure Says (w : Str) (s : RsSettings) : Prop where
  cmevla : s.generateCmevla = true ↔ 'c' ∈ w
  rafsi : s.expRafsi = true ↔ 'r' ∈ w
  glides : s.glides = true ↔ 'g' ∈ w
  mz : s.allowMz = true ↔ 'z' ∈ w
  allowY : s.yHyphens = .allowY ↔ 'A' ∈ w
  forceY : s.yHyphens = .forceY ↔ 'F' ∈ w
  two : s.consonants = .twoConsonants ↔ '2' ∈ w
  one : s.consonants = .oneConsonant ↔ '1' ∈ w

end Jvotci.Spec
