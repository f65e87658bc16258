import Verif.Rs
import Verif.SpecLujvo

/-!
# Specification: the components for which the Rust crate is compared
-/

namespace Jvotci.Spec

/-- A component of a tanru: a CLL rafsi between dashes, a gismu, or a word of Lojban letters other than y that neither version
takes for a brivla (such as a cmavo). `A` is the part of the Rust crate that is not modelled. -/
inductive RsComponent (A : RsRest) (s : Settings) : Str → Prop
  | rafsi {v x} : Dashed v x → Rafsi s.allowMz x → RsComponent A s v
  | gismu {v} : Gismu s.allowMz v → RsComponent A s v
  | other {v} : v ≠ [] → (∀ c ∈ v, Vowel c ∨ Consonant c ∨ c = '\'') →
      analyseBrivla .linked { yHyphens := s.yHyphens, expRafsi := s.expRafsi, allowMz := s.allowMz } v = .error .notBrivla →
      rsAnalyse A { yHyphens := s.yHyphens, expRafsi := s.expRafsi, allowMz := s.allowMz } v = .error .notBrivla → RsComponent A s v

end Jvotci.Spec
