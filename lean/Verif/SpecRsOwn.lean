import Verif.RsCheck
import Verif.SpecLujvo

/-!
# Specification: tanru of rafsi, gismu and cmavo for the Rust crate as a whole
-/

namespace Jvotci

/-- The Rust crate with its own `analyze_brivla` (tools.rs:373-666, as in `Verif/RsCheck.lean`) where `get_lujvo` calls it. `k` limits its
recursion and `n` that of `is_slinkuhi`; `Y` stands for tools.rs:424-666 (words with y), `A.check` for `check_zihevla_or_rafsi` as called by
`get_rafsi_list_list`. -/
def rsOwn (A : RsRest) (n : Nat) (Y : Settings → Bool → Str → Except RsErr (RsKind × List Str)) (k : Nat) : RsRest :=
  ⟨rsAnalyseFull A n Y k, A.check⟩

namespace Spec

/-- A component of a tanru: a CLL rafsi between dashes, a gismu, a word such as a cmavo (vowels, consonants and apostrophes, a vowel at the end,
no two consonants in a row), or another word of these letters, with a vowel at the end, that `analyse_brivla` refuses. -/
inductive OwnComponent (s : Settings) : Str → Prop
  | rafsi {v x} : Dashed v x → Rafsi s.allowMz x → OwnComponent s v
  | gismu {v} : Gismu s.allowMz v → OwnComponent s v
  | cmavo {v} : (∀ c ∈ v, Vowel c ∨ Consonant c ∨ c = '\'') → (∃ l, v.getLast? = some l ∧ Vowel l) →
      (∀ a b, Consonant a → Consonant b → ¬ Occurs [a, b] v) → OwnComponent s v
  | refused {v} : (∀ c ∈ v, Vowel c ∨ Consonant c ∨ c = '\'') → (∃ l, v.getLast? = some l ∧ Vowel l) →
      (s.allowMz = true → ∀ c, InitialPair 'z' c → ¬ Occurs ['m', 'z', c] v) →
      analyseBrivla .linked { yHyphens := s.yHyphens, expRafsi := s.expRafsi, allowMz := s.allowMz } v = .error .notBrivla → OwnComponent s v

end Spec

end Jvotci
