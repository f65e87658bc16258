import Verif.SpecLujvo

/-!
# The sound of a zi'evla

Which consonants may follow one another at the beginning and in the middle of a word, and what the letters of a
zi'evla must look like, run by run.
-/

namespace Jvotci.Spec

open Jvotci

/-- Consonants at the beginning of a word or syllable: one; an initial pair; or three, the first two and the last two
initial pairs, ending in l or r, the middle one none of c j s z x. -/
inductive InitialCluster : Str → Prop
  | one {a} : Consonant a → InitialCluster [a]
  | two {a b} : InitialPair a b → InitialCluster [a, b]
  | three {a b c} : InitialPair a b → InitialPair b c → c = 'l' ∨ c = 'r' → ¬ Sibilant b → b ≠ 'x' → InitialCluster [a, b, c]

/-- Pairs of a consonant and l, m, n or r: each can be a syllable of its own. -/
inductive SonorantPairs : Str → Prop
  | nil : SonorantPairs []
  | pair {a b r} : Consonant a → Sonorant b → SonorantPairs r → SonorantPairs (a :: b :: r)

/-- The last two letters are ml or mr. -/
def EndsMlMr (ch : Str) : Prop := ∃ u c, (c = 'l' ∨ c = 'r') ∧ ch = u ++ ['m', c]

/-- Consonants between vowels. Any two will do; more than two must be a consonant or none, pairs of a consonant and
l, m, n or r, and an initial cluster. Here ml and mr at the end are always taken as beginning a syllable, or as part of
what begins it. Three consonants do not begin with mz, whatever the options. -/
def MiddleCluster (ch : Str) : Prop :=
  ch.length ≤ 2 ∨
  ((∃ pre pairs onset, ch = pre ++ pairs ++ onset ∧ pre.length ≤ 1 ∧ SonorantPairs pairs ∧ InitialCluster onset ∧
      ¬ (onset.length = 1 ∧ EndsMlMr ch)) ∧
    ∀ c, ch ≠ ['m', 'z', c])

/-- `x` is a run of letters satisfying `P` in `w`: no such letter stands before or after it. -/
structure Run (P : Char → Prop) (w u x t : Str) : Prop where
  eq : w = u ++ x ++ t
  some : x ≠ []
  all : ∀ c ∈ x, P c
  before : ∀ c, u.getLast? = Option.some c → ¬ P c
  after : ∀ c, t.head? = Option.some c → ¬ P c

/-- What must hold of every run of letters of a zi'evla or experimental rafsi. -/
structure Sounds (allowMz : Bool) (v : Str) : Prop where
  letters : ∀ c ∈ v, Vowel c ∨ Consonant c ∨ c = '\''
  /-- an apostrophe stands between vowels -/
  apostrophe : ∀ u t, v = u ++ '\'' :: t → (∃ a, u.getLast? = some a ∧ Vowel a) ∧ ∃ b, t.head? = some b ∧ Vowel b
  pairs : ∀ a b, Adjacent v a b → Consonant a → Consonant b → PermissiblePair allowMz a b
  triples : ∀ t ∈ bannedTriples, ¬ Occurs t v
  initial : ∀ ch t, Run Consonant v [] ch t → InitialCluster ch
  middle : ∀ u ch t, Run Consonant v u ch t → u ≠ [] → MiddleCluster ch
  /-- vowels can be divided into syllables, with no on-glide after a consonant or apostrophe -/
  vowels : ∀ u x t, Run Vowel v u x t → ∃ syls, syls.flatten = x ∧ VowelRun syls ∧
    (u ≠ [] → ∀ s, syls.head? = some s → ¬ Glided s)

/-- What the letters of a zi'evla must look like. -/
structure ZihevlaForm (allowMz : Bool) (v : Str) : Prop where
  sounds : Sounds allowMz v
  vowel : ∃ c, v.getLast? = some c ∧ Vowel c
  /-- there are two consonants or more side by side, with at most one other consonant before them -/
  cluster : ∃ u ch t, Run Consonant v u ch t ∧ 2 ≤ ch.length ∧ (u.filter (fun c => Consonant c)).length ≤ 1
  syllables : ∃ n, Syllables .nothing v n ∧ 2 ≤ n

end Jvotci.Spec
