import Verif.Spec
import Verif.Core

/-!
# Which sequences of rafsi and hyphens are words

`Reading` is about neighbours only: it says which sequences `jvokaha2` finds in a string. `LujvoPieces` and
`CmevlaPieces` add the rules about the whole word, CLL 4.11: a hyphen stands where it is needed and, with the one
exception of r and n, nowhere else.
-/

namespace Jvotci

namespace Spec

/-- CVC, CCV, CVV and CV'V: the rafsi after which the next one may follow at once. -/
def Short (p : Str) : Prop := p.length = 3 ∨ (p.length = 4 ∧ '\'' ∈ p)

/-- Consonant, vowel, vowel, with or without an apostrophe between the vowels. -/
def VowelRafsi (p : Str) : Prop := ∃ c a b, Vowel a ∧ Vowel b ∧ (p = [c, a, b] ∨ p = [c, a, '\'', b])

/-- `q` may come next after `p` in a lujvo (CLL 4.11, and README for `'y`). -/
inductive Link (y : YHyphens) (mz : Bool) : Str → Str → Prop
  /-- two rafsi -/
  | rafsi {p q} : Rafsi mz p → Rafsi mz q → Short p →
      (∀ c d, p.getLast? = some c → q.head? = some d → Consonant c → PermissiblePair mz c d) →
      (∀ c d e t, p.getLast? = some c → q = d :: e :: t → [c, d, e] ∉ bannedTriples) → Link y mz p q
  /-- y after a rafsi of at most four letters -/
  | y {p} : Rafsi mz p → p.length < 5 → Link y mz p s%"y"
  /-- 'y, where allowed, after a short rafsi -/
  | apostropheY {p} : y ≠ .standard → Rafsi mz p → Short p → Link y mz p s%"'y"
  /-- r or n, where allowed, after CVV or CV'V -/
  | rOrN {p h} : y ≠ .forceY → Rafsi mz p → VowelRafsi p → h ∈ [s%"r", s%"n"] → Link y mz p h
  | afterY {h q} : h ∈ [s%"y", s%"'y"] → Rafsi mz q → Link y mz h q
  | afterR {q} : Rafsi mz q → q.head? ≠ some 'r' → Link y mz s%"r" q
  | afterN {q} : Rafsi mz q → q.head? = some 'r' → Link y mz s%"n" q

/-- A sequence of rafsi and hyphens obeying the local rules: it begins and ends with a rafsi, CVV are proper
diphthongs, neighbours may stand next to each other. A word does not begin CCV'y. -/
structure Reading (y : YHyphens) (mz : Bool) (ps : List Str) : Prop where
  first : ∃ p, ps.head? = some p ∧ Rafsi mz p
  last : ∃ p, ps.getLast? = some p ∧ Rafsi mz p
  diphthongs : ∀ p ∈ ps, ∀ c a b, p = [c, a, b] → Vowel a → Vowel b → [a, b] ∈ [s%"ai", s%"ei", s%"oi", s%"au"]
  links : ∀ u p q v, ps = u ++ p :: q :: v → Link y mz p q
  start : ∀ a b c v, Consonant b → ps ≠ [a, b, c] :: s%"'y" :: v

/-- The rafsi `p` can be followed at once by the rafsi `q`: no y is needed. -/
def Fit (mz : Bool) (p q : Str) : Prop :=
  Short p ∧ (∀ c d, p.getLast? = some c → q.head? = some d → Consonant c → PermissiblePair mz c d) ∧
  (∀ c d e t, p.getLast? = some c → q = d :: e :: t → [c, d, e] ∉ bannedTriples)

/-- `p` and `q` meet in a pair of consonants that can begin a word. -/
def MeetInitial (p q : Str) : Prop := ∃ a b, p.getLast? = some a ∧ q.head? = some b ∧ InitialPair a b

/-- The tosmabru test on pieces: rafsi CVC, each meeting the next in an initial pair, up to a CVCCV with an initial
pair in the middle, or up to a CVC with y. The first consonant and vowel would fall off. -/
inductive FallsApart : List Str → Prop
  | gismu {p a b c d e v} : pattern p = s%"CVC" → MeetInitial p [a, b, c, d, e] → pattern [a, b, c, d, e] = s%"CVCCV" →
      InitialPair c d → FallsApart (p :: [a, b, c, d, e] :: v)
  | y {p q v} : pattern p = s%"CVC" → MeetInitial p q → pattern q = s%"CVC" → FallsApart (p :: q :: s%"y" :: v)
  | more {p q v} : pattern p = s%"CVC" → MeetInitial p q → FallsApart (q :: v) → FallsApart (p :: q :: v)

/-- The pieces of a lujvo. -/
structure LujvoPieces (s : Settings) (ps : List Str) : Prop where
  reading : Reading s.yHyphens s.allowMz ps
  /-- there are at least two rafsi -/
  two : 2 ≤ ps.length
  /-- the last letter is a vowel -/
  vowel : ∃ c, ps.flatten.getLast? = some c ∧ Vowel c
  /-- CVV or CV'V at the beginning has a hyphen, except before a single CCV -/
  first : ∀ p q v, ps = p :: q :: v → VowelRafsi p → ¬ Hyphen q → v = [] ∧ pattern q = s%"CCV"
  /-- a y is needed where it stands, or after the first rafsi to keep the word together -/
  y : ∀ u p q v, ps = u ++ p :: s%"y" :: q :: v → ¬ Fit s.allowMz p q ∨ (u = [] ∧ FallsApart (p :: q :: v))
  /-- 'y only does what r and n do, if they must not be used: separate CVV or CV'V at the beginning -/
  apostropheY : ∀ u p q v, ps = u ++ p :: s%"'y" :: q :: v →
    s.yHyphens = .forceY ∧ u = [] ∧ VowelRafsi p ∧ ¬ (v = [] ∧ pattern q = s%"CCV")
  /-- the word does not fall apart -/
  whole : ¬ FallsApart ps
  /-- with the default setting of `consonants`, there are two consonants next to each other (or with y between) -/
  cluster : s.consonants = .cluster → ∃ p ∈ ps, p = s%"r" ∨ p = s%"n" ∨ (¬ Hyphen p ∧ ¬ VowelRafsi p)

/-- The pieces of a cmevla made of rafsi. -/
structure CmevlaPieces (s : Settings) (ps : List Str) : Prop where
  reading : Reading s.yHyphens s.allowMz ps
  two : 2 ≤ ps.length
  /-- the last letter is a consonant -/
  consonant : ∃ c, ps.flatten.getLast? = some c ∧ Consonant c
  /-- a y is needed where it stands -/
  y : ∀ u p q v, ps = u ++ p :: s%"y" :: q :: v → ¬ Fit s.allowMz p q
  /-- there is no 'y -/
  apostropheY : s%"'y" ∉ ps
  /-- r and n after the first rafsi only before CC -/
  first : ∀ p q v, ps = p :: s%"r" :: q :: v ∨ ps = p :: s%"n" :: q :: v →
    pattern q ∈ [s%"CCV", s%"CCVC", s%"CCVCV"]

end Spec

end Jvotci
