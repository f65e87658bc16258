import Verif.Py

/-!
# Vocabulary of the property statements

Nothing here refers to a function of the model: only strings, and the words the Lojban reference grammar
and the README use about them.
-/

namespace Jvotci.Spec

open Jvotci

/-- The five vowels (`y` is not one of them). -/
def Vowel (c : Char) : Prop := c ∈ ['a', 'e', 'i', 'o', 'u']

/-- The seventeen consonants. -/
def Consonant (c : Char) : Prop :=
  c ∈ ['b', 'c', 'd', 'f', 'g', 'j', 'k', 'l', 'm', 'n', 'p', 'r', 's', 't', 'v', 'x', 'z']

/-- Consonants that may stand next to both voiced and unvoiced ones. -/
def Sonorant (c : Char) : Prop := c ∈ ['l', 'm', 'n', 'r']

def Voiced (c : Char) : Prop := c ∈ ['b', 'd', 'g', 'j', 'v', 'z']

def Unvoiced (c : Char) : Prop := c ∈ ['c', 'f', 'k', 'p', 's', 't', 'x']

def Sibilant (c : Char) : Prop := c ∈ ['c', 'j', 's', 'z']

/-- CLL 3.6: two consonants may be adjacent iff they differ, neither voices against the other, they are
not both sibilants, and the pair is not one of cx, kx, xc, xk, mz. `mz` is allowed if `allowMz`. -/
def PermissiblePair (allowMz : Bool) (a b : Char) : Prop :=
  Consonant a ∧ Consonant b ∧ a ≠ b ∧
  ¬ (Voiced a ∧ Unvoiced b) ∧ ¬ (Unvoiced a ∧ Voiced b) ∧
  ¬ (Sibilant a ∧ Sibilant b) ∧
  [a, b] ∉ [s%"cx", s%"kx", s%"xc", s%"xk"] ∧
  ([a, b] = s%"mz" → allowMz = true)

/-- CLL 3.7: the pairs that may begin a word. -/
def initialPairs : List Str := [
  s%"bl", s%"br", s%"cf", s%"ck", s%"cl", s%"cm", s%"cn", s%"cp", s%"cr", s%"ct", s%"dj", s%"dr",
  s%"dz", s%"fl", s%"fr", s%"gl", s%"gr", s%"jb", s%"jd", s%"jg", s%"jm", s%"jv", s%"kl", s%"kr",
  s%"ml", s%"mr", s%"pl", s%"pr", s%"sf", s%"sk", s%"sl", s%"sm", s%"sn", s%"sp", s%"sr", s%"st",
  s%"tc", s%"tr", s%"ts", s%"vl", s%"vr", s%"xl", s%"xr", s%"zb", s%"zd", s%"zg", s%"zm", s%"zv"]

def InitialPair (a b : Char) : Prop := [a, b] ∈ initialPairs

/-- CLL 3.6: the triples forbidden everywhere. -/
def bannedTriples : List Str := [s%"ndj", s%"ndz", s%"ntc", s%"nts"]

/-- A gismu: CVCCV with a permissible pair or CCVCV with an initial pair. -/
inductive Gismu (allowMz : Bool) : Str → Prop
  | cvccv {a b c d e} : Consonant a → Vowel b → PermissiblePair allowMz c d → Vowel e → Gismu allowMz [a, b, c, d, e]
  | ccvcv {a b c d e} : InitialPair a b → Vowel c → Consonant d → Vowel e → Gismu allowMz [a, b, c, d, e]

/-- A CLL rafsi, by shape. -/
inductive Rafsi (allowMz : Bool) : Str → Prop
  | cvv {a b c} : Consonant a → Vowel b → Vowel c → Rafsi allowMz [a, b, c]
  | cvhv {a b c} : Consonant a → Vowel b → Vowel c → Rafsi allowMz [a, b, '\'', c]
  | cvc {a b c} : Consonant a → Vowel b → Consonant c → Rafsi allowMz [a, b, c]
  | ccv {a b c} : InitialPair a b → Vowel c → Rafsi allowMz [a, b, c]
  | cvcc {a b c d} : Consonant a → Vowel b → PermissiblePair allowMz c d → Rafsi allowMz [a, b, c, d]
  | ccvc {a b c d} : InitialPair a b → Vowel c → Consonant d → Rafsi allowMz [a, b, c, d]
  | gismu {w} : Gismu allowMz w → Rafsi allowMz w

/-- The hyphens that can separate two rafsi in a decomposition. -/
def Hyphen (p : Str) : Prop := p ∈ [s%"r", s%"n", s%"y", s%"'y", s%"y'", s%"'y'"]

instance (p : Str) : Decidable (Hyphen p) := inferInstanceAs (Decidable (p ∈ _))
instance : DecidablePred Vowel := fun c => inferInstanceAs (Decidable (c ∈ _))
instance : DecidablePred Consonant := fun c => inferInstanceAs (Decidable (c ∈ _))
instance : DecidablePred Sonorant := fun c => inferInstanceAs (Decidable (c ∈ _))
instance : DecidablePred Voiced := fun c => inferInstanceAs (Decidable (c ∈ _))
instance : DecidablePred Unvoiced := fun c => inferInstanceAs (Decidable (c ∈ _))
instance : DecidablePred Sibilant := fun c => inferInstanceAs (Decidable (c ∈ _))
instance (a b : Char) : Decidable (InitialPair a b) := inferInstanceAs (Decidable (_ ∈ _))
instance (m : Bool) (a b : Char) : Decidable (PermissiblePair m a b) := by
  unfold PermissiblePair; infer_instance

/-- `a` and `b` stand next to each other in `w`, in this order. -/
def Adjacent (w : Str) (a b : Char) : Prop := ∃ u v, w = u ++ a :: b :: v

/-- `t` occurs in `w`. -/
def Occurs (t w : Str) : Prop := ∃ u v, w = u ++ t ++ v

/-- A letter of Lojban words: vowel, consonant, apostrophe, `y`. -/
def Letter (c : Char) : Prop := Vowel c ∨ Consonant c ∨ c = '\'' ∨ c = 'y'

/-- `xs` takes one element of each list. -/
inductive Picks {α : Type} : List (List α) → List α → Prop
  | nil : Picks [] []
  | cons {l x ls xs} : x ∈ l → Picks ls xs → Picks (l :: ls) (x :: xs)

/-- How one character of a word is read: commas are dropped, `h` is an apostrophe, ASCII capitals are small
letters, the Kelvin sign is a `k`, dotted capital I is `i` and a combining dot. -/
def readChar (c : Char) : Str :=
  if c = ',' then []
  else if c = 'h' ∨ c = 'H' then ['\'']
  else if 'A' ≤ c ∧ c ≤ 'Z' then [Char.ofNat (c.toNat + 32)]
  else if c.toNat = 0x212A then ['k']
  else if c.toNat = 0x130 then ['i', Char.ofNat 0x307]
  else [c]

/-- How a word is read: without one full stop at its start, character by character. -/
def reading (w : Str) : Str :=
  match w with
  | '.' :: cs => cs.flatMap readChar
  | cs => cs.flatMap readChar

/-- Two characters that stand for the same letter: an ASCII capital for the small letter, `h` or `H` for the
apostrophe. -/
inductive SameLetter : Char → Char → Prop
  | refl (c) : SameLetter c c
  | upper {c} : 'A' ≤ c → c ≤ 'Z' → c ≠ 'H' → SameLetter c (Char.ofNat (c.toNat + 32))
  | smallH : SameLetter 'h' '\''
  | capitalH : SameLetter 'H' '\''
  | symm {c d} : SameLetter c d → SameLetter d c
  | trans {c d e} : SameLetter c d → SameLetter d e → SameLetter c e

/-- Two strings with the same letters, up to commas. -/
inductive SameLetters : Str → Str → Prop
  | nil : SameLetters [] []
  | cons {c d u v} : SameLetter c d → SameLetters u v → SameLetters (c :: u) (d :: v)
  | commaLeft {u v} : SameLetters u v → SameLetters (',' :: u) v
  | commaRight {u v} : SameLetters u v → SameLetters u (',' :: v)

/-- Two spellings of one word: the same letters up to commas, each with or without one full stop before it. -/
def SameWord (w w' : Str) : Prop :=
  ∃ u u', SameLetters u u' ∧ u.head? ≠ some '.' ∧ u'.head? ≠ some '.' ∧
    (w = u ∨ w = '.' :: u) ∧ (w' = u' ∨ w' = '.' :: u') ∧ w ≠ [] ∧ w' ≠ []

/-- The two lists have the same length and corresponding elements are related. -/
inductive All2 {α β : Type} (r : α → β → Prop) : List α → List β → Prop
  | nil : All2 r [] []
  | cons {a b l l'} : r a b → All2 r l l' → All2 r (a :: l) (b :: l')

/-- `text` consists of the given words with white space between them, and perhaps before and after. -/
inductive Spaced : Str → List Str → Prop
  | none {u} : u.all isSpace = true → Spaced u []
  | word {u w rest ws} : u.all isSpace = true → w ≠ [] → w.any isSpace = false →
      (∀ c, rest.head? = some c → isSpace c = true) → Spaced rest ws → Spaced (u ++ w ++ rest) (w :: ws)

/-- The vowels and diphthongs a syllable can have at its heart. -/
def Nucleus (s : Str) : Prop := s ∈ [s%"a", s%"e", s%"i", s%"o", s%"u", s%"ai", s%"ei", s%"oi", s%"au"]

/-- A vowel or diphthong with an on-glide. -/
def Glided (s : Str) : Prop := ∃ g n, (g = 'i' ∨ g = 'u') ∧ Nucleus n ∧ s = g :: n

instance : DecidablePred Nucleus := fun s => inferInstanceAs (Decidable (s ∈ _))

/-- An on-glide after a diphthong that ends in the same vowel. -/
def GlideClash (before next : Str) : Prop :=
  (next.head? = some 'i' ∧ ∃ d ∈ [s%"ai", s%"ei", s%"oi"], ∃ u, before = u ++ d) ∨
  (next.head? = some 'u' ∧ ∃ u, before = u ++ s%"au")

/-- The syllables of a run of vowels: all but the first have an on-glide. -/
inductive VowelRun : List Str → Prop
  | one {s} : Nucleus s ∨ Glided s → VowelRun [s]
  | more {l s} : VowelRun l → Glided s → ¬ GlideClash l.flatten s → VowelRun (l ++ [s])

/-- What stands before a letter: nothing, a consonant or apostrophe, a vowel. -/
inductive Before where
  | nothing | letter | vowel

/-- A word without `y` has `n` syllables: on-glides are used at the beginning of a word and after a vowel,
and only there. -/
inductive Syllables : Before → Str → Nat → Prop
  | nil {b} : Syllables b [] 0
  | letter {b c w n} : Consonant c ∨ c = '\'' → Syllables .letter w n → Syllables b (c :: w) n
  | nucleus {b s w n} : b ≠ .vowel → Nucleus s → Syllables .vowel w n → Syllables b (s ++ w) (n + 1)
  | glided {b s w n} : b ≠ .letter → Glided s → Syllables .vowel w n → Syllables b (s ++ w) (n + 1)

/-- `x` is a rafsi of the component `v` of a tanru. `table` lists the short rafsi of words. A component written
`-x-` or `x-` is `x`; another component is a word, represented by one of its short rafsi, by all but the last
vowel if it is a gismu, or by itself. -/
def RafsiOf (table : List (Str × List Str)) (allowMz : Bool) (v x : Str) : Prop :=
  (∃ i j, v = List.replicate i '-' ++ x ++ List.replicate (j + 1) '-') ∨
  (v.getLast? ≠ some '-' ∧
    ((∃ rs, (v, rs) ∈ table ∧ x ∈ rs) ∨ (Gismu allowMz v ∧ ∃ c, Vowel c ∧ v = x ++ [c]) ∨ x = v))

/-- A word written with `C` for consonants and `V` for vowels. -/
def pattern (w : Str) : Str :=
  w.map (fun c => if Vowel c then 'V' else if Consonant c then 'C' else if c = '\'' then c else '?')

/-- CLL 4.12: the number by which a rafsi is preferred for its shape. -/
def shapeScore (x : Str) : Nat :=
  if pattern x = s%"CVCCV" then 1
  else if pattern x = s%"CVCC" then 2
  else if pattern x = s%"CCVCV" then 3
  else if pattern x = s%"CCVC" then 4
  else if pattern x = s%"CVC" then 5
  else if pattern x = s%"CV'V" then 6
  else if pattern x = s%"CCV" then 7
  else if pattern x = s%"CVV" then 8
  else 0

/-- The letters to which the tie-break applies: CVV followed by CCV, CCVC, CVC or CVCC. -/
def TieShape (w : Str) : Prop := pattern w ∈ [s%"CVVCCV", s%"CVVCCVC", s%"CVVCVC", s%"CVVCVCC"]

instance : DecidablePred TieShape := fun w => inferInstanceAs (Decidable (pattern w ∈ _))

/-- The tie-break applies: the first two components `p` and `q` make letters of such a shape, and nothing stands
between `q` and what follows. -/
def TieAt (w : Str) (ix : List (Nat × Nat)) : Prop :=
  ∃ p q rest, ix = p :: q :: rest ∧ TieShape (w.take q.2) ∧ (match rest with | [] => w.length | t :: _ => t.1) = q.2

/-- The number of vowels in a word. -/
def vowelCount (w : Str) : Nat := (w.filter (fun c => Vowel c)).length

end Jvotci.Spec
