import Verif.Spec
import Verif.Lemmas.Fix

/-!
# What a lujvo of a tanru is

A specification of the words `get_lujvo` may choose from, independent of its search. A candidate is made of one
`Slot` per component: the rafsi that stands for the component, and the text it contributes to the word, with an
apostrophe before it and a hyphen behind it where it has them. `Legal` says which sequences of slots are lujvo,
`cost` is the published score, and `LujvoOf` puts the two together with `Usable`, the rafsi of a component.
-/

namespace Jvotci.Spec

/-- How a rafsi behaves at a joint. -/
inductive Kind where
  /-- CVV or CV'V -/
  | vv
  /-- CCV -/
  | ccv
  /-- CVC -/
  | cvc
  /-- a word without its last vowel: CVCC, CCVC or longer -/
  | short
  /-- a whole word: CVCCV, CCVCV or longer -/
  | long
  /-- an experimental rafsi -/
  | exp
  deriving DecidableEq, Repr

/-- The kind of a rafsi of one of the eight CLL shapes. -/
def ShapeKind (x : Str) (k : Kind) : Prop :=
  (pattern x ∈ [s%"CVV", s%"CV'V"] ∧ k = .vv) ∨ (pattern x = s%"CCV" ∧ k = .ccv) ∨ (pattern x = s%"CVC" ∧ k = .cvc) ∨
  (pattern x ∈ [s%"CVCC", s%"CCVC"] ∧ k = .short) ∨ (pattern x ∈ [s%"CVCCV", s%"CCVCV"] ∧ k = .long)

/-- `x` begins with an on-glide: i or u before a vowel. -/
def Onglide : Str → Prop
  | a :: b :: _ => (a = 'i' ∨ a = 'u') ∧ Vowel b
  | _ => False

/-- `x` begins with a vowel. -/
def VowelInitial : Str → Prop
  | a :: _ => Vowel a
  | [] => False

/-- `x` begins with a consonant. -/
def ConsonantInitial : Str → Prop
  | a :: _ => Consonant a
  | [] => False

instance : DecidablePred Onglide
  | [] => isFalse id
  | [_] => isFalse id
  | a :: b :: _ => inferInstanceAs (Decidable ((a = 'i' ∨ a = 'u') ∧ Vowel b))
instance : DecidablePred VowelInitial
  | [] => isFalse id
  | a :: _ => inferInstanceAs (Decidable (Vowel a))
instance : DecidablePred ConsonantInitial
  | [] => isFalse id
  | a :: _ => inferInstanceAs (Decidable (Consonant a))

/-- A rafsi that begins with a vowel which is not an on-glide has an apostrophe before it, except at the start of
the word. -/
def leading (first : Bool) (x : Str) : Str :=
  if first = false ∧ VowelInitial x ∧ ¬ Onglide x then s%"'" else []

/-- The hyphen that may stand behind a rafsi of kind `k` in the first, last or another place. -/
def Trailing (first last : Bool) (x : Str) : Kind → Str → Prop
  | .vv, h => h = [] ∨ (h = s%"'" ∧ first = true) ∨ (h = s%"'y" ∧ first = false ∧ last = false)
  | .ccv, h => h = [] ∨ h = s%"'y"
  | .cvc, h => h = [] ∨ (h = s%"y" ∧ last = false)
  | .short, h => (h = s%"y" ∧ last = false) ∨ (h = [] ∧ last = true ∧ ∃ c, x.getLast? = some c ∧ ¬ Vowel c)
  | .long, h => (h = s%"'y" ∧ last = false) ∨ (h = [] ∧ last = true)
  | .exp, h => (h = s%"'" ∧ last = false ∧ first = true) ∨ (h = s%"'y" ∧ last = false ∧ first = false) ∨ (h = [] ∧ last = true)

/-- One component of a candidate. -/
structure Slot where
  rafsi : Str
  kind : Kind
  text : Str

/-- The text of a slot is its rafsi with the apostrophe and hyphen it may have in its place. -/
def Slot.Written (first last : Bool) (z : Slot) : Prop :=
  ∃ h, z.text = leading first z.rafsi ++ z.rafsi ++ h ∧ Trailing first last z.rafsi z.kind h

/-- `v` is `x` between dashes. -/
def Dashed (v x : Str) : Prop := '-' ∉ x ∧ ∃ i j, v = List.replicate (i + 1) '-' ++ x ++ List.replicate (j + 1) '-'

/-- What `analyse_brivla` says of a component under the options `s`. -/
def WordType (b : Build) (s : Settings) (v : Str) (t : BType) : Prop :=
  ∃ ps, analyseBrivla b { yHyphens := s.yHyphens, expRafsi := s.expRafsi, allowMz := s.allowMz } v = .ok (t, ps)

/-- The component written `v` can be represented by the rafsi `x`, of kind `k`. A component that does not end in a
dash is a word, represented by one of the rafsi listed for it, by all of it but the last vowel if it is a gismu,
or by itself if it is a gismu or zi'evla. A component `-x-` stands for `x` itself, which is a rafsi of one of the
CLL shapes, a zi'evla or an experimental rafsi. A component `x-` stands for a gismu or zi'evla without its last
vowel, and must not be read as rafsi. -/
inductive Usable (b : Build) (s : Settings) : Str → Str → Kind → Prop
  | listed {v x rs k} : v.getLast? ≠ some '-' → (v, rs) ∈ RAFSI_LIST → x ∈ rs → ShapeKind x k → Usable b s v x k
  | stem {v x c} : v.getLast? ≠ some '-' → WordType b s v .gismu → v = x ++ [c] → Usable b s v x .short
  | word {v} : v.getLast? ≠ some '-' → WordType b s v .gismu ∨ WordType b s v .zihevla → Usable b s v v .long
  | rafsi {v x k} : Dashed v x → Rafsi s.allowMz x → ShapeKind x k → Usable b s v x k
  | zihevla {v x} : Dashed v x → shapeScore x = 0 → WordType b s x .zihevla → Usable b s v x .long
  | experimental {v x} : Dashed v x → shapeScore x = 0 → s.expRafsi = true → (∀ t, ¬ WordType b s x t) →
      checkZihevlaOrRafsi (program b) false s.yHyphens s.expRafsi s.allowMz x = .ok .rafsi → Usable b s v x .exp
  | cut {v x j} : v = x ++ List.replicate (j + 1) '-' → '-' ∉ x →
      WordType b s (x ++ s%"a") .gismu ∨ WordType b s (x ++ s%"a") .zihevla →
      (6 ≤ x.length → (∃ c, x.getLast? = some c ∧ Consonant c) → ∀ ps, jvokaha2 s.yHyphens s.allowMz x ≠ .ok ps) →
      Usable b s v x .short

/-- `y` and `z` stand side by side. -/
def Beside (zs : List Slot) (y z : Slot) : Prop := ∃ u v, zs = u ++ y :: z :: v

/-- What must hold where two slots meet. -/
structure Joint (allowMz : Bool) (y z : Slot) : Prop where
  /-- two consonants are a permissible pair -/
  pair : ∀ a b, y.text.getLast? = some a → z.text.head? = some b → Consonant a → Consonant b → PermissiblePair allowMz a b
  /-- they begin no banned triple -/
  triple : ∀ a, y.text.getLast? = some a → a :: z.text.take 2 ∉ bannedTriples
  /-- an apostrophe, or a rafsi of no CLL shape, only after a hyphen -/
  hyphen : z.text.head? = some '\'' ∨ shapeScore z.rafsi = 0 →
    y.text.getLast? = some 'y' ∨ y.text.getLast? = some '\''

/-- The hyphen between the first two slots, besides those the slots have themselves; `n` is the number of
components. A CVV or CV'V rafsi at the start of a brivla is glued with r, or n before r, or 'y under FORCE_Y,
unless the word is of just two rafsi of which the second is CCV. -/
def FirstHyphen (s : Settings) (cmevla : Bool) (n : Nat) (y z : Slot) (h : Str) : Prop :=
  (y.text.getLast? = some '\'' ∧ h = s%"y" ∧ (z.text.head? = some '\'' ∨ s.yHyphens ≠ .standard)) ∨
  (y.text.getLast? ≠ some '\'' ∧ ¬ (pattern y.rafsi = s%"CCV" ∧ y.text = y.rafsi ++ s%"'y") ∧
    h = if pattern y.rafsi ∈ [s%"CVV", s%"CV'V"] ∧ cmevla = false ∧ ¬ (n = 2 ∧ pattern z.rafsi = s%"CCV") then
          if s.yHyphens = .forceY then s%"'y" else if z.text.head? = some 'r' then s%"n" else s%"r"
        else [])

/-- The tosmabru test: the word starts with CVC rafsi without hyphens, every joint from the first up to the slot
`y` is a permissible initial pair, and `y` is CVCCV with an initial pair in the middle, or CVC with y. Such a word
would fall apart into a cmavo and another word. -/
def Tosmabru (zs : List Slot) : Prop :=
  ∃ u y rest, u ≠ [] ∧ zs = u ++ y :: rest ∧ (∀ z ∈ u, pattern z.rafsi = s%"CVC" ∧ z.text = z.rafsi) ∧
    (∀ p q, Beside (u ++ [y]) p q → ∃ a b, p.text.getLast? = some a ∧ q.text.head? = some b ∧ InitialPair a b) ∧
    ((pattern y.rafsi = s%"CVCCV" ∧ ∃ a b c d e, y.rafsi = [a, b, c, d, e] ∧ InitialPair c d) ∨
     (pattern y.rafsi = s%"CVC" ∧ y.text = y.rafsi ++ s%"y"))

/-- A CVC rafsi with y followed by nothing but vowels: such a word would fall apart into cmavo. -/
def Tosyhuhu (zs : List Slot) : Prop :=
  ∃ y rest, zs = y :: rest ∧ pattern y.rafsi = s%"CVC" ∧ y.text = y.rafsi ++ s%"y" ∧
    ∀ z ∈ rest, z.text.head? = some '\'' ∧ ∀ c ∈ z.text, ¬ Consonant c

/-- What a slot counts for the `consonants` option. -/
def Slot.count (s : Settings) (z : Slot) : Nat :=
  match z.kind with
  | .vv => if s.consonants = .cluster then 0 else 1
  | .exp =>
    if s.consonants ≠ .cluster ∧ (ConsonantInitial z.text ∨ (s.glides = true ∧ Onglide z.text)) then 1 else 0
  | _ => 2

/-- There are enough consonants: a glue consonant, or a cluster (CLUSTER), two (TWO_CONSONANTS) or one
(ONE_CONSONANT). A rafsi with a cluster or with a consonant at its end counts as two. -/
def Enough (s : Settings) (zs : List Slot) (h : Str) : Prop :=
  h = s%"r" ∨ h = s%"n" ∨ (if s.consonants = .oneConsonant then 1 else 2) ≤ (zs.map (Slot.count s)).sum

/-- The word. -/
def wordOf : List Slot → Str → Str
  | [], _ => []
  | z :: zs, h => z.text ++ h ++ (zs.map Slot.text).flatten

/-- The slots, with `h` between the first two, make a lujvo, or a cmevla if `cmevla` is set. -/
structure Legal (s : Settings) (cmevla : Bool) (zs : List Slot) (h : Str) : Prop where
  first : ∃ y z rest, zs = y :: z :: rest ∧ FirstHyphen s cmevla zs.length y z h
  joints : ∀ y z, Beside zs y z → Joint s.allowMz y z
  tosmabru : cmevla = false → ¬ Tosmabru zs
  tosyhuhu : cmevla = false → ¬ Tosyhuhu zs
  consonants : Enough s zs h
  ends : ∃ l, (wordOf zs h).getLast? = some l ∧ if cmevla then Consonant l else Vowel l

/-- The published score of a candidate: 1000 for each letter, 100 for each y, less ten times the shape score of
each rafsi, less the number of vowels, less one if the tie-break applies to the first two slots. -/
def cost (zs : List Slot) (h : Str) : Int :=
  1000 * ((wordOf zs h).length : Int) + 100 * (((wordOf zs h).count 'y' : Nat) : Int)
    - 10 * (((zs.map (fun z => shapeScore z.rafsi)).sum : Nat) : Int) - vowelCount (wordOf zs h)
    - if TieShape (wordOf (zs.take 2) h) then 1 else 0

/-- The slots represent the components, `i` being the number of the first of `n`. -/
inductive Represents (b : Build) (s : Settings) (n : Nat) : Nat → List Str → List Slot → Prop
  | nil {i} : Represents b s n i [] []
  | cons {i v vs z zs} : Usable b s v z.rafsi z.kind → z.Written (i == 0) (i + 1 == n) →
      Represents b s n (i + 1) vs zs → Represents b s n i (v :: vs) (z :: zs)

/-- `w` is a lujvo for the components `vs`, with score `sc`. -/
def LujvoOf (b : Build) (s : Settings) (cmevla : Bool) (vs : List Str) (w : Str) (sc : Int) : Prop :=
  ∃ zs h, Represents b s vs.length 0 vs zs ∧ Legal s cmevla zs h ∧ w = wordOf zs h ∧ sc = cost zs h

end Jvotci.Spec
