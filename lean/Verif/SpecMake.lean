import Verif.Spec
import Verif.MakeRafsi

/-!
# What the rafsi dictionary should contain
-/

namespace Jvotci.Spec

open Jvotci

/-- The export has one entry per word. -/
def OneEntryEach (root : List Valsi) : Prop := (root.map Valsi.word).Nodup

/-- An entry for a gismu, unless it is experimental and agrees with a gismu in the first four letters. -/
def GismuEntry (root : List Valsi) (v : Valsi) : Prop :=
  v ∈ root ∧ (v.type = s%"gismu" ∨ (v.type = s%"experimental gismu" ∧
    ∀ g ∈ root, g.type = s%"gismu" → g.word.take 4 ≠ v.word.take 4))

/-- An entry for such a gismu or for a cmavo. -/
def DictEntry (root : List Valsi) (v : Valsi) : Prop :=
  GismuEntry root v ∨ (v ∈ root ∧ (v.type = s%"cmavo" ∨ v.type = s%"experimental cmavo"))

/-- The dictionary, or the list of exceptions, gives `w` the rafsi `r`. -/
def Assigned (root : List Valsi) (w r : Str) : Prop :=
  (∃ v, DictEntry root v ∧ v.word = w ∧ r ∈ v.rafsi) ∨ ∃ rs, (w, rs) ∈ makeExceptions ∧ r ∈ rs

/-- A lower-case letter. -/
def LowerCase (c : Char) : Prop := 'a' ≤ c ∧ c ≤ 'z'

/-- A consonant and two letters, with or without an apostrophe between these; two consonants are an initial pair. -/
def Proposable (r : Str) : Prop :=
  (∃ a b c, Consonant a ∧ LowerCase b ∧ LowerCase c ∧ (r = [a, b, c] ∨ r = [a, b, '\'', c])) ∧
  ∀ a b t, r = a :: b :: t → Consonant b → InitialPair a b

/-- In the text, `r` stands between hyphens, with a character before and no lower-case letter after. -/
structure Mentions (text u : Str) (a : Char) (r v : Str) : Prop where
  eq : text = u ++ a :: '-' :: r ++ '-' :: v
  proposable : Proposable r
  after : ∀ z, v.head? = some z → ¬ LowerCase z

/-- The notes of an entry for `w` mention the rafsi `r`, and the word "rafsi". -/
def Proposed (root : List Valsi) (w r : Str) : Prop :=
  ∃ v, DictEntry root v ∧ v.word = w ∧ ∃ text, v.notes = some text ∧ Occurs s%"rafsi" (lower text) ∧
    ∃ u a t, Mentions text u a r t

/-- The same, and the mention is set off from any other: neither of the two characters before it is a hyphen. -/
def ProposedApart (root : List Valsi) (w r : Str) : Prop :=
  ∃ v, DictEntry root v ∧ v.word = w ∧ ∃ text, v.notes = some text ∧ Occurs s%"rafsi" (lower text) ∧
    ∃ u a t, Mentions text u a r t ∧ a ≠ '-' ∧ u.getLast? ≠ some '-'

instance (root : List Valsi) : Decidable (OneEntryEach root) := inferInstanceAs (Decidable (List.Nodup _))
instance (c : Char) : Decidable (LowerCase c) := inferInstanceAs (Decidable (_ ∧ _))

end Jvotci.Spec
