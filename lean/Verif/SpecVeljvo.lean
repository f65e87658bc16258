import Verif.SpecExtended
import Verif.Rafsi

/-!
# How the components of a lujvo are shown
-/

namespace Jvotci.Spec

open Jvotci

/-- `word` is listed with the rafsi `r`, or is a listed word that is `r`, of four letters, and a vowel. (`brod` is
nobody's: there are five such words.) -/
def Selrafsi (r word : Str) : Prop :=
  (∃ rs, (word, rs) ∈ RAFSI_LIST ∧ r ∈ rs) ∨
  (r.length = 4 ∧ '\'' ∉ r ∧ r ≠ s%"brod" ∧ ∃ v rs, Vowel v ∧ word = r ++ [v] ∧ (word, rs) ∈ RAFSI_LIST)

/-- How the piece `r` is shown: as the word it stands for; if there is none, as itself, with hyphens perhaps. -/
def Shown (r entry : Str) : Prop :=
  Selrafsi r entry ∨
  ((∀ w, ¬ Selrafsi r w) ∧ (entry = r ∨ entry = r ++ s%"-" ∨ entry = s%"-" ++ r ++ s%"-"))

/-- `word` is a listed word that is `r`, of four letters, and the first vowel, in the order a e i o u, that makes a listed word of it. -/
def StemOf (r word : Str) : Prop :=
  r.length = 4 ∧ '\'' ∉ r ∧ r ≠ s%"brod" ∧ ∃ a v b, s%"aeiou" = a ++ v :: b ∧ word = r ++ [v] ∧ (∃ rs, (word, rs) ∈ RAFSI_LIST) ∧
    ∀ u ∈ a, ∀ rs, (r ++ [u], rs) ∉ RAFSI_LIST

/-- `word` is the word that `r` stands for. -/
def StandsFor (r word : Str) : Prop := StemOf r word ∨ ((∀ w, ¬ StemOf r w) ∧ ∃ rs, (word, rs) ∈ RAFSI_LIST ∧ r ∈ rs)

/-- How a CLL rafsi is shown: as the word it stands for; if there is none, a rafsi of five letters as it is, a gismu without its last vowel with a
dash behind it, any other rafsi between dashes. -/
def ShownRafsi (r entry : Str) : Prop :=
  StandsFor r entry ∨ ((∀ w, ¬ StandsFor r w) ∧
    entry = if r.length = 5 then r else if r.length = 4 ∧ '\'' ∉ r then r ++ s%"-" else s%"-" ++ r ++ s%"-")

/-- How the part of a word between two y is shown: CLL rafsi one by one; a zi'evla as it is or, if it lacks its last vowel, with a dash behind it; an
experimental rafsi between dashes. `last`: the part ends the word; `whole`: it does, and nothing is missing. A zi'evla of one syllable, which only
exp_rafsi_shapes allows, is shown like an experimental rafsi or, if it ends the word and would be a brivla with a behind it, as if an a were missing. -/
def PartShown (s : Settings) (p : YPart) (last whole : Bool) (entries : List Str) : Prop :=
  match p.kind with
  | .cvc | .rafsi => All2 ShownRafsi (p.pieces.filter (fun x => ¬ Hyphen x)) entries
  | .zihevla =>
    ((∃ n, Syllables .nothing (p.whole whole) n ∧ 2 ≤ n) → entries = [if p.trail = true ∨ whole = true then p.core else p.core ++ s%"-"]) ∧
    ((¬ ∃ n, Syllables .nothing (p.whole whole) n ∧ 2 ≤ n) →
      entries = [if last = true ∧ isBrivla .linked { yHyphens := s.yHyphens, allowMz := s.allowMz } (p.core ++ s%"a") = .ok true
        then p.core ++ s%"-" else s%"-" ++ p.core ++ s%"-"])
  | .exp => entries = [s%"-" ++ p.core ++ s%"-"]

/-- How the parts of a word are shown. `cmevla`: the last part, too, lacks its last vowel if it is a zi'evla. -/
inductive PartsShown (s : Settings) (cmevla : Bool) : List YPart → List Str → Prop
  | nil : PartsShown s cmevla [] []
  | cons {p ps e es} : PartShown s p ps.isEmpty (ps.isEmpty && !cmevla) e → PartsShown s cmevla ps es → PartsShown s cmevla (p :: ps) (e ++ es)

end Jvotci.Spec
