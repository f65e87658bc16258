import Verif.Cli

/-!
# Specification of the command-line sessions: what the settings are after some lines
-/

namespace Jvotci.Spec

/-- The words of all commands among the lines; a command begins with /. -/
def commandWords (lines : List Str) : List Str :=
  lines.flatMap fun l => match l with
    | '/' :: cs => splitWs (lower cs)
    | _ => []

/-- `v` is what the last of `words` that is found in `table` stands for, or `default` if there is none. -/
def Chosen {α : Type} (table : List (Str × α)) (default : α) (words : List Str) (v : α) : Prop :=
  (v = default ∧ ∀ w ∈ words, ∀ x, (w, x) ∉ table) ∨
  ∃ u w t, words = u ++ w :: t ∧ (w, v) ∈ table ∧ ∀ w' ∈ t, ∀ x, (w', x) ∉ table

/-- The words for each option, and the setting at the start. -/
structure SettingsAfter (words : List Str) (s : Settings) : Prop where
  yHyphens : Chosen [(s%"standard", .standard), (s%"allow", .allowY), (s%"force", .forceY)] .standard words s.yHyphens
  expRafsi : Chosen [(s%"more", true), (s%"less", false)] false words s.expRafsi
  consonants : Chosen [(s%"cluster", .cluster), (s%"2c", .twoConsonants), (s%"1c", .oneConsonant)] .cluster words s.consonants
  glides : Chosen [(s%"glide", true), (s%"glidnt", false)] false words s.glides
  allowMz : Chosen [(s%"mz", true), (s%"mznt", false)] false words s.allowMz

/-- The same for the choice between brivla and cmevla. -/
def CmevlaAfter (words : List Str) (g : Bool) : Prop := Chosen [(s%"cmevla", true), (s%"brivla", false)] false words g

/-- The letter that stands for an option that is on or off. -/
def onOff : List (Bool × Char) := [(true, 'T'), (false, 'F')]

/-- The five letters that show the settings: hyphens, experimental rafsi, consonants, glides, mz. -/
def PromptLetters (s : Settings) (text : Str) : Prop :=
  ∃ y e c g m, text = [y, e, c, g, m] ∧ (s.yHyphens, y) ∈ [(YHyphens.standard, 'S'), (.allowY, 'A'), (.forceY, 'F')] ∧
    (s.expRafsi, e) ∈ onOff ∧ (s.consonants, c) ∈ [(Consonants.cluster, 'C'), (.twoConsonants, 'T'), (.oneConsonant, 'O')] ∧
    (s.glides, g) ∈ onOff ∧ (s.allowMz, m) ∈ onOff

end Jvotci.Spec
