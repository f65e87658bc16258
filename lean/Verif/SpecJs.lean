import Verif.Js

/-!
What it means that the JavaScript package gives the same answer as the Python package (C78, C79).
Written without reference to the lemmas.
-/

namespace Jvotci.Spec

/-- Exceptions of the same name in Python and JavaScript. -/
inductive SameError : Err → JsErr → Prop
  | decomposition : SameError .decomposition .decomposition
  | invalidCluster : SameError .invalidCluster .invalidCluster
  | noLujvo : SameError .noLujvo .noLujvo
  | nonLojban : SameError .nonLojban .nonLojban
  | notBrivla : SameError .notBrivla .notBrivla
  | notZihevla : SameError .notZihevla .notZihevla

/-- The same result, or exceptions of the same name. -/
def SameAnswer {α : Type} (py : Except Err α) (js : Except JsErr α) : Prop :=
  (∃ a, py = .ok a ∧ js = .ok a) ∨ ∃ e e', py = .error e ∧ js = .error e' ∧ SameError e e'

/-- The white space between the words of a tanru is white space in both languages, and nothing else is in either: no
character of the string is U+001C to U+001F or U+0085, which separate words for Python only, or U+FEFF, for JavaScript only. -/
def CommonSpaces : Tanru → Prop
  | .list _ => True
  | .str w => ∀ c ∈ w, c.toNat ∉ [0x1C, 0x1D, 0x1E, 0x1F, 0x85, 0xFEFF]

/-- The tanru has more than one word: a list of two or more, or a string with white space inside it. `space` says what white space
is. -/
def SeveralWords (space : Char → Bool) : Tanru → Prop
  | .list l => 2 ≤ l.length
  | .str w => ∃ u c v, w = u ++ c :: v ∧ space c = true ∧ (∃ d ∈ u, space d = false) ∧ ∃ d ∈ v, space d = false

/-- A piece that is one of the letters y, n and r. -/
def OneLetterHyphen (p : Str) : Prop := p = s%"y" ∨ p = s%"n" ∨ p = s%"r"

instance (p : Str) : Decidable (OneLetterHyphen p) := inferInstanceAs (Decidable (_ ∨ _))

end Jvotci.Spec
