import Verif.SpecExtended
import Verif.SpecTanru

/-!
# Anything joined by y

Rafsi and zi'evla joined by hyphens with y. What stands before a y decides whether there is an apostrophe before it, what stands
behind decides whether there is one after it.
-/

namespace Jvotci.Spec

open Jvotci

/-- A rafsi, with a proper diphthong if it is CVV. -/
def ProperRafsi (mz : Bool) (x : Str) : Prop :=
  Rafsi mz x ∧ ∀ c a b, x = [c, a, b] → Vowel a → Vowel b → [a, b] ∈ [s%"ai", s%"ei", s%"oi", s%"au"]

/-- `z` is a zi'evla (in which, with `allow_mz`, there is no mz). -/
def ZihevlaWord (s : Settings) (z : Str) : Prop := analyseBrivla .linked s z = .ok (.zihevla, [z]) ∧ NoMzWord s z

/-- A rafsi before y or 'y: y after a consonant, 'y after a vowel. -/
def RafsiBefore (s : Settings) (x h : Str) : Prop :=
  ProperRafsi s.allowMz x ∧
    (((∃ c, x.getLast? = some c ∧ Consonant c) ∧ h = s%"y") ∨ ((∃ c, x.getLast? = some c ∧ Vowel c) ∧ h = s%"'y"))

/-- A zi'evla before 'y, or a zi'evla without its last vowel before y. It must be one with a as well, and not be rafsi. -/
def ZihevlaBefore (s : Settings) (x h : Str) : Prop :=
  (ZihevlaWord s x ∧ h = s%"'y") ∨
  (ZihevlaWord s (x ++ s%"a") ∧ x.getLast? ≠ some '\'' ∧ ((∃ c, x.getLast? = some c ∧ Consonant c) → Unreadable s x) ∧ h = s%"y")

/-- A rafsi at the end of a word. -/
def RafsiEnd (s : Settings) (z : Str) : Prop := ProperRafsi s.allowMz z ∧ ∃ c, z.getLast? = some c ∧ Vowel c

/-- The hyphen, if `x` follows: an apostrophe before a vowel that is not an on-glide. -/
def hyphenTo (h x : Str) : Str := h ++ (if VowelInitial x ∧ ¬ Onglide x then s%"'" else [])

/-- What comes first. -/
def firstOf : List (Str × Str) → Str → Str
  | [], z => z
  | (x, _) :: _, _ => x

/-- The pieces of the word. -/
def joinY : List (Str × Str) → Str → List Str
  | [], z => [z]
  | (x, h) :: l, z => x :: hyphenTo h (firstOf l z) :: joinY l z

end Jvotci.Spec
