import Verif.Lemmas.Table

/-!
# C29: the rafsi table
-/

namespace Jvotci

open Spec

/-- **C29.** Every listed rafsi is a CLL rafsi of three letters or of the form CV'V, belongs to one word
only, and is found again under that word by the reverse search of `get_veljvo`. -/
theorem C29_rafsi_table {word : Str} {rs : List Str} {r : Str} (he : (word, rs) ∈ RAFSI_LIST) (hr : r ∈ rs) :
    Rafsi false r ∧ (r.length = 3 ∨ ∃ a b c, r = [a, b, '\'', c]) ∧
    (∀ word' rs', (word', rs') ∈ RAFSI_LIST → r ∈ rs' → word' = word) ∧
    searchSelrafsi r = some word := by
  obtain ⟨h1, h2⟩ := table_shapes _ he r hr
  refine ⟨isValidRafsi_iff.1 h2, ?_, ?_, searchSelrafsi_table he hr⟩
  · rcases h1 with hs | hs | hs | hs
    · obtain ⟨a, b, c, rfl, -⟩ := tarmi_cvc.1 hs; simp
    · obtain ⟨a, b, c, rfl, -⟩ := tarmi_cvv.1 hs; simp
    · obtain ⟨a, b, c, rfl, -⟩ := tarmi_cvhv.1 hs; simp
    · obtain ⟨a, b, c, rfl, -⟩ := tarmi_ccv.1 hs; simp
  · intro word' rs' he' hr'
    have := table_unique he' he hr' hr
    cases this
    rfl

example : (s%"lujvo", [s%"luv", s%"jvo"]) ∈ RAFSI_LIST := by decide +kernel

end Jvotci
