import Verif.Props.Raises
import Verif.Props.Js

/-!
# C79: tanru for which Python raises no IndexError

`C79` compares the two versions where Python does not raise `IndexError`; by `C84` that can be said of the words.
-/

namespace Jvotci

open Spec

theorem raises_no_index {s : Settings} {g : Bool} {t : Tanru} {ws : List Str} (hws : Words t ws) (h2 : 2 ≤ ws.length)
    (hne : ∀ w ∈ ws, reading w ≠ [])
    (hr : s.yHyphens ≠ .forceY → ∀ w ∈ ws, ∀ x i j, reading w = List.replicate i '-' ++ x ++ List.replicate (j + 1) '-' → ¬ LateR x) :
    getLujvoWithAnalytics .linked s g t ≠ .error .index ∧ getLujvo .linked s g t ≠ .error .index := by
  have key : ¬ (getLujvoWithAnalytics .linked s g t = .error .index ∨ getLujvo .linked s g t = .error .index) := by
    intro h
    rcases C84_get_lujvo hws h with h | h | h | h | ⟨-, h | ⟨w, hw, h⟩ | ⟨h1, w, hw, x, i, j, h, h'⟩⟩ | h
    · cases h
    · cases h
    · cases h
    · cases h
    · omega
    · exact hne w hw h
    · exact hr h1 w hw x i j h h'
    · cases h.1
  exact ⟨fun h => key (.inl h), fun h => key (.inr h)⟩

/-- **C79**, part: without `exp_rafsi_shapes`, of two words or more of which something is left after normalisation, and of which none has
a dash behind r after two vowels (unless all hyphens are y), both versions make the same lujvo with the same score and rafsi, or raise the
exception of the same name. Missing: `exp_rafsi_shapes` (see `C79_words_partial`) and the spaces that only one of the languages knows. -/
theorem C79_agree_partial (s : Settings) (g : Bool) (t : Tanru) (ws : List Str) (hws : Words t ws) (ht : CommonSpaces t)
    (hexp : s.expRafsi = false) (h2 : 2 ≤ ws.length) (hne : ∀ w ∈ ws, reading w ≠ [])
    (hr : s.yHyphens ≠ .forceY → ∀ w ∈ ws, ∀ x i j, reading w = List.replicate i '-' ++ x ++ List.replicate (j + 1) '-' → ¬ LateR x) :
    SameAnswer (getLujvoWithAnalytics .linked s g t) (jsGetLujvoWithAnalytics s g t) ∧
    SameAnswer (getLujvo .linked s g t) (jsGetLujvo s g t) := by
  obtain ⟨h3, h4⟩ := raises_no_index (s := s) (g := g) hws h2 hne hr
  obtain ⟨h5, h6⟩ := C79_get_lujvo_partial s g t hexp ht
  exact ⟨h5 h3, h6 h4⟩

/-- **C79**, part: for words without dashes the same holds with all options. Missing: components with dashes. -/
theorem C79_no_dashes_partial (s : Settings) (g : Bool) (t : Tanru) (ws : List Str) (hws : Words t ws) (ht : CommonSpaces t)
    (h2 : 2 ≤ ws.length) (hne : ∀ w ∈ ws, reading w ≠ [] ∧ '-' ∉ reading w) :
    SameAnswer (getLujvoWithAnalytics .linked s g t) (jsGetLujvoWithAnalytics s g t) ∧
    SameAnswer (getLujvo .linked s g t) (jsGetLujvo s g t) := by
  obtain ⟨h3, h4⟩ := raises_no_index (s := s) (g := g) hws h2 (fun w hw => (hne w hw).1) fun _ w hw x i j h _ =>
    (hne w hw).2 (by rw [h]; simp [List.replicate_succ])
  obtain ⟨h5, h6⟩ := C79_words_partial s g t ws hws ht fun w hw x ⟨_, i, j, h⟩ => absurd (by rw [h]; simp [List.replicate_succ]) (hne w hw).2
  exact ⟨h5 h3, h6 h4⟩

/-- The hypotheses are met, and the answers are these. -/
example : CommonSpaces (.list [s%"spageti", s%"mlatu"]) ∧ (∀ w ∈ [s%"spageti", s%"mlatu"], reading w ≠ [] ∧ '-' ∉ reading w) ∧
    getLujvo .linked {} false (.list [s%"spageti", s%"mlatu"]) = .ok s%"spageti'ymlatu" ∧
    jsGetLujvo {} false (.list [s%"spageti", s%"mlatu"]) = .ok s%"spageti'ymlatu" ∧
    jsGetLujvo {} false (.list [s%"ui", s%"mlatu"]) = .error .noLujvo ∧
    jsGetLujvo {} false (.list [s%"mlatu", s%"wlama"]) = .error .nonLojban :=
  ⟨trivial, by decide +kernel, by decide +kernel, by decide +kernel, by decide +kernel, by decide +kernel⟩

example : (∀ w ∈ [s%"klam-", s%"mlatu"], ∀ x i j, reading w = List.replicate i '-' ++ x ++ List.replicate (j + 1) '-' → ¬ LateR x) := by
  rintro w hw x i j h ⟨u, a, b, rfl, -⟩
  have h3 := congrArg List.reverse h
  simp only [List.mem_cons, List.not_mem_nil, or_false] at hw
  rcases hw with rfl | rfl
  · have e : (reading s%"klam-").reverse = s%"-malk" := by decide
    rw [e] at h3
    cases j with
    | zero => simp at h3
    | succ j => rw [List.replicate_succ', List.replicate_succ'] at h3; simp at h3
  · have e : (reading s%"mlatu").reverse = s%"utalm" := by decide
    rw [e, List.replicate_succ'] at h3
    simp at h3

end Jvotci
