import Verif.Lemmas.Err

/-!
# C18, C40: how input is read
-/

namespace Jvotci

open Spec

/-! ## C18 -/

theorem splitWsAux_space {u t : Str} (h : u.all isSpace = true) : splitWsAux [] (u ++ t) = splitWsAux [] t := by
  induction u with
  | nil => rfl
  | cons c u ih =>
    rw [List.all_cons, Bool.and_eq_true] at h
    rw [List.cons_append, splitWsAux, if_pos h.1]
    simpa using ih h.2

theorem splitWsAux_word {w rest : Str} (h : w.any isSpace = false)
    (hr : ∀ c, rest.head? = some c → isSpace c = true) : ∀ acc : Str, acc ++ w ≠ [] →
    splitWsAux acc (w ++ rest) = (acc.reverse ++ w) :: splitWsAux [] rest := by
  induction w with
  | nil =>
    intro acc hne
    rw [List.append_nil] at hne
    cases rest with
    | nil => simp [splitWsAux, hne]
    | cons c rest =>
      have := hr c rfl
      rw [List.nil_append, splitWsAux, if_pos this, splitWsAux, if_pos this]
      simp [hne]
  | cons c w ih =>
    intro acc _
    rw [List.any_cons, Bool.or_eq_false_iff] at h
    rw [List.cons_append, splitWsAux, if_neg (by simp [h.1]), ih h.2 (c :: acc) (by simp)]
    simp

theorem splitWs_spaced {text : Str} {ws : List Str} (h : Spaced text ws) : splitWs text = ws := by
  unfold splitWs
  induction h with
  | @none u hu =>
    have := splitWsAux_space (t := []) hu
    rw [List.append_nil] at this
    rw [this]
    rfl
  | word hu hw hs hr _ ih =>
    rw [List.append_assoc, splitWsAux_space hu, splitWsAux_word hs hr [] (by simpa using hw), ih]
    rfl

/-- **C18.** `get_lujvo` of a text is `get_lujvo` of the list of its words, however they are spaced. -/
theorem C18_text_or_list {text : Str} {ws : List Str} (h : Spaced text ws) (b : Build) (s : Settings) (g : Bool) :
    getLujvo b s g (.str text) = getLujvo b s g (.list ws) ∧
    getLujvoWithAnalytics b s g (.str text) = getLujvoWithAnalytics b s g (.list ws) := by
  have : getLujvoWithAnalytics b s g (.str text) = getLujvoWithAnalytics b s g (.list ws) := by
    unfold getLujvoWithAnalytics processTanru
    dsimp only
    rw [splitWs_spaced h]
  refine ⟨?_, this⟩
  unfold getLujvo
  rw [this]

/-- Every text is spaced in some way. -/
theorem C18_every_text (text : Str) : ∃ ws, Spaced text ws := by
  generalize hn : text.length = n
  induction n using Nat.strongRecOn generalizing text with
  | _ n ih =>
    have e1 : text = text.takeWhile isSpace ++ text.dropWhile isSpace := List.takeWhile_append_dropWhile.symm
    have all1 : ∀ (p : Char → Bool) (l : Str), (l.takeWhile p).all p = true := by
      intro p l
      induction l with
      | nil => rfl
      | cons a l ih =>
        rw [List.takeWhile_cons]
        split
        · rename_i h; rw [List.all_cons, h, ih]; rfl
        · rfl
    cases hr : text.dropWhile isSpace with
    | nil =>
      refine ⟨[], ?_⟩
      rw [e1, hr, List.append_nil]
      exact .none (all1 _ _)
    | cons c t =>
      have hc : isSpace c = false := by
        have : ∀ l : Str, ∀ c t, l.dropWhile isSpace = c :: t → isSpace c = false := by
          intro l
          induction l with
          | nil => intro c t h; simp at h
          | cons a l ih =>
            intro c t h
            rw [List.dropWhile_cons] at h
            split at h
            · exact ih c t h
            · rename_i h1; cases h; simpa using h1
        exact this _ _ _ hr
      have e2 : c :: t = (c :: t).takeWhile (fun c => !isSpace c) ++ (c :: t).dropWhile (fun c => !isSpace c) :=
        List.takeWhile_append_dropWhile.symm
      have hw : (c :: t).takeWhile (fun c => !isSpace c) = c :: t.takeWhile (fun c => !isSpace c) := by
        rw [List.takeWhile_cons]; simp [hc]
      have hlen := congrArg List.length e1
      have hlen2 := congrArg List.length e2
      rw [hr, List.length_append] at hlen
      rw [hw, List.length_append] at hlen2
      simp only [List.length_cons] at hlen hlen2
      obtain ⟨ws, hws⟩ := ih ((c :: t).dropWhile (fun c => !isSpace c)).length (by omega) _ rfl
      refine ⟨(c :: t.takeWhile (fun c => !isSpace c)) :: ws, ?_⟩
      rw [e1, hr, e2, hw, ← List.append_assoc]
      refine .word (all1 _ _) (by simp) ?_ ?_ hws
      · rw [← hw]
        have := all1 (fun c => !isSpace c) (c :: t)
        rw [List.any_eq_not_all_not, this]; rfl
      · intro d hd
        have : ∀ l : Str, ∀ d, (l.dropWhile (fun c => !isSpace c)).head? = some d → isSpace d = true := by
          intro l
          induction l with
          | nil => intro d h; simp at h
          | cons a l ih =>
            intro d h
            rw [List.dropWhile_cons] at h
            split at h
            · exact ih d h
            · rename_i h1; simp only [List.head?_cons, Option.some.injEq] at h; subst h; simpa using h1
        exact this _ _ hd

example : Spaced s%"  lujvo\tzbasu " [s%"lujvo", s%"zbasu"] :=
  .word (u := s%"  ") (w := s%"lujvo") (rest := s%"\tzbasu ") (by decide) (by decide) (by decide) (by decide)
    (.word (u := s%"\t") (w := s%"zbasu") (rest := s%" ") (by decide) (by decide) (by decide) (by decide)
      (.none (by decide)))
example : getLujvo .linked {} false (.str s%"  lujvo\tzbasu ") = .ok s%"jvozba" := by decide +kernel

/-! ## C40 -/

/-- `normalise` computes the reading of a word. -/
theorem C40_normalise_is_reading (w : Str) (h : w ≠ []) : normalise w = .ok (reading w) := normalise_eq h

/-- **C40** is false as stated: a second full stop, or a word of commas, is not in normal form. -/
theorem C40_false : ¬ (∀ w n, normalise w = .ok n → normalise n = .ok n) := by
  intro h
  exact absurd (h s%"..a" s%".a" (by decide)) (by decide)

theorem C40_false_empty : normalise s%"," = .ok [] ∧ normalise [] = .error .index := by decide

/-- **C40, partial.** Normalising again changes nothing if the result is not empty and does not start with a
full stop. (Missing from the full statement: exactly those two exceptions, see `C40_false`.) -/
theorem C40_normalise_idempotent_partial {w n : Str} (h : normalise w = .ok n) (hne : n ≠ [])
    (hd : n.head? ≠ some '.') : normalise n = .ok n := by
  obtain ⟨-, rfl⟩ := normalise_ok h
  rw [normalise_eq hne]
  have h2 : reading (reading w) = (reading w).flatMap readChar := by
    generalize reading w = n at hd
    unfold reading
    split
    · exact absurd rfl hd
    · rfl
  rw [h2, flatMap_readChar_stable (fun d => reading_chars)]

/-- The exceptions are real: with a leading full stop the second pass removes it. -/
theorem C40_exceptions {w n : Str} (h : normalise w = .ok n) (hn : n = [] ∨ n.head? = some '.') :
    normalise n ≠ .ok n := by
  rcases hn with rfl | hn
  · intro h; cases h
  · obtain ⟨-, rfl⟩ := normalise_ok h
    have hst : ∀ d ∈ reading w, readChar d = [d] := fun d => reading_chars
    generalize reading w = n at hn hst
    cases n with
    | nil => simp at hn
    | cons c t =>
      simp at hn
      subst hn
      rw [normalise_eq (by simp)]
      rw [show reading ('.' :: t) = t.flatMap readChar from by simp [reading],
        flatMap_readChar_stable (v := t) (fun d hd => hst d (by simp [hd]))]
      intro h
      simp at h

example : normalise s%".La,TKERLOh" = .ok s%"latkerlo'" := by decide

end Jvotci
