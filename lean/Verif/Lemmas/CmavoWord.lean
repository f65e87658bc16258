import Verif.Lemmas.Cmavo
import Verif.Lemmas.GluedTos

/-!
# Helper lemmas: a gismu without its last vowel, y and a cmavo
-/

namespace Jvotci

open Spec

theorem leading_cases (x : Str) : (leading false x = s%"'" ∧ VowelInitial x ∧ ¬ Onglide x) ∨
    (leading false x = [] ∧ ¬ (VowelInitial x ∧ ¬ Onglide x)) := by
  unfold leading
  by_cases h : VowelInitial x ∧ ¬ Onglide x
  · left; rw [if_pos ⟨rfl, h⟩]; exact ⟨rfl, h⟩
  · right; rw [if_neg (fun h' => h h'.2)]; exact ⟨rfl, h⟩

theorem stem_noFall {s : Settings} {m : Str} (h : m.length = 4) : ¬ FallsOff s m := by
  rintro ⟨x, r, rfl, hx, hr⟩
  have hxl : 2 ≤ x.length := by
    rcases hx with ⟨c, a, b, -, -, rfl | rfl⟩ | ⟨hx, -⟩
    · simp
    · simp
    · have := congrArg List.length hx
      simp [pattern] at this
      omega
  rw [List.length_append] at h
  have h3 : 3 ≤ r.length := by
    rcases hr with ⟨hr, -⟩ | ⟨qs, rfl, hq | hq⟩
    · exact (rafsi_length hr).1
    · obtain ⟨u, p, rfl, hp⟩ := reading_last hq.reading
      have := (rafsi_length hp).1
      simp only [List.flatten_append, List.flatten_cons, List.flatten_nil, List.append_nil, List.length_append]
      omega
    · obtain ⟨u, p, rfl, hp⟩ := reading_last hq.reading
      have := (rafsi_length hp).1
      simp only [List.flatten_append, List.flatten_cons, List.flatten_nil, List.append_nil, List.length_append]
      omega
  omega

theorem stem_letters {mz : Bool} {m : Str} {c : Char} (h : Gismu mz (m ++ [c])) :
    (∀ d ∈ m, Vowel d ∨ Consonant d) ∧ ConsonantInitial m ∧ ¬ VowelRafsi m := by
  have key : ∀ {a b d f e : Char}, m ++ [c] = [a, b, d, f, e] → m = [a, b, d, f] := by
    intro a b d f e h
    have : m ++ [c] = [a, b, d, f] ++ [e] := h
    exact (List.append_inj' this rfl).1
  generalize e : m ++ [c] = v at h
  cases h with
  | cvccv ha hb hp he =>
    rw [key e]
    refine ⟨by simp [ha, hb, hp.1, hp.2.1], ha, ?_⟩
    rintro ⟨x, y, z, hy, hz, h | h⟩
    · cases h
    · cases h
      exact vowel_not_consonant hz hp.2.1
  | ccvcv hi hc hd he =>
    have h1 := (isConsonant_iff _).1 (initial_cons hi).1
    have h2 := (isConsonant_iff _).1 (initial_cons hi).2
    rw [key e]
    refine ⟨by simp [h1, h2, hc, hd], h1, ?_⟩
    rintro ⟨x, y, z, hy, hz, h | h⟩
    · cases h
    · cases h
      exact vowel_not_consonant hy h2

/-- A cmavo that is a CLL rafsi, or none. -/
theorem cmavo_rafsi {mz : Bool} {x : Str} (h : CmavoShape x) (hv : VowelRafsi x) (hc : ConsonantInitial x) : Rafsi mz x ∧ Diph x := by
  obtain ⟨c, a, b, ha, hb, rfl | rfl⟩ := hv
  · refine ⟨.cvv hc ha hb, ?_⟩
    intro c' a' b' e' _ _
    cases e'
    obtain ⟨o, n, e, hn, ho⟩ := h
    have hr : Run Vowel (o ++ n) [c] [a, b] [] := by
      refine ⟨e.symm, by simp, by simp [ha, hb], ?_, by simp⟩
      intro d hd hdv
      cases hd
      exact vowel_not_consonant hdv hc
    rcases nuclei_run hn ho hr with ⟨e, -⟩ | ⟨-, hy⟩
    · cases e
    · rcases nucleus_cases hy with ⟨a, e, -⟩ | ⟨a, b, e, h⟩
      · cases e
      · cases e; exact h
  · exact ⟨.cvhv hc ha hb, diph_long (by simp)⟩

theorem cmavo_word_letters {mz : Bool} {m x : Str} {c : Char} (hg : Gismu mz (m ++ [c])) (hx : CmavoShape x) :
    reading (m ++ yBefore x ++ x) = m ++ yBefore x ++ x := by
  refine reading_lettersY fun d hd => ?_
  have hm := (stem_letters hg).1
  have hxl := (cmavo_letters hx).1
  simp only [yBefore, List.mem_append] at hd
  rcases hd with (hd | hd | hd) | hd
  · exact (hm d hd).elim .inl (fun h => .inr (.inl h))
  · simp at hd; exact .inr (.inr (.inr hd))
  · rcases leading_cases x with ⟨e, -⟩ | ⟨e, -⟩ <;> rw [e] at hd <;> simp at hd
    exact .inr (.inr (.inl hd))
  · rcases hxl d hd with h | h | h
    · exact .inl h
    · exact .inr (.inl h)
    · exact .inr (.inr (.inl h))

/-- A lujvo that ends in y and a cmavo ends in a CLL rafsi. -/
theorem cmavo_notLujvo {s : Settings} {m x : Str} (hx : CmavoShape x) (hv : ¬ VowelRafsi x) (u : Str) {qs : List Str} (h : LujvoPieces s qs) :
    qs.flatten ≠ u ++ (m ++ yBefore x ++ x) := by
  intro e
  refine hv (reading_cmavo (w := u ++ (m ++ yBefore x)) h.reading hx (by rw [e]; simp) (.inr ⟨u ++ m, ?_⟩))
  unfold yBefore
  rcases leading_cases x with ⟨e, -⟩ | ⟨e, -⟩ <;> rw [e]
  · right; simp
  · left; simp

theorem y_split {a b c d : Str} (h : 'y' ∉ b) (h' : 'y' ∉ d) (e : a ++ ['y'] ++ b = c ++ ['y'] ++ d) : b = d := by
  rcases List.append_eq_append_iff.1 e with ⟨k, e1, e2⟩ | ⟨k, e1, e2⟩
  · cases hk : k.getLast? with
    | none => simp at hk; subst hk; exact e2
    | some l =>
      obtain ⟨k', rfl⟩ := List.getLast?_eq_some_iff.1 hk
      rw [← List.append_assoc] at e1
      have := (List.append_inj' e1 rfl).2
      simp at this
      subst this
      exact absurd (by rw [e2]; simp) h
  · cases hk : k.getLast? with
    | none => simp at hk; subst hk; exact e2.symm
    | some l =>
      obtain ⟨k', rfl⟩ := List.getLast?_eq_some_iff.1 hk
      rw [← List.append_assoc] at e1
      have := (List.append_inj' e1 rfl).2
      simp at this
      subst this
      exact absurd (by rw [e2]; simp) h'

theorem joinParts_last : ∀ {u : List YPart} {p : YPart}, u ≠ [] → joinParts (u ++ [p]) = joinParts u ++ s%"y" ++ p.text
  | [], _, h => absurd rfl h
  | [_], _, _ => rfl
  | a :: b :: u, p, _ => by
    have := joinParts_last (u := b :: u) (p := p) (by simp)
    simp only [List.cons_append, joinParts] at this ⊢
    rw [this]
    simp

end Jvotci
