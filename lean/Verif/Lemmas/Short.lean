import Verif.Lemmas.Best
import Verif.Lemmas.Back
import Verif.Props.RoundTripWords

/-!
# Helper lemmas: what the score of a candidate says of its length
-/

namespace Jvotci

open Spec

/-- What a rafsi takes off the score. -/
def worth (x : Str) : Nat := 10 * shapeScore x + vowelCount x

theorem vowels_pattern (x : Str) : vowelCount x = (pattern x).count 'V' := by
  induction x with
  | nil => rfl
  | cons c x ih =>
    have e1 : vowelCount (c :: x) = vowelCount [c] + vowelCount x := vowelCount_append [c] x
    have e2 : pattern (c :: x) = pattern [c] ++ pattern x := by simp [pattern]
    rw [e1, e2, List.count_append, ih]
    congr 1
    unfold vowelCount pattern
    by_cases h : Vowel c
    · simp [h]
    · by_cases h' : Consonant c
      · simp [h, h']
      · by_cases h'' : c = '\''
        · subst h''; decide
        · simp [h, h', h'']

theorem worth_shape {x : Str} (h : shapeScore x ≠ 0) : 12 ≤ worth x ∧ worth x ≤ 82 := by
  unfold worth
  rw [vowels_pattern]
  unfold shapeScore at h ⊢
  generalize pattern x = p at h ⊢
  repeat' split at h
  all_goals first
    | exact absurd rfl h
    | (subst_vars; decide)

theorem worth_kind {x : Str} {k : Kind} (h : ShapeKind x k) : 12 ≤ worth x ∧ worth x ≤ 82 := by
  apply worth_shape
  unfold shapeScore
  rcases h with ⟨h, -⟩ | ⟨h, -⟩ | ⟨h, -⟩ | ⟨h, -⟩ | ⟨h, -⟩
  · simp only [List.mem_cons, List.not_mem_nil, or_false] at h
    rcases h with h | h <;> rw [h] <;> decide
  · rw [h]; decide
  · rw [h]; decide
  · simp only [List.mem_cons, List.not_mem_nil, or_false] at h
    rcases h with h | h <;> rw [h] <;> decide
  · simp only [List.mem_cons, List.not_mem_nil, or_false] at h
    rcases h with h | h <;> rw [h] <;> decide

theorem table_vowels : ∀ e ∈ RAFSI_LIST, vowelCount e.1 ≤ 12 := by
  have : RAFSI_LIST.all (fun e => decide (vowelCount e.1 ≤ 12)) = true := by decide +kernel
  intro e he
  have := List.all_eq_true.1 this e he
  simpa using this

theorem gismu_worth {mz : Bool} {v : Str} (h : Gismu mz v) : 12 ≤ worth v ∧ worth v ≤ 82 := by
  have hr : Rafsi mz v := .gismu h
  exact worth_kind ((kindOf_iff hr).2 rfl)

theorem wordType_gismu {b : Build} {s : Settings} {v : Str} (hl : ∀ c ∈ v, Vowel c ∨ Consonant c ∨ c = '\'')
    (h : WordType b s v .gismu) : Gismu s.allowMz v := by
  obtain ⟨ps, ha⟩ := h
  obtain ⟨n, hn, hacc⟩ := analyseR_ok (R := recN b (budget v.length)) ha
  obtain ⟨-, rfl⟩ := normalise_ok hn
  rw [reading_letters hl] at hacc
  generalize ht : BType.gismu = t at hacc
  cases hacc with
  | gismu _ _ hg => exact isGismu_iff.1 hg
  | zihevla => cases ht
  | kaha => split at ht <;> cases ht
  | parts => split at ht <;> cases ht

theorem stem_worth {mz : Bool} {x : Str} {c : Char} (h : Gismu mz (x ++ [c])) : 12 ≤ worth x ∧ worth x ≤ 82 := by
  have : Rafsi mz x := by
    generalize e : x ++ [c] = v at h
    cases h with
    | @cvccv p1 p2 p3 p4 p5 a1 a2 a3 a4 =>
      have := (List.append_inj' (s₁ := x) (s₂ := [p1, p2, p3, p4]) (t₂ := [p5]) e rfl).1
      subst this; exact .cvcc a1 a2 a3
    | @ccvcv p1 p2 p3 p4 p5 a1 a2 a3 a4 =>
      have := (List.append_inj' (s₁ := x) (s₂ := [p1, p2, p3, p4]) (t₂ := [p5]) e rfl).1
      subst this; exact .ccvc a1 a2 a3
  exact worth_kind ((kindOf_iff this).2 rfl)

/-- Two rafsi of the same component are worth much the same. -/
theorem usable_worth {b : Build} {s : Settings} {f l : Bool} {v x x' : Str} {k k' : Kind} {os : List RafsiOpt}
    (h : rafsiListFor (program b) s f l v = .ok os) (hu : Usable b s v x k) (hu' : Usable b s v x' k') :
    worth x ≤ worth x' + 82 := by
  by_cases hd : v.getLast? = some '-'
  · rw [(usable_dash hu hd rfl).1, (usable_dash hu' hd rfl).1]; omega
  · have hl := (rafsiListFor_letters h).1 hd
    cases hu with
    | listed _ _ _ hk => have := worth_kind hk; omega
    | stem _ hg e => have := stem_worth (e ▸ wordType_gismu hl hg); omega
    | word _ hg =>
      rcases hg with hg | hg
      · have := gismu_worth (wordType_gismu hl hg); omega
      · by_cases h0 : shapeScore v = 0
        · cases hu' with
          | listed _ hm _ _ =>
            have := table_vowels _ hm
            unfold worth; simp only at this; omega
          | stem _ hg' _ => cases wordType_unique hg hg'
          | word => omega
          | rafsi hd' => exact absurd (dashed_last hd') hd
          | zihevla hd' => exact absurd (dashed_last hd') hd
          | experimental hd' => exact absurd (dashed_last hd') hd
          | cut e => exact absurd (cut_last e) hd
        · have := worth_shape h0; omega
    | rafsi hd' => exact absurd (dashed_last hd') hd
    | zihevla hd' => exact absurd (dashed_last hd') hd
    | experimental hd' => exact absurd (dashed_last hd') hd
    | cut e => exact absurd (cut_last e) hd

theorem represents_worth {b : Build} {s : Settings} {N : Nat} : ∀ {vs : List Str} {i : Nat} {ll : List (List RafsiOpt)}
    {zs zs' : List Slot}, rafsiListListFrom (program b) s N i vs = .ok ll → Represents b s N i vs zs →
    Represents b s N i vs zs' →
    (zs.map (fun z => worth z.rafsi)).sum ≤ (zs'.map (fun z => worth z.rafsi)).sum + 82 * vs.length := by
  intro vs
  induction vs with
  | nil => intro i ll zs zs' _ h h'; cases h; cases h'; simp
  | cons v vs ih =>
    intro i ll zs zs' h hr hr'
    unfold rafsiListListFrom at h
    obtain ⟨a, ha, h⟩ := bind_ok h
    obtain ⟨l, hl, h⟩ := bind_ok h
    cases hr with
    | cons hu hw hz =>
      cases hr' with
      | cons hu' hw' hz' =>
        have h1 := usable_worth ha hu hu'
        have h2 := ih hl hz hz'
        simp only [List.map_cons, List.sum_cons, List.length_cons]
        omega

/-- What is said here of a slot of a candidate. -/
structure Tidy (mz : Bool) (z : Slot) : Prop where
  vowels : vowelCount z.text = vowelCount z.rafsi
  /-- at most one y, at the end -/
  ys : z.text.count 'y' = 0 ∨ (z.text.count 'y' = 1 ∧ z.text.getLast? = some 'y')
  glued : Rafsi mz z.rafsi → pattern z.rafsi ∈ [s%"CVV", s%"CV'V"] → z.kind = .vv

theorem trailing_cases {f l : Bool} {x h : Str} {k : Kind} (ht : Trailing f l x k h) :
    h = [] ∨ h = s%"y" ∨ h = s%"'y" ∨ h = s%"'" := by
  cases k <;> simp only [Trailing] at ht <;> grind

theorem clean_y {x : Str} (h : Clean x) : x.count 'y' = 0 := by
  rw [List.count_eq_zero]
  intro hm
  rcases h.letters _ hm with h | h | h
  · exact absurd h (by decide)
  · exact absurd h (by decide)
  · exact absurd h (by decide)

theorem leading_two (f : Bool) (x : Str) : leading f x = [] ∨ leading f x = s%"'" := by
  unfold leading; split <;> simp

theorem usable_tidy {b : Build} {s : Settings} {f l : Bool} {v : Str} {z : Slot} {os : List RafsiOpt}
    (h : rafsiListFor (program b) s f l v = .ok os) (hu : Usable b s v z.rafsi z.kind) (hw : z.Written f l) :
    Tidy s.allowMz z := by
  have hc := clean_y (usable_clean h hu)
  obtain ⟨t, e, ht⟩ := hw
  have h1 : vowelCount (leading f z.rafsi) = 0 ∧ (leading f z.rafsi).count 'y' = 0 := by
    rcases leading_two f z.rafsi with e | e <;> rw [e] <;> decide
  refine ⟨?_, ?_, ?_⟩
  · have h2 : vowelCount t = 0 := by
      rcases trailing_cases ht with rfl | rfl | rfl | rfl <;> decide
    rw [e, vowelCount_append, vowelCount_append]; omega
  · rw [e]
    simp only [List.count_append, h1.2, hc]
    rcases trailing_cases ht with rfl | rfl | rfl | rfl
    · left; decide
    · right; exact ⟨by decide, by simp⟩
    · right; exact ⟨by decide, by simp⟩
    · left; decide
  · intro hr hp
    have hk : kindOf z.rafsi = .vv := ((kindOf_iff hr).1 (.inl ⟨hp, rfl⟩)).symm
    rcases usable_kind hu hr with h | ⟨-, h⟩
    · rw [h, hk]
    · rw [hk] at h; cases h

theorem represents_tidy {b : Build} {s : Settings} {N : Nat} : ∀ {vs : List Str} {i : Nat} {ll : List (List RafsiOpt)}
    {zs : List Slot}, rafsiListListFrom (program b) s N i vs = .ok ll → Represents b s N i vs zs →
    ∀ z ∈ zs, Tidy s.allowMz z := by
  intro vs
  induction vs with
  | nil => intro i ll zs _ h; cases h; simp
  | cons v vs ih =>
    intro i ll zs h hr
    unfold rafsiListListFrom at h
    obtain ⟨a, ha, h⟩ := bind_ok h
    obtain ⟨l, hl, h⟩ := bind_ok h
    cases hr with
    | cons hu hw hz =>
      intro z hz'
      rcases List.mem_cons.1 hz' with rfl | hz'
      · exact usable_tidy ha hu hw
      · exact ih hl hz z hz'

theorem texts_vowels {mz : Bool} : ∀ {zs : List Slot}, (∀ z ∈ zs, Tidy mz z) →
    10 * (zs.map (fun z => shapeScore z.rafsi)).sum + vowelCount (zs.map Slot.text).flatten = (zs.map (fun z => worth z.rafsi)).sum
  | [], _ => rfl
  | z :: zs, h => by
    have ih := texts_vowels (zs := zs) (fun y hy => h y (List.mem_cons_of_mem _ hy))
    have := (h z (by simp)).vowels
    simp only [List.map_cons, List.sum_cons, List.flatten_cons, vowelCount_append, worth, this] at ih ⊢
    omega

theorem texts_y {mz : Bool} : ∀ {zs : List Slot}, (∀ z ∈ zs, Tidy mz z) → zs ≠ [] →
    (zs.map Slot.text).flatten.getLast? ≠ some 'y' → (zs.map Slot.text).flatten.count 'y' + 1 ≤ zs.length
  | [], _, h, _ => absurd rfl h
  | z :: zs, h, _, hl => by
    have hz := (h z (by simp)).ys
    simp only [List.map_cons, List.flatten_cons, List.count_append, List.length_cons] at hl ⊢
    by_cases hn : (zs.map Slot.text).flatten = []
    · rw [hn, List.append_nil] at hl
      rw [hn]
      rcases hz with hz | ⟨-, hz⟩
      · simp [hz]
      · exact absurd hz hl
    · have hne : zs ≠ [] := by rintro rfl; exact hn rfl
      have hl' : (zs.map Slot.text).flatten.getLast? ≠ some 'y' := by
        rw [List.getLast?_append] at hl
        cases hg : (zs.map Slot.text).flatten.getLast? with
        | none => exact absurd (List.getLast?_eq_none_iff.1 hg) hn
        | some c => rw [hg] at hl; simpa using hl
      have ih := texts_y (zs := zs) (fun y hy => h y (List.mem_cons_of_mem _ hy)) hne hl'
      omega

end Jvotci
