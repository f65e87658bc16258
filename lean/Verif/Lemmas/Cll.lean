import Verif.Lemmas.Search

/-!
# Helper lemmas: components that are CLL rafsi
-/

namespace Jvotci

open Spec

/-- `is_gismu` against the specification. -/
theorem isGismu_iff {mz : Bool} {w : Str} : isGismu mz w = true ↔ Gismu mz w := by
  constructor
  · intro h
    unfold isGismu at h
    split at h
    · cases h
    · rename_i hs
      unfold isGismuShape at hs
      split at hs
      · rename_i a b c d e
        simp only [Bool.not_eq_true] at hs
        split at hs
        · cases hs
        · rename_i h1
          simp only [Bool.not_eq_true', Bool.not_eq_false, Bool.and_eq_true] at h1
          obtain ⟨⟨ha, hd⟩, he⟩ := h1
          dsimp only at h
          split at hs
          · rename_i h2
            simp only [Bool.and_eq_true] at h2
            rw [if_pos h2.1] at h
            exact .cvccv ((isConsonant_iff _).1 ha) ((isVowel_iff _).1 h2.1) (validPairs_contains.1 (by simpa [slice] using h))
              ((isVowel_iff _).1 he)
          · split at hs
            · rename_i h2
              simp only [Bool.and_eq_true] at h2
              rw [if_neg (by simp [not_vowel_of_consonant h2.1])] at h
              exact .ccvcv (initial_contains.1 (by simpa [slice] using h)) ((isVowel_iff _).1 h2.2) ((isConsonant_iff _).1 hd)
                ((isVowel_iff _).1 he)
            · cases hs
      · exact absurd rfl hs
  · intro h
    cases h with
    | cvccv ha hb hcd he =>
      rw [← isConsonant_iff] at ha
      rw [← isVowel_iff] at hb he
      have hc := (isConsonant_iff _).2 hcd.1
      have hd := (isConsonant_iff _).2 hcd.2.1
      rw [← validPairs_contains] at hcd
      unfold isGismu
      rw [if_neg (by simp [isGismuShape, ha, hb, hc, hd, he])]
      dsimp only
      rw [if_pos hb]
      simpa [slice] using hcd
    | ccvcv hab hc hd he =>
      have ha := (isConsonant_iff _).2 (initial_consonants hab).1
      have hb := (isConsonant_iff _).2 (initial_consonants hab).2
      rw [← isConsonant_iff] at hd
      rw [← isVowel_iff] at hc he
      rw [← initial_contains] at hab
      have hbv := not_vowel_of_consonant hb
      unfold isGismu
      rw [if_neg (by simp [isGismuShape, ha, hb, hc, hd, he, hbv])]
      dsimp only
      rw [if_neg (by simp [hbv])]
      simpa [slice] using hab

theorem isValidRafsi_iff {mz : Bool} {p : Str} : isValidRafsi mz p = true ↔ Rafsi mz p := by
  constructor
  · intro h
    unfold isValidRafsi at h
    split at h
    · rename_i ht
      obtain ⟨a, b, c, d, e, rfl, ha, hb, hc, hd, he⟩ := tarmi_cvccv.1 ht
      exact .gismu (.cvccv ((isConsonant_iff _).1 ha) ((isVowel_iff _).1 hb) (validPairs_contains.1 (by simpa [slice] using h))
              ((isVowel_iff _).1 he))
    · rename_i ht
      obtain ⟨a, b, c, d, rfl, ha, hb, hc, hd⟩ := tarmi_cvcc.1 ht
      exact .cvcc ((isConsonant_iff _).1 ha) ((isVowel_iff _).1 hb) (validPairs_contains.1 (by simpa [slice] using h))
    · rename_i ht
      obtain ⟨a, b, c, d, e, rfl, ha, hb, hc, hd, he⟩ := tarmi_ccvcv.1 ht
      exact .gismu (.ccvcv (initial_contains.1 (by simpa [slice] using h)) ((isVowel_iff _).1 hc) ((isConsonant_iff _).1 hd)
                ((isVowel_iff _).1 he))
    · rename_i ht
      obtain ⟨a, b, c, d, rfl, ha, hb, hc, hd⟩ := tarmi_ccvc.1 ht
      exact .ccvc (initial_contains.1 (by simpa [slice] using h)) ((isVowel_iff _).1 hc) ((isConsonant_iff _).1 hd)
    · rename_i ht
      obtain ⟨a, b, c, rfl, ha, hb, hc⟩ := tarmi_ccv.1 ht
      exact .ccv (initial_contains.1 (by simpa [slice] using h)) ((isVowel_iff _).1 hc)
    · rename_i t h1 h2 h3 h4 h5
      cases hrt : rafsiTarmi p with
      | cvc =>
        obtain ⟨a, b, c, rfl, ha, hb, hc⟩ := tarmi_cvc.1 hrt
        exact .cvc ((isConsonant_iff _).1 ha) ((isVowel_iff _).1 hb) ((isConsonant_iff _).1 hc)
      | cvv =>
        obtain ⟨a, b, c, rfl, ha, hb, hc⟩ := tarmi_cvv.1 hrt
        exact .cvv ((isConsonant_iff _).1 ha) ((isVowel_iff _).1 hb) ((isVowel_iff _).1 hc)
      | cvhv =>
        obtain ⟨a, b, c, rfl, ha, hb, hc⟩ := tarmi_cvhv.1 hrt
        exact .cvhv ((isConsonant_iff _).1 ha) ((isVowel_iff _).1 hb) ((isVowel_iff _).1 hc)
      | hyphen => rw [hrt] at h; simp [Tarmi.score] at h
      | other => rw [hrt] at h; simp [Tarmi.score] at h
      | _ => simp_all
  · intro h
    cases h with
    | cvv ha hb hc =>
      rw [← isConsonant_iff] at ha; rw [← isVowel_iff] at hb hc
      have := tarmi_cvv.2 ⟨_, _, _, rfl, ha, hb, hc⟩
      simp [isValidRafsi, this, Tarmi.score]
    | cvhv ha hb hc =>
      rw [← isConsonant_iff] at ha; rw [← isVowel_iff] at hb hc
      have := tarmi_cvhv.2 ⟨_, _, _, rfl, ha, hb, hc⟩
      simp [isValidRafsi, this, Tarmi.score]
    | cvc ha hb hc =>
      rw [← isConsonant_iff] at ha hc; rw [← isVowel_iff] at hb
      have := tarmi_cvc.2 ⟨_, _, _, rfl, ha, hb, hc⟩
      simp [isValidRafsi, this, Tarmi.score]
    | ccv hab hc =>
      have ha := (isConsonant_iff _).2 (initial_consonants hab).1
      have hb := (isConsonant_iff _).2 (initial_consonants hab).2
      rw [← isVowel_iff] at hc
      have := tarmi_ccv.2 ⟨_, _, _, rfl, ha, hb, hc⟩
      rw [← initial_contains] at hab
      simpa [isValidRafsi, this, slice] using hab
    | cvcc ha hb hcd =>
      have hc := (isConsonant_iff _).2 hcd.1
      have hd := (isConsonant_iff _).2 hcd.2.1
      rw [← isConsonant_iff] at ha; rw [← isVowel_iff] at hb
      have := tarmi_cvcc.2 ⟨_, _, _, _, rfl, ha, hb, hc, hd⟩
      rw [← validPairs_contains] at hcd
      simpa [isValidRafsi, this, slice] using hcd
    | ccvc hab hc hd =>
      have ha := (isConsonant_iff _).2 (initial_consonants hab).1
      have hb := (isConsonant_iff _).2 (initial_consonants hab).2
      rw [← isVowel_iff] at hc; rw [← isConsonant_iff] at hd
      have := tarmi_ccvc.2 ⟨_, _, _, _, rfl, ha, hb, hc, hd⟩
      rw [← initial_contains] at hab
      simpa [isValidRafsi, this, slice] using hab
    | gismu hg =>
      cases hg with
      | cvccv ha hb hcd he =>
        have hc := (isConsonant_iff _).2 hcd.1
        have hd := (isConsonant_iff _).2 hcd.2.1
        rw [← isConsonant_iff] at ha; rw [← isVowel_iff] at hb he
        have := tarmi_cvccv.2 ⟨_, _, _, _, _, rfl, ha, hb, hc, hd, he⟩
        rw [← validPairs_contains] at hcd
        simpa [isValidRafsi, this, slice] using hcd
      | ccvcv hab hc hd he =>
        have ha := (isConsonant_iff _).2 (initial_consonants hab).1
        have hb := (isConsonant_iff _).2 (initial_consonants hab).2
        rw [← isVowel_iff] at hc he; rw [← isConsonant_iff] at hd
        have := tarmi_ccvcv.2 ⟨_, _, _, _, _, rfl, ha, hb, hc, hd, he⟩
        rw [← initial_contains] at hab
        simpa [isValidRafsi, this, slice] using hab

theorem Cuts.rafsi {mz : Bool} {p rest : Str} (h : Cuts mz p rest) : Rafsi mz p := by
  cases h with
  | cvv ha hb hc _ => exact .cvv ((isConsonant_iff _).1 ha) ((isVowel_iff _).1 hb) ((isVowel_iff _).1 hc)
  | cvhv ha hb hc => exact .cvhv ((isConsonant_iff _).1 ha) ((isVowel_iff _).1 hb) ((isVowel_iff _).1 hc)
  | cvcc ha hb hc => exact .cvcc ((isConsonant_iff _).1 ha) ((isVowel_iff _).1 hb) hc
  | ccvc ha hb hc => exact .ccvc ha ((isVowel_iff _).1 hb) ((isConsonant_iff _).1 hc)
  | gismu h => exact .gismu h
  | cvc ha hb hc => exact .cvc ((isConsonant_iff _).1 ha) ((isVowel_iff _).1 hb) ((isConsonant_iff _).1 hc)
  | ccv ha hb => exact .ccv ha ((isVowel_iff _).1 hb)

theorem rafsi_length {mz : Bool} {p : Str} (h : Rafsi mz p) : 3 ≤ p.length ∧ p.length ≤ 5 := by
  cases h with
  | gismu h => cases h <;> simp
  | _ => simp

theorem rafsi_first {mz : Bool} {p : Str} (h : Rafsi mz p) : ∃ a t, p = a :: t ∧ isConsonant a = true := by
  cases h with
  | cvv ha hb hc => exact ⟨_, _, rfl, (isConsonant_iff _).2 ha⟩
  | cvhv ha hb hc => exact ⟨_, _, rfl, (isConsonant_iff _).2 ha⟩
  | cvc ha hb hc => exact ⟨_, _, rfl, (isConsonant_iff _).2 ha⟩
  | cvcc ha hb hc => exact ⟨_, _, rfl, (isConsonant_iff _).2 ha⟩
  | ccv ha hb => exact ⟨_, _, rfl, (isConsonant_iff _).2 (initial_consonants ha).1⟩
  | ccvc ha hb => exact ⟨_, _, rfl, (isConsonant_iff _).2 (initial_consonants ha).1⟩
  | gismu h =>
    cases h with
    | cvccv ha hb hc => exact ⟨_, _, rfl, (isConsonant_iff _).2 ha⟩
    | ccvcv ha hb => exact ⟨_, _, rfl, (isConsonant_iff _).2 (initial_consonants ha).1⟩

theorem rafsi_letters {mz : Bool} {p : Str} (h : Rafsi mz p) : ∀ c ∈ p, Vowel c ∨ Consonant c ∨ c = '\'' := by
  intro x hx
  cases h with
  | cvv ha hb hc => simp at hx; rcases hx with rfl | rfl | rfl <;> simp [*]
  | cvhv ha hb hc => simp at hx; rcases hx with rfl | rfl | rfl | rfl <;> simp [*]
  | cvc ha hb hc => simp at hx; rcases hx with rfl | rfl | rfl <;> simp [*]
  | cvcc ha hb hc => simp at hx; have := hc.1; have := hc.2.1; rcases hx with rfl | rfl | rfl | rfl <;> simp [*]
  | ccv ha hb => simp at hx; have := initial_consonants ha; rcases hx with rfl | rfl | rfl <;> simp [*]
  | ccvc ha hb => simp at hx; have := initial_consonants ha; rcases hx with rfl | rfl | rfl | rfl <;> simp [*]
  | gismu h =>
    cases h with
    | cvccv ha hb hc => simp at hx; have := hc.1; have := hc.2.1; rcases hx with rfl | rfl | rfl | rfl | rfl <;> simp [*]
    | ccvcv ha hb => simp at hx; have := initial_consonants ha; rcases hx with rfl | rfl | rfl | rfl | rfl <;> simp [*]

/-- A rafsi ends in a vowel or consonant. -/
theorem rafsi_last {mz : Bool} {p : Str} (h : Rafsi mz p) : ∃ t l, p = t ++ [l] ∧ (Vowel l ∨ Consonant l) := by
  cases h with
  | @cvv a b c ha hb hc => exact ⟨[a, b], c, rfl, .inl hc⟩
  | @cvhv a b c ha hb hc => exact ⟨[a, b, '\''], c, rfl, .inl hc⟩
  | @cvc a b c ha hb hc => exact ⟨[a, b], c, rfl, .inr hc⟩
  | @cvcc a b c d ha hb hc => exact ⟨[a, b, c], d, rfl, .inr hc.2.1⟩
  | @ccv a b c ha hb => exact ⟨[a, b], c, rfl, .inl hb⟩
  | @ccvc a b c d ha hb hd => exact ⟨[a, b, c], d, rfl, .inr hd⟩
  | gismu h =>
    cases h with
    | @cvccv a b c d e ha hb hc he => exact ⟨[a, b, c, d], e, rfl, .inl he⟩
    | @ccvcv a b c d e ha hb hd he => exact ⟨[a, b, c, d], e, rfl, .inl he⟩

theorem lojban_letter {c : Char} (h : Vowel c ∨ Consonant c ∨ c = '\'') :
    (s%"aeioubcdfgjklmnprstvxz'").contains c = true := by
  rcases h with h | h | h
  · simp [Vowel] at h; rcases h with rfl | rfl | rfl | rfl | rfl <;> decide
  · simp [Consonant] at h
    rcases h with h|h|h|h|h|h|h|h|h|h|h|h|h|h|h|h|h <;> subst h <;> decide
  · subst h; decide

theorem rafsi_onlyLojban {mz : Bool} {p : Str} (h : Rafsi mz p) : isOnlyLojban p = true := by
  unfold isOnlyLojban
  have h1 := rafsi_length h
  have h2 : p.isEmpty = false := by cases p <;> simp at h1 ⊢
  rw [h2, List.all_eq_true.2 (fun c hc => lojban_letter (rafsi_letters h c hc))]
  rfl

theorem stripBoth_dash {p : Str} (h : ∀ c ∈ p, c ≠ '-') : stripBoth (· == '-') (s%"-" ++ p ++ s%"-") = p := by
  have d1 : ∀ q : Str, (∀ c ∈ q, c ≠ '-') → ∀ t, (q ++ t).dropWhile (· == '-') = if q = [] then t.dropWhile (· == '-') else q ++ t := by
    intro q hq t
    cases q with
    | nil => simp
    | cons a q => simp [hq a (by simp)]
  unfold stripBoth
  have e1 : (s%"-" ++ p ++ s%"-").dropWhile (· == '-') = if p = [] then [] else p ++ s%"-" := by
    simp only [List.cons_append, List.nil_append, List.dropWhile_cons]
    simp only [beq_self_eq_true, if_true]
    rw [d1 p h]
    split <;> simp
  rw [e1]
  split
  · rename_i hp; subst hp; rfl
  · rename_i hp
    rw [List.reverse_append]
    simp only [List.reverse_cons, List.reverse_nil, List.nil_append, List.cons_append, List.dropWhile_cons, beq_self_eq_true, if_true]
    have := d1 p.reverse (by simpa using h) []
    simp only [List.append_nil] at this
    rw [this, if_neg (by simpa using hp)]
    simp

theorem letter_ne_dash {c : Char} (h : Vowel c ∨ Consonant c ∨ c = '\'') : c ≠ '-' := by
  rintro rfl
  rcases h with h | h | h <;> revert h <;> decide

theorem rafsi_no_dash {mz : Bool} {p : Str} (h : Rafsi mz p) : ∀ c ∈ p, c ≠ '-' :=
  fun c hc => letter_ne_dash (rafsi_letters h c hc)

theorem rafsi_tarmi {mz : Bool} {p : Str} (h : Rafsi mz p) : rafsiTarmi p ≠ .other ∧ rafsiTarmi p ≠ .hyphen := by
  have h := isValidRafsi_iff.2 h
  constructor <;> intro he <;> simp [isValidRafsi, he, Tarmi.score] at h

/-- The rafsi list of a component `-x-` with `x` a CLL rafsi: nothing is called back. -/
theorem rafsiListFor_dash {R : Rec} {s : Settings} {f l : Bool} {x : Str} (h : Rafsi s.allowMz x) :
    rafsiListFor R s f l (s%"-" ++ x ++ s%"-") =
      getRafsiForRafsi x (.tarmi (rafsiTarmi x)) f l s.consonants s.glides := by
  unfold rafsiListFor
  have h1 : idxLast (s%"-" ++ x ++ s%"-") = .ok '-' := by
    unfold idxLast
    rw [List.getLast?_append]
    rfl
  obtain ⟨t, c, hx, hc⟩ := rafsi_last h
  have h2 : idxLast x = .ok c := by
    unfold idxLast
    rw [hx]; simp
  rw [h1]
  simp only [bind, Except.bind, if_true]
  rw [show idx (s%"-" ++ x ++ s%"-") 0 = .ok '-' from rfl]
  dsimp only
  rw [stripBoth_dash (rafsi_no_dash h), rafsi_onlyLojban h, h2]
  have h3 : c ≠ '\'' := by
    rintro rfl
    rcases hc with hc | hc <;> revert hc <;> decide
  simp only [Bool.not_true, Bool.false_eq_true, if_false, if_neg h3]
  rw [if_neg (by simp)]
  unfold rafsiListRafsi
  dsimp only
  rw [if_neg (rafsi_tarmi h).1, isValidRafsi_iff.2 h]
  simp

theorem apostrophise_rafsi {mz : Bool} {x : Str} (h : Rafsi mz x) (f : Bool) : apostrophise f x = .ok x := by
  obtain ⟨a, t, rfl, ha⟩ := rafsi_first h
  unfold apostrophise
  cases f with
  | true => rfl
  | false => simp [idx, not_vowel_of_consonant ha, bind, Except.bind]

/-- The forms of a CLL rafsi (jvozba.py:94-139). -/
def cllForms (x : Str) (t : Tarmi) (f l : Bool) (co : Consonants) : List RafsiOpt :=
  match t with
  | .ccvc | .cvcc => if l then [(x, 2)] else [(x ++ s%"y", 2)]
  | .ccvcv | .cvccv => if l then [(x, 2)] else [(x ++ s%"'y", 2)]
  | .cvv | .cvhv =>
    let n := if co = .cluster then 0 else 1
    if f then [(x ++ s%"'", n), (x, n)] else if l then [(x, n)] else [(x ++ s%"'y", n), (x, n)]
  | .ccv => [(x, 2), (x ++ s%"'y", 2)]
  | .cvc => if l then [(x, 2)] else [(x, 2), (x ++ s%"y", 2)]
  | .hyphen | .other => []

theorem getRafsiForRafsi_cll {mz : Bool} {x : Str} (h : Rafsi mz x) (f l : Bool) (co : Consonants) (g : Bool) :
    getRafsiForRafsi x (.tarmi (rafsiTarmi x)) f l co g = .ok (cllForms x (rafsiTarmi x) f l co) := by
  unfold getRafsiForRafsi
  rw [apostrophise_rafsi h]
  simp only [bind, Except.bind]
  have h4 : rafsiTarmi x = .ccvc ∨ rafsiTarmi x = .cvcc → ∃ c, idxLast x = .ok c ∧ isVowel c = false := by
    rintro (h4 | h4)
    · obtain ⟨a, b, c, d, rfl, ha, hb, hc, hd⟩ := tarmi_ccvc.1 h4
      exact ⟨d, rfl, not_vowel_of_consonant hd⟩
    · obtain ⟨a, b, c, d, rfl, ha, hb, hc, hd⟩ := tarmi_cvcc.1 h4
      exact ⟨d, rfl, not_vowel_of_consonant hd⟩
  have hno := rafsi_tarmi h
  cases ht : rafsiTarmi x with
  | other => exact absurd ht hno.1
  | hyphen => exact absurd ht hno.2
  | ccvc =>
    obtain ⟨c, h5, h6⟩ := h4 (.inl ht)
    cases l <;> simp [cllForms, h5, h6]
  | cvcc =>
    obtain ⟨c, h5, h6⟩ := h4 (.inr ht)
    cases l <;> simp [cllForms, h5, h6]
  | _ => cases l <;> cases f <;> simp [cllForms]

/-- Every form of a CLL rafsi is the rafsi with nothing, `y`, `'y` or `'` after it. -/
theorem cllForms_mem {x : Str} {t : Tarmi} {f l : Bool} {co : Consonants} {o : RafsiOpt}
    (h : o ∈ cllForms x t f l co) :
    (o.1 = x ∨ o.1 = x ++ s%"y" ∨ o.1 = x ++ s%"'y" ∨ o.1 = x ++ s%"'") := by
  unfold cllForms at h
  cases t <;> cases f <;> cases l <;> simp at h <;> grind

/-- The rafsi lists of a list of CLL rafsi. -/
theorem rafsiListListFrom_cll {R : Rec} {s : Settings} {n : Nat} : ∀ {xs : List Str} {i : Nat},
    (∀ x ∈ xs, Rafsi s.allowMz x) →
    rafsiListListFrom R s n i (xs.map (fun x => s%"-" ++ x ++ s%"-")) =
      .ok (xs.mapIdx (fun j x => cllForms x (rafsiTarmi x) (i + j == 0) (i + j + 1 == n) s.consonants)) := by
  intro xs
  induction xs with
  | nil => intro i h; rfl
  | cons x xs ih =>
    intro i h
    rw [List.map_cons, rafsiListListFrom, rafsiListFor_dash (h x (by simp)), getRafsiForRafsi_cll (h x (by simp)),
      ih (fun y hy => h y (by simp [hy]))]
    simp only [bind, Except.bind, List.mapIdx_cons, Except.ok.injEq, List.cons.injEq]
    refine ⟨rfl, ?_⟩
    congr 1
    funext j y
    rw [show i + 1 + j = i + (j + 1) by omega]

theorem Chop.mem {y : YHyphens} {mz : Bool} {prev : Option Str} {ps : List Str} (h : Chop y mz prev ps) :
    ∀ p ∈ ps, (2 < p.length ∧ Rafsi mz p) ∨ p = s%"y" ∨ p = s%"n" ∨ p = s%"r" ∨ p = s%"'y" := by
  induction h with
  | nil => intro p hp; cases hp
  | y _ _ ih => intro p hp; rcases List.mem_cons.1 hp with rfl | hp; simp; exact ih p hp
  | n _ _ _ _ _ ih => intro p hp; rcases List.mem_cons.1 hp with rfl | hp; simp; exact ih p hp
  | r _ _ _ _ _ _ _ ih => intro p hp; rcases List.mem_cons.1 hp with rfl | hp; simp; exact ih p hp
  | hy _ _ _ ih => intro p hp; rcases List.mem_cons.1 hp with rfl | hp; simp; exact ih p hp
  | rafsi hc _ ih =>
    intro p hp
    rcases List.mem_cons.1 hp with rfl | hp
    · left; exact ⟨by have := hc.length_pos; omega, hc.rafsi⟩
    · exact ih p hp

theorem Chop.filter {y : YHyphens} {mz : Bool} {prev : Option Str} {ps : List Str} (h : Chop y mz prev ps) :
    ∀ p ∈ ps.filter (fun x => x.length > 2), Rafsi mz p := by
  intro p hp
  rw [List.mem_filter] at hp
  obtain ⟨hp, hl⟩ := hp
  rcases h.mem p hp with h | h | h | h | h
  · exact h.2
  all_goals subst h; simp at hl

theorem Chop.head {y : YHyphens} {mz : Bool} {p : Str} {ps : List Str} (h : Chop y mz none (p :: ps)) :
    Cuts mz p (join ps) ∧ Chop y mz (some p) ps := by
  cases h with
  | rafsi h1 h2 => exact ⟨h1, h2⟩

/-! ## `is_slinkuhi` does not recurse forever -/

/-- `getLujvoFromList` on CLL rafsi looks at `R` only through the slinku'i test of its result, which starts
with the first rafsi. -/
theorem getLujvoFromList_cll_congr {R R' : Rec} {s : Settings} {g : Bool} {xs : List Str}
    (hx : ∀ x ∈ xs, Rafsi s.allowMz x) (hb : R.build = R'.build)
    (hs : ∀ v x rest t, xs = x :: rest → v = x ++ t →
      R.slinkuhi s.yHyphens s.allowMz v = R'.slinkuhi s.yHyphens s.allowMz v) :
    getLujvoFromList R s g (xs.map (fun x => s%"-" ++ x ++ s%"-")) =
      getLujvoFromList R' s g (xs.map (fun x => s%"-" ++ x ++ s%"-")) := by
  unfold getLujvoFromList getRafsiListList
  rw [rafsiListListFrom_cll hx, rafsiListListFrom_cll hx]
  simp only [bind, Except.bind]
  split
  · rfl
  · rename_i best hbest
    split
    · rfl
    · rename_i r hr
      cases g with
      | true => rfl
      | false =>
        simp only [Bool.not_false, if_true]
        have hpre : slinkuhiInJvozba R s.yHyphens s.allowMz r.1 = slinkuhiInJvozba R' s.yHyphens s.allowMz r.1 := by
          unfold slinkuhiInJvozba
          rw [hb]
          split
          · rfl
          · obtain ⟨l, hm, hl⟩ := pickBest_mem hr
            obtain ⟨rs, c, hp, hbt, l', hl', he⟩ := searchStages_sound hbest _ hm
            simp only [Prod.mk.injEq] at he
            obtain ⟨-, he⟩ := he
            obtain ⟨r0, rest, t, rfl, hc⟩ := hbt.prefix
            cases xs with
            | nil => cases hp
            | cons x xs =>
              rw [List.mapIdx_cons] at hp
              cases hp with
              | cons h0 _ =>
                have : ∃ u, r.1 = x ++ u := by
                  rw [he]
                  dsimp only
                  rw [hc]
                  rcases cllForms_mem h0 with h0 | h0 | h0 | h0 <;> rw [h0]
                  · exact ⟨_, rfl⟩
                  · exact ⟨_, List.append_assoc ..⟩
                  · exact ⟨_, List.append_assoc ..⟩
                  · exact ⟨_, List.append_assoc ..⟩
                obtain ⟨u, hu⟩ := this
                exact hs _ x xs u rfl hu
        rw [hpre]

/-- `jvokaha` looks at `R` only through the slinku'i test of words that start like the given one. -/
theorem jvokaha_congr {R R' : Rec} {y : YHyphens} {co : Consonants} {g mz : Bool} {w : Str}
    (hb : R.build = R'.build)
    (hs : ∀ v, v.take 3 = w.take 3 → R.slinkuhi y mz v = R'.slinkuhi y mz v) :
    jvokaha R y co g mz w = jvokaha R' y co g mz w := by
  unfold jvokaha
  cases h2 : jvokaha2 y mz w with
  | error e => rfl
  | ok arr =>
    obtain ⟨hj, hch⟩ := jvokaha2_ok h2
    have key : ∀ gg, getLujvoFromList R { yHyphens := y, consonants := co, glides := g, allowMz := mz } gg
          ((arr.filter (fun x => x.length > 2)).map (fun x => s%"-" ++ x ++ s%"-")) =
        getLujvoFromList R' { yHyphens := y, consonants := co, glides := g, allowMz := mz } gg
          ((arr.filter (fun x => x.length > 2)).map (fun x => s%"-" ++ x ++ s%"-")) := by
      intro gg
      apply getLujvoFromList_cll_congr hch.filter hb
      intro v x rest t he hv
      apply hs
      cases arr with
      | nil => simp at he
      | cons p ps =>
        have hlen := hch.head.1.length_pos
        rw [List.filter_cons_of_pos (by simp; omega)] at he
        cases he
        rw [hv, ← hj, join, List.flatten_cons, List.take_append_of_le_length hlen,
          List.take_append_of_le_length hlen]
    simp only [bind, Except.bind, key]

/-- `to…` is never a slinku'i: prefixing `to` again gives `toto…`, which cannot be cut. -/
theorem jvokaha2_toto (y : YHyphens) (mz : Bool) (t : Str) :
    jvokaha2 y mz ('t' :: 'o' :: 't' :: 'o' :: t) = .error .decomposition := by
  have hvow : ∀ t : Str, rafsiTarmi ('o' :: t) = .other := by
    intro t
    match t with
    | [] => decide
    | [b] => simp [rafsiTarmi]
    | [b, c] => simp [rafsiTarmi, isConsonant]
    | [b, c, d] => simp [rafsiTarmi, isConsonant]
    | [b, c, d, e] => simp [rafsiTarmi, isConsonant]
    | _ :: _ :: _ :: _ :: _ :: _ => simp [rafsiTarmi]
  have hsl : ∀ n (t : Str), slice ('o' :: t) 0 (n + 1) = 'o' :: t.take n := by intro n t; simp [slice]
  have hword : rafsiTarmi ('t' :: 'o' :: 't' :: 'o' :: t) = .other := by
    match t with
    | [] => decide
    | [b] => simp [rafsiTarmi, isGismuShape, isConsonant]
    | _ :: _ :: _ => simp [rafsiTarmi]
  have h1 : takeRafsi mz ('t' :: 'o' :: 't' :: 'o' :: t) ('t' :: 'o' :: 't' :: 'o' :: t) =
      .ok (.pieces [s%"tot"] ('o' :: t)) := by
    unfold takeRafsi
    have e3 : slice ('t' :: 'o' :: 't' :: 'o' :: t) 0 3 = s%"tot" := by simp [slice]
    have e4 : slice ('t' :: 'o' :: 't' :: 'o' :: t) 0 4 = s%"toto" := by simp [slice]
    have e5 : slice ('t' :: 'o' :: 't' :: 'o' :: t) 2 5 = 't' :: 'o' :: t.take 1 := by simp [slice]
    have hban : BANNED_TRIPLES.contains ('t' :: 'o' :: t.take 1) = false := by
      simp [BANNED_TRIPLES]
    rw [e3, e4, e5, hword, hban, show rafsiTarmi s%"tot" = .cvc by decide, show rafsiTarmi s%"toto" = .other by decide]
    simp
  have h2 : takeHyphen y ('o' :: t) [s%"tot"] = .ok none := by
    unfold takeHyphen
    have e2 : slice ('o' :: t) 0 2 = 'o' :: t.take 1 := hsl 1 t
    simp [e2, bind, Except.bind]
  have h3 : takeRafsi mz ('t' :: 'o' :: 't' :: 'o' :: t) ('o' :: t) = .error .decomposition := by
    unfold takeRafsi
    rw [hsl 2, hsl 3, hvow, hvow, hvow]
    simp
  unfold jvokaha2
  rw [show ('t' :: 'o' :: 't' :: 'o' :: t).length + 1 = (t.length + 3) + 1 + 1 by simp]
  rw [jvokaha2Loop]
  simp only [List.cons_ne_nil, if_false]
  rw [show takeHyphen y ('t' :: 'o' :: 't' :: 'o' :: t) [] = .ok none from rfl, h1]
  simp only [bind, Except.bind, List.reverse_cons, List.reverse_nil, List.nil_append, List.append_nil]
  rw [jvokaha2Loop]
  simp only [List.cons_ne_nil, if_false]
  rw [h2, h3]
  rfl

theorem isSlinkuhi_to (R : Rec) (y : YHyphens) (mz : Bool) (t : Str) :
    isSlinkuhi R y mz ('t' :: 'o' :: t) = .ok false := by
  unfold isSlinkuhi jvokaha
  rw [show s%"to" ++ 't' :: 'o' :: t = 't' :: 'o' :: 't' :: 'o' :: t from rfl, jvokaha2_toto]
  rfl

/-- `is_slinkuhi` calls itself at most once more, on a word in `to…`. -/
theorem isSlinkuhi_stable {R R' : Rec} (hb : R.build = R'.build)
    (h : ∀ y mz t, R.slinkuhi y mz ('t' :: 'o' :: t) = .ok false)
    (h' : ∀ y mz t, R'.slinkuhi y mz ('t' :: 'o' :: t) = .ok false) (y : YHyphens) (mz : Bool) (w : Str) :
    isSlinkuhi R y mz w = isSlinkuhi R' y mz w := by
  unfold isSlinkuhi
  cases hc : idx w 0 with
  | error e => rfl
  | ok c =>
    simp only [bind, Except.bind]
    split
    · rfl
    · congr 1
      apply jvokaha_congr hb
      intro v hv
      match v, hv with
      | a :: b :: t, hv =>
        simp at hv
        obtain ⟨rfl, rfl, -⟩ := hv
        rw [h, h']
      | [], hv => simp at hv
      | [a], hv => simp at hv

theorem recN_slinkuhi_to (b : Build) (n : Nat) (y : YHyphens) (mz : Bool) (t : Str) :
    (recN b (n + 1)).slinkuhi y mz ('t' :: 'o' :: t) = .ok false := by
  rw [recN_slinkuhi, isSlinkuhi_to]

/-- Two levels of recursion are enough for `is_slinkuhi`. -/
theorem slinkuhi_stable (b : Build) (n m : Nat) (y : YHyphens) (mz : Bool) (w : Str) :
    (recN b (n + 2)).slinkuhi y mz w = (recN b (m + 2)).slinkuhi y mz w := by
  rw [recN_slinkuhi, recN_slinkuhi]
  exact isSlinkuhi_stable (by rw [recN_build, recN_build]) (recN_slinkuhi_to b n) (recN_slinkuhi_to b m) y mz w

end Jvotci
