import Verif.Rs
import Verif.SpecRsShape
import Verif.Lemmas.JsCut
import Verif.Lemmas.Shape
import Verif.Lemmas.Cll

/-!
# The helper functions of the Rust crate and those of the Python version
-/

namespace Jvotci

open Spec

theorem rsIsVowel_eq : rsIsVowel = isVowel := rfl

theorem rsIsConsonant_eq : rsIsConsonant = isConsonant := rfl

theorem rsIsVowel_zero : isVowel '\x00' = false := by decide

theorem rsIsConsonant_zero : isConsonant '\x00' = false := by decide

theorem rsAt_zero (c : Char) (cs : Str) : rsAt (c :: cs) 0 = c := rfl

theorem rsAt_succ (c : Char) (cs : Str) (i : Nat) : rsAt (c :: cs) (i + 1) = rsAt cs i := by simp [rsAt]

theorem rsAt_nil (i : Nat) : rsAt [] i = '\x00' := by simp [rsAt]

theorem rsBack_of {s : Str} {l : Char} (h : s.getLast? = some l) : rsBack s 1 = l := by
  unfold rsBack rsAt
  rw [List.getLast?_eq_getElem?] at h
  have : s ≠ [] := by rintro rfl; simp at h
  rw [if_pos (show 1 ≤ s.length from List.length_pos_iff.2 this), h]
  rfl

theorem rsAt_of {s : Str} {i : Nat} {c : Char} (h : s[i]? = some c) : rsAt s i = c := by
  unfold rsAt
  rw [h]
  rfl

theorem rsIsGlide_eq (s : Str) : rsIsGlide s = isGlide s := by
  match s with
  | [] => rfl
  | [a] => rfl
  | a :: b :: t => simp [rsIsGlide, isGlide, rsAt_zero, rsAt_succ, rsIsVowel_eq]

theorem rsIsOnlyLojban_eq (s : Str) : rsIsOnlyLojban s = isOnlyLojban s := rfl

theorem rsContainsConsonant_eq (s : Str) : rsContainsConsonant s = containsConsonant s := rfl

theorem rsIsGismuShape_eq (s : Str) : rsIsGismuShape s = isGismuShape s := by
  match s with
  | [] => rfl
  | [a] => rfl
  | [a, b] => rfl
  | [a, b, c] => rfl
  | [a, b, c, d] => rfl
  | [a, b, c, d, e] =>
    simp only [rsIsGismuShape, isGismuShape, rsAt_zero, rsAt_succ, rsIsVowel_eq, rsIsConsonant_eq]
    cases isConsonant a <;> cases isConsonant d <;> cases isVowel e <;> simp
  | a :: b :: c :: d :: e :: f :: t => simp [rsIsGismuShape, isGismuShape]

theorem rsIsGismu_eq (mz : Bool) (s : Str) : rsIsGismu mz s = isGismu mz s := by
  unfold rsIsGismu isGismu
  rw [rsIsGismuShape_eq]
  cases h : isGismuShape s
  · rfl
  · match s with
    | [] => cases h
    | [a] => cases h
    | a :: b :: t => simp [rsAt_zero, rsAt_succ, rsIsVowel_eq, validPairs]

theorem rsBadGlide_eq (v n : Str) : rsBadGlide v n = badGlide v n := by
  unfold rsBadGlide badGlide
  cases n with
  | nil => simp [rsAt_nil]
  | cons c cs =>
    simp only [rsAt_zero]
    by_cases h : c = 'i'
    · subst h; simp
    · by_cases h' : c = 'u'
      · subst h'; simp; rw [Bool.eq_iff_iff]; simp
      · simp [h, h']

theorem rsSplitVowelsLoop_eq : ∀ (n : Nat) (v : Str) (r : List Str), rsSplitVowelsLoop n v r = (splitVowelsLoop n v r).mapError toJ
  | 0, _, _ => rfl
  | n + 1, v, r => by
    unfold rsSplitVowelsLoop splitVowelsLoop
    simp only [rsBadGlide_eq, rsSplitVowelsLoop_eq n, Bool.and_eq_true, decide_eq_true_eq]
    repeat' split
    all_goals simp_all [Except.mapError, toJ]

theorem rsIsZihevlaInitialCluster_eq {s : Str} (h : s ≠ []) : rsIsZihevlaInitialCluster s = isZihevlaInitialCluster s := by
  unfold rsIsZihevlaInitialCluster isZihevlaInitialCluster
  have : 0 < s.length := List.length_pos_iff.2 h
  by_cases h1 : s.length = 1
  · simp [h1]
  by_cases h2 : s.length = 2
  · simp [h2]
  by_cases h3 : s.length = 3
  · simp [h3]
  · have h4 : s.length > 3 := by omega
    simp [h1, h2, h3, h4]

theorem isVowel_not_isConsonant {c : Char} (h : isVowel c = true) : isConsonant c = false := by
  simp only [isVowel, List.contains_eq_mem, List.mem_cons, List.not_mem_nil, or_false, decide_eq_true_eq] at h
  rcases h with rfl | rfl | rfl | rfl | rfl <;> decide

/-- The shapes are the same except for the strings of `OddShape`. -/
theorem rsRafsiTarmi_iff (r : Str) : rsRafsiTarmi r = rafsiTarmi r ↔ ¬ OddShape r := by
  have hd : ∀ c, isVowel c = true → isConsonant c = false := fun c => isVowel_not_isConsonant
  have hl : ∀ r : Str, OddShape r → r.length = 2 ∨ r.length = 3 ∨ r.length = 4 := by
    rintro r h
    cases h <;> simp
  match r with
  | [] => exact ⟨fun _ h => by have := hl _ h; simp at this, fun _ => rfl⟩
  | [a] =>
    refine ⟨fun _ h => by have := hl _ h; simp at this, fun _ => ?_⟩
    simp only [rsRafsiTarmi, rafsiTarmi, rsAt_zero, rsIsVowel_eq, rsIsConsonant_eq]
    by_cases hv : isVowel a = true
    · simp [hv, hd a hv]
    · simp [hv]
  | [a, b] =>
    have ho : OddShape [a, b] ↔ a = '\'' ∧ b = 'y' := by
      constructor
      · rintro ⟨⟩; exact ⟨rfl, rfl⟩
      · rintro ⟨rfl, rfl⟩; exact .hyphen
    rw [ho]
    simp only [rsRafsiTarmi, rafsiTarmi, rsAt_zero, rsIsVowel_eq, rsIsConsonant_eq]
    by_cases h : a = '\'' ∧ b = 'y'
    · obtain ⟨rfl, rfl⟩ := h; decide
    · simp [h]
  | [a, b, c] =>
    have ho : OddShape [a, b, c] ↔ isConsonant a = true ∧ isVowel b = false ∧ isConsonant b = false ∧ isVowel c = true := by
      constructor
      · rintro ⟨⟩
        rename_i h1 h2 h3 h4
        exact ⟨(isConsonant_iff _).2 h1, by simpa using mt (isVowel_iff _).1 h2, by simpa using mt (isConsonant_iff _).1 h3, (isVowel_iff _).2 h4⟩
      · rintro ⟨h1, h2, h3, h4⟩
        exact .three ((isConsonant_iff _).1 h1) (mt (isVowel_iff _).2 (by simp [h2])) (mt (isConsonant_iff _).2 (by simp [h3])) ((isVowel_iff _).1 h4)
    rw [ho]
    have hb := hd b
    have hc := hd c
    simp only [rsRafsiTarmi, rafsiTarmi, rsTarmi3, rsAt_zero, rsAt_succ, rsIsVowel_eq, rsIsConsonant_eq, List.length_cons, List.length_nil]
    cases isConsonant a <;> cases hvb : isVowel b <;> cases hcb : isConsonant b <;> cases hvc : isVowel c <;> cases hcc : isConsonant c <;> simp_all
  | [a, b, c, d] =>
    have ho : OddShape [a, b, c, d] ↔ isConsonant a = true ∧
        ((isVowel b = true ∧ isConsonant c = false ∧ isConsonant d = true) ∨
         (isVowel b = false ∧ isVowel c = true ∧ isVowel d = false ∧ d ≠ '\'' ∧ ¬ (isConsonant b = true ∧ isConsonant d = true))) := by
      simp only [← Bool.not_eq_true, isConsonant_iff, isVowel_iff]
      constructor
      · rintro ⟨⟩
        · rename_i h1 h2 h3 h4
          exact ⟨h1, .inl ⟨h2, h3, h4⟩⟩
        · rename_i h1 h2 h3 h4 h5 h6
          exact ⟨h1, .inr ⟨h2, h3, h4, h5, h6⟩⟩
      · rintro ⟨h1, ⟨h2, h3, h4⟩ | ⟨h2, h3, h4, h5, h6⟩⟩
        · exact .cvcc h1 h2 h3 h4
        · exact .ccvc h1 h2 h3 h4 h5 h6
    rw [ho]
    have hb := hd b
    have hc := hd c
    have hdd := hd d
    simp only [rsRafsiTarmi, rafsiTarmi, rsTarmi4, rsAt_zero, rsAt_succ, rsIsVowel_eq, rsIsConsonant_eq, List.length_cons, List.length_nil]
    by_cases hq : d = '\''
    · subst hq
      have h1 : isVowel '\'' = false := by decide
      have h2 : isConsonant '\'' = false := by decide
      simp only [h1, h2]
      cases isConsonant a <;> cases hvb : isVowel b <;> cases hcb : isConsonant b <;> cases hvc : isVowel c <;> cases hcc : isConsonant c <;> simp_all
    by_cases hq2 : c = '\''
    · subst hq2
      have h1 : isVowel '\'' = false := by decide
      have h2 : isConsonant '\'' = false := by decide
      simp only [h1, h2]
      cases isConsonant a <;> cases hvb : isVowel b <;> cases hcb : isConsonant b <;> cases hvd : isVowel d <;> cases hcd : isConsonant d <;> simp_all
    cases isConsonant a <;> cases hvb : isVowel b <;> cases hcb : isConsonant b <;> cases hvc : isVowel c <;> cases hcc : isConsonant c <;> cases hvd : isVowel d <;> cases hcd : isConsonant d <;> simp_all
  | [a, b, c, d, e] =>
    refine ⟨fun _ h => by have := hl _ h; simp at this, fun _ => ?_⟩
    simp only [rsRafsiTarmi, rafsiTarmi, rsIsGismuShape_eq, rsAt_zero, rsAt_succ, rsIsVowel_eq, rsIsConsonant_eq]
    simp
  | a :: b :: c :: d :: e :: f :: t =>
    refine ⟨fun _ h => by have := hl _ h; simp at this, fun _ => ?_⟩
    simp [rsRafsiTarmi, rafsiTarmi]

/-- What the two versions say of the odd strings. -/
theorem oddShape_says {r : Str} (h : OddShape r) (hy : r ≠ s%"'y") :
    rafsiTarmi r = .other ∧ (rsRafsiTarmi r = .ccv ∨ rsRafsiTarmi r = .cvcc ∨ rsRafsiTarmi r = .ccvc) := by
  have hd : ∀ c, isVowel c = true → isConsonant c = false := fun c => isVowel_not_isConsonant
  have hd' : ∀ c, isConsonant c = true → isVowel c = false := fun c => not_vowel_of_consonant
  cases h with
  | hyphen => exact absurd rfl hy
  | three h1 h2 h3 h4 =>
    rw [← isConsonant_iff] at h1
    rw [← isVowel_false] at h2
    rw [← isConsonant_false] at h3
    rw [← isVowel_iff] at h4
    simp [rsRafsiTarmi, rafsiTarmi, rsTarmi3, rsAt_zero, rsAt_succ, rsIsVowel_eq, rsIsConsonant_eq, h1, h2, h3, h4]
  | @cvcc a v x c h1 h2 h3 h4 =>
    rw [← isConsonant_iff] at h1 h4
    rw [← isVowel_iff] at h2
    rw [← isConsonant_false] at h3
    have h5 := hd' _ h4
    have h6 : c ≠ '\'' := by rintro rfl; exact absurd h4 (by decide)
    simp [rsRafsiTarmi, rafsiTarmi, rsTarmi4, rsAt_zero, rsAt_succ, rsIsVowel_eq, rsIsConsonant_eq, h1, h2, h3, h4, h5, h6]
  | @ccvc a x v z h1 h2 h3 h4 h5 h6 =>
    rw [← isConsonant_iff, ← isConsonant_iff] at h6
    rw [← isConsonant_iff] at h1
    rw [← isVowel_false] at h2 h4
    rw [← isVowel_iff] at h3
    have h7 : (isConsonant x && isConsonant z) = false := by
      rw [Bool.eq_false_iff]
      intro h
      exact h6 (by simpa using h)
    simp only [Bool.and_eq_false_iff] at h7
    rcases h7 with h7 | h7 <;>
      simp [rsRafsiTarmi, rafsiTarmi, rsTarmi4, rsAt_zero, rsAt_succ, rsIsVowel_eq, rsIsConsonant_eq, h1, h2, h3, h4, h5, h7]

/-- The shapes over which the two versions never differ. -/
theorem rsRafsiTarmi_safe {t : Tarmi} (ht : t = .cvv ∨ t = .cvhv ∨ t = .cvc ∨ t = .cvccv ∨ t = .ccvcv) (r : Str) :
    rsRafsiTarmi r = t ↔ rafsiTarmi r = t := by
  by_cases ho : OddShape r
  · by_cases hy : r = s%"'y"
    · subst hy
      rcases ht with rfl | rfl | rfl | rfl | rfl <;> decide
    · obtain ⟨h1, h2⟩ := oddShape_says ho hy
      rw [h1]
      rcases h2 with h2 | h2 | h2 <;> rw [h2] <;> rcases ht with rfl | rfl | rfl | rfl | rfl <;> simp
  · rw [(rsRafsiTarmi_iff r).2 ho]

theorem rafsi_not_odd {mz : Bool} {x : Str} (h : Rafsi mz x) : ¬ OddShape x := by
  intro ho
  have hy : x ≠ s%"'y" := by rintro rfl; exact absurd (rafsi_length h).1 (by decide)
  have := (oddShape_says ho hy).1
  have hv := isValidRafsi_iff.2 h
  unfold isValidRafsi at hv
  rw [this] at hv
  cases hv

theorem rsTarmi_rafsi {mz : Bool} {x : Str} (h : Rafsi mz x) : rsRafsiTarmi x = rafsiTarmi x := (rsRafsiTarmi_iff x).2 (rafsi_not_odd h)

theorem rsIsValidRafsi_of {mz : Bool} {r : Str} (h : rsRafsiTarmi r = rafsiTarmi r) : rsIsValidRafsi mz r = isValidRafsi mz r := by
  unfold rsIsValidRafsi isValidRafsi validPairs
  rw [h]
  cases hr : rafsiTarmi r <;> simp

theorem rsIsValidRafsi_iff (mz : Bool) (r : Str) : rsIsValidRafsi mz r = isValidRafsi mz r ↔ ¬ OddRafsi r := by
  by_cases ho : OddShape r
  · by_cases hy : r = s%"'y"
    · subst hy
      refine ⟨fun _ h => ?_, fun _ => by cases mz <;> decide⟩
      cases h
    · have hpy : isValidRafsi mz r = false := by
        unfold isValidRafsi
        rw [(oddShape_says ho hy).1]
        rfl
      rw [hpy]
      cases ho with
      | hyphen => exact absurd rfl hy
      | @three a x v h1 h2 h3 h4 =>
        refine ⟨fun _ h => (nomatch h), fun _ => ?_⟩
        have ht : rsRafsiTarmi [a, x, v] = .ccv := by
          rw [← isConsonant_iff] at h1
          rw [← isVowel_false] at h2
          rw [← isVowel_iff] at h4
          simp [rsRafsiTarmi, rsTarmi3, rsAt_zero, rsAt_succ, rsIsVowel_eq, rsIsConsonant_eq, h1, h2, h4]
        unfold rsIsValidRafsi
        rw [ht]
        simp only [reduceCtorEq, or_false, or_true, if_true, if_false]
        rw [Bool.eq_false_iff]
        exact fun h => h3 (initial_consonants (initial_contains.1 h)).2
      | @cvcc a v x c h1 h2 h3 h4 =>
        have ht : rsRafsiTarmi [a, v, x, c] = .cvcc := by
          have h6 : c ≠ '\'' := by rintro rfl; exact absurd h4 (by decide)
          rw [← isConsonant_iff] at h1 h4
          rw [← isVowel_iff] at h2
          have h5 := not_vowel_of_consonant h4
          simp [rsRafsiTarmi, rsTarmi4, rsAt_zero, rsAt_succ, rsIsVowel_eq, rsIsConsonant_eq, h1, h2, h4, h5, h6]
        constructor
        · intro _ h
          cases h with
          | mk _ _ _ h _ => exact h h4
        · intro _
          unfold rsIsValidRafsi
          rw [ht]
          simp only [or_true, if_true]
          rw [Bool.eq_false_iff]
          intro h
          exact h3 (validPairs_contains.1 h).1
      | @ccvc a x v z h1 h2 h3 h4 h5 h6 =>
        have ht : rsRafsiTarmi [a, x, v, z] = .ccvc := by
          rw [← isConsonant_iff] at h1
          rw [← isVowel_false] at h2 h4
          rw [← isVowel_iff] at h3
          simp [rsRafsiTarmi, rsTarmi4, rsAt_zero, rsAt_succ, rsIsVowel_eq, rsIsConsonant_eq, h1, h2, h3, h4, h5]
        unfold rsIsValidRafsi
        rw [ht]
        simp only [reduceCtorEq, or_false, or_true, if_true, if_false]
        constructor
        · intro h ho
          cases ho with
          | mk hi _ _ _ _ => rw [show slice [a, x, v, z] 0 2 = [a, x] from rfl, initial_contains.2 hi] at h; cases h
        · intro h
          rw [Bool.eq_false_iff]
          intro hi
          have hi := initial_contains.1 hi
          exact h (.mk hi h3 h4 (fun hz => h6 ⟨(initial_consonants hi).2, hz⟩) h5)
  · refine ⟨fun _ h => ho ?_, fun _ => rsIsValidRafsi_of ((rsRafsiTarmi_iff r).2 ho)⟩
    cases h with
    | mk hi hv h1 h2 h3 =>
      have := initial_consonants hi
      exact .ccvc this.1 (fun h => isConsonant_false.1 (isVowel_not_isConsonant ((isVowel_iff _).2 h)) this.2) hv h1 h3 (fun h => h2 h.2)

theorem countChar_filter (s : Str) (c : Char) : (s.filter (· == c)).length = countChar s c := by
  unfold countChar
  rw [List.count, List.countP_eq_length_filter]

theorem vowels_count : ∀ t : Str, ((t.filter rsIsVowel).length : Int) =
    (countChar t 'a' : Int) + countChar t 'e' + countChar t 'i' + countChar t 'o' + countChar t 'u' := by
  intro t
  rw [← List.countP_eq_length_filter]
  induction t with
  | nil => rfl
  | cons c cs ih =>
    simp only [List.countP_cons, countChar, List.count_cons] at ih ⊢
    unfold rsIsVowel at ih ⊢
    by_cases h1 : c = 'a'
    · subst h1; simp; simp at ih; omega
    by_cases h2 : c = 'e'
    · subst h2; simp; simp at ih; omega
    by_cases h3 : c = 'i'
    · subst h3; simp; simp at ih; omega
    by_cases h4 : c = 'o'
    · subst h4; simp; simp at ih; omega
    by_cases h5 : c = 'u'
    · subst h5; simp; simp at ih; omega
    simp [h1, h2, h3, h4, h5]; simp at ih; omega

theorem score_mod (t : Tarmi) : (if t = .other then 0 else t.score) = t.score % 9 := by cases t <;> rfl

theorem rsScore_of {r : Str} (h : rsTarmiIgnoringHyphen r = tarmiIgnoringHyphen r) : rsScore r = score r := by
  unfold rsScore score
  rw [h]
  simp only [countChar_filter, vowels_count, score_mod]

theorem dropWhile_first {p : Char → Bool} : ∀ (l : Str) (c : Char), (l.dropWhile p).head? = some c → p c = false
  | [], c, h => by cases h
  | a :: l, c, h => by
    rw [List.dropWhile_cons] at h
    split at h
    · exact dropWhile_first l c h
    · rename_i hp
      simp only [List.head?_cons, Option.some.injEq] at h
      subst h
      simpa using hp

theorem stripBoth_id_head {p : Char → Bool} (r : Str) (c : Char) (h : (stripBoth p r).head? = some c) : p c = false := by
  unfold stripBoth at h
  generalize hu : r.dropWhile p = u at h
  have hd : ∃ t, u = (u.reverse.dropWhile p).reverse ++ t := by
    refine ⟨(u.reverse.takeWhile p).reverse, ?_⟩
    rw [← List.reverse_append, List.takeWhile_append_dropWhile, List.reverse_reverse]
  obtain ⟨t, ht⟩ := hd
  have : u.head? = some c := by rw [ht, List.head?_append, h]; rfl
  rw [← hu] at this
  exact dropWhile_first r c this

theorem rsScore_iff (r : Str) : rsScore r = score r ↔ ¬ OddShape (stripHyphens r) := by
  constructor
  · intro h ho
    have hy : stripHyphens r ≠ s%"'y" := by
      intro h
      have := stripBoth_id_head (p := isHyphenLetter) r '\'' (by rw [show stripBoth isHyphenLetter r = s%"'y" from h]; rfl)
      exact absurd this (by decide)
    obtain ⟨h1, h2⟩ := oddShape_says ho hy
    unfold rsScore score rsTarmiIgnoringHyphen tarmiIgnoringHyphen at h
    simp only [countChar_filter, vowels_count] at h
    rw [show rsStripHyphens r = stripHyphens r from rfl, h1] at h
    rcases h2 with h2 | h2 | h2 <;> rw [h2] at h <;> simp [Tarmi.score] at h <;> omega
  · intro h
    exact rsScore_of ((rsRafsiTarmi_iff _).2 h)

/-! ## Middle clusters -/

/-- A match of the expression takes at least one letter. -/
def Takes (a : Re) : Prop := ∀ s, ∀ x ∈ a.run s, x.1.length < s.length

/-- Group `k` is nowhere captured empty. -/
def GroupTakes (k : Nat) : Re → Prop
  | .eps | .cls _ => True
  | .seq a b | .alt a b => GroupTakes k a ∧ GroupTakes k b
  | .opt a | .star a => GroupTakes k a
  | .grp n a => GroupTakes k a ∧ (n = k → Takes a)

/-- In the captured groups, `k` is not empty. -/
def FullGroup (k : Nat) (g : Groups) : Prop := ∀ p ∈ g, p.1 = k → p.2 ≠ []

theorem FullGroup.append {k : Nat} {g h : Groups} (hg : FullGroup k g) (hh : FullGroup k h) : FullGroup k (g ++ h) := by
  intro p hp
  rcases List.mem_append.1 hp with hp | hp
  · exact hg p hp
  · exact hh p hp

theorem starRun_full {k : Nat} {m : Str → List (Str × Groups)} (hm : ∀ s, ∀ x ∈ m s, FullGroup k x.2) :
    ∀ (n : Nat) (s : Str), ∀ x ∈ starRun m n s, FullGroup k x.2
  | 0, s, x, hx => by
    simp [starRun] at hx; subst hx; nofun
  | n + 1, s, x, hx => by
    unfold starRun at hx
    rcases List.mem_append.1 hx with hx | hx
    · obtain ⟨y, hy, hx⟩ := List.mem_flatMap.1 hx
      obtain ⟨z, hz, rfl⟩ := List.mem_map.1 hx
      exact (starRun_full hm n _ z hz).append (hm s y (List.mem_filter.1 hy).1)
    · simp at hx; subst hx; nofun

theorem run_full {k : Nat} : ∀ (r : Re), GroupTakes k r → ∀ s, ∀ x ∈ r.run s, FullGroup k x.2
  | .eps, _, s, x, hx => by simp [Re.run] at hx; subst hx; nofun
  | .cls p, _, s, x, hx => by
    unfold Re.run at hx
    split at hx
    · cases hx
    · split at hx
      · simp at hx; subst hx; nofun
      · cases hx
  | .seq a b, h, s, x, hx => by
    unfold Re.run at hx
    obtain ⟨y, hy, hx⟩ := List.mem_flatMap.1 hx
    obtain ⟨z, hz, rfl⟩ := List.mem_map.1 hx
    exact (run_full b h.2 _ z hz).append (run_full a h.1 s y hy)
  | .alt a b, h, s, x, hx => by
    unfold Re.run at hx
    rcases List.mem_append.1 hx with hx | hx
    · exact run_full a h.1 s x hx
    · exact run_full b h.2 s x hx
  | .opt a, h, s, x, hx => by
    unfold Re.run at hx
    rcases List.mem_append.1 hx with hx | hx
    · exact run_full a h s x hx
    · simp at hx; subst hx; nofun
  | .star a, h, s, x, hx => by
    unfold Re.run at hx
    exact starRun_full (run_full a h) _ s x hx
  | .grp n a, h, s, x, hx => by
    unfold Re.run at hx
    obtain ⟨y, hy, rfl⟩ := List.mem_map.1 hx
    intro p hp
    rcases List.mem_cons.1 hp with rfl | hp
    · intro hk
      have := h.2 hk s y hy
      simp only [ne_eq, List.take_eq_nil_iff, not_or]
      refine ⟨by omega, ?_⟩
      rintro rfl
      simp at this
    · exact run_full a h.1 s y hy p hp

theorem takes_cls (p : Char → Bool) : Takes (.cls p) := by
  intro s x hx
  unfold Re.run at hx
  split at hx
  · cases hx
  · split at hx
    · simp at hx; subst hx; simp
    · cases hx

theorem opt_cls_le (p : Char → Bool) : ∀ s, ∀ x ∈ (Re.opt (.cls p)).run s, x.1.length ≤ s.length := by
  intro s x hx
  unfold Re.run at hx
  rcases List.mem_append.1 hx with hx | hx
  · exact Nat.le_of_lt (takes_cls p s x hx)
  · simp at hx; subst hx; exact Nat.le_refl _

theorem group_full {r : Re} {k : Nat} {s g : Str} (h : GroupTakes k r) (hg : (r.fullmatch s).map (·.get k) = some (some g)) : g ≠ [] := by
  unfold Re.fullmatch Groups.get at hg
  simp only [Option.map_map, Option.map_eq_some_iff, Function.comp] at hg
  obtain ⟨x, hx, hl⟩ := hg
  have hm := List.mem_of_find?_eq_some hx
  obtain ⟨l1, l2, e, -⟩ := List.lookup_eq_some_iff.1 hl
  exact run_full r h s x hm (k, g) (by rw [e]; simp) rfl

theorem reShort_solid : GroupTakes 1 reShort := by
  simp only [reShort, GroupTakes, true_and, and_true]
  exact ⟨fun _ => takes_cls _, by simp⟩

theorem reLong_solid : GroupTakes 3 reLong := by
  simp only [reLong, reHead, GroupTakes, true_and, and_true]
  refine ⟨⟨by simp, by simp⟩, fun _ => ?_, by simp⟩
  intro s x hx
  unfold Re.run at hx
  obtain ⟨y, hy, hx⟩ := List.mem_flatMap.1 hx
  obtain ⟨z, hz, rfl⟩ := List.mem_map.1 hx
  have h1 := takes_cls _ s y hy
  unfold Re.run at hz
  obtain ⟨u, hu, hz⟩ := List.mem_flatMap.1 hz
  obtain ⟨v, hv, rfl⟩ := List.mem_map.1 hz
  have h2 := opt_cls_le _ _ u hu
  have h3 := opt_cls_le _ _ v hv
  show v.1.length < s.length
  omega

theorem obstruent_or_sonorant (c : Char) : isConsonant c = (isObstruent c || isSonorant c) := by
  rw [Bool.eq_iff_iff]
  simp only [isConsonant, isObstruent, isSonorant, Bool.or_eq_true, List.contains_iff_mem]
  rw [← List.mem_append]
  constructor <;> intro h
  · exact (by decide : ∀ c ∈ s%"bcdfgjklmnprstvxz", c ∈ s%"bcdfgjkpstvxz" ++ s%"lmnr") c h
  · exact (by decide : ∀ c ∈ s%"bcdfgjkpstvxz" ++ s%"lmnr", c ∈ s%"bcdfgjklmnprstvxz") c h

theorem reLong_three (a b c : Char) (hb : isSonorant b = false) :
    (reLong.fullmatch [a, b, c]).map (·.get 3) =
      if isConsonant a ∧ isConsonant b ∧ isConsonant c then some (some [b, c]) else none := by
  have ob := obstruent_or_sonorant b
  have oc := obstruent_or_sonorant c
  have oa := obstruent_or_sonorant a
  rw [hb, Bool.or_false] at ob
  rw [ob, oa, oc]
  cases h1 : isObstruent a <;> cases h2 : isSonorant a <;> cases h3 : isObstruent b <;> cases h4 : isObstruent c <;> cases h5 : isSonorant c <;>
    simp [reLong, reHead, Re.fullmatch, Re.run, starRun, Groups.get, List.lookup, oa, ob, oc, hb, h1, h2, h3, h4, h5]

theorem middle_three (a b c : Char) : isZihevlaMiddleCluster [a, b, c] = (isSonorant b || VALID.contains [a, b] && INITIAL.contains [b, c]) := by
  unfold isZihevlaMiddleCluster
  cases h : isSonorant b <;> simp [h, slice]

theorem rsMiddle_three (a b c : Char) :
    rsIsZihevlaMiddleCluster [a, b, c] = (isSonorant b || isConsonant a && INITIAL.contains [b, c]) := by
  unfold rsIsZihevlaMiddleCluster
  cases h : isSonorant b
  · have hb : b ≠ 'm' := by rintro rfl; revert h; decide
    have hs : (s%"lmnr").contains b = false := h
    have e : rsBack [a, b, c] 2 = b := rfl
    have e1 : rsAt [a, b, c] 1 = b := rfl
    rw [e, e1, hs, reLong_three a b c h]
    simp only [slice, hb]
    by_cases hv : VALID.contains [a, b] = true ∧ INITIAL.contains [b, c] = true
    · have ha : isConsonant a = true := (isConsonant_iff _).2 (validPairs_contains (mz := false).1 hv.1).1
      simp at hv
      simp [hv, ha]
    · rw [if_neg (by simp at hv ⊢; exact hv)]
      simp only [Bool.false_and, decide_false, Bool.false_eq_true, if_false, Bool.false_or]
      cases ha : isConsonant a
      · simp
      · by_cases hi : INITIAL.contains [b, c] = true
        · obtain ⟨h1, h2⟩ := initial_consonants (initial_contains.1 hi)
          rw [if_pos ⟨rfl, (isConsonant_iff _).2 h1, (isConsonant_iff _).2 h2⟩]
          simp only [rsIsZihevlaInitialCluster_eq (s := [b, c]) (by simp)]
          simp at hi
          simp [isZihevlaInitialCluster, hi]
        · split
          · rename_i hm
            simp at hi
            simp [hi]
          · rename_i hm
            split at hm <;> simp at hm
          · rename_i hm
            split at hm <;> simp at hm
            subst hm
            rw [rsIsZihevlaInitialCluster_eq (s := [b, c]) (by simp)]
            simp at hi
            simp [isZihevlaInitialCluster, hi]
  · have hs : (s%"lmnr").contains b = true := h
    have e1 : rsAt [a, b, c] 1 = b := rfl
    rw [e1, hs]
    simp

theorem rsIsZihevlaMiddleCluster_eq {s : Str} (h3 : s.length ≠ 3) : rsIsZihevlaMiddleCluster s = isZihevlaMiddleCluster s := by
  unfold rsIsZihevlaMiddleCluster isZihevlaMiddleCluster
  by_cases h2 : s.length < 3
  · simp [h2, h3]
  · rw [if_neg (by simp [h2, h3]), if_neg h3, if_neg h2]
    have hback : (rsBack s 2 = 'm') = (s[s.length - 2]? = some 'm') := by
      unfold rsBack rsAt
      rw [if_pos (by omega), List.getElem?_eq_getElem (by omega)]
      simp
    have hl3 : lastN s 3 ≠ [] := by
      unfold lastN
      intro h
      have := congrArg List.length h
      simp at this
      omega
    rw [rsIsZihevlaInitialCluster_eq hl3]
    simp only [Bool.and_eq_true, decide_eq_true_eq, hback]
    have key : ∀ g : Option (Option Str), (∀ x, g = some (some x) → x ≠ []) →
        (match g with
          | none => false
          | some none => true
          | some (some g) => rsIsZihevlaInitialCluster g) =
        (match g with
          | none => false
          | some (some g) => isZihevlaInitialCluster g
          | some none => true) := by
      intro g hg
      match g with
      | none => rfl
      | some none => rfl
      | some (some x) => exact rsIsZihevlaInitialCluster_eq (hg x rfl)
    have hside : ∀ P : Prop, [Decidable P] → ∀ b : Bool,
        (if P then (reShort.fullmatch (dropLastN s (2 + if b = true then 1 else 0))).map (·.get 1) else (reLong.fullmatch s).map (·.get 3))
          = if P then if b = true then (reShort.fullmatch (dropLastN s 3)).map (·.get 1) else (reShort.fullmatch (dropLastN s 2)).map (·.get 1)
            else (reLong.fullmatch s).map (·.get 3) := by
      intro P _ b; cases b <;> rfl
    rw [hside]
    apply key
    intro x hx
    split at hx
    · split at hx
      · exact group_full reShort_solid hx
      · exact group_full reShort_solid hx
    · exact group_full reLong_solid hx

theorem rsIsZihevlaMiddleCluster_iff (s : Str) : rsIsZihevlaMiddleCluster s = isZihevlaMiddleCluster s ↔ ¬ OddCluster s := by
  by_cases h3 : s.length = 3
  · match s, h3 with
    | [a, b, c], _ =>
      rw [rsMiddle_three, middle_three]
      have hv : VALID.contains [a, b] = true ↔ PermissiblePair false a b := validPairs_contains (mz := false)
      have hi : INITIAL.contains [b, c] = true ↔ InitialPair b c := initial_contains
      have hc : isConsonant a = true ↔ Consonant a := isConsonant_iff _
      have hs : isSonorant b = true ↔ b ∈ s%"lmnr" := by simp [isSonorant]
      have hca : PermissiblePair false a b → Consonant a := fun h => h.1
      have : OddCluster [a, b, c] ↔ Consonant a ∧ b ∉ s%"lmnr" ∧ InitialPair b c ∧ ¬ PermissiblePair false a b :=
        ⟨fun | .mk h1 h2 h3 h4 => ⟨h1, h2, h3, h4⟩, fun ⟨h1, h2, h3, h4⟩ => .mk h1 h2 h3 h4⟩
      rw [this, Bool.eq_iff_iff]
      simp only [Bool.or_eq_true, Bool.and_eq_true, hv, hi, hc, hs]
      grind
  · exact ⟨fun _ h => by cases h; simp at h3, fun _ => rsIsZihevlaMiddleCluster_eq h3⟩

/-! ## The forms of a rafsi -/

theorem rsGetRafsiForRafsi_eq {r : Str} (hr : r ≠ []) {t : RType} (ht : t ≠ .tarmi .hyphen ∧ t ≠ .tarmi .other) (f l : Bool)
    (c : Consonants) (g : Bool) : ∃ os, getRafsiForRafsi r t f l c g = .ok os ∧ rsGetRafsiForRafsi r t f l c g = .ok os := by
  obtain ⟨a, u, rfl⟩ := List.exists_cons_of_ne_nil hr
  have hap : apostrophise f (a :: u) = .ok (if !f && rsIsVowel (rsAt (a :: u) 0) && !rsIsGlide (a :: u) then '\'' :: a :: u else a :: u) := by
    unfold apostrophise
    rw [rsIsGlide_eq, rsAt_zero, rsIsVowel_eq]
    cases f
    · simp [idx, bind, Except.bind]
      split <;> rfl
    · simp
  have hne : (if !f && rsIsVowel (rsAt (a :: u) 0) && !rsIsGlide (a :: u) then '\'' :: a :: u else a :: u) ≠ [] := by split <;> simp
  unfold getRafsiForRafsi rsGetRafsiForRafsi
  rw [hap]
  simp only [bind, Except.bind]
  generalize (if !f && rsIsVowel (rsAt (a :: u) 0) && !rsIsGlide (a :: u) then '\'' :: a :: u else a :: u) = w at hne
  obtain ⟨b, v, rfl⟩ := List.exists_cons_of_ne_nil hne
  obtain ⟨q, hq⟩ : ∃ q, (b :: v).getLast? = some q := ⟨_, List.getLast?_eq_some_getLast (by simp)⟩
  rw [rsBack_of hq, rsIsGlide_eq, rsAt_zero, rsIsVowel_eq, rsIsConsonant_eq]
  simp only [idxLast, hq, idx]
  match t, ht with
  | .shortBrivla, _ | .tarmi .ccvc, _ | .tarmi .cvcc, _ =>
    cases l <;> simp
    split <;> simp
  | .longBrivla, _ | .tarmi .ccvcv, _ | .tarmi .cvccv, _ => cases l <;> simp
  | .experimental, _ =>
    by_cases hc : c = .cluster
    · cases l <;> cases f <;> simp [hc]
    · cases hx : (isConsonant b || g && isGlide (b :: v)) <;> cases l <;> cases f <;> simp_all
  | .tarmi .cvv, _ | .tarmi .cvhv, _ =>
    by_cases hc : c = .cluster <;> cases l <;> cases f <;> simp [hc]
  | .tarmi .ccv, _ => simp
  | .tarmi .cvc, _ => cases l <;> simp

end Jvotci
