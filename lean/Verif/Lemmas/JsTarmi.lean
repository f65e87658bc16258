import Verif.Js

/-!
# The JavaScript functions that do not recurse are the Python ones
-/

namespace Jvotci

theorem occursIn_one (c : Char) : ∀ hay : Str, occursIn [c] hay = hay.contains c
  | [] => rfl
  | d :: ds => by
    rw [occursIn, occursIn_one c ds]
    simp [List.isPrefixOf]
    rfl

theorem jsIncludes_one (hay : Str) (c : Char) : jsIncludes hay (some [c]) = hay.contains c := occursIn_one c hay

theorem jsIsVowel_one (c : Char) : jsIsVowel (some [c]) = isVowel c := occursIn_one _ _

theorem jsIsConsonant_one (c : Char) : jsIsConsonant (some [c]) = isConsonant c := occursIn_one _ _

theorem jsIsVowel_none : jsIsVowel none = false := by decide

theorem jsIsConsonant_none : jsIsConsonant none = false := by decide

theorem jsAt_cons_zero (c : Char) (cs : Str) : jsAt (c :: cs) 0 = some [c] := rfl

theorem jsAt_cons_succ (c : Char) (cs : Str) (i : Nat) : jsAt (c :: cs) (i + 1) = jsAt cs i := by simp [jsAt]

theorem jsAt_nil (i : Nat) : jsAt [] i = none := by simp [jsAt]

theorem jsAt_eq_some {s : Str} {i : Nat} {c : Char} : jsAt s i = some [c] ↔ s[i]? = some c := by
  unfold jsAt
  cases s[i]? <;> simp

theorem jsAt_of {s : Str} {i : Nat} {c : Char} (h : s[i]? = some c) : jsAt s i = some [c] := jsAt_eq_some.2 h

theorem jsAt_none {s : Str} {i : Nat} (h : s[i]? = none) : jsAt s i = none := by simp [jsAt, h]

theorem jsLast_of {s : Str} {l : Char} (h : s.getLast? = some l) : jsLast s = some [l] := by
  obtain ⟨t, rfl⟩ := List.getLast?_eq_some_iff.1 h
  simp [jsLast, lastN]

theorem jsLast_nil : jsLast [] = some [] := rfl

theorem jsLast_eq {s : Str} {c : Char} : jsLast s = some [c] ↔ s.getLast? = some c := by
  cases h : s.getLast? with
  | none =>
    rw [List.getLast?_eq_none_iff] at h
    subst h
    simp [jsLast_nil]
  | some l =>
    rw [jsLast_of h]
    simp

theorem jsIsVowel_at (s : Str) (i : Nat) : jsIsVowel (jsAt s i) = (match s[i]? with | some c => isVowel c | none => false) := by
  cases h : s[i]? with
  | none => rw [jsAt_none h, jsIsVowel_none]
  | some c => rw [jsAt_of h, jsIsVowel_one]

theorem jsIsConsonant_at (s : Str) (i : Nat) :
    jsIsConsonant (jsAt s i) = (match s[i]? with | some c => isConsonant c | none => false) := by
  cases h : s[i]? with
  | none => rw [jsAt_none h, jsIsConsonant_none]
  | some c => rw [jsAt_of h, jsIsConsonant_one]

theorem jsVowelFun : (fun d : Char => jsIsVowel (some [d])) = isVowel := funext jsIsVowel_one

theorem jsConsonantFun : (fun d : Char => jsIsConsonant (some [d])) = isConsonant := funext jsIsConsonant_one

theorem jsIsGlide_eq (s : Str) : jsIsGlide s = isGlide s := by
  match s with
  | [] => rfl
  | [a] => rfl
  | a :: b :: t =>
    simp only [jsIsGlide, isGlide, jsAt_cons_zero, jsAt_cons_succ, jsIsVowel_one, jsIncludes_one]
    simp

theorem jsIsOnlyLojban_eq (s : Str) : jsIsOnlyLojban s = isOnlyLojban s := rfl

theorem jsContainsConsonant_eq (s : Str) : jsContainsConsonant s = containsConsonant s := by
  unfold jsContainsConsonant containsConsonant
  rw [jsConsonantFun]

theorem jsIsGismuShape_eq (s : Str) : jsIsGismuShape s = isGismuShape s := by
  match s with
  | [] => rfl
  | [a] => rfl
  | [a, b] => rfl
  | [a, b, c] => rfl
  | [a, b, c, d] => rfl
  | [a, b, c, d, e] =>
    simp [jsIsGismuShape, isGismuShape, jsAt_cons_zero, jsAt_cons_succ, jsIsVowel_one, jsIsConsonant_one]
  | a :: b :: c :: d :: e :: f :: t => simp [jsIsGismuShape, isGismuShape]

theorem jsIsGismu_eq (mz : Bool) (s : Str) : jsIsGismu mz s = isGismu mz s := by
  unfold jsIsGismu isGismu
  rw [jsIsGismuShape_eq]
  match s with
  | [] => rfl
  | [a] => rfl
  | a :: b :: t => simp only [jsAt_cons_zero, jsAt_cons_succ, jsIsVowel_one, validPairs]

theorem jsBadGlide_eq (v n : Str) : jsBadGlide v n = badGlide v n := by
  unfold jsBadGlide badGlide
  cases n with
  | nil => simp [jsAt_nil]
  | cons c cs => simp [jsAt_cons_zero]

theorem jsSplitVowelsLoop_eq (f : Err → JsErr) (h1 : f .decomposition = .decomposition) (h2 : f .fuel = .fuel) :
    ∀ (n : Nat) (v : Str) (r : List Str), jsSplitVowelsLoop n v r = (splitVowelsLoop n v r).mapError f
  | 0, _, _ => by simp [jsSplitVowelsLoop, splitVowelsLoop, Except.mapError, h2]
  | n + 1, v, r => by
    unfold jsSplitVowelsLoop splitVowelsLoop
    simp only [jsBadGlide_eq, jsSplitVowelsLoop_eq f h1 h2 n]
    repeat' split
    all_goals simp_all [Except.mapError]

theorem jsIsZihevlaInitialCluster_eq (s : Str) : jsIsZihevlaInitialCluster s = isZihevlaInitialCluster s := rfl

theorem slice_penultimate {s : Str} (h : 2 ≤ s.length) (c : Char) :
    slice s (s.length - 2) (s.length - 1) = [c] ↔ s[s.length - 2]? = some c := by
  have hlt : s.length - 2 < s.length := by omega
  have : slice s (s.length - 2) (s.length - 1) = [s[s.length - 2]] := by
    unfold slice
    apply List.ext_getElem?
    intro i
    cases i with
    | zero =>
      simp only [List.getElem?_drop, Nat.add_zero]
      rw [List.getElem?_take_of_lt (by omega)]
      simp
    | succ i =>
      simp only [List.getElem?_drop, List.getElem?_cons_succ, List.getElem?_nil]
      exact List.getElem?_eq_none (by simp; omega)
  rw [this, List.getElem?_eq_getElem hlt]
  simp

theorem jsIsZihevlaMiddleCluster_eq (s : Str) : jsIsZihevlaMiddleCluster s = isZihevlaMiddleCluster s := by
  unfold jsIsZihevlaMiddleCluster isZihevlaMiddleCluster
  by_cases h3 : s.length = 3
  · rw [if_pos h3, if_pos h3]
    match s, h3 with
    | [a, b, c], _ => simp [jsAt_cons_zero, jsAt_cons_succ, jsIncludes_one, isSonorant]
  · rw [if_neg h3, if_neg h3]
    by_cases h2 : s.length < 3
    · rw [if_pos h2, if_pos h2]
    · rw [if_neg h2, if_neg h2]
      simp only [slice_penultimate (show 2 ≤ s.length by omega), jsIsZihevlaInitialCluster_eq]
      have key : ∀ g : Option (Option Str),
          (match g with
            | none => false
            | some (some g) => if (!isZihevlaInitialCluster g) = true then false else true
            | some none => true) =
          (match g with
            | none => false
            | some (some g) => isZihevlaInitialCluster g
            | some none => true) := by
        intro g
        match g with
        | none => rfl
        | some none => rfl
        | some (some g) => cases h : isZihevlaInitialCluster g <;> simp [h]
      exact (key _).trans (by congr)

theorem jsRafsiTarmi_eq (s : Str) : jsRafsiTarmi s = rafsiTarmi s := by
  have hdis : ∀ c, isVowel c = true → isConsonant c = false := by
    intro c h
    simp only [isVowel, List.contains_eq_mem, List.mem_cons, List.not_mem_nil, or_false, decide_eq_true_eq] at h
    rcases h with rfl | rfl | rfl | rfl | rfl <;> decide
  match s with
  | [] => rfl
  | [a] =>
    simp [jsRafsiTarmi, rafsiTarmi, jsIsVowel_one]
  | [a, b] =>
    simp [jsRafsiTarmi, rafsiTarmi]
  | [a, b, c] =>
    simp only [jsRafsiTarmi, rafsiTarmi, jsTarmi3, jsTarmi4, jsTarmi5, jsIsGismuShape_eq, isGismuShape, jsAt_cons_zero,
      jsAt_cons_succ, jsAt_nil, jsIsVowel_one, jsIsConsonant_one, jsIsVowel_none, jsIsConsonant_none]
    simp
  | [a, b, c, d] =>
    simp only [jsRafsiTarmi, rafsiTarmi, jsTarmi3, jsTarmi4, jsTarmi5, jsIsGismuShape_eq, isGismuShape, jsAt_cons_zero,
      jsAt_cons_succ, jsAt_nil, jsIsVowel_one, jsIsConsonant_one, jsIsVowel_none, jsIsConsonant_none]
    simp
  | [a, b, c, d, e] =>
    simp only [jsRafsiTarmi, rafsiTarmi, jsTarmi5, jsIsGismuShape_eq, jsAt_cons_zero,
      jsAt_cons_succ, jsAt_nil, jsIsVowel_one, jsIsConsonant_one]
    simp
  | a :: b :: c :: d :: e :: f :: t =>
    simp [jsRafsiTarmi, rafsiTarmi]

theorem jsIsValidRafsi_eq (mz : Bool) (s : Str) : jsIsValidRafsi mz s = isValidRafsi mz s := by
  unfold jsIsValidRafsi isValidRafsi validPairs
  rw [jsRafsiTarmi_eq]
  cases h : rafsiTarmi s <;> rfl

theorem jsStripHyphens_eq (s : Str) : jsStripHyphens s = stripHyphens s := rfl

theorem jsTarmiIgnoringHyphen_eq (s : Str) : jsTarmiIgnoringHyphen s = tarmiIgnoringHyphen s := by
  unfold jsTarmiIgnoringHyphen tarmiIgnoringHyphen
  rw [jsRafsiTarmi_eq, jsStripHyphens_eq]

theorem jsScore_eq (s : Str) : jsScore s = score s := by
  have h : ∀ t : Str, (t.countP (fun c => (s%"aeiou").contains c) : Int) =
      (countChar t 'a' : Int) + countChar t 'e' + countChar t 'i' + countChar t 'o' + countChar t 'u' := by
    intro t
    induction t with
    | nil => rfl
    | cons c cs ih =>
      simp only [List.countP_cons, countChar, List.count_cons] at ih ⊢
      by_cases h1 : c = 'a'
      · subst h1; simp; simp at ih; omega
      by_cases h2 : c = 'e'
      · subst h2; simp; simp at ih; omega
      by_cases h3 : c = 'i'
      · subst h3; simp; simp at ih; omega
      by_cases h4 : c = 'o'
      · subst h4; simp; simp at ih; omega
      by_cases h5 : c = 'u'
      · subst h5; simp; simp at ih; omega
      simp [h1, h2, h3, h4, h5]; simp at ih; omega
  unfold jsScore score
  rw [h, jsTarmiIgnoringHyphen_eq]
  rfl

theorem jsTiebreak_eq (s : Str) : jsTiebreak s = tiebreak s := by
  unfold jsTiebreak tiebreak
  simp only [jsRafsiTarmi_eq]

end Jvotci
