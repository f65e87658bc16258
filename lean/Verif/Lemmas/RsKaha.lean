import Verif.Lemmas.RsList
import Verif.Lemmas.Slin
import Verif.Lemmas.JsKaha

/-!
# Cutting a word: the Rust crate and the Python version
-/

namespace Jvotci

open Spec

/-- Both succeed with the same value, or both fail in a way that is caught. -/
def Near {α : Type} (x : Except Err α) (x' : Except RsErr α) : Prop :=
  (∃ a, x = .ok a ∧ x' = .ok a) ∨
  ∃ e e', x = .error e ∧ x' = .error e' ∧ (e = .decomposition ∨ e = .invalidCluster) ∧ (e' = .decomposition ∨ e' = .invalidCluster)

theorem Near.ok {α : Type} (a : α) : Near (.ok a) (.ok a) := .inl ⟨a, rfl, rfl⟩

theorem Near.err {α : Type} {e : Err} {e' : RsErr} (h : e = .decomposition ∨ e = .invalidCluster) (h' : e' = .decomposition ∨ e' = .invalidCluster) :
    Near (.error e : Except Err α) (.error e') := .inr ⟨e, e', rfl, rfl, h, h'⟩

/-- The words that are cut: letters, no `yy`, and the last letter is neither y nor r. -/
structure Cuttable (w : Str) : Prop where
  letters : ∀ c ∈ w, Vowel c ∨ Consonant c ∨ c = '\'' ∨ c = 'y'
  yy : ∀ u v, w ≠ u ++ 'y' :: 'y' :: v
  last : w.getLast? ≠ some 'y' ∧ w.getLast? ≠ some 'r'

/-- The same without the condition on r. -/
structure Loose (w : Str) : Prop where
  letters : ∀ c ∈ w, Vowel c ∨ Consonant c ∨ c = '\'' ∨ c = 'y'
  yy : ∀ u v, w ≠ u ++ 'y' :: 'y' :: v
  last : w.getLast? ≠ some 'y'

theorem Cuttable.loose {w : Str} (h : Cuttable w) : Loose w := ⟨h.letters, h.yy, h.last.1⟩

theorem Loose.suffix {u w : Str} (h : Loose (u ++ w)) : Loose w := by
  refine ⟨fun c hc => h.letters c (by simp [hc]), fun a b e => h.yy (u ++ a) b (by rw [e]; simp), ?_⟩
  have h1 := h.last
  rw [List.getLast?_append] at h1
  cases hw : w.getLast? with
  | none => simp
  | some c => rw [hw] at h1; simpa using h1

theorem Cuttable.suffix {u w : Str} (h : Cuttable (u ++ w)) : Cuttable w := by
  refine ⟨fun c hc => h.letters c (by simp [hc]), fun a b e => h.yy (u ++ a) b (by rw [e]; simp), ?_⟩
  have h1 := h.last
  rw [List.getLast?_append] at h1
  cases hw : w.getLast? with
  | none => simp
  | some c => rw [hw] at h1; simpa using h1

theorem Cuttable.drop {w : Str} (n : Nat) (h : Cuttable w) : Cuttable (w.drop n) := by
  rw [← List.take_append_drop n w] at h
  exact h.suffix

theorem initial_pair_consonants {a b : Char} (h : INITIAL.contains [a, b] = true) : isConsonant a = true ∧ isConsonant b = true := by
  have : ∀ p ∈ INITIAL, p.all isConsonant = true := by decide +kernel
  have := this [a, b] (by simpa using h)
  simpa using this

theorem valid_consonants {mz : Bool} {a b : Char} (h : (if mz then MZ_VALID else VALID).contains [a, b] = true) :
    isConsonant a = true ∧ isConsonant b = true := by
  have h1 : ∀ p ∈ MZ_VALID, p.all isConsonant = true := by decide +kernel
  have h2 : ∀ p ∈ VALID, p.all isConsonant = true := by decide +kernel
  cases mz
  · simpa using h2 [a, b] (by simpa using h)
  · simpa using h1 [a, b] (by simpa using h)

theorem long_shape {a b c d : Char} {t : Str} (h : rafsiTarmi (a :: b :: c :: d :: t) = .cvccv ∨ rafsiTarmi (a :: b :: c :: d :: t) = .ccvcv) :
    isVowel b = true ∧ isConsonant c = true ∨ isConsonant b = true ∧ isVowel c = true ∧ isConsonant d = true := by
  match t with
  | [] => rcases h with h | h <;> simp [rafsiTarmi] at h <;> grind
  | [f] =>
    have : isGismuShape [a, b, c, d, f] = true := by
      rcases h with h | h <;> simp [rafsiTarmi] at h <;> grind
    simp [isGismuShape] at this
    grind
  | f :: g :: t => rcases h with h | h <;> simp [rafsiTarmi] at h

/-- What is left of the two functions after the first two tests. -/
theorem near_rest {mz : Bool} {o w : Str} (h1 : ¬ (rafsiTarmi (slice w 0 3) = .cvv ∧ [s%"ai", s%"ei", s%"oi", s%"au"].contains (slice w 1 3) = true))
    (h2 : rafsiTarmi (slice w 0 4) ≠ .cvhv) (p4 : rafsiTarmi (slice w 0 4) = .other) (hl : ¬ (rafsiTarmi w = .cvccv ∨ rafsiTarmi w = .ccvcv))
    (p3 : rafsiTarmi (slice w 0 3) ≠ .cvc ∧ rafsiTarmi (slice w 0 3) ≠ .ccv)
    (hr : rsTakeRafsi mz o w = .error .invalidCluster ∨ rsTakeRafsi mz o w = .error .decomposition) :
    Near (takeRafsi mz o w) (rsTakeRafsi mz o w) := by
  unfold takeRafsi
  rw [if_neg h1, if_neg h2, p4]
  simp only [reduceCtorEq, decide_false, Bool.or_false, Bool.false_and, Bool.false_eq_true, if_false, if_neg hl, if_neg p3.1, if_neg p3.2]
  rcases hr with hr | hr <;> rw [hr]
  · exact .err (.inl rfl) (.inr rfl)
  · exact .err (.inl rfl) (.inl rfl)

theorem near_takeRafsi {mz : Bool} {o w : Str} (hw : Loose w) (ho : rafsiTarmi (slice o 0 3) = .ccv → slice o 3 5 ≠ s%"'y") :
    Near (takeRafsi mz o w) (rsTakeRafsi mz o w) := by
  have hd : ∀ c, isVowel c = true → isConsonant c = false := fun c => isVowel_not_isConsonant
  have hd' : ∀ c, isConsonant c = true → isVowel c = false := fun c => not_vowel_of_consonant
  have hnc : ∀ {a x}, isConsonant x = false → INITIAL.contains [a, x] = false := by
    intro a x hx
    cases h : INITIAL.contains [a, x]
    · rfl
    · rw [(initial_pair_consonants h).2] at hx; cases hx
  have hnv : ∀ {a x}, isConsonant a = false → (if mz then MZ_VALID else VALID).contains [a, x] = false := by
    intro a x hx
    cases h : (if mz then MZ_VALID else VALID).contains [a, x]
    · rfl
    · rw [(valid_consonants h).1] at hx; cases hx
  by_cases hcvv : rafsiTarmi (slice w 0 3) = .cvv ∧ [s%"ai", s%"ei", s%"oi", s%"au"].contains (slice w 1 3) = true
  · unfold takeRafsi rsTakeRafsi
    rw [if_pos hcvv, if_pos ⟨(rsRafsiTarmi_safe (by simp) _).2 hcvv.1, hcvv.2⟩]
    exact .ok _
  have hcvv' : ¬ (rsRafsiTarmi (slice w 0 3) = .cvv ∧ [s%"ai", s%"ei", s%"oi", s%"au"].contains (slice w 1 3) = true) := by
    rwa [rsRafsiTarmi_safe (by simp)]
  by_cases hcvhv : rafsiTarmi (slice w 0 4) = .cvhv
  · unfold takeRafsi rsTakeRafsi
    rw [if_neg hcvv, if_neg hcvv', if_pos hcvhv, if_pos ((rsRafsiTarmi_safe (by simp) _).2 hcvhv)]
    exact .ok _
  have hcvhv' : ¬ rsRafsiTarmi (slice w 0 4) = .cvhv := by rwa [rsRafsiTarmi_safe (by simp)]
  have two : ∀ {a b}, slice w 0 4 = [a, b] → w = [a, b] := by
    intro a b e
    match w, e with
    | [a, b], e => simpa [slice] using e
    | a :: b :: c :: t, e => simp [slice] at e
    | [a], e => simp [slice] at e
    | [], e => simp [slice] at e
  have three : ∀ {a b c}, slice w 0 4 = [a, b, c] → w = [a, b, c] := by
    intro a b c e
    match w, e with
    | [a, b, c], e => simpa [slice] using e
    | a :: b :: c :: d :: t, e => simp [slice] at e
    | [a, b], e => simp [slice] at e
    | [a], e => simp [slice] at e
    | [], e => simp [slice] at e
  have four : ∀ {a b c d}, slice w 0 4 = [a, b, c, d] → ∃ t, w = a :: b :: c :: d :: t := by
    intro a b c d e
    match w, e with
    | [a, b, c], e => simp [slice] at e
    | a :: b :: c :: d :: t, e =>
      simp [slice] at e
      obtain ⟨rfl, rfl, rfl, rfl⟩ := e
      exact ⟨t, rfl⟩
    | [a, b], e => simp [slice] at e
    | [a], e => simp [slice] at e
    | [], e => simp [slice] at e
  by_cases h4 : OddShape (slice w 0 4)
  · by_cases hy : slice w 0 4 = s%"'y"
    · have := two hy
      subst this
      exact absurd rfl hw.last
    obtain ⟨q4, r4⟩ := oddShape_says h4 hy
    generalize e4 : slice w 0 4 = x4 at h4
    cases h4 with
    | hyphen => exact absurd e4 hy
    | @three a x v k1 k2 k3 k5 =>
      have := three e4
      subst this
      rw [← isVowel_false] at k2
      rw [← isConsonant_false] at k3
      rw [← isConsonant_iff] at k1
      rw [← isVowel_iff] at k5
      refine near_rest hcvv hcvhv q4 ?_ ?_ ?_
      · simp [rafsiTarmi, k1, k2, k3, k5]
      · simp [slice, rafsiTarmi, k1, k2, k3, k5]
      · unfold rsTakeRafsi
        rw [if_neg hcvv', if_neg hcvhv']
        have := hnc (a := a) k3
        simp [slice, rsRafsiTarmi, rsTarmi3, rsAt_zero, rsAt_succ, rsIsVowel_eq, rsIsConsonant_eq, k1, k2, k3, k5] at this ⊢
        simp [this]
    | @cvcc a v x c k1 k2 k3 k5 =>
      obtain ⟨t, rfl⟩ := four e4
      rw [← isConsonant_iff] at k1 k5
      rw [← isVowel_iff] at k2
      rw [← isConsonant_false] at k3
      have k6 := hd' _ k5
      have k7 := hd _ k2
      refine near_rest hcvv hcvhv q4 ?_ ?_ ?_
      · intro h
        have := long_shape h
        simp [k3, k7] at this
      · simp [slice, rafsiTarmi, k1, k2, k3, k5, k7]
        grind
      · unfold rsTakeRafsi
        rw [if_neg hcvv', if_neg hcvhv']
        have h4 : rsRafsiTarmi (slice (a :: v :: x :: c :: t) 0 4) = .cvcc := by
          have : c ≠ '\'' := by rintro rfl; exact absurd k5 (by decide)
          simp [slice, rsRafsiTarmi, rsTarmi4, rsAt_zero, rsAt_succ, rsIsVowel_eq, rsIsConsonant_eq, k1, k2, k3, k5, k6, this]
        have hb := hnv (x := c) k3
        simp only [h4, rsAt_succ, rsAt_zero, rsIsVowel_eq, k2]
        simp [slice] at hb ⊢
        simp [hb]
    | @ccvc a x v z k1 k2 k3 k5 k6 k7 =>
      obtain ⟨t, rfl⟩ := four e4
      rw [← isConsonant_iff, ← isConsonant_iff] at k7
      rw [← isConsonant_iff] at k1
      rw [← isVowel_iff] at k3
      rw [← isVowel_false] at k2
      have k8 := hd _ k3
      have h4 : rsRafsiTarmi (slice (a :: x :: v :: z :: t) 0 4) = .ccvc := by
        rw [← isVowel_false] at k5
        simp [slice, rsRafsiTarmi, rsTarmi4, rsAt_zero, rsAt_succ, rsIsVowel_eq, rsIsConsonant_eq, k1, k2, k3, k5, k6]
      by_cases kx : isConsonant x = true
      · have hz : z = 'y' := by
          rcases hw.letters z (by simp) with h | h | h | h
          · exact absurd h k5
          · exact absurd ⟨kx, (isConsonant_iff _).2 h⟩ k7
          · exact absurd h k6
          · exact h
        subst hz
        have hl : ¬ (rafsiTarmi (a :: x :: v :: 'y' :: t) = .cvccv ∨ rafsiTarmi (a :: x :: v :: 'y' :: t) = .ccvcv) := by
          intro h
          have := long_shape h
          simp [k2, show isConsonant 'y' = false from by decide] at this
        have hl' : ¬ (rsRafsiTarmi (a :: x :: v :: 'y' :: t) = .cvccv ∨ rsRafsiTarmi (a :: x :: v :: 'y' :: t) = .ccvcv) := by
          rwa [rsRafsiTarmi_safe (by simp), rsRafsiTarmi_safe (by simp)]
        have p3 : rafsiTarmi (slice (a :: x :: v :: 'y' :: t) 0 3) = .ccv := by simp [slice, rafsiTarmi, k1, k2, k3, kx]
        have r3 : rsRafsiTarmi (slice (a :: x :: v :: 'y' :: t) 0 3) = .ccv := by
          simp [slice, rsRafsiTarmi, rsTarmi3, rsAt_zero, rsAt_succ, rsIsVowel_eq, rsIsConsonant_eq, k1, k2, k3]
        have hno : ¬ (a :: x :: v :: 'y' :: t = o ∧ slice (a :: x :: v :: 'y' :: t) 3 5 = s%"'y") := by
          rintro ⟨rfl, h⟩
          exact ho p3 h
        have h5 : ((a :: x :: v :: 'y' :: t).length == 4 || rsAt (a :: x :: v :: 'y' :: t) 4 == 'y') = false := by
          match t with
          | [] => exact absurd rfl hw.last
          | b :: t =>
            simp [rsAt_succ, rsAt_zero]
            rintro rfl
            exact hw.yy [a, x, v] t rfl
        have P : takeRafsi mz o (a :: x :: v :: 'y' :: t) = if !INITIAL.contains [a, x] then .error .invalidCluster else
            .ok (.pieces [slice (a :: x :: v :: 'y' :: t) 0 3] ((a :: x :: v :: 'y' :: t).drop 3)) := by
          unfold takeRafsi
          rw [if_neg hcvv, if_neg hcvhv, q4]
          simp only [reduceCtorEq, decide_false, Bool.or_false, Bool.false_and, Bool.false_eq_true, if_false, if_neg hl, p3, if_true, if_neg hno]
          rfl
        have R : rsTakeRafsi mz o (a :: x :: v :: 'y' :: t) = if !INITIAL.contains [a, x] then .error .invalidCluster else
            .ok (.pieces [slice (a :: x :: v :: 'y' :: t) 0 3] ((a :: x :: v :: 'y' :: t).drop 3)) := by
          unfold rsTakeRafsi
          rw [if_neg hcvv', if_neg hcvhv', h4]
          simp only [reduceCtorEq, decide_false, decide_true, Bool.or_true, Bool.true_and, Bool.false_eq_true, if_false, if_neg hl', r3, if_true, if_neg hno,
            rsAt_succ, rsAt_zero, rsIsVowel_eq, k2]
          rw [show slice (a :: x :: v :: 'y' :: t) 0 2 = [a, x] from rfl]
          simp only [rsAt_succ] at h5
          rw [h5]
          cases INITIAL.contains [a, x] <;> simp
        rw [P, R]
        cases INITIAL.contains [a, x]
        · exact .err (.inr rfl) (.inr rfl)
        · exact .ok _
      · rw [Bool.not_eq_true] at kx
        refine near_rest hcvv hcvhv q4 ?_ ?_ ?_
        · intro h
          have := long_shape h
          simp [kx, k2] at this
        · simp [slice, rafsiTarmi, k1, k2, k3, kx]
        · unfold rsTakeRafsi
          rw [if_neg hcvv', if_neg hcvhv']
          have hb := hnc (a := a) kx
          simp only [h4, rsAt_succ, rsAt_zero, rsIsVowel_eq, k2]
          simp [slice] at hb ⊢
          simp [hb]
  · have e4 := (rsRafsiTarmi_iff _).2 h4
    by_cases h3 : OddShape (slice w 0 3)
    · generalize e3 : slice w 0 3 = x3 at h3
      have : ∃ a x v t, w = a :: x :: v :: t ∧ isConsonant a = true ∧ isVowel x = false ∧ isConsonant x = false ∧ isVowel v = true := by
        cases h3 with
        | hyphen =>
          exfalso
          have : w = s%"'y" := by
            match w, e3 with
            | [a, b], e => simpa [slice] using e
            | a :: b :: c :: t, e => simp [slice] at e
            | [a], e => simp [slice] at e
            | [], e => simp [slice] at e
          subst this
          exact absurd rfl hw.last
        | @three a x v k1 k2 k3 k5 =>
          rw [← isVowel_false] at k2
          rw [← isConsonant_false] at k3
          rw [← isConsonant_iff] at k1
          rw [← isVowel_iff] at k5
          match w, e3 with
          | a :: b :: c :: t, e =>
            simp [slice] at e
            obtain ⟨rfl, rfl, rfl⟩ := e
            exact ⟨_, _, _, _, rfl, k1, k2, k3, k5⟩
          | [a, b], e => simp [slice] at e
          | [a], e => simp [slice] at e
          | [], e => simp [slice] at e
        | cvcc => have := congrArg List.length e3; simp [slice] at this; omega
        | ccvc => have := congrArg List.length e3; simp [slice] at this; omega
      obtain ⟨a, x, v, t, rfl, k1, k2, k3, k5⟩ := this
      have p4 : rafsiTarmi (slice (a :: x :: v :: t) 0 4) = .other := by
        match t with
        | [] => simp [slice, rafsiTarmi, k1, k2, k3, k5]
        | z :: t => simp [slice, rafsiTarmi, k1, k2, k3, k5]
      have hl : ¬ (rafsiTarmi (a :: x :: v :: t) = .cvccv ∨ rafsiTarmi (a :: x :: v :: t) = .ccvcv) := by
        match t with
        | [] => simp [rafsiTarmi, k1, k2, k3, k5]
        | z :: t =>
          intro h
          have := long_shape h
          simp [k2, k3] at this
      have hl' : ¬ (rsRafsiTarmi (a :: x :: v :: t) = .cvccv ∨ rsRafsiTarmi (a :: x :: v :: t) = .ccvcv) := by
        rwa [rsRafsiTarmi_safe (by simp), rsRafsiTarmi_safe (by simp)]
      refine near_rest hcvv hcvhv p4 hl ?_ ?_
      · simp [slice, rafsiTarmi, k1, k2, k3, k5]
      · unfold rsTakeRafsi
        rw [if_neg hcvv', if_neg hcvhv', e4, p4]
        have r3 : rsRafsiTarmi (slice (a :: x :: v :: t) 0 3) = .ccv := by
          simp [slice, rsRafsiTarmi, rsTarmi3, rsAt_zero, rsAt_succ, rsIsVowel_eq, rsIsConsonant_eq, k1, k2, k5]
        have hb := hnc (a := a) k3
        simp only [reduceCtorEq, decide_false, Bool.or_false, Bool.false_and, Bool.false_eq_true, if_false, if_neg hl', r3, if_true]
        rw [show slice (a :: x :: v :: t) 0 2 = [a, x] from rfl, hb]
        simp
    · have e3 := (rsRafsiTarmi_iff _).2 h3
      have key : rsTakeRafsi mz o w = (takeRafsi mz o w).mapError toJ := by
        unfold takeRafsi rsTakeRafsi
        have h5' : (rsAt w 4 = 'y') = (w[4]? = some 'y') := by
          unfold rsAt; cases w[4]? <;> simp
        have h5 : (rsAt w 4 == 'y') = (w[4]? == some 'y') := by
          rw [Bool.eq_iff_iff, beq_iff_eq, beq_iff_eq, h5']
        have hb : rafsiTarmi (slice w 0 4) = .cvcc ∨ rafsiTarmi (slice w 0 4) = .ccvc →
            (if rsIsVowel (rsAt w 1) = true then !(if mz = true then MZ_VALID else VALID).contains (slice w 2 4)
            else !INITIAL.contains (slice w 0 2)) = badFour mz w := by
          intro h
          unfold badFour
          cases h1 : w[1]? with
          | none =>
            exfalso
            match w with
            | [] => revert h; decide
            | [a] => simp [slice, rafsiTarmi] at h; grind
            | a :: b :: t => simp at h1
          | some c => rw [rsAt_of h1]; rfl
        simp only [rsRafsiTarmi_safe (t := .cvv) (by simp), rsRafsiTarmi_safe (t := .cvhv) (by simp), rsRafsiTarmi_safe (t := .cvc) (by simp),
          rsRafsiTarmi_safe (t := .cvccv) (by simp), rsRafsiTarmi_safe (t := .ccvcv) (by simp), e3, e4, h5, h5']
        rw [if_neg hcvv, if_neg hcvv, if_neg hcvhv, if_neg hcvhv]
        by_cases hf : rafsiTarmi (slice w 0 4) = .cvcc ∨ rafsiTarmi (slice w 0 4) = .ccvc
        · rw [hb hf]
          repeat' split
          all_goals first | rfl | contradiction
        · have : (decide (rafsiTarmi (slice w 0 4) = .cvcc) || decide (rafsiTarmi (slice w 0 4) = .ccvc)) = false := by
            simpa using hf
          simp only [this, Bool.false_and, Bool.false_eq_true, if_false]
          repeat' split
          all_goals first | rfl | contradiction
      rw [key]
      cases h : takeRafsi mz o w with
      | ok c => exact .ok _
      | error e =>
        have hc : Errs caughtErrs (takeRafsi mz o w) := caught_takeRafsi fun e h => by subst e; exact ho h
        have := hc e h
        simp [caughtErrs] at this
        rcases this with rfl | rfl
        · exact .err (by simp) (by simp [toJ])
        · exact .err (by simp) (by simp [toJ])

theorem rsTakeHyphen_ok {y : YHyphens} {w : Str} {res : List Str} (hw : w ≠ []) (hl : w.getLast? ≠ some 'r') :
    takeHyphen y w res = .ok (rsTakeHyphen y w res) := by
  unfold takeHyphen rsTakeHyphen
  match res with
  | [] => rfl
  | prev :: res =>
    dsimp only
    by_cases h1 : prev.length = 1
    · rw [if_pos h1, if_pos h1]
    rw [if_neg h1, if_neg h1]
    simp only [rsRafsiTarmi_safe (t := .cvv) (by simp), rsRafsiTarmi_safe (t := .cvhv) (by simp)]
    match w, hw, hl with
    | [c0], _, hl =>
      have hr : c0 ≠ 'r' := by rintro rfl; exact hl rfl
      by_cases hy : c0 = 'y'
      · subst hy; simp [rsAt_zero, slice]
      · cases y <;> simp [hy, hr, slice, rsAt_zero, bind, Except.bind]
    | c0 :: c1 :: cs, _, _ =>
      by_cases hy : c0 = 'y'
      · subst hy; simp [rsAt_zero, slice]
      · dsimp only
        rw [if_neg hy]
        simp only [rsAt_zero, rsAt_succ, rsIsConsonant_eq, hy, false_or]
        rw [show slice (c0 :: c1 :: cs) 0 1 = [c0] from rfl, show slice (c0 :: c1 :: cs) 0 2 = [c0, c1] from rfl]
        cases y <;> simp only [ne_eq, reduceCtorEq, not_false_eq_true, not_true_eq_false, if_true, if_false, false_and, true_and, bind, Except.bind] <;>
          grind

theorem near_jvokaha2Loop {y : YHyphens} {mz : Bool} {o : Str} (ho : rafsiTarmi (slice o 0 3) = .ccv → slice o 3 5 ≠ s%"'y") : ∀ (n : Nat) (w : Str) (res : List Str),
    Cuttable w → w.length < n → Near (jvokaha2Loop y mz o n w res) (rsJvokaha2Loop y mz o n w res)
  | 0, _, _, _, h => by omega
  | n + 1, w, res, hw, hn => by
    unfold jvokaha2Loop rsJvokaha2Loop
    by_cases h0 : w = []
    · rw [if_pos h0, if_pos h0]; exact .ok _
    rw [if_neg h0, if_neg h0]
    have hh := rsTakeHyphen_ok (y := y) (res := res) h0 hw.last.2
    rw [hh, ok_bind]
    have hpos := List.length_pos_iff.2 h0
    cases hq : rsTakeHyphen y w res with
    | some h =>
      rw [hq] at hh
      obtain ⟨p, ps, -, -, hcase⟩ := takeHyphen_some hh
      have : 0 < h.length := by
        rcases hcase with ⟨rfl, _⟩ | ⟨rfl, _⟩ | ⟨rfl, _⟩ | ⟨rfl, _⟩ <;> simp
      exact near_jvokaha2Loop ho n _ _ (hw.drop _) (by rw [List.length_drop]; omega)
    | none =>
      rcases near_takeRafsi (mz := mz) (o := o) hw.loose ho with ⟨cut, h1, h2⟩ | ⟨e, e', h1, h2, h3, h4⟩
      · simp only [h1, h2, ok_bind]
        rcases takeRafsi_ok h1 with ⟨p, rest, he, hc, rfl⟩ | ⟨p, rest, he, hp, hc, rfl⟩ | ⟨hc, rfl⟩
        · have hl := congrArg List.length he
          rw [List.length_append] at hl
          have := hc.length_pos
          exact near_jvokaha2Loop ho n _ _ ((he ▸ hw).suffix) (by omega)
        · have hl := congrArg List.length he
          simp only [List.length_append, List.length_cons] at hl
          have hw' : Cuttable ((p ++ ['y']) ++ rest) := by
            have := hw
            rw [he] at this
            simpa using this
          exact near_jvokaha2Loop ho n _ _ hw'.suffix (by omega)
        · exact .ok _
      · simp only [h1, h2]
        exact .err h3 h4

theorem near_jvokaha2 {y : YHyphens} {mz : Bool} {w : Str} (hw : Cuttable w) (ho : rafsiTarmi (slice w 0 3) = .ccv → slice w 3 5 ≠ s%"'y") :
    Near (jvokaha2 y mz w) (rsJvokaha2 y mz w) := near_jvokaha2Loop ho _ _ _ hw (by omega)

end Jvotci
