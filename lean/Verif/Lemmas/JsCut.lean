import Verif.Lemmas.JsTarmi
import Verif.Lemmas.Sim

/-!
# Agreement of a Python result and a JavaScript result
-/

namespace Jvotci

/-- The JavaScript exception for a Python exception. -/
def toJ : Err → JsErr
  | .decomposition => .decomposition
  | .invalidCluster => .invalidCluster
  | .noLujvo => .noLujvo
  | .nonLojban => .nonLojban
  | .notBrivla => .notBrivla
  | .notZihevla => .notZihevla
  | .index => .decomposition
  | .assertion => .plain
  | .name => .type
  | .fuel => .fuel

/-- The JavaScript result is the Python one, unless Python raises `IndexError` (or the model's own errors). -/
def Ag {α : Type} (x : Except Err α) (x' : Except JsErr α) : Prop :=
  (∀ a, x = .ok a → x' = .ok a) ∧ ∀ e, x = .error e → e = .index ∨ e = .fuel ∨ e = .name ∨ x' = .error (toJ e)

theorem Ag.ok {α : Type} (a : α) : Ag (.ok a) (.ok a) := ⟨fun _ h => by cases h; rfl, nofun⟩

theorem Ag.err {α : Type} (e : Err) : Ag (.error e : Except Err α) (.error (toJ e)) :=
  ⟨nofun, fun _ h => by cases h; exact .inr (.inr (.inr rfl))⟩

theorem Ag.index {α : Type} {x' : Except JsErr α} : Ag (.error .index) x' :=
  ⟨nofun, fun _ h => by cases h; exact .inl rfl⟩

theorem Ag.fuel {α : Type} {x' : Except JsErr α} : Ag (.error .fuel) x' :=
  ⟨nofun, fun _ h => by cases h; exact .inr (.inl rfl)⟩

theorem Ag.bind {α β : Type} {x : Except Err α} {x' : Except JsErr α} {f : α → Except Err β} {f' : α → Except JsErr β}
    (h : Ag x x') (hf : ∀ a, x = .ok a → Ag (f a) (f' a)) : Ag (x >>= f) (x' >>= f') := by
  cases hx : x with
  | ok a =>
    rw [h.1 a hx]
    exact hf a hx
  | error e =>
    refine ⟨nofun, fun e' he => ?_⟩
    have he : e = e' := by cases he; rfl
    subst he
    rcases h.2 _ hx with h | h | h | h
    · exact .inl h
    · exact .inr (.inl h)
    · exact .inr (.inr (.inl h))
    · rw [h]; exact .inr (.inr (.inr rfl))

theorem Ag.bind_idx {β : Type} {s : Str} {i : Nat} {f : Char → Except Err β} {x' : Except JsErr β}
    (hf : ∀ c, s[i]? = some c → Ag (f c) x') : Ag (idx s i >>= f) x' := by
  unfold idx
  split
  · rename_i c hc; exact hf c hc
  · exact Ag.index

theorem Ag.bind_last {β : Type} {s : Str} {f : Char → Except Err β} {x' : Except JsErr β}
    (hf : ∀ c, s.getLast? = some c → Ag (f c) x') : Ag (idxLast s >>= f) x' := by
  unfold idxLast
  split
  · rename_i c hc; exact hf c hc
  · exact Ag.index

theorem Ag.ite {α : Type} {p q : Prop} [Decidable p] [Decidable q] {x y : Except Err α} {x' y' : Except JsErr α} (hpq : p ↔ q)
    (h1 : p → Ag x x') (h2 : ¬ p → Ag y y') : Ag (if p then x else y) (if q then x' else y') := by
  by_cases hp : p
  · rw [if_pos hp, if_pos (hpq.1 hp)]; exact h1 hp
  · rw [if_neg hp, if_neg (fun h => hp (hpq.2 h))]; exact h2 hp

/-- A Python result followed by code that cannot matter to JavaScript. -/
theorem Ag.bind_left {α β : Type} {x : Except Err α} {f : α → Except Err β} {x' : Except JsErr β}
    (hx : ∀ e, x = .error e → e = .index) (hf : ∀ a, x = .ok a → Ag (f a) x') : Ag (x >>= f) x' := by
  cases h : x with
  | ok a => exact hf a h
  | error e => rw [hx e h]; exact Ag.index

theorem mapError_ag {α : Type} (x : Except Err α) : Ag x (x.mapError toJ) := by
  cases x with
  | ok a => exact Ag.ok a
  | error e => exact Ag.err e

theorem Ag.ok_of {α : Type} {x : Except Err α} {x' : Except JsErr α} {a : α} (h : Ag x x') (hx : x = .ok a) : x' = .ok a := h.1 a hx

/-! ## Vowel clusters -/

theorem jsSplitVowelCluster_eq (v : Str) : jsSplitVowelCluster v = (splitVowelCluster v).mapError toJ :=
  jsSplitVowelsLoop_eq toJ rfl rfl _ _ _

/-! ## Cutting -/

theorem jsTakeHyphen_ok {y : YHyphens} {w : Str} {res : List Str} {o : Option Str} (h : takeHyphen y w res = .ok o) (hw : w ≠ []) :
    jsTakeHyphen y w res = o := by
  unfold takeHyphen at h
  unfold jsTakeHyphen
  cases res with
  | nil => cases h; rfl
  | cons prev res =>
    simp only at h ⊢
    by_cases h1 : prev.length = 1
    · rw [if_pos h1] at h ⊢; cases h; rfl
    rw [if_neg h1] at h ⊢
    match w, hw with
    | c0 :: cs, _ =>
    simp only [jsAt_cons_zero, jsAt_cons_succ, jsRafsiTarmi_eq, Option.some.injEq, List.cons.injEq, and_true] at h ⊢
    by_cases h2 : c0 = 'y'
    · subst h2
      rw [if_pos rfl] at h ⊢
      cases h; rfl
    rw [if_neg h2] at h ⊢
    cases y with
    | forceY =>
      simp only [ne_eq, not_true_eq_false, if_false, false_and] at h ⊢
      simp only [bind, Except.bind, Bool.false_and, Bool.false_eq_true, if_false] at h
      split at h <;> rename_i hc <;> simp at hc <;> cases h <;> simp [hc]
    | standard =>
      simp only [ne_eq, reduceCtorEq, not_false_eq_true, if_true, true_and, not_true_eq_false, false_and, if_false] at h ⊢
      by_cases h3 : slice (c0 :: cs) 0 2 = s%"nr"
      · rw [if_pos h3] at h
        simp only [bind, Except.bind, Bool.true_and] at h
        simp only [h3, true_or, and_true]
        split at h <;> rename_i hc <;> simp at hc <;> cases h
        · simp [hc, slice]
        · simp [hc]
      rw [if_neg h3] at h
      by_cases h4 : c0 = 'r'
      · subst h4
        rw [if_pos rfl] at h
        cases cs with
        | nil => cases h
        | cons c1 cs =>
          simp only [bind, Except.bind] at h
          simp only [jsAt_cons_zero, jsIsConsonant_one]
          split at h <;> rename_i hc <;> simp at hc <;> cases h
          · simp [hc, slice]
          · simp only [h3, false_or, true_and]
            grind
      · rw [if_neg h4] at h
        simp only [bind, Except.bind, Bool.false_and, Bool.false_eq_true, if_false] at h
        cases h
        simp [h3, h4]
    | allowY =>
      simp only [ne_eq, reduceCtorEq, not_false_eq_true, if_true, true_and] at h ⊢
      by_cases h3 : slice (c0 :: cs) 0 2 = s%"nr"
      · rw [if_pos h3] at h
        simp only [bind, Except.bind, Bool.true_and] at h
        simp only [h3, true_or, and_true]
        split at h <;> rename_i hc <;> simp at hc
        · cases h; simp [hc, slice]
        · rw [if_neg (by simp [h3])] at h
          cases h
          simp [hc]
      rw [if_neg h3] at h
      have hq : slice (c0 :: cs) 0 2 = s%"'y" → (some (slice (c0 :: cs) 0 2)) = some s%"'y" := fun e => by rw [e]
      by_cases h4 : c0 = 'r'
      · subst h4
        rw [if_pos rfl] at h
        cases cs with
        | nil => cases h
        | cons c1 cs =>
          simp only [bind, Except.bind] at h
          simp only [jsAt_cons_zero, jsIsConsonant_one]
          split at h <;> rename_i hc <;> simp at hc
          · cases h; simp [hc, slice]
          · rw [if_neg (by simp [slice])] at h
            cases h
            simp only [h3, false_or, true_and]
            rw [if_neg (by grind), if_neg (by simp [slice])]
      · rw [if_neg h4] at h
        simp only [bind, Except.bind, Bool.false_and, Bool.false_eq_true, if_false] at h
        simp only [h3, h4, false_and, or_false, and_false, if_false]
        split at h <;> rename_i hc
        · cases h; rw [if_pos hc, hc]
        · cases h; rw [if_neg hc]

theorem jsTakeHyphen_error {y : YHyphens} {w : Str} {res : List Str} {e : Err} (h : takeHyphen y w res = .error e) (hw : w ≠ []) :
    e = .index ∧ w = s%"r" ∧ jsTakeHyphen y w res = none := by
  unfold takeHyphen at h
  unfold jsTakeHyphen
  cases res with
  | nil => cases h
  | cons prev res =>
    simp only at h ⊢
    by_cases h1 : prev.length = 1
    · rw [if_pos h1] at h; cases h
    rw [if_neg h1] at h ⊢
    match w, hw with
    | c0 :: cs, _ =>
    simp only at h
    by_cases h2 : c0 = 'y'
    · rw [if_pos h2] at h; cases h
    rw [if_neg h2] at h
    by_cases hy : y ≠ .forceY
    · rw [if_pos hy] at h
      by_cases h3 : slice (c0 :: cs) 0 2 = s%"nr"
      · rw [if_pos h3] at h
        simp only [bind, Except.bind] at h
        repeat' split at h
        all_goals cases h
      rw [if_neg h3] at h
      by_cases h4 : c0 = 'r'
      · rw [if_pos h4] at h
        cases cs with
        | nil =>
          cases h
          subst h4
          refine ⟨rfl, rfl, ?_⟩
          simp [jsAt, slice, jsIsConsonant_none]
        | cons c1 cs =>
          simp only [bind, Except.bind] at h
          repeat' split at h
          all_goals cases h
      · rw [if_neg h4] at h
        simp only [bind, Except.bind] at h
        repeat' split at h
        all_goals cases h
    · rw [if_neg hy] at h
      simp only [bind, Except.bind] at h
      repeat' split at h
      all_goals cases h

theorem jsTakeRafsi_eq (mz : Bool) (o w : Str) : jsTakeRafsi mz o w = (takeRafsi mz o w).mapError toJ := by
  unfold jsTakeRafsi takeRafsi
  have h4' : (jsAt w 4 = some s%"y") = (w[4]? = some 'y') := by
    unfold jsAt; cases w[4]? <;> simp
  have h4 : (jsAt w 4 == some s%"y") = (w[4]? == some 'y') := by
    rw [Bool.eq_iff_iff, beq_iff_eq, beq_iff_eq, h4']
  have hb : rafsiTarmi (slice w 0 4) = .cvcc ∨ rafsiTarmi (slice w 0 4) = .ccvc →
      (if jsIsVowel (jsAt w 1) = true then !(if mz = true then MZ_VALID else VALID).contains (slice w 2 4)
      else !INITIAL.contains (slice w 0 2)) = badFour mz w := by
    intro h
    unfold badFour
    rw [jsIsVowel_at]
    cases h1 : w[1]? with
    | none =>
      exfalso
      match w with
      | [] => revert h; decide
      | [a] => simp [slice, rafsiTarmi] at h; grind
      | a :: b :: t => simp at h1
    | some c => rfl
  simp only [jsRafsiTarmi_eq, h4, h4']
  split
  · rfl
  split
  · rfl
  by_cases hf : rafsiTarmi (slice w 0 4) = .cvcc ∨ rafsiTarmi (slice w 0 4) = .ccvc
  · rw [hb hf]
    repeat' split
    all_goals first | rfl | contradiction
  · have : (decide (rafsiTarmi (slice w 0 4) = .cvcc) || decide (rafsiTarmi (slice w 0 4) = .ccvc)) = false := by
      simpa using hf
    simp only [this, Bool.false_and, Bool.false_eq_true, if_false]
    repeat' split
    all_goals first | rfl | contradiction

theorem jsJvokaha2Loop_eq (y : YHyphens) (mz : Bool) (o : Str) : ∀ (n : Nat) (w : Str) (res : List Str),
    jsJvokaha2Loop y mz o n w res = (jvokaha2Loop y mz o n w res).mapError toJ
  | 0, _, _ => rfl
  | n + 1, w, res => by
    unfold jsJvokaha2Loop jvokaha2Loop
    by_cases hw : w = []
    · rw [if_pos hw, if_pos hw]; rfl
    rw [if_neg hw, if_neg hw]
    cases hh : takeHyphen y w res with
    | error e =>
      obtain ⟨rfl, rfl, h⟩ := jsTakeHyphen_error hh hw
      rw [h]
      simp only [jsTakeRafsi_eq]
      have : takeRafsi mz o s%"r" = .error .decomposition := by
        unfold takeRafsi
        simp [slice, rafsiTarmi, isVowel]
      rw [this]
      rfl
    | ok q =>
      rw [jsTakeHyphen_ok hh hw]
      cases q with
      | some h => exact jsJvokaha2Loop_eq y mz o n _ _
      | none =>
        simp only [jsTakeRafsi_eq]
        cases hr : takeRafsi mz o w with
        | error e => rfl
        | ok c =>
          cases c with
          | pieces ps rest => exact jsJvokaha2Loop_eq y mz o n _ _
          | final p => rfl

theorem jsJvokaha2_eq (y : YHyphens) (mz : Bool) (w : Str) : jsJvokaha2 y mz w = (jvokaha2 y mz w).mapError toJ :=
  jsJvokaha2Loop_eq y mz w _ _ _

/-! ## Comparing pieces -/

/-- No piece is empty, and none is "rn". -/
def Ordinary (ps : List Str) : Prop := ∀ p ∈ ps, p ≠ [] ∧ p ≠ s%"rn"

theorem jsIncludes_rn {p : Str} (h : p ≠ [] ∧ p ≠ s%"rn") : jsIncludes s%"rn" (some p) = (decide (p = s%"r") || decide (p = s%"n")) := by
  match p, h with
  | [a], _ =>
    rw [jsIncludes_one]; simp
  | a :: b :: t, h =>
    simp only [jsIncludes, Option.getD_some, occursIn, List.isPrefixOf]
    cases t with
    | nil =>
      have h2 := h.2
      simp at h2 ⊢
      exact h2
    | cons c t => simp [List.isPrefixOf]

theorem jsCompareLoop_ok {other : List Str} (ho : Ordinary other) : ∀ (corr : List Str) (i : Nat),
    jsCompareLoop other corr i = (match comparePiecesLoop other corr i with | .ok b => b | .error _ => false)
  | [], i => rfl
  | part :: corr, i => by
    unfold jsCompareLoop comparePiecesLoop
    cases hi : other[i]? with
    | none =>
      simp only [reduceCtorEq, if_false]
      have hlen : other.length ≤ i := List.getElem?_eq_none_iff.1 hi
      have : decide (i + 1 < other.length) = false := by simp; omega
      simp [this, hi]
    | some o =>
      have hor := ho o (List.mem_of_getElem? hi)
      simp only [Option.some.injEq]
      by_cases hp : part = o
      · rw [if_pos hp, if_pos hp]
        exact jsCompareLoop_ok ho corr (i + 1)
      rw [if_neg hp, if_neg hp]
      simp only [jsIncludes_rn hor, jsRafsiTarmi_eq]
      have key : ∀ k, (if some part = other[k]? then jsCompareLoop other corr (k + 1) else false) =
          (match (match other[k]? with
            | none => .error .index
            | some o => if part = o then comparePiecesLoop other corr (k + 1) else .ok false : Except Err Bool) with
          | .ok b => b
          | .error _ => false) := by
        intro k
        cases hk : other[k]? with
        | none => simp
        | some q =>
          simp only [Option.some.injEq]
          by_cases hq : part = q
          · rw [if_pos hq, if_pos hq]
            exact jsCompareLoop_ok ho corr (k + 1)
          · rw [if_neg hq, if_neg hq]
      exact key _

end Jvotci
