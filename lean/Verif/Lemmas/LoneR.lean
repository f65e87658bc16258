import Verif.Lemmas.Slin

/-!
# Helper lemmas: when cutting a word into rafsi raises `IndexError`
-/

namespace Jvotci

open Spec

/-- The word ends in `r` after two vowels, a vowel after `'`, or `'y`. -/
def LoneR (w : Str) : Prop :=
  ∃ u a b, w = u ++ [a, b, 'r'] ∧ ((Vowel b ∧ (Vowel a ∨ a = '\'')) ∨ (a = '\'' ∧ b = 'y'))

theorem LoneR.prefix {u w : Str} (h : LoneR w) : LoneR (u ++ w) := by
  obtain ⟨v, a, b, rfl, h⟩ := h
  exact ⟨u ++ v, a, b, by simp, h⟩

theorem safe_takeHyphen {y : YHyphens} {l : Str} {res : List Str} (hl : y ≠ .forceY → l = ['r'] → ∀ p t, res = p :: t → p.length = 1) :
    Errs [] (takeHyphen y l res) := by
  unfold takeHyphen
  split
  · exact .ok
  · rename_i p t
    refine .ite (fun _ => .ok) fun hp => ?_
    split
    · exact .ok
    · refine .ite (fun _ => .ok) fun _ => .bind ?_ fun _ _ => .ite (fun _ => .ok) fun _ => .ite (fun _ => .ok) fun _ => .ok
      refine .ite (fun hf => .ite (fun _ => .ok) fun _ => .ite (fun hr => ?_) fun _ => .ok) fun _ => .ok
      split
      · subst hr; exact absurd (hl hf rfl p t rfl) hp
      · exact .ok

theorem index_takeHyphen (y : YHyphens) (l : Str) (res : List Str) : Errs [.index] (takeHyphen y l res) := by
  unfold takeHyphen
  split
  · exact .ok
  · refine .ite (fun _ => .ok) fun _ => ?_
    split
    · exact .ok
    · refine .ite (fun _ => .ok) fun _ => .bind ?_ fun _ _ => .ite (fun _ => .ok) fun _ => .ite (fun _ => .ok) fun _ => .ok
      refine .ite (fun _ => .ite (fun _ => .ok) fun _ => .ite (fun _ => ?_) fun _ => .ok) fun _ => .ok
      split
      · exact .err (by decide)
      · exact .ok

theorem safe_takeRafsi {mz : Bool} {o l : Str} : Errs [.decomposition, .invalidCluster, .notBrivla] (takeRafsi mz o l) := by
  unfold takeRafsi
  refine .ite (fun _ => .ok) fun _ => .ite (fun _ => .ok) fun _ => .ite (fun _ => .err (by decide)) fun _ =>
    .ite (fun _ => .ok) fun _ => .ite (fun _ => .ok) fun _ => .ite (fun _ => .ite (fun _ => .err (by decide)) fun _ => .ok)
    fun _ => .ite (fun _ => .ite (fun _ => .err (by decide)) fun _ => .ite (fun _ => .err (by decide)) fun _ => .ok)
    fun _ => .err (by decide)

theorem takeRafsi_lone {mz : Bool} {o l : Str} {ps : List Str} (h : takeRafsi mz o l = .ok (.pieces ps ['r'])) :
    LoneR l ∨ ∃ p, ps = [p, s%"y"] := by
  unfold takeRafsi at h
  split at h
  · rename_i h1
    obtain ⟨h1, h2⟩ := h1
    obtain ⟨a, b, c, e, ha, hb, hc⟩ := tarmi_cvv.1 h1
    obtain ⟨t, rfl⟩ := slice3 e
    simp at h
    obtain ⟨-, rfl⟩ := h
    exact .inl ⟨[a], b, c, rfl, .inl ⟨(isVowel_iff c).1 hc, .inl ((isVowel_iff b).1 hb)⟩⟩
  · split at h
    · rename_i h1
      obtain ⟨a, b, c, e, ha, hb, hc⟩ := tarmi_cvhv.1 h1
      obtain ⟨t, rfl⟩ := slice4 e
      simp at h
      obtain ⟨-, rfl⟩ := h
      exact .inl ⟨[a, b], '\'', c, rfl, .inl ⟨(isVowel_iff c).1 hc, .inr rfl⟩⟩
    · dsimp only at h
      split at h
      · cases h
      · rename_i h4 hbad
        split at h
        · rename_i h4
          simp at h
          obtain ⟨rfl, h⟩ := h
          have hlen : l.length = 6 := by
            have := congrArg List.length h
            simp at this
            omega
          refine .inr ⟨slice l 0 4, ?_⟩
          rw [if_pos]
          simp only [Bool.and_eq_true, Bool.or_eq_true, beq_iff_eq] at h4
          rcases h4.2 with h5 | h5
          · omega
          · exact h5
        · rename_i h4
          split at h
          · cases h
          · split at h
            · rename_i hc
              exfalso
              obtain ⟨a, b, c, e, ha, hb, hcc⟩ := tarmi_cvc.1 hc
              obtain ⟨t, rfl⟩ := slice3 e
              split at h
              · cases h
              · simp at h
                obtain ⟨-, rfl⟩ := h
                apply h4
                have : rafsiTarmi [a, b, c, 'r'] = .cvcc := tarmi_cvcc.2 ⟨a, b, c, 'r', rfl, ha, hb, hcc, by decide⟩
                simp [slice, this]
            · split at h
              · rename_i hc
                exfalso
                obtain ⟨a, b, c, e, ha, hb, hcc⟩ := tarmi_ccv.1 hc
                obtain ⟨t, rfl⟩ := slice3 e
                split at h
                · cases h
                · split at h
                  · cases h
                  · simp at h
                    obtain ⟨-, rfl⟩ := h
                    apply h4
                    have : rafsiTarmi [a, b, c, 'r'] = .ccvc := tarmi_ccvc.2 ⟨a, b, c, 'r', rfl, ha, hb, hcc, by decide⟩
                    simp [slice, this]
              · cases h

theorem lone_jvokaha2Loop {y : YHyphens} {mz : Bool} {orig : Str} : ∀ {fuel : Nat} {l : Str} {res : List Str},
    (∃ d, orig = d ++ l) → (y ≠ .forceY → l = ['r'] → ∀ p t, res = p :: t → p.length = 1) → (y ≠ .forceY → ¬ LoneR orig) →
    jvokaha2Loop y mz orig fuel l res ≠ .error .index := by
  intro fuel
  induction fuel with
  | zero => intro l res _ _ _ h; cases h
  | succ fuel ih =>
    intro l res ⟨d, hd⟩ hinv hno h
    unfold jvokaha2Loop at h
    split at h
    · cases h
    · have hT := safe_takeHyphen (y := y) hinv
      cases ho : takeHyphen y l res with
      | error e => exact absurd (hT e ho) (by simp)
      | ok o =>
        rw [ho, ok_bind] at h
        cases o with
        | some hy =>
          dsimp only at h
          obtain ⟨p, ps, rfl, hp, hcase⟩ := takeHyphen_some ho
          refine ih ⟨d ++ l.take hy.length, by rw [hd, List.append_assoc, List.take_append_drop]⟩ ?_ hno h
          intro hf hl q t e
          cases e
          rcases hcase with ⟨rfl, _⟩ | ⟨rfl, _⟩ | ⟨rfl, _⟩ | ⟨rfl, _, t', e⟩
          · rfl
          · rfl
          · rfl
          · subst e
            simp at hl
            subst hl
            exact absurd ⟨d, '\'', 'y', hd, .inr ⟨rfl, rfl⟩⟩ (hno hf)
        | none =>
          dsimp only at h
          cases hc : takeRafsi mz orig l with
          | error e =>
            rw [hc, error_bind] at h
            have := safe_takeRafsi e hc
            cases h
            simp at this
          | ok cut =>
            rw [hc, ok_bind] at h
            rcases takeRafsi_ok hc with ⟨p, rest, he, hcut, rfl⟩ | ⟨p, rest, he, hp, hcut, rfl⟩ | ⟨hcut, rfl⟩
            · dsimp only at h
              refine ih ⟨d ++ p, by rw [hd, he, List.append_assoc]⟩ ?_ hno h
              rintro hf rfl q t e
              rcases takeRafsi_lone hc with hL | ⟨_, e'⟩
              · rw [hd] at hno
                exact absurd hL.prefix (hno hf)
              · simp at e'
            · dsimp only at h
              refine ih ⟨d ++ p ++ ['y'], by rw [hd, he]; simp⟩ ?_ hno h
              intro _ _ q t e
              simp at e
              rw [← e.1]; rfl
            · cases h

/-- Cutting a word raises `IndexError` only on a final `r` that cannot be part of a rafsi. -/
theorem jvokaha2_index {y : YHyphens} {mz : Bool} {w : Str} (h : y ≠ .forceY → ¬ LoneR w) : jvokaha2 y mz w ≠ .error .index :=
  lone_jvokaha2Loop ⟨[], rfl⟩ (by intro _ _ _ _ e; cases e) h

theorem index_cut {y : YHyphens} {mz : Bool} {w : Str} (h : rafsiTarmi (slice w 0 3) = .ccv → slice w 3 5 ≠ s%"'y") :
    Errs (.index :: caughtErrs) (jvokaha2 y mz w) := by
  have key : ∀ {fuel : Nat} {l : Str} {res : List Str}, l.length < fuel →
      Errs (.index :: caughtErrs) (jvokaha2Loop y mz w fuel l res) := by
    intro fuel
    induction fuel with
    | zero => intro l res h; omega
    | succ fuel ih =>
      intro l res hlen
      unfold jvokaha2Loop
      refine .ite (fun _ => .ok) fun hne => .bind ?_ fun o ho => ?_
      · refine (index_takeHyphen y l res).mono (by simp)
      · have hpos : 0 < l.length := List.length_pos_iff.2 hne
        split
        · rename_i hy
          obtain ⟨p, ps, rfl, hp, hcase⟩ := takeHyphen_some ho
          apply ih
          have : 0 < hy.length := by
            rcases hcase with ⟨rfl, _⟩ | ⟨rfl, _⟩ | ⟨rfl, _⟩ | ⟨rfl, _⟩ <;> simp
          rw [List.length_drop]
          omega
        · refine .bind ((caught_takeRafsi fun _ => h).mono (by simp +contextual)) fun cut hcut => ?_
          rcases takeRafsi_ok hcut with ⟨p, rest, he, hc, rfl⟩ | ⟨p, rest, he, hp, hc, rfl⟩ | ⟨hc, rfl⟩
          · dsimp only
            apply ih
            have := congrArg List.length he
            rw [List.length_append] at this
            have := hc.length_pos
            omega
          · dsimp only
            apply ih
            have := congrArg List.length he
            simp only [List.length_append, List.length_cons] at this
            have := hc.length_pos
            omega
          · exact .ok
  exact key (Nat.lt_succ_self _)

theorem caught_cut {y : YHyphens} {mz : Bool} {w : Str} (h : rafsiTarmi (slice w 0 3) = .ccv → slice w 3 5 ≠ s%"'y")
    (hl : y ≠ .forceY → ¬ LoneR w) : Errs caughtErrs (jvokaha2 y mz w) := by
  intro e he
  have := index_cut h e he
  rcases List.mem_cons.1 this with rfl | h
  · exact absurd he (jvokaha2_index hl)
  · exact h

/-- `jvokaha` raises only what is caught, but for `IndexError` on a final `r` and `NotBrivlaError` on CCV'y. -/
theorem jvokaha_clean {y : YHyphens} {co : Consonants} {gl mz : Bool} {w : Str}
    (hs : rafsiTarmi (slice w 0 3) = .ccv → slice w 3 5 ≠ s%"'y") (hl : ∃ c, w.getLast? = some c ∧ (Vowel c ∨ Consonant c))
    (hr : y ≠ .forceY → ¬ LoneR w) : Errs caughtErrs (jvokaha (program .linked) y co gl mz w) := by
  obtain ⟨c, hc, hcv⟩ := hl
  exact jvokaha_caught hc hcv (caught_cut hs hr)

/-- `jvokaha` raises only what is caught and `IndexError`, but for `NotBrivlaError` on CCV'y. -/
theorem jvokaha_index {y : YHyphens} {co : Consonants} {gl mz : Bool} {w : Str}
    (hcut : Errs (.index :: caughtErrs) (jvokaha2 y mz w)) (hl : ∃ c, w.getLast? = some c ∧ (Vowel c ∨ Consonant c)) :
    Errs (.index :: caughtErrs) (jvokaha (program .linked) y co gl mz w) := by
  obtain ⟨c, hc, hcv⟩ := hl
  by_cases hi : jvokaha2 y mz w = .error .index
  · unfold jvokaha
    rw [hi, error_bind]
    exact .err (by simp)
  · refine (jvokaha_caught hc hcv fun e he => ?_).mono (by simp +contextual)
    rcases List.mem_cons.1 (hcut e he) with rfl | h
    · exact absurd he hi
    · exact h

theorem loneR_last {w : Str} (h : LoneR w) : w.getLast? = some 'r' := by
  obtain ⟨u, a, b, rfl, -⟩ := h
  simp

/-- The slinku'i test does not raise on such a word. -/
theorem slinkuhi_clean {y : YHyphens} {mz : Bool} {w : Str} (hl : ∃ c, w.getLast? = some c ∧ (Vowel c ∨ Consonant c))
    (hr : y ≠ .forceY → ¬ LoneR w) : ∃ t, (program .linked).slinkuhi y mz w = .ok t := by
  rw [slinkuhi_program]
  unfold isSlinkuhi
  obtain ⟨c, hc, hv⟩ := hl
  cases w with
  | nil => cases hc
  | cons a w =>
    rw [show idx (a :: w) 0 = .ok a from rfl, ok_bind]
    split
    · exact ⟨_, rfl⟩
    · rename_i hav
      have := jvokaha_clean (y := y) (co := .cluster) (gl := false) (mz := mz) (w := s%"to" ++ (a :: w)) (by
        intro h
        exfalso
        obtain ⟨_, _, _, e, -, hb, -⟩ := tarmi_ccv.1 h
        simp [slice] at e
        rw [← e.2.1] at hb
        revert hb; decide) ⟨c, by rw [List.getLast?_append, hc]; rfl, hv⟩ (by
        rintro hf ⟨u, x, z, e, h⟩
        match u, e with
        | [], e =>
          cases e
          rcases h with ⟨-, h | h⟩ | ⟨h, -⟩
          · revert h; decide
          · cases h
          · cases h
        | [_], e =>
          simp at e
          obtain ⟨-, rfl, rfl, rfl⟩ := e
          rcases h with ⟨h, -⟩ | ⟨h, -⟩
          · exact hav ((isVowel_iff _).2 h)
          · cases h
        | _ :: _ :: u, e =>
          simp at e
          exact hr hf ⟨u, x, z, e.2.2, h⟩)
      cases hk : jvokaha (program .linked) y .cluster false mz (s%"to" ++ (a :: w)) with
      | ok arr => exact ⟨_, rfl⟩
      | error e =>
        have := this e hk
        simp [caughtErrs] at this
        rcases this with rfl | rfl <;> exact ⟨_, rfl⟩

end Jvotci
