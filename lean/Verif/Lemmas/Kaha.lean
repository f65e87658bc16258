import Verif.Lemmas.Shape

/-!
# Helper lemmas: `jvokaha_2`
-/

namespace Jvotci

open Spec

/-- `p` may be cut off in front of `rest`. -/
inductive Cuts (mz : Bool) : Str → Str → Prop
  | cvv {a b c rest} : isConsonant a = true → isVowel b = true → isVowel c = true →
      [b, c] ∈ [s%"ai", s%"ei", s%"oi", s%"au"] → Cuts mz [a, b, c] rest
  | cvhv {a b c rest} : isConsonant a = true → isVowel b = true → isVowel c = true →
      Cuts mz [a, b, '\'', c] rest
  | cvcc {a b c d rest} : isConsonant a = true → isVowel b = true → PermissiblePair mz c d →
      (rest = [] ∨ ∃ t, rest = 'y' :: t) → Cuts mz [a, b, c, d] rest
  | ccvc {a b c d rest} : InitialPair a b → isVowel c = true → isConsonant d = true →
      (rest = [] ∨ ∃ t, rest = 'y' :: t) → Cuts mz [a, b, c, d] rest
  | gismu {w} : Gismu mz w → Cuts mz w []
  | cvc {a b c rest} : isConsonant a = true → isVowel b = true → isConsonant c = true →
      (∀ d t, rest = d :: t → isConsonant d = true → PermissiblePair mz c d) →
      (∀ d e t, rest = d :: e :: t → [c, d, e] ∉ bannedTriples) → Cuts mz [a, b, c] rest
  | ccv {a b c rest} : InitialPair a b → isVowel c = true → Cuts mz [a, b, c] rest

/-- The list of pieces is locally well-formed after the piece `prev`. -/
inductive Chop (y : YHyphens) (mz : Bool) : Option Str → List Str → Prop
  | nil {prev} : Chop y mz prev []
  | y {p ps} : p.length ≠ 1 → Chop y mz (some s%"y") ps → Chop y mz (some p) (s%"y" :: ps)
  | n {p ps t} : p.length ≠ 1 → y ≠ .forceY → (rafsiTarmi p = .cvv ∨ rafsiTarmi p = .cvhv) →
      join ps = 'r' :: t → Chop y mz (some s%"n") ps → Chop y mz (some p) (s%"n" :: ps)
  | r {p ps c t} : p.length ≠ 1 → y ≠ .forceY → (rafsiTarmi p = .cvv ∨ rafsiTarmi p = .cvhv) →
      join ps = c :: t → isConsonant c = true → c ≠ 'r' → Chop y mz (some s%"r") ps →
      Chop y mz (some p) (s%"r" :: ps)
  | hy {p ps} : p.length ≠ 1 → y ≠ .standard → Chop y mz (some s%"'y") ps →
      Chop y mz (some p) (s%"'y" :: ps)
  | rafsi {prev p ps} : Cuts mz p (join ps) → Chop y mz (some p) ps → Chop y mz prev (p :: ps)

theorem takeHyphen_some {y : YHyphens} {lujvo : Str} {res : List Str} {h : Str}
    (hh : takeHyphen y lujvo res = .ok (some h)) :
    ∃ p ps, res = p :: ps ∧ p.length ≠ 1 ∧
      ((h = s%"y" ∧ ∃ t, lujvo = 'y' :: t) ∨
       (h = s%"n" ∧ y ≠ .forceY ∧ (rafsiTarmi p = .cvv ∨ rafsiTarmi p = .cvhv) ∧ ∃ t, lujvo = 'n' :: 'r' :: t) ∨
       (h = s%"r" ∧ y ≠ .forceY ∧ (rafsiTarmi p = .cvv ∨ rafsiTarmi p = .cvhv) ∧
          ∃ c t, lujvo = 'r' :: c :: t ∧ isConsonant c = true ∧ c ≠ 'r') ∨
       (h = s%"'y" ∧ y ≠ .standard ∧ ∃ t, lujvo = '\'' :: 'y' :: t)) := by
  unfold takeHyphen at hh
  cases res with
  | nil => simp at hh
  | cons p ps =>
    refine ⟨p, ps, rfl, ?_⟩
    dsimp only at hh
    split at hh
    · cases hh
    · rename_i hp
      refine ⟨hp, ?_⟩
      cases lujvo with
      | nil => simp at hh
      | cons c0 cs =>
        dsimp only at hh
        split at hh
        · rename_i hy
          subst hy
          left
          cases hh
          exact ⟨rfl, cs, rfl⟩
        · right
          simp only [bind, Except.bind] at hh
          split at hh
          · cases hh
          · rename_i rn hrn
            split at hh
            · rename_i hr
              cases hh
              simp only [Bool.and_eq_true, Bool.or_eq_true, decide_eq_true_eq] at hr
              obtain ⟨rfl, ht⟩ := hr
              split at hrn
              · rename_i hfy
                split at hrn
                · rename_i hs
                  left
                  cases cs with
                  | nil => simp [slice] at hs
                  | cons c1 t =>
                    simp [slice] at hs
                    obtain ⟨rfl, rfl⟩ := hs
                    exact ⟨rfl, hfy, ht, t, rfl⟩
                · split at hrn
                  · rename_i hc
                    subst hc
                    right; left
                    cases cs with
                    | nil => simp at hrn
                    | cons c1 t =>
                      simp at hrn
                      exact ⟨rfl, hfy, ht, c1, t, rfl, hrn⟩
                  · simp at hrn
              · simp at hrn
            · split at hh
              · rename_i hs
                cases hh
                right; right
                cases cs with
                | nil => simp [slice] at hs
                | cons c1 t =>
                  simp [slice] at hs
                  obtain ⟨h1, rfl, rfl⟩ := hs
                  exact ⟨rfl, h1, t, rfl⟩
              · cases hh

theorem slice3 {l : Str} {a b c : Char} (h : slice l 0 3 = [a, b, c]) : ∃ t, l = a :: b :: c :: t := by
  match l, h with
  | x :: y :: z :: t, h =>
    simp [slice] at h
    obtain ⟨rfl, rfl, rfl⟩ := h
    exact ⟨t, rfl⟩
  | [], h => simp [slice] at h
  | [_], h => simp [slice] at h
  | [_, _], h => simp [slice] at h

theorem slice4 {l : Str} {a b c d : Char} (h : slice l 0 4 = [a, b, c, d]) : ∃ t, l = a :: b :: c :: d :: t := by
  match l, h with
  | x :: y :: z :: w :: t, h =>
    simp [slice] at h
    obtain ⟨rfl, rfl, rfl, rfl⟩ := h
    exact ⟨t, rfl⟩
  | [], h => simp [slice] at h
  | [_], h => simp [slice] at h
  | [_, _], h => simp [slice] at h
  | [_, _, _], h => simp [slice] at h

/-- What `takeRafsi` can do, in terms of `Cuts`. -/
theorem takeRafsi_ok {mz : Bool} {orig lujvo : Str} {cut : Cut} (h : takeRafsi mz orig lujvo = .ok cut) :
    (∃ p rest, lujvo = p ++ rest ∧ Cuts mz p rest ∧ cut = .pieces [p] rest) ∨
    (∃ p rest, lujvo = p ++ 'y' :: rest ∧ p.length = 4 ∧ Cuts mz p ('y' :: rest) ∧
        cut = .pieces [p, s%"y"] rest) ∨
    (Cuts mz lujvo [] ∧ cut = .final lujvo) := by
  unfold takeRafsi at h
  split at h
  · rename_i h1
    obtain ⟨h1, h2⟩ := h1
    obtain ⟨a, b, c, e, ha, hb, hc⟩ := tarmi_cvv.1 h1
    obtain ⟨t, rfl⟩ := slice3 e
    left
    cases h
    refine ⟨[a, b, c], t, rfl, .cvv ha hb hc ?_, rfl⟩
    rw [List.contains_iff_mem] at h2
    simpa [slice] using h2
  · split at h
    · rename_i h1
      obtain ⟨a, b, c, e, ha, hb, hc⟩ := tarmi_cvhv.1 h1
      obtain ⟨t, rfl⟩ := slice4 e
      left
      cases h
      exact ⟨[a, b, '\'', c], t, rfl, .cvhv ha hb hc, rfl⟩
    · dsimp only at h
      split at h
      · cases h
      · rename_i hbad
        split at h
        · -- four-letter
          rename_i h4
          simp only [Bool.and_eq_true, Bool.or_eq_true, decide_eq_true_eq] at h4
          obtain ⟨h4, hend⟩ := h4
          have fin : ∀ a b c d t, lujvo = a :: b :: c :: d :: t →
              (t = [] ∨ ∃ t', t = 'y' :: t') := by
            rintro a b c d t rfl
            cases t with
            | nil => left; rfl
            | cons x t' =>
              right
              simp at hend
              exact ⟨t', by rw [hend]⟩
          have build : ∀ a b c d t, lujvo = a :: b :: c :: d :: t → Cuts mz [a, b, c, d] t →
              (∃ p rest, lujvo = p ++ rest ∧ Cuts mz p rest ∧ cut = .pieces [p] rest) ∨
              (∃ p rest, lujvo = p ++ 'y' :: rest ∧ p.length = 4 ∧ Cuts mz p ('y' :: rest) ∧
                cut = .pieces [p, s%"y"] rest) ∨
              (Cuts mz lujvo [] ∧ cut = .final lujvo) := by
            intro a b c d t e hc
            rcases fin a b c d t e with rfl | ⟨t', rfl⟩
            · left
              subst e
              simp [slice] at h
              exact ⟨[a, b, c, d], [], rfl, hc, h.symm⟩
            · right; left
              subst e
              simp [slice] at h
              exact ⟨[a, b, c, d], t', rfl, rfl, hc, h.symm⟩
          rcases h4 with h4 | h4
          · obtain ⟨a, b, c, d, e, ha, hb, hc, hd⟩ := tarmi_cvcc.1 h4
            obtain ⟨t, rfl⟩ := slice4 e
            refine build a b c d t rfl (.cvcc ha hb ?_ (fin a b c d t rfl))
            simp [hb, slice, badFour] at hbad
            exact validPairs_contains.1 (List.contains_iff_mem.2 (hbad (.inl (by simpa [slice] using h4))))
          · obtain ⟨a, b, c, d, e, ha, hb, hc, hd⟩ := tarmi_ccvc.1 h4
            obtain ⟨t, rfl⟩ := slice4 e
            refine build a b c d t rfl (.ccvc ?_ hc hd (fin a b c d t rfl))
            simp [not_vowel_of_consonant hb, slice, badFour] at hbad
            exact initial_contains.1 (List.contains_iff_mem.2 (hbad (.inr (by simpa [slice] using h4))))
        · split at h
          · -- five-letter
            rename_i h5
            right; right
            cases h
            refine ⟨?_, rfl⟩
            apply Cuts.gismu
            rcases h5 with h5 | h5
            · obtain ⟨a, b, c, d, e, rfl, ha, hb, hc, hd, he⟩ := tarmi_cvccv.1 h5
              have : rafsiTarmi [a, b, c, d] = .cvcc := tarmi_cvcc.2 ⟨a, b, c, d, rfl, ha, hb, hc, hd⟩
              simp [slice, this, hb, badFour] at hbad
              exact .cvccv ((isConsonant_iff _).1 ha) ((isVowel_iff _).1 hb)
                (validPairs_contains.1 (List.contains_iff_mem.2 hbad)) ((isVowel_iff _).1 he)
            · obtain ⟨a, b, c, d, e, rfl, ha, hb, hc, hd, he⟩ := tarmi_ccvcv.1 h5
              have : rafsiTarmi [a, b, c, d] = .ccvc := tarmi_ccvc.2 ⟨a, b, c, d, rfl, ha, hb, hc, hd⟩
              simp [slice, this, not_vowel_of_consonant hb, badFour] at hbad
              exact .ccvcv (initial_contains.1 (List.contains_iff_mem.2 hbad)) ((isVowel_iff _).1 hc)
                ((isConsonant_iff _).1 hd) ((isVowel_iff _).1 he)
          · split at h
            · rename_i h3
              obtain ⟨a, b, c, e, ha, hb, hc⟩ := tarmi_cvc.1 h3
              obtain ⟨t, rfl⟩ := slice3 e
              split at h
              · cases h
              · rename_i hban
                left
                cases h
                refine ⟨[a, b, c], t, rfl, .cvc ha hb hc ?_ ?_, rfl⟩
                · rintro d t' rfl hd
                  have : rafsiTarmi [a, b, c, d] = .cvcc := tarmi_cvcc.2 ⟨a, b, c, d, rfl, ha, hb, hc, hd⟩
                  simp [slice, this, hb, badFour] at hbad
                  exact validPairs_contains.1 (List.contains_iff_mem.2 hbad)
                · rintro d e t' rfl hm
                  rw [← banned_table] at hm
                  simp [slice] at hban
                  exact hban hm
            · split at h
              · rename_i h3
                obtain ⟨a, b, c, e, ha, hb, hc⟩ := tarmi_ccv.1 h3
                obtain ⟨t, rfl⟩ := slice3 e
                split at h
                · cases h
                · rename_i hini
                  split at h
                  · cases h
                  · left
                    cases h
                    refine ⟨[a, b, c], t, rfl, .ccv ?_ hc, rfl⟩
                    simp [slice] at hini
                    exact initial_contains.1 (List.contains_iff_mem.2 hini)
              · cases h

theorem Cuts.length_pos {mz : Bool} {p rest : Str} (h : Cuts mz p rest) : 3 ≤ p.length := by
  cases h with
  | gismu hg => cases hg <;> simp
  | _ => simp

theorem jvokaha2Loop_ok {y : YHyphens} {mz : Bool} {orig : Str} :
    ∀ {fuel : Nat} {lujvo : Str} {res out : List Str},
      jvokaha2Loop y mz orig fuel lujvo res = .ok out →
      ∃ ps, out = res.reverse ++ ps ∧ join ps = lujvo ∧ Chop y mz res.head? ps := by
  intro fuel
  induction fuel with
  | zero => intro lujvo res out h; cases h
  | succ fuel ih =>
    intro lujvo res out h
    unfold jvokaha2Loop at h
    split at h
    · rename_i he
      cases h
      exact ⟨[], by simp, by simp [join, he], .nil⟩
    · simp only [bind, Except.bind] at h
      split at h
      · cases h
      · rename_i o ho
        cases o with
        | some hy =>
          dsimp only at h
          obtain ⟨p, ps, rfl, hp, hcase⟩ := takeHyphen_some ho
          obtain ⟨qs, hout, hjoin, hchop⟩ := ih h
          refine ⟨hy :: qs, by simp [hout], ?_, ?_⟩
          · rcases hcase with ⟨rfl, t, rfl⟩ | ⟨rfl, _, _, t, rfl⟩ | ⟨rfl, _, _, c, t, rfl, _⟩ | ⟨rfl, _, t, rfl⟩ <;>
              simpa [join] using hjoin
          · simp only [List.head?_cons] at hchop ⊢
            rcases hcase with ⟨rfl, t, rfl⟩ | ⟨rfl, h1, h2, t, rfl⟩ | ⟨rfl, h1, h2, c, t, rfl, h3, h4⟩ | ⟨rfl, h1, t, rfl⟩
            · exact .y hp hchop
            · exact .n hp h1 h2 (by simpa using hjoin) hchop
            · exact .r hp h1 h2 (by simpa using hjoin) h3 h4 hchop
            · exact .hy hp h1 hchop
        | none =>
          dsimp only at h
          split at h
          · cases h
          · rename_i cut hcut
            rcases takeRafsi_ok hcut with ⟨p, rest, rfl, hc, rfl⟩ | ⟨p, rest, rfl, hp, hc, rfl⟩ | ⟨hc, rfl⟩
            · dsimp only at h
              obtain ⟨qs, hout, hjoin, hchop⟩ := ih h
              refine ⟨p :: qs, by simp [hout], by simp [join] at hjoin ⊢; simp [hjoin], ?_⟩
              exact .rafsi (by rw [hjoin]; exact hc) (by simpa using hchop)
            · dsimp only at h
              obtain ⟨qs, hout, hjoin, hchop⟩ := ih h
              refine ⟨p :: s%"y" :: qs, by simp [hout], by simp [join] at hjoin ⊢; simp [hjoin], ?_⟩
              refine .rafsi ?_ (.y (by omega) (by simpa using hchop))
              simp only [join] at hjoin
              simpa [join, hjoin] using hc
            · cases h
              refine ⟨[lujvo], by simp, by simp [join], .rafsi (by simpa [join] using hc) .nil⟩

theorem jvokaha2_ok {y : YHyphens} {mz : Bool} {w : Str} {ps : List Str} (h : jvokaha2 y mz w = .ok ps) :
    join ps = w ∧ Chop y mz none ps := by
  obtain ⟨qs, h1, h2, h3⟩ := jvokaha2Loop_ok h
  simp at h1
  subst h1
  exact ⟨h2, h3⟩

end Jvotci
