import Verif.Lemmas.Analyse

/-!
# Helper lemmas: splitting at `y`, and the loop over the parts
-/

namespace Jvotci

open Spec

/-- `c.join(parts)`. -/
def joinSep (c : Char) : List Str → Str
  | [] => []
  | p :: ps => p ++ ps.flatMap (fun q => c :: q)

theorem splitOn_ne_nil (c : Char) (s : Str) : splitOn c s ≠ [] := by
  induction s with
  | nil => simp [splitOn]
  | cons a s ih =>
    unfold splitOn
    split
    · simp
    · split <;> simp

theorem joinSep_splitOn (c : Char) (s : Str) : joinSep c (splitOn c s) = s := by
  induction s with
  | nil => simp [splitOn, joinSep]
  | cons a s ih =>
    unfold splitOn
    split
    · rename_i h
      subst h
      cases hs : splitOn a s with
      | nil => exact absurd hs (splitOn_ne_nil _ _)
      | cons p ps => rw [hs] at ih; simpa [joinSep] using ih
    · split
      · rename_i hs; exact absurd hs (splitOn_ne_nil _ _)
      · rename_i p ps hs; rw [hs] at ih; simpa [joinSep] using ih

theorem splitOn_not_mem (c : Char) (s : Str) : ∀ p ∈ splitOn c s, c ∉ p := by
  induction s with
  | nil => simp [splitOn]
  | cons a s ih =>
    unfold splitOn
    split
    · simpa using ih
    · rename_i h
      split
      · rename_i hs; exact absurd hs (splitOn_ne_nil _ _)
      · rename_i p ps hs
        rw [hs] at ih
        intro q hq
        rcases List.mem_cons.1 hq with rfl | hq
        · have := ih p (by simp)
          simp [this, Ne.symm h]
        · exact ih q (by simp [hq])

theorem splitOn_length_one {c : Char} {s : Str} (h : (splitOn c s).length = 1) : c ∉ s := by
  have h1 := joinSep_splitOn c s
  have h2 := splitOn_not_mem c s
  match hs : splitOn c s, h with
  | [p], _ =>
    rw [hs] at h1 h2
    simp [joinSep] at h1
    subst h1
    exact h2 p (by simp)

theorem splitOn_of_not_mem {c : Char} {s : Str} (h : c ∉ s) : splitOn c s = [s] := by
  induction s with
  | nil => rfl
  | cons a s ih =>
    simp at h
    rw [splitOn, if_neg (Ne.symm h.1), ih h.2]

theorem splitOn_getLast {c l : Char} {s : Str} (hl : s.getLast? = some l) (hc : l ≠ c) :
    ∃ init p, splitOn c s = init ++ [p] ∧ p.getLast? = some l := by
  have h1 := joinSep_splitOn c s
  have hne := splitOn_ne_nil c s
  obtain ⟨init, p, hip⟩ : ∃ init p, splitOn c s = init ++ [p] :=
    ⟨_, _, (List.dropLast_concat_getLast hne).symm⟩
  refine ⟨init, p, hip, ?_⟩
  rw [hip] at h1
  subst h1
  cases init with
  | nil => simpa [joinSep] using hl
  | cons q init =>
    simp only [joinSep, List.cons_append, List.flatMap_append, List.flatMap_cons, List.flatMap_nil, List.append_nil] at hl
    rw [← List.append_assoc, List.getLast?_append] at hl
    cases p with
    | nil => simp at hl; exact absurd hl.symm hc
    | cons a p => simpa [List.getLast?_cons_cons] using hl

/-- The characters read by one pass of the loop over the parts, with their `y`. -/
theorem analysePart_join {R : Rec} {ctx : ACtx} {i : Nat} {part0 : Str} {st st' : AState}
    (h : analysePart R ctx i part0 st = .ok st') :
    join st'.resultParts ++ st'.nextHyphen =
      join st.resultParts ++ st.nextHyphen ++ (if i ≠ 0 then 'y' :: part0 else part0) ∧
    (st'.nextHyphen ≠ [] → part0.getLast? = some '\'') := by
  obtain ⟨part, lead, hs, hcase⟩ := analysePart_ok h
  obtain ⟨hne, h0, -, -⟩ := stripLeadingH_ok hs
  have hw : join (withHyphen i st lead) = join st.resultParts ++ hyphenBefore i st lead := by
    unfold withHyphen
    split
    · rename_i he; simp [he]
    · simp [join]
  have hb : hyphenBefore i st lead ++ part =
      st.nextHyphen ++ (if i ≠ 0 then 'y' :: part0 else part0) := by
    unfold hyphenBefore
    rw [h0]
    cases lead <;> by_cases hi : i = 0 <;> simp [hi]
  have happ : ∀ x, join (withHyphen i st lead ++ x) = join st.resultParts ++ hyphenBefore i st lead ++ join x := by
    intro x; rw [← hw]; simp [join]
  rcases hcase with ⟨-, rfl⟩ | ⟨-, c0, f, found, did, hc0, hf, hfd, hcase⟩
  · refine ⟨?_, by simp⟩
    simp only [happ, List.append_nil, List.append_assoc]
    rw [show join [part] = part from by simp [join], hb]
  · obtain ⟨hp, -, -, -, -, -, -, hcr, -⟩ := partForm_ok hf
    have hlast : (if f.trailingH then s%"'" else ([] : Str)) ≠ [] → part0.getLast? = some '\'' := by
      intro hnh
      have htr : f.trailingH = true := by
        cases ht : f.trailingH with
        | true => rfl
        | false => rw [ht] at hnh; simp at hnh
      rw [htr] at hp
      simp only [if_true] at hp
      rw [h0, hp]
      cases lead
      · simp
      · simp only [if_true]
        exact List.getLast?_eq_some_iff.2 ⟨'\'' :: f.partCopy, rfl⟩
    rcases hcase with ⟨hd, -, -, rfl⟩ | ⟨hd, shape, p0, -, -, -, rfl⟩
    · subst hd
      have hcan : f.canBeRafsi = true := by
        cases hcb : f.canBeRafsi with
        | true => rfl
        | false => rw [hcb] at hfd; simp at hfd
      rw [if_pos hcan] at hfd
      have hj := (jvokaha2_ok ((tryKaha_ok hfd).1 rfl).1).1
      refine ⟨?_, hlast⟩
      simp only [happ, hj, List.append_assoc]
      rw [← hp, hb]
    · refine ⟨?_, hlast⟩
      simp only [happ, List.append_assoc]
      rw [show join [f.partCopy] = f.partCopy from by simp [join], ← hp, hb]

theorem analyseLoop_join {R : Rec} {ctx : ACtx} {parts : List Str} : ∀ {i : Nat} {st st' : AState},
    analyseLoop R ctx (i + 1) parts st = .ok st' →
    join st'.resultParts ++ st'.nextHyphen =
      join st.resultParts ++ st.nextHyphen ++ parts.flatMap (fun q => 'y' :: q) := by
  induction parts with
  | nil => intro i st st' h; cases h; simp
  | cons p ps ih =>
    intro i st st' h
    unfold analyseLoop at h
    obtain ⟨st1, h1, h⟩ := bind_ok h
    rw [ih h, (analysePart_join h1).1]
    simp

theorem analyseLoop_append {R : Rec} {ctx : ACtx} {as bs : List Str} : ∀ {i : Nat} {st st' : AState},
    analyseLoop R ctx i (as ++ bs) st = .ok st' →
    ∃ st1, analyseLoop R ctx i as st = .ok st1 ∧ analyseLoop R ctx (i + as.length) bs st1 = .ok st' := by
  induction as with
  | nil => intro i st st' h; exact ⟨st, rfl, by simpa using h⟩
  | cons p ps ih =>
    intro i st st' h
    rw [List.cons_append] at h
    unfold analyseLoop at h
    obtain ⟨st1, h1, h⟩ := bind_ok h
    obtain ⟨st2, h2, h3⟩ := ih h
    refine ⟨st2, ?_, ?_⟩
    · unfold analyseLoop; rw [h1]; exact h2
    · rw [← h3]; congr 1; simp; omega

/-- The pieces of a whole word with `y` spell the word. -/
theorem analyseLoop_spells {R : Rec} {ctx : ACtx} {w : Str} {l : Char} {st' : AState}
    (hl : w.getLast? = some l) (hy : l ≠ 'y') (hq : l ≠ '\'')
    (h : analyseLoop R ctx 0 (splitOn 'y' w) {} = .ok st') :
    join st'.resultParts = w ∧ st'.nextHyphen = [] := by
  have hn : st'.nextHyphen = [] := by
    obtain ⟨init, p, hip, hpl⟩ := splitOn_getLast hl hy
    rw [hip] at h
    obtain ⟨st1, -, h2⟩ := analyseLoop_append h
    unfold analyseLoop at h2
    obtain ⟨st2, h3, h4⟩ := bind_ok h2
    cases h4
    by_cases hne : st'.nextHyphen = []
    · exact hne
    · have := (analysePart_join h3).2 hne
      rw [hpl] at this
      cases this; exact absurd rfl hq
  refine ⟨?_, hn⟩
  have hj := joinSep_splitOn 'y' w
  cases hs : splitOn 'y' w with
  | nil => exact absurd hs (splitOn_ne_nil _ _)
  | cons p ps =>
    rw [hs] at h hj
    unfold analyseLoop at h
    obtain ⟨st1, h1, h⟩ := bind_ok h
    have h2 := analyseLoop_join h
    rw [(analysePart_join h1).1, hn] at h2
    simp [join] at h2
    simp [joinSep] at hj
    simpa [join, hj] using h2

/-- The four ways `analyse_brivla` accepts a word. -/
inductive Accepts (R : Rec) (s : Settings) (w : Str) : BType → List Str → Prop
  | gismu {l} : w.getLast? = some l → isVowel l = true → isGismu s.allowMz w = true → Accepts R s w .gismu [w]
  | kaha {l parts} : w.getLast? = some l →
      (isConsonant l = true → isGismu s.allowMz (w ++ s%"a") = false) →
      (isVowel l = true → isGismu s.allowMz w = false) →
      (isConsonant l = true ∨ isVowel l = true) →
      jvokaha R s.yHyphens s.consonants s.glides s.allowMz w = .ok parts →
      Accepts R s w (if isConsonant l then .cmevla else .lujvo) parts
  | zihevla {l e sh} : w.getLast? = some l → isVowel l = true → isGismu s.allowMz w = false →
      jvokaha R s.yHyphens s.consonants s.glides s.allowMz w = .error e →
      (e = .decomposition ∨ e = .invalidCluster ∨ e = .index) →
      'y' ∉ w →
      checkZihevlaOrRafsi R true s.yHyphens s.expRafsi s.allowMz w = .ok sh →
      Accepts R s w .zihevla [w]
  | parts {c0 l e} {st : AState} : w.head? = some c0 → w.getLast? = some l → (isVowel c0 = true ∨ isConsonant c0 = true) →
      (isConsonant l = true → isGismu s.allowMz (w ++ s%"a") = false) →
      (isVowel l = true → isGismu s.allowMz w = false) →
      (isConsonant l = true ∨ isVowel l = true) →
      jvokaha R s.yHyphens s.consonants s.glides s.allowMz w = .error e →
      (e = .decomposition ∨ e = .invalidCluster ∨ e = .index) →
      (splitOn 'y' w).length ≠ 1 →
      analyseLoop R { s, isCmevlatai := isConsonant l, yParts := splitOn 'y' w } 0 (splitOn 'y' w) {} = .ok st →
      consonantsOk { s, isCmevlatai := isConsonant l, yParts := splitOn 'y' w } st = true →
      ((isVowel c0 = true ∧ ∃ c1, w[1]? = some c1 ∧ (isConsonant c1 = true ∨ c1 = 'y')) ∨
        isSlinkuhi R s.yHyphens s.allowMz w = .ok false) →
      Accepts R s w (if isConsonant l then .cmevla else .extendedLujvo) st.resultParts

theorem analyseY_ok {R : Rec} {s : Settings} {c : Bool} {w : Str} {yp : List Str} {r : BType × List Str}
    (h : analyseY R s c w yp = .ok r) :
    ∃ st, analyseLoop R { s, isCmevlatai := c, yParts := yp } 0 yp {} = .ok st ∧
      consonantsOk { s, isCmevlatai := c, yParts := yp } st = true ∧
      r = (if c then .cmevla else .extendedLujvo, st.resultParts) ∧
      ∃ c0, w[0]? = some c0 ∧
        ((isVowel c0 = true ∧ ∃ c1, w[1]? = some c1 ∧ (isConsonant c1 = true ∨ c1 = 'y')) ∨
          isSlinkuhi R s.yHyphens s.allowMz w = .ok false) := by
  unfold analyseY at h
  dsimp only at h
  obtain ⟨st, h1, h⟩ := bind_ok h
  split at h
  · cases h
  · rename_i hc
    obtain ⟨c0, h0, h⟩ := bind_ok h
    obtain ⟨skip, hsk, h⟩ := bind_ok h
    obtain ⟨bad, hb, h⟩ := bind_ok h
    split at h
    · cases h
    · rename_i hbad
      cases h
      refine ⟨st, h1, by simpa using hc, rfl, c0, idx_ok h0, ?_⟩
      cases skip with
      | true =>
        left
        split at hsk
        · rename_i hv
          obtain ⟨c1, h1, hsk⟩ := bind_ok hsk
          simp at hsk
          exact ⟨hv, c1, idx_ok h1, by simpa using hsk⟩
        · simp at hsk
      | false =>
        right
        simp at hb hbad
        rw [hbad] at hb
        exact hb

theorem analyseNorm_ok {R : Rec} {s : Settings} {w : Str} {t : BType} {ps : List Str}
    (h : analyseNorm R s w = .ok (t, ps)) : Accepts R s w t ps := by
  unfold analyseNorm at h
  split at h
  · rename_i c0 l hc0 hl
    split at h
    · cases h
    · rename_i hcv
      have hcv' : isConsonant l = true ∨ isVowel l = true := by
        cases h1 : isConsonant l <;> cases h2 : isVowel l <;> simp [h1, h2] at hcv ⊢
      dsimp only at h
      split at h
      · cases h
      · rename_i hga
        have hga' : isConsonant l = true → isGismu s.allowMz (w ++ s%"a") = false := by
          intro h1; simpa [h1] using hga
        split at h
        · rename_i hg
          cases h
          simp at hg
          exact .gismu hl (by simpa [hg.1] using hcv') hg.2
        · rename_i hg
          have hg' : isVowel l = true → isGismu s.allowMz w = false := by
            intro h1; simpa [not_consonant_of_vowel h1] using hg
          have hrest : ∀ e, jvokaha R s.yHyphens s.consonants s.glides s.allowMz w = .error e →
              (e = .decomposition ∨ e = .invalidCluster ∨ e = .index) →
              (analyseRest R s (isConsonant l) c0 w = .ok (t, ps)) → Accepts R s w t ps := by
            intro e hj he h
            unfold analyseRest at h
            split at h
            · cases h
            · rename_i hc
              split at h
              · rename_i h1
                split at h
                · cases h
                · rename_i hlc
                  have hlv : isVowel l = true := by simpa [hlc] using hcv'
                  split at h
                  · rename_i sh hz
                    cases h
                    exact .zihevla hl hlv (hg' hlv) hj he (splitOn_length_one h1) hz
                  · cases h
                  · cases h
              · rename_i h1
                obtain ⟨st, hst, hco, hr, c0', hc0', hsl⟩ := analyseY_ok h
                cases hr
                have : c0' = c0 := by
                  cases w with
                  | nil => simp at hc0
                  | cons a w => simp at hc0 hc0'; rw [← hc0, ← hc0']
                subst this
                refine .parts hc0 hl ?_ hga' hg' hcv' hj he h1 hst hco hsl
                cases h1 : isVowel c0' <;> cases h2 : isConsonant c0' <;> simp [h1, h2] at hc ⊢
          split at h
          · rename_i parts hj
            cases h
            exact .kaha hl hga' hg' hcv' hj
          · rename_i hj; exact hrest _ hj (.inl rfl) h
          · rename_i hj; exact hrest _ hj (.inr (.inl rfl)) h
          · rename_i hj; exact hrest _ hj (.inr (.inr rfl)) h
          · cases h
  · cases h

theorem analyseR_ok {R : Rec} {s : Settings} {w : Str} {t : BType} {ps : List Str}
    (h : analyseR R s w = .ok (t, ps)) : ∃ n, normalise w = .ok n ∧ Accepts R s n t ps := by
  obtain ⟨n, hn, h⟩ := bind_ok h
  exact ⟨n, hn, analyseNorm_ok h⟩

theorem vowel_ne_y {l : Char} (h : isConsonant l = true ∨ isVowel l = true) : l ≠ 'y' ∧ l ≠ '\'' := by
  constructor <;> rintro rfl <;> revert h <;> decide

theorem Accepts.join {R : Rec} {s : Settings} {w : Str} {t : BType} {ps : List Str}
    (h : Accepts R s w t ps) : Jvotci.join ps = w := by
  cases h with
  | gismu => simp [Jvotci.join]
  | kaha _ _ _ _ hj => exact (jvokaha2_ok (jvokaha_ok hj).1).1
  | zihevla => simp [Jvotci.join]
  | parts hc0 hl hc _ _ hcv _ _ _ hst => exact (analyseLoop_spells hl (vowel_ne_y hcv).1 (vowel_ne_y hcv).2 hst).1

end Jvotci
