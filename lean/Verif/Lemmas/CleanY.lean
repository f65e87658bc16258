import Verif.Lemmas.Clean

/-!
# Helper lemmas: the exceptions of `analyse_brivla` on a word with `y`

`E` is the list of the exceptions allowed; `IndexError` and `DecompositionError` may be left out of it under
conditions on the word.
-/

namespace Jvotci

open Spec

theorem chop_last {y : YHyphens} {mz : Bool} {prev : Option Str} {ps : List Str} (h : Chop y mz prev ps) :
    'y' ∉ join ps → ps ≠ [] → ∃ u q, ps = u ++ [q] ∧ Cuts mz q [] := by
  induction h with
  | nil => intro _ h; exact absurd rfl h
  | y => intro hy; simp [join] at hy
  | hy => intro hy; simp [join] at hy
  | n _ _ _ hj _ ih =>
    intro hy _
    obtain ⟨u, q, e, hc⟩ := ih (by intro h; exact hy (by simp [join] at h ⊢; exact h))
      (by rintro rfl; simp [join] at hj)
    exact ⟨_ :: u, q, by rw [e]; rfl, hc⟩
  | r _ _ _ hj _ _ _ ih =>
    intro hy _
    obtain ⟨u, q, e, hc⟩ := ih (by intro h; exact hy (by simp [join] at h ⊢; exact h))
      (by rintro rfl; simp [join] at hj)
    exact ⟨_ :: u, q, by rw [e]; rfl, hc⟩
  | @rafsi prev p ps hc _ ih =>
    intro hy _
    cases ps with
    | nil => exact ⟨[], p, rfl, hc⟩
    | cons p' ps =>
      obtain ⟨u, q, e, hc⟩ := ih (by intro h; exact hy (by simp [join] at h ⊢; exact .inr h)) (by simp)
      exact ⟨p :: u, q, by rw [e]; rfl, hc⟩

theorem cuts_end {mz : Bool} {q rest : Str} (h : Cuts mz q rest) :
    (∃ c, q.getLast? = some c ∧ (Vowel c ∨ Consonant c)) ∧ ∀ u, ¬ LoneR (u ++ q) := by
  have key : ∀ (u v : Str) (a b c : Char), v = u ++ [a, b, c] → Consonant a ∨ Consonant b ∨ Vowel c → ¬ LoneR v := by
    rintro u v a b c e h ⟨u', a', b', e', h'⟩
    rw [e] at e'
    have := congrArg List.reverse e'
    simp at this
    obtain ⟨rfl, rfl, rfl, -⟩ := this
    rcases h' with ⟨hb, ha⟩ | ⟨rfl, rfl⟩
    · rcases h with h | h | h
      · rcases ha with ha | rfl
        · exact vowel_not_consonant ha h
        · revert h; decide
      · exact vowel_not_consonant hb h
      · revert h; decide
    · rcases h with h | h | h <;> revert h <;> decide
  cases h with
  | cvv ha hb hc =>
    rename_i a b c _
    exact ⟨⟨c, rfl, .inl ((isVowel_iff _).1 hc)⟩, fun u => key u _ a b c rfl (.inr (.inr ((isVowel_iff _).1 hc)))⟩
  | cvhv ha hb hc =>
    rename_i a b c
    exact ⟨⟨c, rfl, .inl ((isVowel_iff _).1 hc)⟩, fun u => key (u ++ [a]) _ b '\'' c (by simp) (.inr (.inr ((isVowel_iff _).1 hc)))⟩
  | cvcc ha hb hc =>
    rename_i a b c d _
    exact ⟨⟨d, rfl, .inr hc.2.1⟩, fun u => key (u ++ [a]) _ b c d (by simp) (.inr (.inl hc.1))⟩
  | ccvc hi hc hd =>
    rename_i a b c d _
    exact ⟨⟨d, rfl, .inr ((isConsonant_iff _).1 hd)⟩, fun u => key (u ++ [a]) _ b c d (by simp) (.inl (initial_consonants hi).2)⟩
  | gismu h =>
    cases h with
    | @cvccv a b c d e _ _ _ he =>
      exact ⟨⟨e, rfl, .inl he⟩, fun u => key (u ++ [a, b]) _ c d e (by simp) (.inr (.inr he))⟩
    | @ccvcv a b c d e _ _ _ he =>
      exact ⟨⟨e, rfl, .inl he⟩, fun u => key (u ++ [a, b]) _ c d e (by simp) (.inr (.inr he))⟩
  | cvc ha hb hc =>
    rename_i a b c _ _
    exact ⟨⟨c, rfl, .inr ((isConsonant_iff _).1 hc)⟩, fun u => key u _ a b c rfl (.inl ((isConsonant_iff _).1 ha))⟩
  | ccv hi hc =>
    rename_i a b c
    exact ⟨⟨c, rfl, .inl ((isVowel_iff _).1 hc)⟩, fun u => key u _ a b c rfl (.inr (.inr ((isVowel_iff _).1 hc)))⟩

theorem clean_stripLeadingH {E : List Err} {i : Nat} {p : Str} (h1 : .notBrivla ∈ E)
    (hD : .decomposition ∈ E ∨ ∀ v t, p = '\'' :: v :: t → Vowel v → ∃ syls, splitVowelCluster ((v :: t).takeWhile isVowel) = .ok syls) :
    Errs E (stripLeadingH i p) := by
  unfold stripLeadingH
  split
  · exact .err h1
  · rename_i c cs
    refine .ite (fun hc => ?_) fun _ => .ite (fun _ => .err h1) fun _ => .ok
    split
    · exact .err h1
    · rename_i v t
      refine .ite (fun _ => .err h1) fun hv => .bind ?_ fun sy hsy => ?_
      · rcases hD with hD | hD
        · exact (errs_splitVowelCluster _).mono (by simpa using hD)
        · subst hc
          obtain ⟨syls, e⟩ := hD v t rfl ((isVowel_iff v).1 (by simpa using hv))
          rw [e]
          exact .ok
      · split
        · have := (splitVowelCluster_iff.1 hsy).1
          simp at hv
          simp [hv] at this
        · exact .ite (fun _ => .err h1) fun _ => .ok

theorem idxLast_clean {E : List Err} {v : Str} (h : v ≠ []) : Errs E (idxLast v) := by
  unfold idxLast
  rw [List.getLast?_eq_some_getLast h]
  exact .ok

theorem clean_partForm {E : List Err} {ctx : ACtx} {i : Nat} {hc : Bool} {p : Str} (h1 : .notBrivla ∈ E) (hne : p ≠ [])
    (h0 : p ≠ s%"'")
    (hI : .index ∈ E ∨ (ctx.s.yHyphens = .standard → p.getLast? = some '\'' → ctx.yParts[i + 1]? ≠ some [])) :
    Errs E (partForm ctx i hc p) := by
  unfold partForm
  refine .bind (idxLast_clean hne) fun l hl => .ite (fun e => ?_) fun _ => .ite (fun _ => .ok) fun _ => .ok
  have hl := idxLast_ok hl
  subst e
  refine .bind (.ite (fun h => .bind ?_ fun _ _ => .ok) fun _ => .ok) fun _ _ =>
    .bind (idxLast_clean ?_) fun _ _ => .ite (fun _ => .err h1) fun _ => .ok
  · rcases hI with hI | hI
    · exact errs_idx hI _ _
    · refine idx_clean ?_
      have := hI h.1 hl
      rw [List.getElem?_eq_getElem h.2.2] at this ⊢
      exact List.length_pos_iff.2 (by simpa using this)
  · obtain ⟨t, rfl⟩ := List.getLast?_eq_some_iff.1 hl
    simp [dropLastN]
    rintro rfl
    exact h0 rfl

theorem partForm_canBe {ctx : ACtx} {i : Nat} {hc : Bool} {part : Str} {f : PartForm}
    (h : partForm ctx i hc part = .ok f) (h1 : f.didAddA = true) (h2 : f.canBeRafsi = true) :
    ∃ l, part.getLast? = some l ∧ isVowel l = false := by
  unfold partForm at h
  dsimp only at h
  obtain ⟨l, hl, h⟩ := bind_ok h
  have hl' := idxLast_ok hl
  split at h
  · obtain ⟨rc, hrc, h⟩ := bind_ok h
    obtain ⟨l', hlast, h⟩ := bind_ok h
    split at h
    · cases h
    · cases h; cases h1
  · split at h
    · cases h
      exact ⟨l, hl', by simpa using h2⟩
    · cases h; cases h1

theorem clean_tryKaha {E : List Err} {R : Rec} {ctx : ACtx} {f : PartForm} (h1 : .notBrivla ∈ E)
    (h : ∀ s, Errs [.notBrivla] (R.analyse s f.partA)) : Errs E (tryKaha R ctx f) := by
  unfold tryKaha
  refine .bind (.ite (fun _ => ?_) fun _ => .ok) fun _ _ => ?_
  · split
    · exact .ok
    · rename_i e hne he
      have := h _ e he
      simp at this
      exact absurd this hne
    · exact .ite (fun _ => .err h1) fun _ => .ok
  · split
    · exact .ok
    · exact .ok
    · exact .ok
    · rename_i e h3 h4 h5 he
      have := errs_jvokaha2 _ _ _ e he
      simp [kahaErrs] at this
      rcases this with rfl | rfl | rfl | rfl
      · exact absurd rfl h3
      · exact absurd rfl h4
      · exact .err h1
      · exact absurd rfl h5
    · split
      · exact .ok
      · exact .ite (fun _ => .err h1) fun _ => .ok
      · exact .ok

theorem clean_succeeds {α : Type} {x : Except Err α} (h : Errs caughtErrs x) {E : List Err} : Errs E (succeeds x) := by
  unfold succeeds
  split
  · exact .ok
  · exact .ok
  · exact .ok
  · rename_i e h1 h2
    have := h e rfl
    simp [caughtErrs] at this
    rcases this with rfl | rfl
    · exact absurd rfl h1
    · exact absurd rfl h2

theorem slice_no_y {v : Str} (h : 'y' ∉ v) : slice v 3 5 ≠ s%"'y" := by
  intro e
  apply h
  have : 'y' ∈ slice v 3 5 := by rw [e]; decide
  exact List.mem_of_mem_take (List.mem_of_mem_drop this)

theorem cuts_length {mz : Bool} {q rest : Str} (h : Cuts mz q rest) : 3 ≤ q.length := by
  cases h with
  | gismu h => cases h <;> simp
  | _ => simp

/-- What `tosmabruTest` takes off the front. -/
theorem clean_toPart {E : List Err} {p : Str} (h : 3 ≤ p.length) :
    Errs E (if rafsiTarmi (slice p 0 4) = .cvhv then Except.ok (slice p 0 4)
     else if rafsiTarmi (slice p 0 3) = .cvv then .ok (slice p 0 3)
     else do
      let a ← idx p 0
      if isConsonant a then
        let b ← idx p 1
        if isVowel b then .ok (slice p 0 2) else .ok []
      else .ok []) := by
  refine .ite (fun _ => .ok) fun _ => .ite (fun _ => .ok) fun _ => .bind (idx_clean (by omega)) fun _ _ =>
    .ite (fun _ => .bind (idx_clean (by omega)) fun _ _ => .ite (fun _ => .ok) fun _ => .ok) fun _ => .ok

theorem toPart_ok {p t : Str} (h : (if rafsiTarmi (slice p 0 4) = .cvhv then Except.ok (slice p 0 4)
     else if rafsiTarmi (slice p 0 3) = .cvv then .ok (slice p 0 3)
     else do
      let a ← idx p 0
      if isConsonant a then
        let b ← idx p 1
        if isVowel b then .ok (slice p 0 2) else .ok []
      else .ok []) = (.ok t : Except Err Str)) :
    t = [] ∨ (∃ r, p = t ++ r) ∧ (∃ l, t.getLast? = some l ∧ isVowel l = true) ∧
      (t.length ≤ 3 ∨ ∃ a b c, t = [a, b, '\'', c]) := by
  split at h
  · rename_i h4
    obtain ⟨a, b, c, e, ha, hb, hc⟩ := tarmi_cvhv.1 h4
    cases h
    refine .inr ⟨⟨p.drop 4, by simp [slice]⟩, ⟨c, by rw [e]; rfl, hc⟩, .inr ⟨a, b, c, e⟩⟩
  · split at h
    · rename_i h3
      obtain ⟨a, b, c, e, ha, hb, hc⟩ := tarmi_cvv.1 h3
      cases h
      refine .inr ⟨⟨p.drop 3, by simp [slice]⟩, ⟨c, by rw [e]; rfl, hc⟩, .inl (by rw [e]; simp)⟩
    · obtain ⟨a, ha, h⟩ := bind_ok h
      split at h
      · obtain ⟨b, hb, h⟩ := bind_ok h
        split at h
        · rename_i hv
          cases h
          have ha := idx_ok ha
          have hb := idx_ok hb
          match p, ha, hb with
          | x :: z :: p, ha, hb =>
            simp at ha hb
            subst ha hb
            exact .inr ⟨⟨p, rfl⟩, ⟨z, rfl, hv⟩, .inl (by simp [slice])⟩
        · cases h; exact .inl rfl
      · cases h; exact .inl rfl

theorem isValidRafsi_false_ccv {s : Str} (h : rafsiTarmi s = .ccv) : ∃ l, s.getLast? = some l ∧ isVowel l = true := by
  obtain ⟨a, b, c, rfl, -, -, hc⟩ := tarmi_ccv.1 h
  exact ⟨c, rfl, hc⟩

theorem getLast?_drop_of_lt {v : Str} {k : Nat} (h : k < v.length) : (v.drop k).getLast? = v.getLast? := by
  rw [List.getLast?_drop, if_neg (by omega)]

theorem stripHyphens_vowel {v : Str} {l : Char} (hl : v.getLast? = some l) (hv : isVowel l = true) :
    ∃ u, v = u ++ stripHyphens v ∧ (stripHyphens v).getLast? = some l := by
  obtain ⟨t, rfl⟩ := List.getLast?_eq_some_iff.1 hl
  have hh : isHyphenLetter l = false := by
    have := (isVowel_iff l).1 hv
    revert this; unfold Vowel
    intro h
    simp at h
    rcases h with rfl | rfl | rfl | rfl | rfl <;> decide
  have h1 : ∀ t : Str, ∃ u t', t ++ [l] = u ++ (t' ++ [l]) ∧ (t ++ [l]).dropWhile isHyphenLetter = t' ++ [l] := by
    intro t
    induction t with
    | nil => exact ⟨[], [], rfl, by simp [hh]⟩
    | cons a t ih =>
      by_cases ha : isHyphenLetter a = true
      · obtain ⟨u, t', e1, e2⟩ := ih
        exact ⟨a :: u, t', by rw [List.cons_append, e1]; rfl, by rw [List.cons_append, List.dropWhile_cons_of_pos ha, e2]⟩
      · exact ⟨[], a :: t, rfl, by rw [List.cons_append, List.dropWhile_cons_of_neg ha]⟩
  obtain ⟨u, t', e1, e2⟩ := h1 t
  have e3 : stripHyphens (t ++ [l]) = t' ++ [l] := by
    unfold stripHyphens stripBoth
    rw [e2, List.reverse_append]
    simp [hh]
  refine ⟨u, by rw [e3, ← e1], by rw [e3]; simp⟩

theorem last_of_append {v a b : Str} {z : Char} (h : v = a ++ b) (hb : b ≠ []) (hz : v.getLast? = some z) :
    b.getLast? = some z := by
  rw [h, List.getLast?_append, List.getLast?_eq_some_getLast hb] at hz
  rw [List.getLast?_eq_some_getLast hb]
  exact hz

theorem clean_tosmabruTest {E : List Err} {ctx : ACtx} {f : PartForm} {found : List Str} (h1 : .notBrivla ∈ E)
    (hk : jvokaha2 ctx.s.yHyphens ctx.s.allowMz f.partCopy = .ok found) (hf : found ≠ []) (hy : 'y' ∉ f.partCopy)
    (hp : f.part = f.partCopy ++ (if f.didAddA then s%"a" else []))
    (hA : f.didAddA = true → ∃ l, f.partCopy.getLast? = some l ∧ isVowel l = false)
    (hT : f.didAddA = false → (∃ l, f.partCopy.getLast? = some l ∧ isVowel l = true) ∧
      ctx.yParts[0]? = some (f.partCopy ++ s%"'")) :
    Errs E (tosmabruTest (program .linked) ctx f) := by
  obtain ⟨hj, hch⟩ := jvokaha2_ok hk
  obtain ⟨u, q, rfl, hq⟩ := chop_last hch (by rw [hj]; exact hy) hf
  have hpc : f.partCopy = join u ++ q := by rw [← hj]; simp [join]
  obtain ⟨⟨z, hz, hzv⟩, hlone⟩ := cuts_end hq
  have hql := cuts_length hq
  have hqne : q ≠ [] := by rintro rfl; simp at hql
  have hzl : f.partCopy.getLast? = some z := by
    rw [hpc, List.getLast?_append, hz]; rfl
  have hLR : ¬ LoneR f.partCopy := by rw [hpc]; exact hlone _
  have hlen : 3 ≤ f.partCopy.length := by rw [hpc, List.length_append]; omega
  unfold tosmabruTest
  refine .bind (clean_toPart (by rw [hp, List.length_append]; omega)) fun toPart hto => ?_
  rcases toPart_ok hto with rfl | ⟨⟨r, hr⟩, ⟨l, hl, hlv⟩, hsz⟩
  · exact .ite (fun _ => .ok) fun h => absurd rfl h
  have htne : toPart ≠ [] := by rintro rfl; cases hl
  have hk3 : toPart.length ≤ f.partCopy.length := by
    rcases hsz with h | ⟨a, b, c, e⟩
    · omega
    · rw [e]
      by_cases h4 : 4 ≤ f.partCopy.length
      · exact h4
      · exfalso
        match hm : f.partCopy, hlen, h4 with
        | [x1, x2, x3], _, _ =>
          rw [hm] at hp hzl
          rw [hr, e] at hp
          simp at hp hzl
          rw [← hp.2.2.1] at hzl
          rw [← hzl] at hzv
          revert hzv; decide
        | x1 :: x2 :: x3 :: x4 :: x5, _, h => exact h (by simp)
  obtain ⟨r', hr'⟩ : ∃ r', f.partCopy = toPart ++ r' := by
    refine ⟨f.partCopy.drop toPart.length, ?_⟩
    have : toPart = f.partCopy.take toPart.length := by
      have := congrArg (List.take toPart.length) (hr.symm.trans hp)
      rw [List.take_left, List.take_append_of_le_length hk3] at this
      exact this
    conv => lhs; rw [← List.take_append_drop toPart.length f.partCopy, ← this]
  have hrr : r = r' ++ (if f.didAddA then s%"a" else []) := by
    rw [hr, hr', List.append_assoc] at hp
    exact List.append_cancel_left hp
  have hsm : (if toPart.isEmpty = true then [] else f.part.drop toPart.length) = r := by
    rw [if_neg (by simpa using htne), hr, List.drop_left]
  dsimp only
  rw [hsm]
  refine .ite (fun _ => .ok) fun hre => ?_
  obtain ⟨sm, hsmE⟩ : ∃ sm, sm = (if f.didAddA = true then dropLastN r 1 else stripHyphens r) := ⟨_, rfl⟩
  have hsm : (∃ x, f.partCopy = x ++ sm) ∧ sm.getLast? = some z ∧
      (rafsiTarmi sm = .ccv → toPart.length + 3 < ((ctx.yParts[0]?).getD []).length) := by
    cases hd : f.didAddA with
    | true =>
      rw [hd] at hrr hsmE
      obtain ⟨zz, hzz, hzv'⟩ := hA hd
      rw [hzl] at hzz
      cases hzz
      have : sm = r' := by rw [hsmE, hrr]; simp [dropLastN]
      subst this
      have hne : sm ≠ [] := by
        rintro rfl
        rw [hr', List.append_nil, hl] at hzl
        cases hzl
        rw [hlv] at hzv'; cases hzv'
      have hlast : sm.getLast? = some z := by
        exact last_of_append hr' hne hzl
      refine ⟨⟨_, hr'⟩, hlast, fun h => ?_⟩
      obtain ⟨l2, e2, v2⟩ := isValidRafsi_false_ccv h
      rw [hlast] at e2
      cases e2
      rw [v2] at hzv'; cases hzv'
    | false =>
      rw [hd] at hrr hsmE
      obtain ⟨⟨zz, hzz, hzv'⟩, hyp⟩ := hT hd
      rw [hzl] at hzz
      cases hzz
      simp at hrr hsmE
      subst hrr
      have hne : r ≠ [] := by simpa using hre
      have hlast : r.getLast? = some z := by
        exact last_of_append hr' hne hzl
      obtain ⟨x, hx, hx2⟩ := stripHyphens_vowel hlast hzv'
      rw [← hsmE] at hx hx2
      refine ⟨⟨toPart ++ x, by rw [hr', hx]; simp⟩, hx2, fun h => ?_⟩
      obtain ⟨_, _, _, e, -⟩ := tarmi_ccv.1 h
      rw [hyp]
      simp only [Option.getD_some, List.length_append, hr', hx, e, List.length_cons, List.length_nil]
      omega
  rw [← hsmE]
  obtain ⟨⟨x, hx⟩, hlast, hidx⟩ := hsm
  refine .bind (.ite (fun _ => .ite (fun h => .bind (idx_clean (hidx h)) fun _ _ => .ok) fun _ => .ok)
      fun _ => .ok) fun _ _ => .ite (fun _ => .err h1) fun _ => .bind (clean_succeeds (jvokaha_clean (fun _ => slice_no_y ?_)
        ⟨z, hlast, hzv⟩ fun _ h => hLR ?_)) fun _ _ =>
        .ite (fun _ => .err h1) fun _ => .ok
  · intro h; exact hy (by rw [hx]; simp [h])
  · rw [hx]; exact h.prefix

theorem clean_program {s : Settings} {v : Str} (hne : v ≠ []) (hy : 'y' ∉ v) (hst : ∀ d ∈ v, readChar d = [d]) :
    Errs [.notBrivla] ((program .linked).analyse s v) := by
  rw [program_analyse]
  exact clean_normal _ s v (Nat.le_refl _) hne hy hst

theorem clean_analysePart {E : List Err} {ctx : ACtx} {i : Nat} {p : Str} {st : AState} (h1 : .notBrivla ∈ E)
    (hst : ∀ d ∈ p, readChar d = [d]) (hy : 'y' ∉ p)
    (hD : .decomposition ∈ E ∨ ∀ v t, p = '\'' :: v :: t → Vowel v → ∃ syls, splitVowelCluster ((v :: t).takeWhile isVowel) = .ok syls)
    (hI : .index ∈ E ∨ (ctx.s.yHyphens = .standard → p.getLast? = some '\'' → ctx.yParts[i + 1]? ≠ some []))
    (h0 : i = 0 → p.head? ≠ some '\'' ∧ ctx.yParts[0]? = some p ∧ 2 ≤ ctx.yParts.length)
    (hlast : i + 1 < ctx.yParts.length ∨ ctx.isCmevlatai = true ∨ ∃ c, p.getLast? = some c ∧ Vowel c) :
    Errs E (analysePart (program .linked) ctx i p st) := by
  unfold analysePart
  refine .bind (clean_stripLeadingH h1 hD) fun ⟨part, lead⟩ hs => .ite (fun _ => .ok) fun _ => ?_
  obtain ⟨hne, hp0, hl1, hl2⟩ := stripLeadingH_ok hs
  have hmem : ∀ d ∈ part, d ∈ p := by
    intro d hd; rw [hp0]; split <;> simp [hd]
  have hplast : p.getLast? = part.getLast? := by
    rw [hp0]
    split
    · rw [List.getLast?_cons_of_ne_nil hne]
    · rfl
  refine .bind (idx_clean (List.length_pos_iff.2 hne)) fun c0 _ => .bind (clean_partForm h1 hne ?_ ?_) fun f hf => ?_
  · rintro rfl
    cases lead with
    | true =>
      obtain ⟨v, t, e, hv⟩ := hl1 rfl
      cases e; revert hv; decide
    | false => exact (hl2 rfl).1 '\'' [] rfl rfl
  · rw [← hplast]; exact hI
  obtain ⟨e1, e2, e3, e4, e5, e6, e7, e8, -⟩ := partForm_ok hf
  have ha : readChar 'a' = ['a'] := by decide
  have hmemA : ∀ d ∈ part ++ s%"a", readChar d = [d] ∧ d ≠ 'y' := by
    intro d hd
    rcases List.mem_append.1 hd with hd | hd
    · exact ⟨hst d (hmem d hd), by rintro rfl; exact hy (hmem _ hd)⟩
    · simp at hd; subst hd; exact ⟨ha, by decide⟩
  have hcopy : ∀ d ∈ f.partCopy, d ∈ part := by
    intro d hd; rw [e1]; simp [hd]
  have hP : ∀ d ∈ f.part, readChar d = [d] ∧ d ≠ 'y' := by
    intro d hd
    rw [e2] at hd
    rcases List.mem_append.1 hd with hd | hd
    · exact hmemA d (List.mem_append_left _ (hcopy d hd))
    · split at hd
      · exact hmemA d (List.mem_append_right _ hd)
      · simp at hd
  have hyP : 'y' ∉ f.part := fun h => (hP _ h).2 rfl
  have hPv : ∃ c, f.part.getLast? = some c ∧ Vowel c := by
    rw [e2]
    cases hA : f.didAddA with
    | true => exact ⟨'a', by simp, by decide⟩
    | false =>
      simp
      cases hT : f.trailingH with
      | true =>
        obtain ⟨l, h, hv⟩ := e5 hT
        exact ⟨l, h, (isVowel_iff l).1 hv⟩
      | false =>
        rw [hA, hT] at e7
        simp at e7
        rw [hT] at e1
        simp at e1
        rw [← e1, ← hplast]
        rcases hlast with h | h | h
        · omega
        · rw [e7.2] at h; cases h
        · exact h
  have hPne : f.part ≠ [] := by
    rintro e
    rw [e] at hPv
    obtain ⟨_, h, -⟩ := hPv
    cases h
  have htry : Errs E (if f.canBeRafsi = true then tryKaha (program .linked) ctx f else Except.ok ([], false)) := by
    refine .ite (fun _ => clean_tryKaha h1 fun s => ?_) fun _ => .ok
    rw [e3]
    exact clean_program (by simp) (fun h => (hmemA _ h).2 rfl) fun d h => (hmemA d h).1
  refine .bind htry fun ⟨found, did⟩ hfd => ?_
  dsimp only
  refine .ite (fun hdid => .ite (fun _ => .err h1) fun _ => .bind (.ite (fun hi => ?_) fun _ => .ok)
    fun _ _ => .ok) fun _ => .bind ?_ fun sh _ => .bind (.ite (fun _ => .bind
      (clean_succeeds (caught_cut (fun _ => slice_no_y hyP) fun _ h => ?_)) fun _ _ =>
        .ite (fun _ => .err h1) fun _ => .ok) fun _ => .ok) fun _ _ =>
      .bind (idx_clean (List.length_pos_iff.2 hPne)) fun _ _ => .ok
  · obtain ⟨g1, g2, g3⟩ := h0 hi
    have hcb : f.canBeRafsi = true := by
      cases h : f.canBeRafsi with
      | true => rfl
      | false => rw [h] at hfd; simp at hfd; rw [hfd.2] at hdid; cases hdid
    rw [if_pos hcb] at hfd
    obtain ⟨k1, k2, -⟩ := (tryKaha_ok hfd).1 hdid
    have hpp : p = part := by
      rw [hp0]
      cases lead with
      | true => rw [hp0] at g1; simp at g1
      | false => rfl
    subst hi
    refine clean_tosmabruTest h1 k1 k2 (fun h => hy (hmem _ (hcopy _ h))) e2 (fun hA => ?_) fun hA => ?_
    · have hT := e4 hA
      rw [hT] at e1
      simp at e1
      rw [← e1]
      exact partForm_canBe hf hA hcb
    · cases hT : f.trailingH with
      | true =>
        refine ⟨e5 hT, ?_⟩
        rw [g2, hpp]
        conv => lhs; rw [e1, hT]
        rfl
      | false =>
        have := e7.2 ⟨hT, .inl (by omega)⟩
        rw [hA] at this; cases this
  · have := clean_checkZihevlaOrRafsi (R := program .linked) (rz := f.requireCluster || !ctx.s.expRafsi) (y := ctx.s.yHyphens)
      (ex := ctx.s.expRafsi) (mz := ctx.s.allowMz) (v := f.part) hPne (slinkuhi_vowel hPv) (fun j hj hjl s => by
        refine clean_program ?_ (fun h => hyP (List.mem_of_mem_drop h)) fun d h => (hP d (List.mem_of_mem_drop h)).1
        intro h
        have := congrArg List.length h
        rw [List.length_drop] at this
        simp at this
        omega)
    split
    · exact .err h1
    · rename_i x hx
      intro e he
      have := this e he
      simp at this
      subst this
      exact absurd he hx
  · obtain ⟨c, hc, hv⟩ := hPv
    rw [loneR_last h] at hc
    cases hc
    revert hv; decide

theorem clean_analyseLoop {E : List Err} {ctx : ACtx} (h1 : .notBrivla ∈ E) :
    ∀ {ps pre : List Str} {st : AState}, ctx.yParts = pre ++ ps →
    (∀ p ∈ ps, (∀ d ∈ p, readChar d = [d]) ∧ 'y' ∉ p) →
    (.decomposition ∈ E ∨ ∀ p ∈ ps, ∀ v t, p = '\'' :: v :: t → Vowel v →
      ∃ syls, splitVowelCluster ((v :: t).takeWhile isVowel) = .ok syls) →
    (.index ∈ E ∨ (ctx.s.yHyphens = .standard → ∀ pre p post, ctx.yParts = pre ++ p :: [] :: post → p.getLast? ≠ some '\'')) →
    (∀ p, ctx.yParts[0]? = some p → p.head? ≠ some '\'') → 2 ≤ ctx.yParts.length →
    (ctx.isCmevlatai = true ∨ ∀ p, ctx.yParts.getLast? = some p → ∃ c, p.getLast? = some c ∧ Vowel c) →
    Errs E (analyseLoop (program .linked) ctx pre.length ps st) := by
  intro ps
  induction ps with
  | nil => intros; exact .ok
  | cons p ps ih =>
    intro pre st hyp hmem hD hI h0 h2 hlast
    have hpos : pre.length < ctx.yParts.length := by rw [hyp]; simp
    unfold analyseLoop
    refine .bind (clean_analysePart h1 (hmem p (by simp)).1 (hmem p (by simp)).2 (hD.imp_right fun h => h p (by simp)) ?_ ?_ ?_) fun st' _ => ?_
    · refine hI.imp_right fun h hs hp he => ?_
      rw [hyp, List.getElem?_append_right (by omega)] at he
      cases ps with
      | nil => simp at he
      | cons q ps =>
        simp at he
        subst he
        exact h hs pre p ps hyp hp
    · intro e
      have : pre = [] := List.length_eq_zero_iff.1 e
      subst this
      exact ⟨h0 p (by rw [hyp]; rfl), by rw [hyp]; rfl, h2⟩
    · cases ps with
      | cons q ps => exact .inl (by rw [hyp]; simp)
      | nil => exact .inr (hlast.imp_right fun h => h p (by rw [hyp]; simp))
    · have := ih (pre := pre ++ [p]) (st := st') (by rw [hyp]; simp) (fun q hq => hmem q (by simp [hq]))
        (hD.imp_right fun h q hq => h q (by simp [hq])) hI h0 h2 hlast
      rw [List.length_append] at this
      exact this

theorem partForm_added {ctx : ACtx} {i : Nat} {hc : Bool} {part : Str} {f : PartForm}
    (h : partForm ctx i hc part = .ok f) (h1 : f.didAddA = true) : f.requireCluster = true := by
  unfold partForm at h
  dsimp only at h
  obtain ⟨l, hl, h⟩ := bind_ok h
  split at h
  · obtain ⟨rc, hrc, h⟩ := bind_ok h
    obtain ⟨l', hlast, h⟩ := bind_ok h
    split at h
    · cases h
    · cases h; cases h1
  · split at h
    · cases h; rfl
    · cases h; cases h1

/-- A cmevla does not end in a part `r`. -/
theorem analysePart_r {R : Rec} {ctx : ACtx} {i : Nat} {st st' : AState} (hc : ctx.isCmevlatai = true) :
    analysePart R ctx i s%"r" st ≠ .ok st' := by
  intro h
  obtain ⟨part, lead, hs, h⟩ := analysePart_ok h
  have hs : part = s%"r" ∧ lead = false := by
    simp [stripLeadingH] at hs
    cases hi : decide (0 < i) with
    | true =>
      simp at hi
      rw [if_neg (by rintro ⟨⟨-, h⟩, -⟩; revert h; decide)] at hs
      cases hs; exact ⟨rfl, rfl⟩
    | false =>
      simp at hi
      rw [if_neg (by rintro ⟨⟨h, -⟩, -⟩; omega)] at hs
      cases hs; exact ⟨rfl, rfl⟩
  obtain ⟨rfl, rfl⟩ := hs
  rcases h with ⟨h, -⟩ | ⟨-, c0, f, found, did, hc0, h⟩
  · revert h; decide
  · obtain ⟨hf, hfd, h⟩ := h
    obtain ⟨e1, e2, e3, e4, e5, e6, e7, e8, -⟩ := partForm_ok hf
    have hT : f.trailingH = false := by
      cases hT : f.trailingH with
      | false => rfl
      | true =>
        rw [hT] at e1
        have := congrArg List.getLast? e1
        simp at this
    have hA := e7.2 ⟨hT, .inr hc⟩
    rw [hT] at e1
    simp at e1
    rw [hA, ← e1] at e2
    rcases h with ⟨rfl, -⟩ | ⟨rfl, shape, p0, hz, -⟩
    · split at hfd
      · obtain ⟨k1, k2, -⟩ := (tryKaha_ok hfd).1 rfl
        rw [← e1] at k1
        obtain ⟨hj, hch⟩ := jvokaha2_ok k1
        obtain ⟨u, q, rfl, hq⟩ := chop_last hch (by rw [hj]; decide) k2
        have := cuts_length hq
        have hl := congrArg List.length hj
        simp [join] at hl
        omega
      · cases hfd
    · rw [e2, partForm_added hf hA] at hz
      unfold checkZihevlaOrRafsi at hz
      rw [if_pos ⟨by simp, by simp⟩] at hz
      cases hz

theorem joinSep_middle (c : Char) (pre : List Str) (p : Str) (post : List Str) :
    joinSep c (pre ++ p :: post) = (pre.flatMap (fun q => q ++ [c])) ++ p ++ post.flatMap (fun q => c :: q) := by
  cases pre with
  | nil => simp [joinSep]
  | cons a pre =>
    have : ∀ (pre : List Str) (a : Str), a ++ (pre ++ p :: post).flatMap (fun q => c :: q) =
        ((a :: pre).flatMap (fun q => q ++ [c])) ++ p ++ post.flatMap (fun q => c :: q) := by
      intro pre
      induction pre with
      | nil => intro a; simp
      | cons b pre ih =>
        intro a
        have := ih b
        simp only [List.cons_append, List.flatMap_cons, List.append_assoc] at this ⊢
        rw [this]
        simp
    rw [List.cons_append, joinSep, this]

/-- The words on which `analyse_brivla` runs off the end of a part. -/
def RunsOff (y : YHyphens) (w : Str) : Prop :=
  (y = .standard ∧ ∃ u t, w = u ++ s%"'yy" ++ t) ∨
  (y ≠ .forceY ∧ ∃ u a b, w = u ++ [a, b, 'r'] ∧ Vowel b ∧ (Vowel a ∨ a = '\''))

/-- The words with a run of vowels after `y'` that `analyse_brivla` cannot divide. -/
def Undivided (w : Str) : Prop :=
  ∃ u v t, w = u ++ s%"y'" ++ v ++ t ∧ v ≠ [] ∧ (∀ c ∈ v, Vowel c) ∧ (∀ c, t.head? = some c → ¬ Vowel c) ∧
    ∀ syls, splitVowelCluster v ≠ .ok syls

theorem clean_analyseY {E : List Err} {s : Settings} {w : Str} {a l : Char} (h1 : .notBrivla ∈ E)
    (hst : ∀ d ∈ w, readChar d = [d]) (h0 : w.head? = some a) (ha : a ≠ 'y') (ha' : a ≠ '\'') (hl : w.getLast? = some l)
    (hcv : Vowel l ∨ Consonant l) (hn : (splitOn 'y' w).length ≠ 1)
    (hD : .decomposition ∈ E ∨ ¬ Undivided w) (hI : .index ∈ E ∨ ¬ RunsOff s.yHyphens w) :
    Errs E (analyseY (program .linked) s (isConsonant l) w (splitOn 'y' w)) := by
  have hlc : l ≠ 'y' := by rintro rfl; rcases hcv with h | h <;> revert h <;> decide
  have hparts := splitOn_part_length h0 ha hl hlc hn
  have hj := joinSep_splitOn 'y' w
  have hnm := splitOn_not_mem 'y' w
  have hnn := splitOn_ne_nil 'y' w
  have h2 : 2 ≤ (splitOn 'y' w).length := by
    have := List.length_pos_iff.2 hnn
    omega
  have hfirst : ∀ p, (splitOn 'y' w)[0]? = some p → p.head? = some a := by
    intro p hp
    cases hs : splitOn 'y' w with
    | nil => exact absurd hs hnn
    | cons q ps =>
      rw [hs] at hp hj h2
      simp at hp
      subst hp
      cases q with
      | nil =>
        rw [← hj] at h0
        cases ps with
        | nil => simp at h2
        | cons r ps => simp [joinSep] at h0; exact absurd h0.symm ha
      | cons x q => rw [← hj] at h0; simpa [joinSep] using h0
  obtain ⟨init, q, hiq, hq⟩ := splitOn_getLast hl hlc
  have hwlen : 2 ≤ w.length := by
    obtain ⟨h, -⟩ := hparts q (by rw [hiq]; simp)
    have : 0 < q.length := by cases q with
      | nil => cases hq
      | cons => simp
    omega
  unfold analyseY
  refine .bind (clean_analyseLoop h1 (ps := splitOn 'y' w) (pre := []) rfl
    (fun p hp => ⟨fun d hd => hst d ((hparts p hp).2 d hd), hnm p hp⟩) ?_ ?_ ?_ h2 ?_) fun st hst' => ?_
  · refine hD.imp_right fun hD p hp v t hpe hv => ?_
    apply Classical.byContradiction
    intro hno
    obtain ⟨pre, post, he⟩ := List.append_of_mem hp
    rw [he, joinSep_middle] at hj
    have hpre : pre ≠ [] := by
      rintro rfl
      have := hfirst p (by rw [he]; rfl)
      rw [hpe] at this
      simp at this
      exact ha' this.symm
    obtain ⟨pre', x, rfl⟩ : ∃ pre' x, pre = pre' ++ [x] := ⟨_, _, (List.dropLast_concat_getLast hpre).symm⟩
    refine hD ⟨pre'.flatMap (fun q => q ++ ['y']) ++ x, (v :: t).takeWhile isVowel,
      (v :: t).dropWhile isVowel ++ post.flatMap (fun q => 'y' :: q), ?_, ?_, ?_, ?_, fun syls h => hno ⟨syls, h⟩⟩
    · rw [← hj, hpe]
      have := List.takeWhile_append_dropWhile (p := isVowel) (l := v :: t)
      generalize (v :: t).takeWhile isVowel = x1 at *
      generalize (v :: t).dropWhile isVowel = x2 at *
      rw [← this]
      simp [List.flatMap_append]
    · rw [List.takeWhile_cons_of_pos ((isVowel_iff v).2 hv)]; simp
    · intro c hc
      exact (isVowel_iff c).1 (List.all_eq_true.1 (List.all_takeWhile (p := isVowel) (l := v :: t)) c hc)
    · intro c hc hcv'
      cases hd : (v :: t).dropWhile isVowel with
      | nil =>
        rw [hd] at hc
        cases post with
        | nil => simp at hc
        | cons => simp at hc; subst hc; revert hcv'; decide
      | cons x r =>
        rw [hd] at hc
        simp at hc
        subst hc
        have := List.head?_dropWhile_not isVowel (v :: t)
        rw [hd] at this
        simp [(isVowel_iff x).2 hcv'] at this
  · refine hI.imp_right fun hI hs pre p post he hpl => hI (.inl ⟨hs, ?_⟩)
    dsimp only at he
    obtain ⟨p', rfl⟩ := List.getLast?_eq_some_iff.1 hpl
    rw [he, joinSep_middle] at hj
    cases post with
    | nil =>
      exfalso
      rw [hiq] at he
      have := congrArg List.getLast? he
      simp at this
      rw [this] at hq
      cases hq
    | cons r post =>
      exact ⟨pre.flatMap (fun q => q ++ ['y']) ++ p', r ++ post.flatMap (fun q => 'y' :: q), by rw [← hj]; simp⟩
  · intro p hp
    rw [hfirst p hp]
    simpa using ha'
  · rcases hcv with hv | hc
    · refine .inr fun p hp => ?_
      dsimp only at hp
      rw [hiq] at hp
      simp at hp
      exact ⟨l, by rw [← hp]; exact hq, hv⟩
    · exact .inl ((isConsonant_iff l).2 hc)
  · refine .ite (fun _ => .err h1) fun _ => .bind (idx_clean (by omega)) fun c0 _ => .bind
      (.ite (fun _ => .bind (idx_clean (by omega)) fun _ _ => .ok) fun _ => .ok) fun _ _ => .bind
      (.ite (fun _ => ?_) fun _ => .ok) fun _ _ =>
      .ite (fun _ => .err h1) fun _ => .ok
    rw [← slinkuhi_program]
    rcases hI with hI | hI
    · refine ((good_program .linked 0).slinkuhi _ _ _).mono ?_
      simp [slinkuhiErrs, nameErrs, h1, hI, program_build]
    · obtain ⟨t, ht⟩ := slinkuhi_clean (y := s.yHyphens) (mz := s.allowMz) ⟨l, hl, hcv⟩ (fun hf h => by
        obtain ⟨u, a', b', e, ⟨hb, ha⟩ | ⟨rfl, rfl⟩⟩ := h
        · exact hI (.inr ⟨hf, u, a', b', e, hb, ha⟩)
        · have hlr : l = 'r' := by rw [e] at hl; simpa using hl.symm
          subst hlr
          have hqr : q = s%"r" := by
            rw [hiq, joinSep_middle] at hj
            rw [e] at hj
            have hqy : 'y' ∉ q := hnm q (by rw [hiq]; simp)
            obtain ⟨q', rfl⟩ := List.getLast?_eq_some_iff.1 hq
            cases q' with
            | nil => rfl
            | cons x q' =>
              exfalso
              have := congrArg List.reverse hj
              simp at this
              have hm : 'y' ∈ (x :: q') := by
                cases hqr : q'.reverse with
                | nil =>
                  rw [hqr] at this
                  have hq0 : q' = [] := by simpa using hqr
                  simp at this
                  simp [this.1]
                | cons z zs =>
                  rw [hqr] at this
                  simp at this
                  have : 'y' ∈ q'.reverse := by rw [hqr, this.1]; simp
                  simp at this
                  simp [this]
              exact hqy (List.mem_append_left _ hm)
          rw [hqr] at hiq
          rw [hiq] at hst'
          obtain ⟨st1, -, h2⟩ := analyseLoop_append hst'
          unfold analyseLoop at h2
          obtain ⟨st2, h3, -⟩ := bind_ok h2
          exact analysePart_r (by show isConsonant 'r' = true; decide) h3)
      rw [ht]
      exact .ok

theorem clean_word {E : List Err} {s : Settings} {w : Str} (h1 : .notBrivla ∈ E) (hne : w ≠ [])
    (hD : .decomposition ∈ E ∨ ¬ Undivided (reading w)) (hI : .index ∈ E ∨ ¬ RunsOff s.yHyphens (reading w)) :
    Errs E (analyseBrivla .linked s w) := by
  by_cases hy : 'y' ∉ reading w
  · exact (clean_analyse hne hy).mono (by simpa using h1)
  rw [analyseBrivla_program]
  unfold analyseR
  rw [normalise_eq hne, ok_bind]
  unfold analyseNorm
  split
  · rename_i c0 l hc0 hl
    refine .ite (fun _ => .err h1) fun hcv => .ite (fun _ => .err h1) fun _ => .ite (fun _ => .ok) fun _ => ?_
    have hrest : Errs E (analyseRest (program .linked) s (isConsonant l) c0 (reading w)) := by
      unfold analyseRest
      refine .ite (fun _ => .err h1) fun hc => .ite (fun h => absurd (splitOn_length_one h) hy) fun hn => ?_
      refine clean_analyseY h1 (fun d => reading_chars) hc0 ?_ ?_ hl ?_ hn hD hI
      · rintro rfl; revert hc; decide
      · rintro rfl; revert hc; decide
      · cases hv : isVowel l with
        | true => exact .inl ((isVowel_iff l).1 hv)
        | false => 
          simp [hv] at hcv
          exact .inr ((isConsonant_iff l).1 hcv)
    split
    · exact .ok
    · exact hrest
    · exact hrest
    · exact hrest
    · rename_i e h3 h4 h5 he
      have := errs_jvokaha (R := program .linked) (fun v _ => (good_program .linked 0).slinkuhi _ _ _) e he
      refine .err ?_
      simp only [jvokahaErrs, kahaErrs, program_build, nameErrs, List.append_nil, List.mem_cons, List.not_mem_nil, or_false] at this ⊢
      rcases this with h | h | h | h
      · exact absurd h h3
      · exact absurd h h4
      · rw [h]; exact h1
      · exact absurd h h5
  · exact .err h1

end Jvotci
