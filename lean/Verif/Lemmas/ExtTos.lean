import Verif.Lemmas.ExtStem

/-!
# Helper lemmas: the tosmabru test on the first part of an extended lujvo
-/

namespace Jvotci

open Spec

/-- The words ending in a consonant that `jvokaha` accepts. -/
theorem jvokaha_cmevla {s : Settings} {v : Str} (hv : ∃ c, v.getLast? = some c ∧ Consonant c) (hlen : v.length < 10 ^ 96) :
    (∃ ps, jvokaha (program .linked) s.yHyphens s.consonants s.glides s.allowMz v = .ok ps) ↔
      ∃ ps, CmevlaPieces s ps ∧ ps.flatten = v := by
  obtain ⟨c, hc, hcc⟩ := hv
  constructor
  · rintro ⟨ps, hk⟩
    obtain ⟨c', l, m, hc', rfl, hj, hM, hA, hE, hF, hd⟩ := jvokaha_canon hk
    rw [hc] at hc'
    cases hc'
    rw [(isConsonant_iff c).2 hcc] at hM hA
    exact ⟨_, cmevlaPieces_settings (s := kahaSettings s.yHyphens s.consonants s.glides s.allowMz) rfl rfl (made_cmevlaPieces hM hA hE hd hF), hj⟩
  · rintro ⟨ps, h, rfl⟩
    obtain ⟨l, m, rfl, hM, hA, hE, hF, hd⟩ := cmevlaPieces_made (s := kahaSettings s.yHyphens s.consonants s.glides s.allowMz) (cmevlaPieces_settings (s := s) rfl rfl h)
    rw [flat_spell] at hlen ⊢
    exact ⟨_, jvokaha_accepts hM hA hE hF hd (cost_bound hE hlen) (by simp)⟩

/-- What can fall off the front of `core`. -/
def FrontOf (core x m : Str) : Prop :=
  core = x ++ m ∧ (VowelRafsi x ∨ (pattern x = s%"CV" ∧ ConsonantInitial m))

theorem reading_front {y : YHyphens} {mz : Bool} {ps : List Str} (h : Reading y mz ps) (hy : 'y' ∉ ps.flatten) :
    (∃ x m a t, FrontOf ps.flatten x m ∧ x = a :: t ∧ Consonant a ∧ (m = [] ∨ ConsonantInitial m)) ∨
    (∃ a b t, ps.flatten = a :: b :: t ∧ Consonant b) := by
  obtain ⟨p, rest, e, hp, hr⟩ : ∃ p rest, ps.flatten = p ++ rest ∧ Rafsi mz p ∧ (rest = [] ∨ ConsonantInitial rest) := by
    obtain ⟨p, hp, hr⟩ := h.first
    match ps, hp, h, hy with
    | [q], hp, _, _ =>
      have : q = p := by simpa using hp
      subst this
      exact ⟨q, [], by simp, hr, .inl rfl⟩
    | q :: q' :: v, hp, h, hy =>
      have : q = p := by simpa using hp
      subst this
      refine ⟨q, (q' :: v).flatten, by simp, hr, .inr ?_⟩
      rcases reading_pieces h q' (by simp) with hh | hr'
      · rcases hyphen_no_y hh (fun h => hy (List.mem_flatten.2 ⟨q', by simp, h⟩)) with rfl | rfl
        · exact (by decide : Consonant 'r')
        · exact (by decide : Consonant 'n')
      · obtain ⟨a, t, rfl, ha⟩ := rafsi_first hr'
        exact (isConsonant_iff a).1 ha
  rw [e]
  have cv : ∀ {a b : Char}, Consonant a → Vowel b → pattern [a, b] = s%"CV" := by
    intro a b ha hb
    simp [pattern, ha, hb, consonant_not_vowel ha]
  cases hp with
  | @cvv a b c ha hb hc => exact .inl ⟨[a, b, c], rest, a, [b, c], ⟨rfl, .inl ⟨a, b, c, hb, hc, .inl rfl⟩⟩, rfl, ha, hr⟩
  | @cvhv a b c ha hb hc => exact .inl ⟨[a, b, '\'', c], rest, a, [b, '\'', c], ⟨rfl, .inl ⟨a, b, c, hb, hc, .inr rfl⟩⟩, rfl, ha, hr⟩
  | @cvc a b c ha hb hc => exact .inl ⟨[a, b], c :: rest, a, [b], ⟨rfl, .inr ⟨cv ha hb, hc⟩⟩, rfl, ha, .inr hc⟩
  | @cvcc a b c d ha hb hc => exact .inl ⟨[a, b], c :: d :: rest, a, [b], ⟨rfl, .inr ⟨cv ha hb, hc.1⟩⟩, rfl, ha, .inr hc.1⟩
  | @ccv a b c hi hc => exact .inr ⟨a, b, c :: rest, rfl, (initial_consonants hi).2⟩
  | @ccvc a b c d hi hc => exact .inr ⟨a, b, c :: d :: rest, rfl, (initial_consonants hi).2⟩
  | gismu hg =>
    cases hg with
    | @cvccv a b c d f ha hb hc hf => exact .inl ⟨[a, b], c :: d :: f :: rest, a, [b], ⟨rfl, .inr ⟨cv ha hb, hc.1⟩⟩, rfl, ha, .inr hc.1⟩
    | @ccvcv a b c d f hi hc hd hf => exact .inr ⟨a, b, c :: d :: f :: rest, rfl, (initial_consonants hi).2⟩

theorem pattern_two {x : Str} (h : pattern x = s%"CV") : ∃ a b, x = [a, b] ∧ Consonant a ∧ Vowel b := by
  simp only [pattern_eq_cons, pattern_nil, pat_c, pat_v] at h
  obtain ⟨a, _, rfl, ha, b, _, rfl, hb, rfl⟩ := h
  exact ⟨a, b, rfl, (isConsonant_iff a).1 ha, (isVowel_iff b).1 hb⟩

theorem front_unique {core x m x' m' : Str} (h : FrontOf core x m) (h' : FrontOf core x' m') : x = x' ∧ m = m' := by
  obtain ⟨rfl, h⟩ := h
  obtain ⟨e, h'⟩ := h'
  suffices x = x' by subst this; exact ⟨rfl, List.append_cancel_left e⟩
  rcases h with ⟨c, a, b, ha, hb, rfl | rfl⟩ | ⟨h, hm⟩ <;> rcases h' with ⟨c', a', b', ha', hb', rfl | rfl⟩ | ⟨h', hm'⟩
  · simp at e; simp [e]
  · simp at e; rw [e.2.2.1] at hb; exact absurd hb apos_not_vowel
  · obtain ⟨p, q, rfl, -, -⟩ := pattern_two h'
    simp at e
    rw [← e.2.2] at hm'
    exact absurd hm' (vowel_not_consonant hb)
  · simp at e; rw [← e.2.2.1] at hb'; exact absurd hb' apos_not_vowel
  · simp at e; simp [e]
  · obtain ⟨p, q, rfl, -, -⟩ := pattern_two h'
    simp at e
    rw [← e.2.2] at hm'
    exact absurd hm' apos_not_consonant
  · obtain ⟨p, q, rfl, -, -⟩ := pattern_two h
    simp at e
    rw [e.2.2] at hm
    exact absurd hm (vowel_not_consonant hb')
  · obtain ⟨p, q, rfl, -, -⟩ := pattern_two h
    simp at e
    rw [e.2.2] at hm
    exact absurd hm apos_not_consonant
  · obtain ⟨p, q, rfl, -, -⟩ := pattern_two h
    obtain ⟨p', q', rfl, -, -⟩ := pattern_two h'
    simp at e; simp [e]

/-- What `tosmabruTest` takes off. -/
def toPartOf (p : Str) : Except Err Str :=
  if rafsiTarmi (slice p 0 4) = .cvhv then Except.ok (slice p 0 4)
  else if rafsiTarmi (slice p 0 3) = .cvv then .ok (slice p 0 3)
  else do
    let a ← idx p 0
    if isConsonant a then
      let b ← idx p 1
      if isVowel b then .ok (slice p 0 2) else .ok []
    else .ok []

theorem toPart_front {core x m suf : Str} (h : FrontOf core x m) (hx : ∃ a t, x = a :: t ∧ Consonant a) : toPartOf (core ++ suf) = .ok x := by
  obtain ⟨rfl, h⟩ := h
  obtain ⟨a0, t0, hx, ha0⟩ := hx
  unfold toPartOf
  rcases h with ⟨c, a, b, ha, hb, rfl | rfl⟩ | ⟨h, hm⟩
  · cases hx
    rw [if_neg, if_pos]
    · rfl
    · rw [tarmi_cvv]
      exact ⟨_, _, _, rfl, (isConsonant_iff _).2 ha0, (isVowel_iff _).2 ha, (isVowel_iff _).2 hb⟩
    · rw [tarmi_cvhv]
      rintro ⟨p, q, r, e, -⟩
      simp [slice] at e
      rw [e.2.2.1] at hb
      exact apos_not_vowel hb
  · cases hx
    rw [if_pos]
    · rfl
    · rw [tarmi_cvhv]
      exact ⟨_, _, _, rfl, (isConsonant_iff _).2 ha0, (isVowel_iff _).2 ha, (isVowel_iff _).2 hb⟩
  · obtain ⟨p, q, rfl, hp, hq⟩ := pattern_two h
    cases m with
    | nil => cases hm
    | cons d m =>
      have hm : Consonant d := hm
      rw [if_neg, if_neg]
      · simp [idx, ok_bind, (isConsonant_iff _).2 hp, (isVowel_iff _).2 hq, slice]
      · rw [tarmi_cvv]
        rintro ⟨_, _, r, e, -, -, hr⟩
        simp [slice] at e
        rw [← e.2.2] at hr
        exact vowel_not_consonant ((isVowel_iff _).1 hr) hm
      · rw [tarmi_cvhv]
        rintro ⟨_, _, r, e, -⟩
        simp [slice] at e
        rw [e.2.2.1] at hm
        exact apos_not_consonant hm

theorem toPart_none {a b : Char} {t : Str} (hb : Consonant b) : toPartOf (a :: b :: t) = .ok [] := by
  have hv : isVowel b = false := by
    cases h : isVowel b with
    | false => rfl
    | true => exact absurd hb (vowel_not_consonant ((isVowel_iff b).1 h))
  unfold toPartOf
  rw [if_neg, if_neg]
  · rw [show idx (a :: b :: t) 0 = .ok a from rfl, show idx (a :: b :: t) 1 = .ok b from rfl, ok_bind, ok_bind, hv]
    cases isConsonant a <;> rfl
  · rw [tarmi_cvv]
    rintro ⟨_, _, r, e, -, h, -⟩
    simp [slice] at e
    rw [← e.2.1, hv] at h; cases h
  · rw [tarmi_cvhv]
    rintro ⟨_, _, r, e, -, h, -⟩
    simp [slice] at e
    rw [← e.2.1, hv] at h; cases h

theorem front_none {a b : Char} {t x m : Str} (hb : Consonant b) : ¬ FrontOf (a :: b :: t) x m := by
  rintro ⟨e, ⟨c, p, q, hp, hq, rfl | rfl⟩ | ⟨h, hm⟩⟩
  · simp at e; rw [e.2.1] at hb; exact vowel_not_consonant hp hb
  · simp at e; rw [e.2.1] at hb; exact vowel_not_consonant hp hb
  · obtain ⟨p, q, rfl, hp, hq⟩ := pattern_two h
    simp at e; rw [e.2.1] at hb; exact vowel_not_consonant hq hb

theorem stripHyphens_id {m : Str} (h : ConsonantInitial m) (hl : ∃ c, m.getLast? = some c ∧ Vowel c) : stripHyphens m = m := by
  obtain ⟨c, hc, hcv⟩ := hl
  obtain ⟨u, e, -⟩ := stripHyphens_vowel hc ((isVowel_iff c).2 hcv)
  cases m with
  | nil => cases hc
  | cons a t =>
    have ha : isHyphenLetter a = false := by
      have h : Consonant a := h
      cases hb : isHyphenLetter a with
      | false => rfl
      | true =>
        simp [isHyphenLetter] at hb
        rcases hb with rfl | rfl <;> revert h <;> decide
    have hcl : isHyphenLetter c = false := by
      cases hb : isHyphenLetter c with
      | false => rfl
      | true =>
        simp [isHyphenLetter] at hb
        rcases hb with rfl | rfl <;> revert hcv <;> decide
    obtain ⟨t', ht⟩ := List.getLast?_eq_some_iff.1 hc
    unfold stripHyphens stripBoth
    rw [List.dropWhile_cons_of_neg (by simp [ha]), ht, List.reverse_append]
    simp [hcl]

/-- The tosmabru test. -/
theorem tosmabru_iff {ctx : ACtx} {f : PartForm} {core : Str} {found : List Str} (hr : Reading ctx.s.yHyphens ctx.s.allowMz found)
    (hcore : found.flatten = core) (hy : 'y' ∉ core) (hlen : core.length < 10 ^ 94)
    (hp : f.part = core ++ (if f.didAddA then s%"a" else []))
    (hA : f.didAddA = true → ∃ l, core.getLast? = some l ∧ Consonant l)
    (hT : f.didAddA = false → (∃ l, core.getLast? = some l ∧ Vowel l) ∧ ctx.yParts[0]? = some (core ++ s%"'")) :
    tosmabruTest (program .linked) ctx f = .ok () ↔ ¬ FallsOff ctx.s core := by
  have hk : jvokaha2 ctx.s.yHyphens ctx.s.allowMz core = .ok found := by
    rw [← hcore]; exact C37_reading_found hr
  have hcne : core ≠ [] := hcore ▸ reading_ne hr
  have hfo : FallsOff ctx.s core ↔ ∃ x m, FrontOf core x m ∧
    ((Rafsi false m ∧ pattern m ≠ s%"CCV") ∨
      ∃ qs, qs.flatten = m ∧ (LujvoPieces { yHyphens := ctx.s.yHyphens, allowMz := ctx.s.allowMz } qs ∨
        CmevlaPieces { yHyphens := ctx.s.yHyphens, allowMz := ctx.s.allowMz } qs)) := by
    unfold FallsOff FrontOf
    simp only [and_assoc]
  have hdef : tosmabruTest (program .linked) ctx f = (do
      let toPart ← toPartOf f.part
      let smabru0 : Str := if toPart.isEmpty then [] else f.part.drop toPart.length
      if smabru0.isEmpty then .ok ()
      else
      let smabru := if f.didAddA then dropLastN smabru0 1 else stripHyphens smabru0
      let bad ← (if isValidRafsi false smabru then
          if rafsiTarmi smabru = .ccv then do
            let c ← idx ((ctx.yParts[0]?).getD []) (toPart.length + 3)
            Except.ok (c != '\'')
          else .ok true
        else Except.ok false)
      if bad then .error .notBrivla
      else
      if ← succeeds (jvokaha (program .linked) ctx.s.yHyphens .cluster false ctx.s.allowMz smabru) then .error .notBrivla
      else .ok ()) := rfl
  rw [hfo, hdef]
  rcases reading_front hr (by rw [hcore]; exact hy) with ⟨x, m, a, t, hF, hx, ha, hm⟩ | ⟨a, b, t, e, hb⟩
  · rw [hcore] at hF
    have hto : toPartOf f.part = .ok x := by rw [hp]; exact toPart_front hF ⟨a, t, hx, ha⟩
    have hex : (∃ x m, FrontOf core x m ∧
        ((Rafsi false m ∧ pattern m ≠ s%"CCV") ∨
          ∃ qs, qs.flatten = m ∧ (LujvoPieces { yHyphens := ctx.s.yHyphens, allowMz := ctx.s.allowMz } qs ∨
            CmevlaPieces { yHyphens := ctx.s.yHyphens, allowMz := ctx.s.allowMz } qs))) ↔
        ((Rafsi false m ∧ pattern m ≠ s%"CCV") ∨
          ∃ qs, qs.flatten = m ∧ (LujvoPieces { yHyphens := ctx.s.yHyphens, allowMz := ctx.s.allowMz } qs ∨
            CmevlaPieces { yHyphens := ctx.s.yHyphens, allowMz := ctx.s.allowMz } qs)) := by
      constructor
      · rintro ⟨x', m', hF', h⟩
        obtain ⟨rfl, rfl⟩ := front_unique hF hF'
        exact h
      · intro h; exact ⟨x, m, hF, h⟩
    rw [hex, hto, ok_bind]
    have hce : core = x ++ m := hF.1
    have hsm : (if x.isEmpty = true then [] else f.part.drop x.length) = m ++ (if f.didAddA then s%"a" else []) := by
      rw [if_neg (by rw [hx]; simp), hp, hce, List.append_assoc, List.drop_left]
    dsimp only
    rw [hsm]
    -- nothing left
    have hnil : m = [] → f.didAddA = false := by
      rintro rfl
      cases hd : f.didAddA with
      | false => rfl
      | true =>
        exfalso
        obtain ⟨l, hl, hlc⟩ := hA hd
        rw [hce, List.append_nil] at hl
        obtain ⟨-, ⟨c, p, q, hp, hq, rfl | rfl⟩ | ⟨h, hm⟩⟩ := hF
        · simp at hl; subst hl; exact vowel_not_consonant hq hlc
        · simp at hl; subst hl; exact vowel_not_consonant hq hlc
        · cases hm
    by_cases hmn : m = []
    · subst hmn
      rw [hnil rfl, if_pos (by rfl)]
      simp only [true_iff]
      rintro (⟨h, -⟩ | ⟨qs, e, h | h⟩)
      · exact rafsi_ne h rfl
      · exact reading_ne h.reading e
      · exact reading_ne h.reading e
    · have hmc := hm.resolve_left hmn
      rw [if_neg (by simp [hmn])]
      have hlast : ∀ {z}, core.getLast? = some z → m.getLast? = some z := fun h => last_of_append hce hmn h
      have hs : (if f.didAddA = true then dropLastN (m ++ (if f.didAddA = true then s%"a" else [])) 1
          else stripHyphens (m ++ (if f.didAddA = true then s%"a" else []))) = m := by
        cases hd : f.didAddA with
        | true => simp [dropLastN]
        | false =>
          obtain ⟨⟨l, hl, hlv⟩, -⟩ := hT hd
          simp
          exact stripHyphens_id hmc ⟨l, hlast hl, hlv⟩
      rw [hs]
      have hbad : (if isValidRafsi false m then
          if rafsiTarmi m = .ccv then do
            let c ← idx ((ctx.yParts[0]?).getD []) (x.length + 3)
            Except.ok (c != '\'')
          else .ok true
        else Except.ok false) = (.ok (decide (isValidRafsi false m = true ∧ rafsiTarmi m ≠ .ccv)) : Except Err Bool) := by
        by_cases hv : isValidRafsi false m = true
        · rw [if_pos hv]
          by_cases hccv : rafsiTarmi m = .ccv
          · rw [if_pos hccv]
            obtain ⟨p, q, r, e3, hp3, hq3, hr3⟩ := tarmi_ccv.1 hccv
            have hd : f.didAddA = false := by
              cases hd : f.didAddA with
              | false => rfl
              | true =>
                obtain ⟨l, hl, hlc⟩ := hA hd
                have := hlast hl
                rw [e3] at this
                cases this
                exact absurd hlc (vowel_not_consonant ((isVowel_iff _).1 hr3))
            rw [(hT hd).2]
            have : idx ((some (core ++ s%"'")).getD []) (x.length + 3) = .ok '\'' := by
              rw [hce, e3]
              simp [idx]
            rw [this, ok_bind]
            simp [hccv]
          · rw [if_neg hccv]; simp [hv, hccv]
        · rw [if_neg hv]; simp [hv]
      rw [hbad, ok_bind]
      have hbi : (isValidRafsi false m = true ∧ rafsiTarmi m ≠ .ccv) ↔ (Rafsi false m ∧ pattern m ≠ s%"CCV") := by
        rw [isValidRafsi_iff, ne_eq, ne_eq, pattern_ccv]
      obtain ⟨hj, hch⟩ := jvokaha2_ok hk
      obtain ⟨u, q, hu, hq⟩ := chop_last hch (by rw [hj]; exact hy) (by rintro rfl; exact reading_ne hr rfl)
      have hpc : core = join u ++ q := by rw [← hj, hu]; simp [join]
      obtain ⟨⟨z, hz, hzv⟩, hlone⟩ := cuts_end hq
      have hzl : core.getLast? = some z := by
        rw [hpc, List.getLast?_append, hz]; rfl
      have hml : m.getLast? = some z := hlast hzl
      have hE : Errs caughtErrs (jvokaha (program .linked) ctx.s.yHyphens .cluster false ctx.s.allowMz m) := by
        refine jvokaha_clean (fun _ => slice_no_y (fun h => hy (by rw [hce]; simp [h]))) ⟨z, hml, hzv⟩ fun _ h => ?_
        apply hlone (join u)
        rw [← hpc, hce]
        exact h.prefix
      have hml96 : m.length < 10 ^ 96 := by
        have : (10 : Nat) ^ 96 = 100 * 10 ^ 94 := by rw [Nat.pow_succ, Nat.pow_succ]
        rw [hce, List.length_append] at hlen
        omega
      have hkey : (∃ ps, jvokaha (program .linked) ctx.s.yHyphens .cluster false ctx.s.allowMz m = .ok ps) ↔
          ∃ qs, qs.flatten = m ∧ (LujvoPieces { yHyphens := ctx.s.yHyphens, allowMz := ctx.s.allowMz } qs ∨
            CmevlaPieces { yHyphens := ctx.s.yHyphens, allowMz := ctx.s.allowMz } qs) := by
        rcases hzv with hzv | hzv
        · have := jvokaha_lujvo (s := { yHyphens := ctx.s.yHyphens, allowMz := ctx.s.allowMz }) ⟨z, hml, hzv⟩ hml96
          dsimp only at this
          rw [this]
          constructor
          · rintro ⟨ps, h, e⟩; exact ⟨ps, e, .inl h⟩
          · rintro ⟨ps, e, h | h⟩
            · exact ⟨ps, h, e⟩
            · obtain ⟨c, hc, hcc⟩ := h.consonant
              rw [e, hml] at hc
              cases hc
              exact absurd hcc (vowel_not_consonant hzv)
        · have := jvokaha_cmevla (s := { yHyphens := ctx.s.yHyphens, allowMz := ctx.s.allowMz }) ⟨z, hml, hzv⟩ hml96
          dsimp only at this
          rw [this]
          constructor
          · rintro ⟨ps, h, e⟩; exact ⟨ps, e, .inr h⟩
          · rintro ⟨ps, e, h | h⟩
            · obtain ⟨c, hc, hcc⟩ := h.vowel
              rw [e, hml] at hc
              cases hc
              exact absurd hzv (vowel_not_consonant hcc)
            · exact ⟨ps, h, e⟩
      rw [← hkey, ← hbi]
      by_cases hb : isValidRafsi false m = true ∧ rafsiTarmi m ≠ .ccv
      · simp [hb]
      · simp only [hb, decide_false, Bool.false_eq_true, if_false, false_or]
        cases hkk : jvokaha (program .linked) ctx.s.yHyphens .cluster false ctx.s.allowMz m with
        | ok ps => simp [succeeds, ok_bind]
        | error e =>
          have := hE e hkk
          have hs : succeeds (.error e : Except Err (List Str)) = .ok false := by
            simp [caughtErrs] at this
            rcases this with rfl | rfl <;> rfl
          simp [hs, ok_bind]
  · rw [hcore] at e
    have hto : toPartOf f.part = .ok [] := by rw [hp, e]; exact toPart_none hb
    rw [hto, ok_bind]
    simp only [List.isEmpty_nil, if_true, true_iff]
    rintro ⟨x, m, hF, -⟩
    rw [e] at hF
    exact front_none hb hF

end Jvotci
