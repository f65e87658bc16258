import Verif.Lemmas.Front

/-!
# C68: the shapes of rafsi; C69: is_gismu_or_lujvo and is_slinkuhi
-/

namespace Jvotci

open Spec

/-- **C68.** `rafsi_tarmi` of any string: the number of its shape (CVCCV 1, ..., CVV 8), 0 for a single letter that is not a vowel
and for 'y, 9 for everything else. -/
theorem C68_shape (x : Str) :
    ((x = s%"'y" ∨ ∃ c, x = [c] ∧ ¬ Vowel c) → (rafsiTarmi x).score = 0) ∧
    (shapeScore x ≠ 0 → (rafsiTarmi x).score = shapeScore x) ∧
    (¬ (x = s%"'y" ∨ ∃ c, x = [c] ∧ ¬ Vowel c) → shapeScore x = 0 → (rafsiTarmi x).score = 9) := by
  refine ⟨?_, ?_, ?_⟩
  · rintro (rfl | ⟨c, rfl, hc⟩)
    · rfl
    · have : isVowel c = false := by
        cases h : isVowel c with
        | false => rfl
        | true => exact absurd ((isVowel_iff c).1 h) hc
      simp [rafsiTarmi, this, Tarmi.score]
  · intro h
    rw [shapeScore_tarmi] at h ⊢
    split
    · rename_i ho
      rw [if_pos ho] at h
      exact absurd rfl h
    · rfl
  · intro hn h0
    rcases shapeScore_other.1 h0 with h | h
    · rw [h]; rfl
    · exfalso
      apply hn
      match x, h with
      | [a], h =>
        refine .inr ⟨a, rfl, fun hv => ?_⟩
        simp [rafsiTarmi, (isVowel_iff a).2 hv] at h
      | [a, b], h =>
        simp only [rafsiTarmi] at h
        split at h
        · rename_i e
          obtain ⟨rfl, rfl⟩ := e
          exact .inl rfl
        · cases h
      | [a, b, c], h =>
        simp only [rafsiTarmi] at h
        repeat' split at h
        all_goals cases h
      | [a, b, c, d], h =>
        simp only [rafsiTarmi] at h
        repeat' split at h
        all_goals cases h
      | [a, b, c, d, e], h =>
        simp only [rafsiTarmi] at h
        repeat' split at h
        all_goals cases h
      | a :: b :: c :: d :: e :: f :: t, h => cases h

example : shapeScore s%"fa'u" = 6 ∧ (rafsiTarmi s%"fa'u").score = 6 ∧ (rafsiTarmi s%"y").score = 0 ∧ (rafsiTarmi s%"b").score = 0 ∧
    (rafsiTarmi s%"a").score = 9 ∧ (rafsiTarmi s%"spaget").score = 9 := by decide

/-- **C68.** `is_valid_rafsi` of any string: is it a CLL rafsi? -/
theorem C68_valid {mz : Bool} {x : Str} : isValidRafsi mz x = true ↔ Rafsi mz x := isValidRafsi_iff

example : isValidRafsi true s%"jimz" = true ∧ isValidRafsi false s%"jimz" = false ∧ isValidRafsi true s%"mzi" = false := by decide

/-- **C68.** The tests of letters: `is_vowel`, `is_consonant`; `is_only_lojban_characters`: vowels, consonants and apostrophes only, and
at least one; `contains_consonant`; `is_glide`: does the string begin with i or u and another vowel? -/
theorem C68_letters :
    (∀ c, (isVowel c = true ↔ Vowel c) ∧ (isConsonant c = true ↔ Consonant c)) ∧
    (∀ x, isOnlyLojban x = true ↔ x ≠ [] ∧ ∀ c ∈ x, Vowel c ∨ Consonant c ∨ c = '\'') ∧
    (∀ x, containsConsonant x = true ↔ ∃ c ∈ x, Consonant c) ∧
    (∀ x, isGlide x = true ↔ ∃ a b t, x = a :: b :: t ∧ (a = 'i' ∨ a = 'u') ∧ Vowel b) := by
  refine ⟨fun c => ⟨isVowel_iff c, isConsonant_iff c⟩, fun x => ⟨fun h => ⟨?_, isOnlyLojban_letters h⟩, fun ⟨h1, h2⟩ => ?_⟩, fun x => ?_, fun x => ?_⟩
  · rintro rfl; cases h
  · unfold isOnlyLojban
    rw [Bool.and_eq_true, List.all_eq_true]
    refine ⟨by cases x <;> simp_all, fun c hc => ?_⟩
    have := h2 c hc
    simp only [List.contains_eq_mem, List.mem_cons, List.not_mem_nil, or_false, decide_eq_true_eq]
    simp only [Vowel, Consonant, List.mem_cons, List.not_mem_nil, or_false] at this
    grind
  · unfold containsConsonant
    simp only [List.any_eq_true, isConsonant_iff]
  · match x with
    | [] => simp [isGlide]
    | [_] => simp [isGlide]
    | a :: b :: t =>
      simp only [isGlide, Bool.and_eq_true, isVowel_iff, List.contains_eq_mem, List.mem_cons, List.not_mem_nil, or_false, decide_eq_true_eq]
      constructor
      · intro h; exact ⟨a, b, t, rfl, h⟩
      · rintro ⟨_, _, _, e, h⟩; cases e; exact h

example : isOnlyLojban s%"mla'u" = true ∧ isOnlyLojban s%"mlaty" = false ∧ isGlide s%"iie" = true ∧ isGlide s%"ai" = false ∧
    containsConsonant s%"a'a" = false := by decide

/-- **C68.** `is_gismu_shape` of any string: is it CVCCV or CCVCV? -/
theorem C68_gismu_shape {x : Str} : isGismuShape x = true ↔ pattern x ∈ [s%"CVCCV", s%"CCVCV"] := by
  simp only [List.mem_cons, List.not_mem_nil, or_false, pattern_cvccv, pattern_ccvcv, tarmi_cvccv, tarmi_ccvcv]
  constructor
  · intro h
    match x, h with
    | [a, b, c, d, e], h =>
      simp only [isGismuShape] at h
      grind
  · rintro (⟨a, b, c, d, e, rfl, h⟩ | ⟨a, b, c, d, e, rfl, h⟩) <;> simp only [isGismuShape] <;> grind

example : isGismuShape s%"mzatu" = true ∧ isGismuShape s%"matu" = false ∧ isGismuShape s%"maatu" = false := by decide

theorem dropWhile_front {p : Char → Bool} {u m : Str} (hu : ∀ c ∈ u, p c = true) (hm : ∀ c, m.head? = some c → p c = false) :
    (u ++ m).dropWhile p = m := by
  induction u with
  | nil =>
    cases m with
    | nil => rfl
    | cons c m => exact List.dropWhile_cons_of_neg (by simp [hm c rfl])
  | cons c u ih =>
    rw [List.cons_append, List.dropWhile_cons_of_pos (hu c (by simp))]
    exact ih fun d hd => hu d (List.mem_cons_of_mem _ hd)

/-- **C68.** `strip_hyphens` takes away the apostrophes and y's at both ends, all of them and nothing else;
`tarmi_ignoring_hyphen` is the shape of the rest. -/
theorem C68_strip {u m v : Str} (hu : ∀ c ∈ u, c = '\'' ∨ c = 'y') (hv : ∀ c ∈ v, c = '\'' ∨ c = 'y')
    (hm : ∀ c, m.head? = some c ∨ m.getLast? = some c → c ≠ '\'' ∧ c ≠ 'y') (hne : m = [] → v = []) :
    stripHyphens (u ++ m ++ v) = m ∧ tarmiIgnoringHyphen (u ++ m ++ v) = rafsiTarmi m := by
  have h1 : ∀ c, c = '\'' ∨ c = 'y' → isHyphenLetter c = true := by rintro c (rfl | rfl) <;> rfl
  have h2 : ∀ c, c ≠ '\'' ∧ c ≠ 'y' → isHyphenLetter c = false := by rintro c ⟨ha, hb⟩; simp [isHyphenLetter, ha, hb]
  have key : stripHyphens (u ++ m ++ v) = m := by
    unfold stripHyphens stripBoth
    rw [List.append_assoc, dropWhile_front (fun c hc => h1 c (hu c hc)), List.reverse_append,
      dropWhile_front (fun c hc => h1 c (hv c (List.mem_reverse.1 hc))), List.reverse_reverse]
    · intro c hc
      exact h2 c (hm c (.inr (by rwa [List.head?_reverse] at hc)))
    · intro c hc
      cases m with
      | nil => rw [hne rfl] at hc; cases hc
      | cons d m => exact h2 c (hm c (.inl (by simpa using hc)))
  exact ⟨key, by unfold tarmiIgnoringHyphen; rw [key]⟩

example : stripHyphens s%"'y'mlat'y" = s%"mlat" ∧ tarmiIgnoringHyphen s%"'y'mlat'y" = .ccvc := by decide

theorem succeeds_true {α : Type} {x : Except Err α} : succeeds x = .ok true ↔ ∃ a, x = .ok a := by
  cases x with
  | ok a => simp [succeeds]
  | error e => cases e <;> simp [succeeds]

/-- **C69.** `is_gismu_or_lujvo` of any string: is it a gismu, or the pieces of a lujvo (C41) written one after another? -/
theorem C69_gismu_or_lujvo {y : YHyphens} {mz : Bool} {w : Str} (hlen : w.length < 10 ^ 96) :
    isGismuOrLujvo (program .linked) y mz w = .ok true ↔
      Gismu mz w ∨ ∃ ps, LujvoPieces { yHyphens := y, allowMz := mz } ps ∧ ps.flatten = w := by
  unfold isGismuOrLujvo
  by_cases h5 : w.length < 5
  · rw [if_pos h5]
    refine iff_of_false (by simp) ?_
    rintro (hg | ⟨ps, hp, rfl⟩)
    · have : w.length = 5 := by cases hg <;> rfl
      omega
    · have := pieces_long hp.reading hp.two
      omega
  · rw [if_neg h5]
    rcases List.eq_nil_or_concat w with rfl | ⟨t, l, hw⟩
    · simp at h5
    rw [List.concat_eq_append] at hw
    subst hw
    have hi : idxLast (t ++ [l]) = .ok l := by simp [idxLast]
    rw [hi, ok_bind]
    by_cases hv : isVowel l = true
    · have hvl : ∃ c, (t ++ [l]).getLast? = some c ∧ Vowel c := ⟨l, by simp, (isVowel_iff l).1 hv⟩
      have key := jvokaha_lujvo (s := { yHyphens := y, allowMz := mz }) hvl hlen
      rw [if_neg (by simp [hv])]
      by_cases hg : isGismu mz (t ++ [l]) = true
      · rw [if_pos hg]
        exact iff_of_true rfl (.inl (isGismu_iff.1 hg))
      · rw [if_neg hg, succeeds_true]
        rw [key]
        have : ¬ Gismu mz (t ++ [l]) := fun h => hg (isGismu_iff.2 h)
        simp [this]
    · rw [if_pos (by simp [hv])]
      refine iff_of_false (by simp) ?_
      rintro (hg | ⟨ps, hp, e⟩)
      · have : Vowel l := by
          generalize hw : t ++ [l] = w at hg
          have hl : w.getLast? = some l := by rw [← hw]; simp
          cases hg with
          | cvccv _ _ _ he => cases hl; exact he
          | ccvcv _ _ _ he => cases hl; exact he
        exact hv ((isVowel_iff l).2 this)
      · obtain ⟨c, hc, hcv⟩ := hp.vowel
        rw [e] at hc
        simp at hc
        subst hc
        exact hv ((isVowel_iff l).2 hcv)

/-- **C69.** So it is true of a word (in its normal spelling) exactly if `analyse_brivla` calls the word a gismu or lujvo. -/
theorem C69_agrees {s : Settings} {w : Str} (hne : w ≠ []) (hc : s.consonants = .cluster) (hlen : w.length < 10 ^ 95)
    (hlen' : (reading w).length < 10 ^ 96) :
    isGismuOrLujvo (program .linked) s.yHyphens s.allowMz (reading w) = .ok true ↔
      ∃ t ps, analyseBrivla .linked s w = .ok (t, ps) ∧ (t = .gismu ∨ t = .lujvo) := by
  rw [C69_gismu_or_lujvo hlen']
  constructor
  · rintro (hg | ⟨ps, hp, e⟩)
    · exact ⟨_, _, C03_gismu_iff.2 ⟨hne, hg, rfl⟩, .inl rfl⟩
    · exact ⟨_, ps, (C41_lujvo hlen).2 ⟨e, lujvoPieces_settings (s := { yHyphens := s.yHyphens, allowMz := s.allowMz }) rfl rfl hc.symm hp⟩, .inr rfl⟩
  · rintro ⟨t, ps, h, rfl | rfl⟩
    · exact .inl (C03_gismu_iff.1 h).2.1
    · obtain ⟨e, hp⟩ := (C41_lujvo hlen).1 h
      exact .inr ⟨ps, lujvoPieces_settings (s := s) rfl rfl hc hp, e⟩

example : isGismuOrLujvo (program .linked) .standard false s%"mlatu" = .ok true ∧
    isGismuOrLujvo (program .linked) .standard false s%"bajrybarda" = .ok true ∧
    isGismuOrLujvo (program .linked) .standard false s%"bajybarda" = .ok false ∧
    isGismuOrLujvo (program .linked) .standard false s%"spageti" = .ok false := by decide +kernel

theorem cut_ccvhy {y : YHyphens} {mz : Bool} {a b c : Char} {t : Str} (h1 : Consonant a) (h2 : Consonant b) (hc : Vowel c) :
    jvokaha2 y mz (a :: b :: c :: '\'' :: 'y' :: t) = .error (if InitialPair a b then .notBrivla else .invalidCluster) := by
  have h1' := (isConsonant_iff a).2 h1
  have h2' := (isConsonant_iff b).2 h2
  have h3' := (isVowel_iff c).2 hc
  have h2v : isVowel b = false := by
    cases h : isVowel b with
    | false => rfl
    | true => exact (vowel_not_consonant ((isVowel_iff b).1 h) h2).elim
  have h4 : rafsiTarmi [a, b, c] = .ccv := by simp [rafsiTarmi, h1', h2', h3', h2v]
  have h5 : rafsiTarmi [a, b, c, '\''] = .other := by simp [rafsiTarmi, h1', h2v, h2', h3', apos_isConsonant]
  have h6 : rafsiTarmi (a :: b :: c :: '\'' :: 'y' :: t) = .other := by
    cases t with
    | nil => simp [rafsiTarmi, isGismuShape, h1', apos_isConsonant]
    | cons d t => rfl
  have ht : takeRafsi mz (a :: b :: c :: '\'' :: 'y' :: t) (a :: b :: c :: '\'' :: 'y' :: t) =
      .error (if InitialPair a b then .notBrivla else .invalidCluster) := by
    unfold takeRafsi
    by_cases hi : InitialPair a b
    · have := initial_contains.2 hi
      simp at this
      simp [slice, h4, h5, h6, hi, this]
    · have : ¬ INITIAL.contains [a, b] = true := fun h => hi (initial_contains.1 h)
      simp at this
      simp [slice, h4, h5, h6, hi, this]
  unfold jvokaha2
  unfold jvokaha2Loop
  rw [if_neg (by simp)]
  simp only [takeHyphen, ok_bind]
  rw [ht, error_bind]

/-- **C69.** `is_gismu_or_lujvo` raises an exception for the strings that begin CCV'y (with a pair that can begin a word) and end in a
vowel: NotBrivlaError; for no others. -/
theorem C69_exceptions {y : YHyphens} {mz : Bool} {w : Str} {e : Err} :
    isGismuOrLujvo (program .linked) y mz w = .error e ↔
      e = .notBrivla ∧ (∃ l, w.getLast? = some l ∧ Vowel l) ∧ ∃ a b c t, InitialPair a b ∧ Vowel c ∧ w = a :: b :: c :: '\'' :: 'y' :: t := by
  unfold isGismuOrLujvo
  by_cases h5 : w.length < 5
  · rw [if_pos h5]
    refine iff_of_false (by simp) ?_
    rintro ⟨-, -, a, b, c, t, -, -, rfl⟩
    simp at h5
    omega
  rw [if_neg h5]
  rcases List.eq_nil_or_concat w with rfl | ⟨t, l, hw⟩
  · simp at h5
  have hi : idxLast w = .ok l := by rw [hw]; simp [idxLast]
  have hl : w.getLast? = some l := by rw [hw]; simp
  rw [hi, ok_bind]
  by_cases hv : isVowel l = true
  · have hvl : Vowel l := (isVowel_iff l).1 hv
    rw [if_neg (by simp [hv])]
    by_cases hg : isGismu mz w = true
    · rw [if_pos hg]
      refine iff_of_false (by simp) ?_
      rintro ⟨-, -, a, b, c, t, -, -, rfl⟩
      have := isGismu_iff.1 hg
      cases this with
      | cvccv _ _ hp => exact absurd hp.2.1 (by decide)
      | ccvcv _ _ hp => exact absurd hp (by decide)
    · rw [if_neg hg]
      by_cases hb : ∃ a b c t, InitialPair a b ∧ Vowel c ∧ w = a :: b :: c :: '\'' :: 'y' :: t
      · obtain ⟨a, b, c, t', h1, h2, rfl⟩ := hb
        have : jvokaha (program .linked) y .cluster false mz (a :: b :: c :: '\'' :: 'y' :: t') = .error .notBrivla := by
          unfold jvokaha
          rw [cut_ccvhy (initial_consonants h1).1 (initial_consonants h1).2 h2, if_pos h1, error_bind]
        rw [this]
        constructor
        · intro h
          cases h
          exact ⟨rfl, ⟨l, hl, hvl⟩, a, b, c, t', h1, h2, rfl⟩
        · rintro ⟨rfl, -⟩
          rfl
      · refine iff_of_false ?_ (fun h => hb h.2.2)
        have hE : Errs caughtErrs (jvokaha (program .linked) y .cluster false mz w) := by
          by_cases hs : rafsiTarmi (slice w 0 3) = .ccv ∧ slice w 3 5 = s%"'y"
          · obtain ⟨h1, h2⟩ := hs
            have hbad : jvokaha2 y mz w = .error .invalidCluster := by
              obtain ⟨a, b, c, e1, ha, hb', hc⟩ := tarmi_ccv.1 h1
              have hw' : w = slice w 0 3 ++ slice w 3 5 ++ w.drop 5 := by
                match w, h5 with
                | _ :: _ :: _ :: _ :: _ :: _, _ => simp [slice]
                | [], h5 | [_], h5 | [_, _], h5 | [_, _, _], h5 | [_, _, _, _], h5 => simp at h5
              rw [e1, h2] at hw'
              have hni : ¬ InitialPair a b := fun hi => hb ⟨a, b, c, w.drop 5, hi, (isVowel_iff c).1 hc, hw'⟩
              rw [hw']
              have := cut_ccvhy (y := y) (mz := mz) (t := w.drop 5) ((isConsonant_iff a).1 ha) ((isConsonant_iff b).1 hb') ((isVowel_iff c).1 hc)
              rw [if_neg hni] at this
              exact this
            unfold jvokaha
            rw [hbad, error_bind]
            exact .err (by decide)
          · refine jvokaha_clean (fun h1 h2 => hs ⟨h1, h2⟩) ⟨l, hl, .inl hvl⟩ fun _ hr => ?_
            rw [loneR_last hr] at hl
            cases hl
            exact absurd hvl (by decide)
        cases hk : jvokaha (program .linked) y .cluster false mz w with
        | ok => simp [succeeds]
        | error e' =>
          have := hE e' hk
          simp [caughtErrs] at this
          rcases this with rfl | rfl <;> simp [succeeds]
  · rw [if_pos (by simp [hv])]
    refine iff_of_false (by simp) ?_
    rintro ⟨-, ⟨l', hl', hv'⟩, -⟩
    rw [hl] at hl'
    cases hl'
    exact hv ((isVowel_iff l).2 hv')

example : isGismuOrLujvo (program .linked) .standard false s%"spa'ykerlo" = .error .notBrivla := by decide +kernel

/-- **C69.** `is_slinkuhi` of any string: does it begin with something other than a vowel, and is "to" with the string a lujvo (C41), or a
cmevla made of rafsi (C42)? -/
theorem C69_slinkuhi {y : YHyphens} {mz : Bool} {w : Str} (hlen : w.length < 10 ^ 95) :
    isSlinkuhi (program .linked) y mz w = .ok true ↔
      (∀ c, w.head? = some c → ¬ Vowel c) ∧ ∃ ps,
        (LujvoPieces { yHyphens := y, allowMz := mz } ps ∨ CmevlaPieces { yHyphens := y, allowMz := mz } ps) ∧ ps.flatten = s%"to" ++ w := by
  have hlen' : (s%"to" ++ w).length < 10 ^ 96 := by
    rw [List.length_append, show (s%"to").length = 2 from rfl]
    have : (10:Nat) ^ 96 = 10 * 10 ^ 95 := by rw [Nat.pow_succ, Nat.mul_comm]
    omega
  unfold isSlinkuhi
  cases w with
  | nil =>
    refine iff_of_false (by simp [idx, error_bind]) ?_
    rintro ⟨-, ps, h, e⟩
    have : 6 ≤ ps.flatten.length := by
      rcases h with h | h
      · exact pieces_long h.reading h.two
      · exact pieces_long h.reading h.two
    rw [e] at this
    simp at this
  | cons c w =>
    rw [show idx (c :: w) 0 = .ok c from rfl, ok_bind]
    by_cases hv : isVowel c = true
    · rw [if_pos hv]
      exact iff_of_false (by simp) fun h => h.1 c rfl ((isVowel_iff c).1 hv)
    · rw [if_neg hv, succeeds_true]
      have hnv : ∀ d, (c :: w).head? = some d → ¬ Vowel d := by
        intro d hd h
        cases hd
        exact hv ((isVowel_iff c).2 h)
      rw [and_iff_right hnv]
      constructor
      · rintro ⟨arr, hk⟩
        obtain ⟨_, l, m, -, rfl, hj, hM, -, hE, -⟩ := jvokaha_canon hk
        obtain ⟨u, x, hl⟩ := canon_end hM.canon
        have hx : Rafsi mz x := hM.rafsi (x, []) (by rw [hl]; simp)
        obtain ⟨t, d, rfl, hd⟩ := rafsi_last hx
        have hlast : (s%"to" ++ c :: w).getLast? = some d := by
          have := ext_last hE ⟨u, _, hl⟩
          rw [flat_last hl] at this
          obtain ⟨v, hv⟩ := List.getLast?_eq_some_iff.1 this
          rw [← hj, hv]
          simp
        rcases hd with hd | hd
        · obtain ⟨ps, h1, h2⟩ := (jvokaha_lujvo (s := { yHyphens := y, allowMz := mz }) ⟨d, hlast, hd⟩ hlen').1 ⟨_, hk⟩
          exact ⟨ps, .inl h1, h2⟩
        · obtain ⟨ps, h1, h2⟩ := (jvokaha_cmevla (s := { yHyphens := y, allowMz := mz }) ⟨d, hlast, hd⟩ hlen').1 ⟨_, hk⟩
          exact ⟨ps, .inr h1, h2⟩
      · rintro ⟨ps, h1 | h1, h2⟩
        · obtain ⟨d, hd, hdv⟩ := h1.vowel
          exact (jvokaha_lujvo (s := { yHyphens := y, allowMz := mz }) ⟨d, by rw [← h2]; exact hd, hdv⟩ hlen').2 ⟨ps, h1, h2⟩
        · obtain ⟨d, hd, hdv⟩ := h1.consonant
          exact (jvokaha_cmevla (s := { yHyphens := y, allowMz := mz }) ⟨d, by rw [← h2]; exact hd, hdv⟩ hlen').2 ⟨ps, h1, h2⟩

/-- **C69.** It returns an answer for every string that ends in a vowel. -/
theorem C69_slinkuhi_answers {y : YHyphens} {mz : Bool} {w : Str} (h : ∃ c, w.getLast? = some c ∧ Vowel c) :
    ∃ t, isSlinkuhi (program .linked) y mz w = .ok t := by
  obtain ⟨c, hc, hv⟩ := h
  rw [← slinkuhi_program]
  refine slinkuhi_clean ⟨c, hc, .inl hv⟩ fun _ hr => ?_
  rw [loneR_last hr] at hc
  cases hc
  exact absurd hv (by decide)

example : isSlinkuhi (program .linked) .standard false s%"slinku'i" = .ok true ∧
    isSlinkuhi (program .linked) .standard false s%"spageti" = .ok false ∧
    isSlinkuhi (program .linked) .standard false s%"slinkur" = .ok true := by decide +kernel

/-- **C69.** The consonant and the vowel of "to" do not matter: before a word that begins with a consonant, any other cmavo of that form
makes a lujvo of it, too. -/
theorem C69_any_cmavo {s : Settings} {a v a' v' c : Char} {w : Str} (hc : Consonant c) (h1 : Consonant a) (h2 : Vowel v)
    (h1' : Consonant a') (h2' : Vowel v') :
    (∃ ps, LujvoPieces s ps ∧ ps.flatten = [a, v] ++ c :: w) ↔ ∃ ps, LujvoPieces s ps ∧ ps.flatten = [a', v'] ++ c :: w := by
  constructor
  · rintro ⟨ps, h, e⟩
    obtain ⟨x, r, rfl, hx, h'⟩ := fronts_lujvo h e hc h1 h2 h1' h2'
    refine ⟨_, h', ?_⟩
    simp at e ⊢
    exact e
  · rintro ⟨ps, h, e⟩
    obtain ⟨x, r, rfl, hx, h'⟩ := fronts_lujvo h e hc h1' h2' h1 h2
    refine ⟨_, h', ?_⟩
    simp at e ⊢
    exact e

example : isGismuOrLujvo (program .linked) .standard false s%"toslinku'i" = .ok true ∧
    isGismuOrLujvo (program .linked) .standard false s%"baslinku'i" = .ok true := by decide +kernel

end Jvotci
