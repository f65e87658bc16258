import Verif.Lemmas.ExtLoop

/-!
# Helper lemmas: which words are extended lujvo
-/

namespace Jvotci

open Spec

theorem gismu_no_y {mz : Bool} {x : Str} (h : Gismu mz x) : 'y' ∉ x := by
  have hc : ∀ {c}, Consonant c → 'y' ≠ c := fun h e => (consonant_ne_y h).1 e.symm
  have hv : ∀ {c}, Vowel c → 'y' ≠ c := fun h e => (vowel_ne_y' h).1 e.symm
  cases h with
  | cvccv h1 h2 h3 h4 => simp [hc h1, hv h2, hc h3.1, hc h3.2.1, hv h4]
  | ccvcv h1 h2 h3 h4 => simp [hc (initial_consonants h1).1, hc (initial_consonants h1).2, hv h2, hc h3, hv h4]

theorem splitOn_joinSep {c : Char} : ∀ {ps : List Str}, ps ≠ [] → (∀ p ∈ ps, c ∉ p) → splitOn c (joinSep c ps) = ps := by
  have front : ∀ {p t : Str} {q : Str} {qs : List Str}, c ∉ p → splitOn c t = q :: qs → splitOn c (p ++ t) = (p ++ q) :: qs := by
    intro p
    induction p with
    | nil => intro t q qs _ h; exact h
    | cons a p ih =>
      intro t q qs hp h
      simp at hp
      rw [List.cons_append]
      unfold splitOn
      rw [if_neg (Ne.symm hp.1), ih hp.2 h]
      rfl
  intro ps
  induction ps with
  | nil => intro h; exact absurd rfl h
  | cons p ps ih =>
    intro _ h
    cases ps with
    | nil =>
      simp [joinSep]
      exact splitOn_of_not_mem (h p (by simp))
    | cons q ps =>
      have h1 := ih (by simp) (fun x hx => h x (List.mem_cons_of_mem _ hx))
      have : joinSep c (p :: q :: ps) = p ++ c :: joinSep c (q :: ps) := by simp [joinSep]
      rw [this]
      have h2 : splitOn c (c :: joinSep c (q :: ps)) = [] :: q :: ps := by
        conv => lhs; unfold splitOn
        rw [if_pos rfl, h1]
      have := front (h p (by simp)) h2
      simpa using this

theorem slinkuhi_word_iff {y : YHyphens} {mz : Bool} {v : Str} (hne : ∃ c, v.getLast? = some c ∧ Vowel c)
    (h0 : ∃ c, v.head? = some c ∧ (Vowel c ∨ Consonant c)) (hlen : v.length < 10 ^ 95) :
    isSlinkuhi (program .linked) y mz v = .ok false ↔ NotSlinkuhi y mz v := by
  obtain ⟨c, hc, hcc⟩ := h0
  cases v with
  | nil => cases hc
  | cons c v =>
    cases hc
    unfold isSlinkuhi NotSlinkuhi
    rw [show idx (c :: v) 0 = .ok c from rfl, ok_bind]
    by_cases hv : isVowel c = true
    · rw [if_pos hv]
      have : ¬ ConsonantInitial (c :: v) := vowel_not_consonant ((isVowel_iff c).1 hv)
      simp [this]
    · rw [if_neg hv]
      have hcons : Consonant c := hcc.resolve_left fun h => hv ((isVowel_iff c).2 h)
      have hl : ∃ d, (s%"to" ++ c :: v).getLast? = some d ∧ Vowel d := by
        obtain ⟨d, hd, hd2⟩ := hne
        exact ⟨d, by rw [List.getLast?_append, hd]; rfl, hd2⟩
      have hlen' : (s%"to" ++ c :: v).length < 10 ^ 96 := by
        rw [List.length_append]
        rw [show (s%"to").length = 2 from rfl]
        have : (10:Nat) ^ 96 = 10 * 10 ^ 95 := by rw [Nat.pow_succ, Nat.mul_comm]
        omega
      have key := jvokaha_lujvo (s := { yHyphens := y, allowMz := mz }) hl hlen'
      obtain ⟨d, hd, hdv⟩ := hl
      have hE := jvokaha_clean (y := y) (co := .cluster) (gl := false) (mz := mz) (w := s%"to" ++ c :: v) (by
        intro h
        obtain ⟨_, _, _, e, _, h2, _⟩ := tarmi_ccv.1 h
        simp [slice] at e
        rw [← e.2.1] at h2
        exact absurd h2 (by decide)) ⟨d, hd, .inl hdv⟩ (by
        intro _ h
        rw [loneR_last h] at hd
        cases hd
        revert hdv; decide)
      dsimp only at key
      cases hk : jvokaha (program .linked) y .cluster false mz (s%"to" ++ c :: v) with
      | ok ps =>
        obtain ⟨qs, hq, hq2⟩ := key.1 ⟨ps, hk⟩
        simp only [succeeds]
        constructor
        · intro h; cases h
        · intro h; exact absurd hq2 (h hcons qs hq)
      | error e =>
        have := hE e hk
        have hs : succeeds (.error e : Except Err (List Str)) = .ok false := by
          simp [caughtErrs] at this
          rcases this with rfl | rfl <;> rfl
        simp only [hs, true_iff]
        intro _ qs hq hq2
        obtain ⟨ps, hps⟩ := key.2 ⟨qs, hq, hq2⟩
        rw [hk] at hps
        cases hps

/-- The first three letters are consonant, consonant and vowel, but the consonants cannot stand at the beginning. -/
theorem ccv_notInitial {y : YHyphens} {mz : Bool} {a b c : Char} {t : Str} (ha : Consonant a) (hb : Consonant b) (hc : Vowel c)
    (hab : ¬ InitialPair a b) : jvokaha2 y mz (a :: b :: c :: '\'' :: 'y' :: t) = .error .invalidCluster := by
  have h1' := (isConsonant_iff a).2 ha
  have h2' := (isConsonant_iff b).2 hb
  have hv := (isVowel_iff c).2 hc
  have hi : INITIAL.contains [a, b] = false := by
    cases h : INITIAL.contains [a, b] with
    | false => rfl
    | true => exact absurd (initial_contains.1 h) hab
  simp at hi
  have hbv := not_vowel_of_consonant h2'
  have hav := not_vowel_of_consonant h1'
  have hcc := not_consonant_of_vowel hv
  have hg : ¬ (rafsiTarmi (a :: b :: c :: '\'' :: 'y' :: t) = .cvccv ∨ rafsiTarmi (a :: b :: c :: '\'' :: 'y' :: t) = .ccvcv) := by
    rintro (h | h)
    · obtain ⟨_, _, _, _, _, e, _⟩ := tarmi_cvccv.1 h
      cases e
      simp_all
    · obtain ⟨_, _, _, _, _, e, _⟩ := tarmi_ccvcv.1 h
      cases e
      simp_all [apos_isConsonant]
  have h1 : takeRafsi mz (a :: b :: c :: '\'' :: 'y' :: t) (a :: b :: c :: '\'' :: 'y' :: t) = .error .invalidCluster := by
    unfold takeRafsi
    dsimp only
    rw [if_neg (by simp [slice, rafsiTarmi, h1', h2', hv, hbv]), if_neg (by simp [slice, rafsiTarmi, h1', h2', hv, hbv, apos_isConsonant]),
      if_neg (by simp [slice, rafsiTarmi, h1', h2', hv, hbv, apos_isConsonant]),
      if_neg (by simp [slice, rafsiTarmi, h1', h2', hv, hbv, apos_isConsonant]), if_neg hg,
      if_neg (by simp [slice, rafsiTarmi, h1', h2', hv, hbv]), if_pos (by simp [slice, rafsiTarmi, h1', h2', hv, hbv]),
      if_pos (by simpa [slice] using hi)]
  unfold jvokaha2 jvokaha2Loop
  rw [if_neg (by simp)]
  simp [takeHyphen, h1, bind, Except.bind]

/-- On a word that ends in a vowel and does not begin CCV'y the cutter raises only what is caught. -/
theorem jvokaha_begin {s : Settings} {v : Str} (hv : ∃ c, v.getLast? = some c ∧ Vowel c)
    (hb : ∀ a b c t, InitialPair a b → Vowel c → v ≠ a :: b :: c :: '\'' :: 'y' :: t) :
    Errs caughtErrs (jvokaha (program .linked) s.yHyphens s.consonants s.glides s.allowMz v) := by
  obtain ⟨d, hd, hdv⟩ := hv
  refine jvokaha_caught hd (.inl hdv) ?_
  by_cases h : rafsiTarmi (slice v 0 3) = .ccv ∧ slice v 3 5 = s%"'y"
  · obtain ⟨h1, h2⟩ := h
    obtain ⟨a, b, c, e, ha, hbb, hc⟩ := tarmi_ccv.1 h1
    obtain ⟨t, rfl⟩ : ∃ t, v = a :: b :: c :: '\'' :: 'y' :: t := by
      match v, e, h2 with
      | [_, _, _], _, h2 => simp [slice] at h2
      | [_, _, _, _], _, h2 => simp [slice] at h2
      | x :: y :: z :: q :: r :: t, e, h2 =>
        simp [slice] at e h2
        obtain ⟨rfl, rfl, rfl⟩ := e
        obtain ⟨rfl, rfl⟩ := h2
        exact ⟨t, rfl⟩
    have hab : ¬ InitialPair a b := fun h => hb a b c t h ((isVowel_iff c).1 hc) rfl
    rw [ccv_notInitial ((isConsonant_iff a).1 ha) ((isConsonant_iff b).1 hbb) ((isVowel_iff c).1 hc) hab]
    exact .err (by simp [caughtErrs])
  · refine caught_cut (fun h1 h2 => h ⟨h1, h2⟩) fun _ h => ?_
    rw [loneR_last h] at hd
    cases hd
    revert hdv; decide

theorem consonantsOk_iff {s : Settings} {yp : List Str} {u : List YPart} {st : AState} (h : After s u st) :
    consonantsOk { s, isCmevlatai := false, yParts := yp } st = true ↔ PartsCluster s u ∨
    (s.consonants ≠ .cluster ∧ (if s.consonants = .oneConsonant then 1 else 2) ≤ (u.map (YPart.count s)).sum ∧
      ∃ p ∈ u.tail, p.kind ≠ .cvc ∧ (ConsonantInitial p.core ∨ Onglide p.core)) := by
  rw [← h.cluster, ← h.mahortai]
  unfold consonantsOk
  cases hc : st.hasCluster with
  | true => simp
  | false =>
    rw [← h.count hc]
    cases hs : s.consonants <;> simp
    · omega

theorem splitOn_first {c : Char} {w : Str} {a : Char} (h : w.head? = some a) (ha : a ≠ c) :
    ∀ x, (splitOn c w).head? = some x → x.head? = some a := by
  intro x hx
  have hj := joinSep_splitOn c w
  cases hs : splitOn c w with
  | nil => rw [hs] at hx; cases hx
  | cons p ps =>
    rw [hs] at hx hj
    cases hx
    rw [← hj] at h
    cases x with
    | cons b x => simpa [joinSep] using h
    | nil =>
      cases ps with
      | nil => simp [joinSep] at h
      | cons q ps =>
        simp [joinSep] at h
        exact absurd h.symm ha

theorem splitOn_le {c : Char} {w : Str} : ∀ x ∈ splitOn c w, x.length ≤ w.length := by
  intro x hx
  obtain ⟨a, b, e⟩ := List.append_of_mem hx
  have hj := joinSep_splitOn c w
  rw [e, joinSep_middle] at hj
  have := congrArg List.length hj
  simp only [List.length_append] at this
  omega

/-- The words that are extended lujvo. -/
theorem extended_iff {s : Settings} {w : Str} {ps : List Str} (hlen : (reading w).length < 10 ^ 94) :
    analyseBrivla .linked s w = .ok (.extendedLujvo, ps) ↔
      ∃ parts, joinParts parts = reading w ∧ joinPieces parts = ps ∧ ExtendedLujvo s parts := by
  have hlen6 : (reading w).length < 10 ^ 96 := Nat.lt_of_lt_of_le hlen (Nat.pow_le_pow_right (by decide) (by decide))
  have hlen5 : (reading w).length < 10 ^ 95 := Nat.lt_of_lt_of_le hlen (Nat.pow_le_pow_right (by decide) (by decide))
  rw [analyseBrivla_program]
  constructor
  · intro h
    obtain ⟨n, hn, h⟩ := analyseR_ok h
    have hn := (normalise_ok hn).2
    subst hn
    generalize ht : BType.extendedLujvo = t at h
    cases h with
    | gismu => cases ht
    | kaha => split at ht <;> cases ht
    | zihevla => cases ht
    | @parts c0 l e st hc0 hl hcc hg1 hg2 hlc hk he hn1 hloop hcon hslk =>
      have hlcf : isConsonant l = false := by
        cases h : isConsonant l with
        | false => rfl
        | true => rw [h] at ht; cases ht
      have hlv : isVowel l = true := by simpa [hlcf] using hlc
      rw [hlcf] at hloop hcon
      have hlast : ∃ c, (reading w).getLast? = some c ∧ Vowel c := ⟨l, hl, (isVowel_iff l).1 hlv⟩
      have hc0' : Vowel c0 ∨ Consonant c0 := by rw [← isVowel_iff, ← isConsonant_iff]; exact hcc
      have hc0y : c0 ≠ 'y' := by rintro rfl; revert hcc; decide
      have hly : l ≠ 'y' := by rintro rfl; revert hlv; decide
      have hsn := splitOn_ne_nil 'y' (reading w)
      have h2 : 2 ≤ (splitOn 'y' (reading w)).length := by
        have : (splitOn 'y' (reading w)).length ≠ 0 := by simpa using hsn
        omega
      obtain ⟨v, hvt, hA, hok⟩ := loop_ok (ctx := { s, isCmevlatai := false, yParts := splitOn 'y' (reading w) }) (u := []) h2 hloop after_nil
        (by simp) (fun x hx => ⟨splitOn_not_mem _ _ x hx, by
          have := splitOn_le x hx
          omega⟩) (fun x hx => by
          obtain ⟨init, p, hip, hp⟩ := splitOn_getLast hl hly
          rw [hip] at hx
          simp at hx
          subst hx
          exact ⟨l, hp, (isVowel_iff l).1 hlv⟩) (fun _ x hx => by
          have := splitOn_first hc0 hc0y x hx
          cases x with
          | nil => cases this
          | cons a x =>
            cases this
            exact hc0')
      have hj : joinParts v = reading w := by rw [joinParts_sep, hvt, joinSep_splitOn]
      refine ⟨v, hj, hA.result.symm, ?_, ?_, ?_, ?_, ?_, ?_, ?_⟩
      · rw [← hvt] at h2
        simpa using h2
      · intro a p b e
        simpa using hok a p b e
      · exact (consonantsOk_iff hA).1 hcon
      · rw [hj]; exact hlast
      · intro a b c t hab hc e'
        rw [hj] at e'
        rw [e'] at hk
        unfold jvokaha at hk
        rw [ccv_apostropheY hc hab, error_bind] at hk
        cases hk
        simp at he
      · intro qs hq e'
        rw [hj] at e'
        obtain ⟨ps, hps⟩ := (jvokaha_lujvo hlast hlen6).2 ⟨qs, hq, e'⟩
        rw [hk] at hps
        cases hps
      · rw [hj]
        rcases hslk with ⟨hv, -⟩ | h
        · intro hci
          cases hrw : reading w with
          | nil => rw [hrw] at hc0; cases hc0
          | cons a t =>
            rw [hrw] at hc0 hci
            cases hc0
            exact absurd hci (vowel_not_consonant ((isVowel_iff _).1 hv))
        · exact (slinkuhi_word_iff hlast ⟨c0, hc0, hc0'⟩ hlen5).1 h
  · rintro ⟨v, hj, rfl, h⟩
    obtain ⟨l, hl, hv⟩ := h.vowel
    have hbeg := h.begin
    have hnot := h.notLujvo
    have hslk := h.slinkuhi
    rw [hj] at hl hbeg hnot hslk
    have hlv := (isVowel_iff l).2 hv
    have hlc := not_consonant_of_vowel hlv
    have hlast : ∃ c, (reading w).getLast? = some c ∧ Vowel c := ⟨l, hl, hv⟩
    have hne : reading w ≠ [] := by intro h; rw [h] at hl; cases hl
    have hwne : w ≠ [] := by rintro rfl; exact hne rfl
    have hvne : v ≠ [] := by
      rintro rfl
      have := h.two
      simp at this
    have htexty : ∀ p ∈ v, 'y' ∉ p.text := by
      intro p hp
      obtain ⟨a, b, e⟩ := List.append_of_mem hp
      have := (h.parts a p b e).noY
      unfold YPart.text
      intro hy
      rw [List.mem_append, List.mem_append] at hy
      rcases hy with (hy | hy) | hy
      · split at hy <;> simp at hy
      · exact this hy
      · split at hy <;> simp at hy
    have hsplit : splitOn 'y' (reading w) = v.map YPart.text := by
      rw [← hj, joinParts_sep]
      refine splitOn_joinSep (by simpa using hvne) ?_
      intro p hp
      obtain ⟨q, hq, rfl⟩ := List.mem_map.1 hp
      exact htexty q hq
    have hn1 : (splitOn 'y' (reading w)).length ≠ 1 := by
      rw [hsplit, List.length_map]
      have := h.two
      omega
    have hmem : 'y' ∈ reading w := by
      apply Classical.byContradiction
      intro hy
      rw [splitOn_of_not_mem hy] at hn1
      exact hn1 rfl
    obtain ⟨c, hc, hcc⟩ : ∃ c, (reading w).head? = some c ∧ (Vowel c ∨ Consonant c) := by
      cases hv' : v with
      | nil => exact absurd hv' hvne
      | cons p b =>
        have hp := h.parts [] p b hv'
        have hlead : p.lead = false := by
          cases hl : p.lead with
          | false => rfl
          | true => have := (hp.lead hl).1; cases this
        have := hp.start hlead
        simp at this
        have hcore := partOk_core hp
        cases hpc : p.core with
        | nil => exact absurd hpc hcore
        | cons a t =>
          rw [hpc] at this
          refine ⟨a, ?_, this⟩
          rw [← hj, joinParts_sep, hv']
          simp [joinSep, YPart.text, hlead, hpc]
    obtain ⟨st, hloop, hA⟩ := loop_of (ctx := { s, isCmevlatai := false, yParts := splitOn 'y' (reading w) }) (v := v) (u := []) (by
        have := splitOn_ne_nil 'y' (reading w)
        have : (splitOn 'y' (reading w)).length ≠ 0 := by simpa using this
        dsimp only
        omega) after_nil (by simp [hsplit]) (fun x hx => by
        have := splitOn_le (c := 'y') (w := reading w) x.text (by rw [hsplit]; exact List.mem_map_of_mem hx)
        omega) (fun x hx => by
        obtain ⟨init, p, hip, hp⟩ := splitOn_getLast hl (c := 'y') (by rintro rfl; revert hlv; decide)
        refine ⟨l, ?_, hv⟩
        rw [hsplit] at hip
        have : (v.map YPart.text).getLast? = some p := by rw [hip]; simp
        rw [List.getLast?_map, hx] at this
        simp at this
        rw [this]
        exact hp) (fun a p b e => by simpa using h.parts a p b e)
    have hg : isGismu s.allowMz (reading w) = false := by
      cases h : isGismu s.allowMz (reading w) with
      | false => rfl
      | true => exact absurd hmem (gismu_no_y (isGismu_iff.1 h))
    have hcv : (isVowel c || isConsonant c) = true := by
      rw [Bool.or_eq_true, isVowel_iff, isConsonant_iff]
      exact hcc
    have hsl : isSlinkuhi (program .linked) s.yHyphens s.allowMz (reading w) = .ok false := (slinkuhi_word_iff hlast ⟨c, hc, hcc⟩ hlen5).2 hslk
    have hY : analyseY (program .linked) s false (reading w) (splitOn 'y' (reading w)) = .ok (.extendedLujvo, joinPieces v) := by
      unfold analyseY
      dsimp only
      rw [show splitOn 'y' (reading w) = v.map YPart.text from hsplit] at hloop ⊢
      rw [List.length_nil] at hloop
      rw [hloop, ok_bind, (consonantsOk_iff hA).2 h.consonants]
      have hi0 : idx (reading w) 0 = .ok c := by
        cases hrw : reading w with
        | nil => exact absurd hrw hne
        | cons a t => rw [hrw] at hc; cases hc; rfl
      obtain ⟨c1, hi1⟩ : ∃ c1, idx (reading w) 1 = .ok c1 := by
        match hrw : reading w with
        | [] => exact absurd hrw hne
        | [a] =>
          rw [hrw] at hmem hc
          simp at hmem hc
          subst hc
          subst hmem
          exfalso
          revert hcv; decide
        | a :: b :: t => exact ⟨b, rfl⟩
      rw [hi0, ok_bind]
      have hr : st.resultParts = joinPieces v := hA.result
      cases hvc : isVowel c with
      | false => simp [ok_bind, hsl, hr]
      | true =>
        simp only [if_true, hi1, ok_bind]
        cases hsk : (isConsonant c1 || c1 == 'y') <;> simp [hsl, hr, ok_bind]
    have hrest : analyseRest (program .linked) s false c (reading w) = .ok (.extendedLujvo, joinPieces v) := by
      unfold analyseRest
      rw [if_neg (by simp [hcv]), if_neg hn1]
      exact hY
    unfold analyseR
    rw [normalise_eq hwne, ok_bind]
    unfold analyseNorm
    simp only [hc, hl, hlv, hlc, hg, Bool.not_true, Bool.and_false, Bool.false_eq_true, if_false, Bool.false_and, Bool.not_false]
    cases hk : jvokaha (program .linked) s.yHyphens s.consonants s.glides s.allowMz (reading w) with
    | ok qs =>
      obtain ⟨ps, hps, e⟩ := (jvokaha_lujvo hlast hlen6).1 ⟨qs, hk⟩
      exact absurd e (hnot ps hps)
    | error e =>
      have := jvokaha_begin hlast hbeg e hk
      simp [caughtErrs] at this
      rcases this with rfl | rfl <;> exact hrest

end Jvotci
