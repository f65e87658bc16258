import Verif.Lemmas.ExtWord

/-!
# Helper lemmas: which words are cmevla
-/

namespace Jvotci

open Spec

/-- "to" before the word is not a cmevla made of rafsi. -/
def NotSlinkuhiC (y : YHyphens) (mz : Bool) (v : Str) : Prop :=
  ConsonantInitial v → ∀ qs, CmevlaPieces { yHyphens := y, allowMz := mz } qs → qs.flatten ≠ s%"to" ++ v

theorem slinkuhi_cmevla_ok {y : YHyphens} {mz : Bool} {v : Str} (hne : ∃ c, v.getLast? = some c ∧ Consonant c)
    (h0 : ∃ c, v.head? = some c ∧ (Vowel c ∨ Consonant c)) (hlen : v.length < 10 ^ 95)
    (h : isSlinkuhi (program .linked) y mz v = .ok false) : NotSlinkuhiC y mz v := by
  intro hci qs hq e
  obtain ⟨c, hc, hcc⟩ := h0
  cases v with
  | nil => cases hc
  | cons c v =>
    cases hc
    have hv : ¬ isVowel c = true := fun h => vowel_not_consonant ((isVowel_iff c).1 h) hci
    unfold isSlinkuhi at h
    rw [show idx (c :: v) 0 = .ok c from rfl, ok_bind, if_neg hv] at h
    have hl : ∃ d, (s%"to" ++ c :: v).getLast? = some d ∧ Consonant d := by
      obtain ⟨d, hd, hd2⟩ := hne
      exact ⟨d, by rw [List.getLast?_append, hd]; rfl, hd2⟩
    have hlen' : (s%"to" ++ c :: v).length < 10 ^ 96 := by
      rw [List.length_append]
      rw [show (s%"to").length = 2 from rfl]
      have : (10:Nat) ^ 96 = 10 * 10 ^ 95 := by rw [Nat.pow_succ, Nat.mul_comm]
      omega
    obtain ⟨ps, hps⟩ := (jvokaha_cmevla (s := { yHyphens := y, allowMz := mz }) hl hlen').2 ⟨qs, hq, e⟩
    dsimp only at hps
    rw [hps] at h
    cases h

theorem slinkuhi_cmevla_of {y : YHyphens} {mz : Bool} {v : Str} (hne : ∃ c, v.getLast? = some c ∧ Consonant c)
    (h0 : ∃ c, v.head? = some c ∧ (Vowel c ∨ Consonant c)) (hlen : v.length < 10 ^ 95)
    (h : NotSlinkuhiC y mz v) :
    isSlinkuhi (program .linked) y mz v = .ok false ∨ isSlinkuhi (program .linked) y mz v = .error .index := by
  obtain ⟨c, hc, hcc⟩ := h0
  cases v with
  | nil => cases hc
  | cons c v =>
    cases hc
    unfold isSlinkuhi
    rw [show idx (c :: v) 0 = .ok c from rfl, ok_bind]
    by_cases hv : isVowel c = true
    · rw [if_pos hv]
      exact .inl rfl
    · rw [if_neg hv]
      have hcons : Consonant c := hcc.resolve_left fun h => hv ((isVowel_iff c).2 h)
      have hl : ∃ d, (s%"to" ++ c :: v).getLast? = some d ∧ Consonant d := by
        obtain ⟨d, hd, hd2⟩ := hne
        exact ⟨d, by rw [List.getLast?_append, hd]; rfl, hd2⟩
      have hlen' : (s%"to" ++ c :: v).length < 10 ^ 96 := by
        rw [List.length_append]
        rw [show (s%"to").length = 2 from rfl]
        have : (10:Nat) ^ 96 = 10 * 10 ^ 95 := by rw [Nat.pow_succ, Nat.mul_comm]
        omega
      have key := jvokaha_cmevla (s := { yHyphens := y, allowMz := mz }) hl hlen'
      obtain ⟨d, hd, hdv⟩ := hl
      have hE := jvokaha_index (y := y) (co := .cluster) (gl := false) (mz := mz) (w := s%"to" ++ c :: v) (index_cut (by
        intro h
        obtain ⟨_, _, _, e, _, h2, _⟩ := tarmi_ccv.1 h
        simp [slice] at e
        rw [← e.2.1] at h2
        exact absurd h2 (by decide))) ⟨d, hd, .inr hdv⟩
      dsimp only at key
      cases hk : jvokaha (program .linked) y .cluster false mz (s%"to" ++ c :: v) with
      | ok ps =>
        obtain ⟨qs, hq, hq2⟩ := key.1 ⟨ps, hk⟩
        exact absurd hq2 (h hcons qs hq)
      | error e =>
        have := hE e hk
        simp [caughtErrs] at this
        rcases this with rfl | rfl | rfl
        · exact .inr rfl
        · exact .inl rfl
        · exact .inl rfl

/-- On a word that does not begin CCV'y the cutter raises only what is caught by `analyse_brivla`. -/
theorem jvokaha_begin_cmevla {s : Settings} {v : Str} (hv : ∃ c, v.getLast? = some c ∧ Consonant c)
    (hb : ∀ a b c t, InitialPair a b → Vowel c → v ≠ a :: b :: c :: '\'' :: 'y' :: t) :
    Errs (.index :: caughtErrs) (jvokaha (program .linked) s.yHyphens s.consonants s.glides s.allowMz v) := by
  obtain ⟨d, hd, hdv⟩ := hv
  refine jvokaha_index ?_ ⟨d, hd, .inr hdv⟩
  by_cases h : rafsiTarmi (slice v 0 3) = .ccv ∧ slice v 3 5 = s%"'y"
  · obtain ⟨h1, h2⟩ := h
    obtain ⟨a, b, c, e, ha, hbb, hc⟩ := tarmi_ccv.1 h1
    obtain ⟨t, rfl⟩ : ∃ t, v = a :: b :: c :: '\'' :: 'y' :: t := by
      match v, e, h2 with
      | [_, _, _], _, h2 => simp [slice] at h2
      | [_, _, _, _], _, h2 => simp [slice] at h2
      | x :: y :: z :: q :: r :: t, e, h2 =>
        simp [slice] at e h2
        obtain ⟨rfl, rfl, rfl⟩ := e
        obtain ⟨rfl, rfl⟩ := h2
        exact ⟨t, rfl⟩
    have hab : ¬ InitialPair a b := fun h => hb a b c t h ((isVowel_iff c).1 hc) rfl
    rw [ccv_notInitial ((isConsonant_iff a).1 ha) ((isConsonant_iff b).1 hbb) ((isVowel_iff c).1 hc) hab]
    exact .err (by simp [caughtErrs])
  · exact index_cut (fun h1 h2 => h ⟨h1, h2⟩)

theorem joinParts_long {v : List YPart} (h2 : 2 ≤ v.length) (h : ∀ p ∈ v, p.text ≠ []) : 3 ≤ (joinParts v).length := by
  match v, h2 with
  | p :: q :: v, _ =>
    have h1 : 0 < p.text.length := List.length_pos_iff.2 (h p (by simp))
    have h2 : 0 < q.text.length := List.length_pos_iff.2 (h q (by simp))
    rw [joinParts_sep]
    simp [joinSep]
    omega

/-- A CMEVLA is made of rafsi or has the parts of an extended cmevla. -/
theorem cmevla_ok {s : Settings} {w : Str} {ps : List Str} (hlen : (reading w).length < 10 ^ 94)
    (h : analyseBrivla .linked s w = .ok (.cmevla, ps)) : (ps.flatten = reading w ∧ CmevlaPieces s ps) ∨
      ∃ parts, joinParts parts = reading w ∧ joinPieces parts = ps ∧ ExtendedCmevla s parts := by
  have hlen6 : (reading w).length < 10 ^ 96 := Nat.lt_of_lt_of_le hlen (Nat.pow_le_pow_right (by decide) (by decide))
  have hlen5 : (reading w).length < 10 ^ 95 := Nat.lt_of_lt_of_le hlen (Nat.pow_le_pow_right (by decide) (by decide))
  rw [analyseBrivla_program] at h
  obtain ⟨n, hn, h⟩ := analyseR_ok h
  have hn := (normalise_ok hn).2
  subst hn
  generalize ht : BType.cmevla = t at h
  cases h with
  | gismu => cases ht
  | zihevla => cases ht
  | @kaha c _ hl _ _ _ hk =>
    left
    split at ht
    · rename_i hc
      obtain ⟨c', l, m, hc', rfl, hj, hM, hA, hE, hF, hd⟩ := jvokaha_canon hk
      rw [hl] at hc'
      cases hc'
      rw [hc] at hM hA
      exact ⟨hj, cmevlaPieces_settings (s := kahaSettings s.yHyphens s.consonants s.glides s.allowMz) rfl rfl (made_cmevlaPieces hM hA hE hd hF)⟩
    · cases ht
  | @parts c0 l e st hc0 hl hcc hg1 hg2 hlc hk he hn1 hloop hcon hslk =>
    right
    have hlct : isConsonant l = true := by
      cases h : isConsonant l with
      | true => rfl
      | false => rw [h] at ht; cases ht
    rw [hlct] at hloop hcon
    have hlast : ∃ c, (reading w).getLast? = some c ∧ Consonant c := ⟨l, hl, (isConsonant_iff l).1 hlct⟩
    have hc0' : Vowel c0 ∨ Consonant c0 := by rw [← isVowel_iff, ← isConsonant_iff]; exact hcc
    have hc0y : c0 ≠ 'y' := by rintro rfl; revert hcc; decide
    have hly : l ≠ 'y' := by rintro rfl; revert hlct; decide
    have hsn := splitOn_ne_nil 'y' (reading w)
    have h2 : 2 ≤ (splitOn 'y' (reading w)).length := by
      have : (splitOn 'y' (reading w)).length ≠ 0 := by simpa using hsn
      omega
    obtain ⟨v, hvt, hA, hok⟩ := loop_ok (ctx := { s, isCmevlatai := true, yParts := splitOn 'y' (reading w) }) (u := []) h2 hloop after_nil
      (by simp) (fun x hx => ⟨splitOn_not_mem _ _ x hx, by
        have := splitOn_le x hx
        omega⟩) (fun x hx => by
        obtain ⟨init, p, hip, hp⟩ := splitOn_getLast hl hly
        rw [hip] at hx
        simp at hx
        subst hx
        exact ⟨l, hp, (isConsonant_iff l).1 hlct⟩) (fun _ x hx => by
        have := splitOn_first hc0 hc0y x hx
        cases x with
        | nil => cases this
        | cons a x =>
          cases this
          exact hc0')
    have hj : joinParts v = reading w := by rw [joinParts_sep, hvt, joinSep_splitOn]
    refine ⟨v, hj, hA.result.symm, ?_, ?_, ?_, ?_, ?_, ?_⟩
    · rw [← hvt] at h2
      simpa using h2
    · intro a p b e
      simpa using hok a p b e
    · rw [hj]; exact hlast
    · intro a b c t hab hc e'
      rw [hj] at e'
      rw [e'] at hk
      unfold jvokaha at hk
      rw [ccv_apostropheY hc hab, error_bind] at hk
      cases hk
      simp at he
    · intro qs hq e'
      rw [hj] at e'
      obtain ⟨ps, hps⟩ := (jvokaha_cmevla hlast hlen6).2 ⟨qs, hq, e'⟩
      rw [hk] at hps
      cases hps
    · rw [hj]
      rcases hslk with ⟨hv, -⟩ | h
      · intro hci
        cases hrw : reading w with
        | nil => rw [hrw] at hc0; cases hc0
        | cons a t =>
          rw [hrw] at hc0 hci
          cases hc0
          exact absurd hci (vowel_not_consonant ((isVowel_iff _).1 hv))
      · exact slinkuhi_cmevla_ok hlast ⟨c0, hc0, hc0'⟩ hlen5 h

theorem extendedCmevla_of {s : Settings} {w : Str} {v : List YPart} (hlen : (reading w).length < 10 ^ 94)
    (hj : joinParts v = reading w) (h : ExtendedCmevla s v) :
    analyseBrivla .linked s w = .ok (.cmevla, joinPieces v) ∨
      (analyseBrivla .linked s w = .error .index ∧ isSlinkuhi (program .linked) s.yHyphens s.allowMz (reading w) = .error .index) := by
  have hlen6 : (reading w).length < 10 ^ 96 := Nat.lt_of_lt_of_le hlen (Nat.pow_le_pow_right (by decide) (by decide))
  have hlen5 : (reading w).length < 10 ^ 95 := Nat.lt_of_lt_of_le hlen (Nat.pow_le_pow_right (by decide) (by decide))
  obtain ⟨l, hl, hv⟩ := h.consonant
  have hbeg := h.begin
  have hnot := h.notCmevla
  have hslk := h.slinkuhi
  rw [hj] at hl hbeg hnot hslk
  have hlc := (isConsonant_iff l).2 hv
  have hlast : ∃ c, (reading w).getLast? = some c ∧ Consonant c := ⟨l, hl, hv⟩
  have hne : reading w ≠ [] := by intro h; rw [h] at hl; cases hl
  have hwne : w ≠ [] := by rintro rfl; exact hne rfl
  have hvne : v ≠ [] := by
    rintro rfl
    have := h.two
    simp at this
  have htext : ∀ p ∈ v, p.text ≠ [] := by
    intro p hp
    obtain ⟨a, b, e⟩ := List.append_of_mem hp
    exact partOk_text (h.parts a p b e)
  have htexty : ∀ p ∈ v, 'y' ∉ p.text := by
    intro p hp
    obtain ⟨a, b, e⟩ := List.append_of_mem hp
    have := (h.parts a p b e).noY
    unfold YPart.text
    intro hy
    rw [List.mem_append, List.mem_append] at hy
    rcases hy with (hy | hy) | hy
    · split at hy <;> simp at hy
    · exact this hy
    · split at hy <;> simp at hy
  have hsplit : splitOn 'y' (reading w) = v.map YPart.text := by
    rw [← hj, joinParts_sep]
    refine splitOn_joinSep (by simpa using hvne) ?_
    intro p hp
    obtain ⟨q, hq, rfl⟩ := List.mem_map.1 hp
    exact htexty q hq
  have hn1 : (splitOn 'y' (reading w)).length ≠ 1 := by
    rw [hsplit, List.length_map]
    have := h.two
    omega
  have hmem : 'y' ∈ reading w := by
    apply Classical.byContradiction
    intro hy
    rw [splitOn_of_not_mem hy] at hn1
    exact hn1 rfl
  have hw3 : 3 ≤ (reading w).length := by
    rw [← hj]
    exact joinParts_long h.two htext
  obtain ⟨c, hc, hcc⟩ : ∃ c, (reading w).head? = some c ∧ (Vowel c ∨ Consonant c) := by
    cases hv' : v with
    | nil => exact absurd hv' hvne
    | cons p b =>
      have hp := h.parts [] p b hv'
      have hlead : p.lead = false := by
        cases hl : p.lead with
        | false => rfl
        | true => have := (hp.lead hl).1; cases this
      have := hp.start hlead
      simp at this
      have hcore := partOk_core hp
      cases hpc : p.core with
      | nil => exact absurd hpc hcore
      | cons a t =>
        rw [hpc] at this
        refine ⟨a, ?_, this⟩
        rw [← hj, joinParts_sep, hv']
        simp [joinSep, YPart.text, hlead, hpc]
  obtain ⟨st, hloop, hA⟩ := loop_of (ctx := { s, isCmevlatai := true, yParts := splitOn 'y' (reading w) }) (v := v) (u := []) (by
      have := splitOn_ne_nil 'y' (reading w)
      have : (splitOn 'y' (reading w)).length ≠ 0 := by simpa using this
      dsimp only
      omega) after_nil (by simp [hsplit]) (fun x hx => by
      have := splitOn_le (c := 'y') (w := reading w) x.text (by rw [hsplit]; exact List.mem_map_of_mem hx)
      omega) (fun x hx => by
      obtain ⟨init, p, hip, hp⟩ := splitOn_getLast hl (c := 'y') (by rintro rfl; revert hlc; decide)
      refine ⟨l, ?_, hv⟩
      rw [hsplit] at hip
      have : (v.map YPart.text).getLast? = some p := by rw [hip]; simp
      rw [List.getLast?_map, hx] at this
      simp at this
      rw [this]
      exact hp) (fun a p b e => by simpa using h.parts a p b e)
  have hg : isGismu s.allowMz (reading w ++ s%"a") = false := by
    cases h : isGismu s.allowMz (reading w ++ s%"a") with
    | false => rfl
    | true => exact absurd (List.mem_append_left _ hmem) (gismu_no_y (isGismu_iff.1 h))
  have hcv : (isVowel c || isConsonant c) = true := by
    rw [Bool.or_eq_true, isVowel_iff, isConsonant_iff]
    exact hcc
  have hsl : isSlinkuhi (program .linked) s.yHyphens s.allowMz (reading w) = .ok false ∨ isSlinkuhi (program .linked) s.yHyphens s.allowMz (reading w) = .error .index :=
    slinkuhi_cmevla_of hlast ⟨c, hc, hcc⟩ hlen5 hslk
  have hY : analyseY (program .linked) s true (reading w) (splitOn 'y' (reading w)) = .ok (.cmevla, joinPieces v) ∨
      analyseY (program .linked) s true (reading w) (splitOn 'y' (reading w)) = .error .index ∧ isSlinkuhi (program .linked) s.yHyphens s.allowMz (reading w) = .error .index := by
    unfold analyseY
    dsimp only
    rw [show splitOn 'y' (reading w) = v.map YPart.text from hsplit] at hloop ⊢
    rw [List.length_nil] at hloop
    rw [hloop, ok_bind, show consonantsOk { s, isCmevlatai := true, yParts := v.map YPart.text } st = true by simp [consonantsOk]]
    have hi0 : idx (reading w) 0 = .ok c := by
      cases hrw : reading w with
      | nil => exact absurd hrw hne
      | cons a t => rw [hrw] at hc; cases hc; rfl
    obtain ⟨c1, hi1⟩ : ∃ c1, idx (reading w) 1 = .ok c1 := by
      match hrw : reading w, hw3 with
      | a :: b :: t, _ => exact ⟨b, rfl⟩
    rw [hi0, ok_bind]
    have hr : st.resultParts = joinPieces v := hA.result
    rcases hsl with hsl | hsl
    · left
      cases hvc : isVowel c with
      | false => simp [ok_bind, hsl, hr]
      | true =>
        simp only [if_true, hi1, ok_bind]
        cases hsk : (isConsonant c1 || c1 == 'y') <;> simp [hsl, hr, ok_bind]
    · refine .inr ⟨?_, hsl⟩
      cases hvc : isVowel c with
      | false => simp [ok_bind, hsl, hr, error_bind]
      | true =>
        unfold isSlinkuhi at hsl
        rw [hi0, ok_bind, if_pos hvc] at hsl
        cases hsl
  have hrest : analyseRest (program .linked) s true c (reading w) = .ok (.cmevla, joinPieces v) ∨
      analyseRest (program .linked) s true c (reading w) = .error .index ∧ isSlinkuhi (program .linked) s.yHyphens s.allowMz (reading w) = .error .index := by
    unfold analyseRest
    rw [if_neg (by simp [hcv]), if_neg hn1]
    exact hY
  rw [analyseBrivla_program]
  unfold analyseR
  rw [normalise_eq hwne, ok_bind]
  unfold analyseNorm
  simp only [hc, hl, hlc, hg, Bool.not_true, Bool.and_false, Bool.false_eq_true, if_false, Bool.false_and]
  cases hk : jvokaha (program .linked) s.yHyphens s.consonants s.glides s.allowMz (reading w) with
  | ok qs =>
    obtain ⟨ps, hps, e⟩ := (jvokaha_cmevla hlast hlen6).1 ⟨qs, hk⟩
    exact absurd e (hnot ps hps)
  | error e =>
    have := jvokaha_begin_cmevla hlast hbeg e hk
    simp [caughtErrs] at this
    rcases this with rfl | rfl | rfl <;> exact hrest

end Jvotci
