import Verif.Lemmas.RsLate

/-!
# Lemmas: words without y in the Rust crate
-/

namespace Jvotci

open Spec

/-- `analyze_brivla` and `analyse_brivla`, words without y. -/
theorem rs_full {A : RsRest} {n : Nat} {Y : Settings → Bool → Str → Except RsErr (RsKind × List Str)} :
    ∀ k (s : Settings) (v : Str), v.length < k → (∀ c ∈ v, Vowel c ∨ Consonant c ∨ c = '\'') → (∃ l, v.getLast? = some l ∧ Vowel l) →
    v.length < 180000 → ∀ t ps,
    (analyseBrivla .linked s v = .ok (t, ps) → rsAnalyseFull A (n + 2) Y k s v = .ok (t, ps)) ∧
    ((s.allowMz = true → NoMzCc v) → rsAnalyseFull A (n + 2) Y k s v = .ok (t, ps) → analyseBrivla .linked s v = .ok (t, ps)) := by
  intro k
  induction k with
  | zero => intro s v h; omega
  | succ k ih =>
    intro s v hk hlet hlast hlen t ps
    obtain ⟨l, hl, hlv⟩ := hlast
    have hdot : ∀ c ∈ v, c ≠ '.' := by
      rintro c hc rfl
      rcases hlet _ hc with h | h | h <;> revert h <;> decide
    have hstray : ¬ StrayDot v := by
      intro h
      cases h with
      | two => exact hdot '.' (by simp) rfl
      | last u h => exact hdot '.' (by simp) rfl
    have hread : reading v = v := reading_lettersY fun c hc => by
      rcases hlet c hc with h | h | h
      · exact .inl h
      · exact .inr (.inl h)
      · exact .inr (.inr (.inl h))
    have hy : 'y' ∉ v := by
      intro hc
      rcases hlet _ hc with h | h | h <;> revert h <;> decide
    have hplain : PlainWord v := by
      refine ⟨fun c hc => ?_, ?_, ?_⟩
      · unfold Letter
        rcases hlet c hc with h | h | h <;> simp [h]
      · rintro ⟨a, b, e⟩; exact hy (by rw [e]; simp)
      · intro a b x u e; exact absurd (by rw [e]; simp) hy
    have hcut := plain_cuttable hplain hl hlv
    obtain ⟨c0, t0, hv0⟩ : ∃ c0 t0, v = c0 :: t0 := by
      cases v with
      | nil => cases hl
      | cons a b => exact ⟨a, b, rfl⟩
    have hlv' := (isVowel_iff l).2 hlv
    have hlc := not_consonant_of_vowel hlv'
    have hne : v ≠ [] := by rw [hv0]; simp
    have hne' : v.isEmpty = false := by rw [hv0]; rfl
    have hnorm : rsNormalise v = v := by rw [(rsNormalise_iff v).2 hstray, hread]
    have hc0 : v.head? = some c0 := by rw [hv0]; rfl
    have hat0 : rsAt v 0 = c0 := by rw [hv0]; rfl
    rw [analyseBrivla_program]
    unfold analyseR analyseNorm rsAnalyseFull rsAnalyseBrivla
    rw [normalise_eq hne, ok_bind, hread]
    simp only [hnorm, hc0, hl, hne', rsBack_of hl, rsIsConsonant_eq, rsIsVowel_eq, rsIsGismu_eq, hlc, hlv', Bool.false_eq_true, if_false, Bool.not_true, Bool.not_false, Bool.and_false, Bool.false_and, Bool.true_and]
    by_cases hg : isGismu s.allowMz v = true
    · rw [if_pos hg, if_pos hg]
      simp
    rw [if_neg hg, if_neg hg]
    rcases near_jvokaha_any (A := A) (n := n) (y := s.yHyphens) (co := s.consonants) (gl := s.glides) (mz := s.allowMz)
      hcut (plain_not_ccvhy hplain) hl hlv hlen with ⟨arr, k1, k2⟩ | ⟨e, e', k1, k2, k3, k4⟩
    · rw [k1, k2]
      simp
    -- the tests for zi'evla
    let acc : Str → Bool := fun v => match rsAnalyseFull A (n + 2) Y k { yHyphens := s.yHyphens, expRafsi := s.expRafsi, allowMz := s.allowMz } v with
      | .ok _ => true
      | .error _ => false
    let brivla : Str → Bool := fun v => match rsAnalyseFull A (n + 2) Y k { yHyphens := s.yHyphens } v with
      | .ok (t, _) => decide (t ≠ .cmevla)
      | .error _ => false
    have htails : ∀ q, 0 < q → q < v.length → isBrivlaR (program .linked) { yHyphens := s.yHyphens } (v.drop q) = .ok (brivla (v.drop q)) := by
      intro q hq0 hqv
      have hdl : (v.drop q).length < v.length := by rw [List.length_drop]; omega
      have hdne : v.drop q ≠ [] := by
        intro h0
        have := congrArg List.length h0
        rw [List.length_drop] at this
        simp at this
        omega
      have hdlet : ∀ c ∈ v.drop q, Vowel c ∨ Consonant c ∨ c = '\'' := fun c hc => hlet c (List.mem_of_mem_drop hc)
      have hdlast : ∃ l, (v.drop q).getLast? = some l ∧ Vowel l := by
        refine ⟨l, ?_, hlv⟩
        rw [← getLast?_append_ne (v.take q) hdne, List.take_append_drop]
        exact hl
      have IH := ih { yHyphens := s.yHyphens } (v.drop q) (by omega) hdlet hdlast (by omega)
      have hdy : 'y' ∉ reading (v.drop q) := by
        rw [reading_lettersY fun c hc => by
          rcases hdlet c hc with h | h | h
          · exact .inl h
          · exact .inr (.inl h)
          · exact .inr (.inr (.inl h))]
        exact fun h => hy (List.mem_of_mem_drop h)
      rcases C15_words_without_y_partial .linked { yHyphens := s.yHyphens } hdne hdy with ⟨h1, -⟩ | ⟨h1, -⟩
      · unfold isBrivlaR
        rw [program_analyse]
        rcases h1 with ⟨t', ps', h1⟩ | h1
        · have h2 := (IH t' ps').1 h1
          rw [h1]
          show Except.ok _ = Except.ok (match rsAnalyseFull A (n + 2) Y k { yHyphens := s.yHyphens } (v.drop q) with
            | .ok (t, _) => decide (t ≠ BType.cmevla)
            | .error _ => false)
          rw [h2]
        · rw [h1]
          show Except.ok _ = Except.ok (match rsAnalyseFull A (n + 2) Y k { yHyphens := s.yHyphens } (v.drop q) with
            | .ok (t, _) => decide (t ≠ BType.cmevla)
            | .error _ => false)
          cases h2 : rsAnalyseFull A (n + 2) Y k { yHyphens := s.yHyphens } (v.drop q) with
          | error e => rfl
          | ok r =>
            have := (IH r.1 r.2).2 (by simp) h2
            rw [h1] at this
            cases this
      · cases h1
    have hsame : ∀ st, (Vowel c0 ∨ Consonant c0) → zihScan s.allowMz v (v.length + 1) v {} = .ok st →
        rsZihScan acc s.allowMz v (v.length + 1) v {} = .ok st →
        SameCheck (checkZihevlaOrRafsi (program .linked) true s.yHyphens s.expRafsi s.allowMz v)
          (rsCheck acc brivla (rsSlinkuhi A (n + 2) s.yHyphens s.allowMz) s.expRafsi s.allowMz true v) := by
      intro st hfirst hst hrs
      refine rs_check_post hst hrs ?_ ?_
      · intro p hp
        obtain ⟨hf, hfew⟩ := firstAt_scan hst hp
        have hpl : p < v.length := by
          obtain ⟨⟨a, b, h1, -⟩, -⟩ := hf
          exact (List.getElem?_eq_some_iff.1 h1).1
        refine ⟨hpl, fun q hq0 hqp => ?_⟩
        exact htails q hq0 (by omega)
      · rcases hfirst with h | h
        · refine ⟨false, ?_, ?_⟩
          · rw [slinkuhi_program]
            unfold isSlinkuhi
            rw [hv0, show idx (c0 :: t0) 0 = .ok c0 from rfl, ok_bind, if_pos ((isVowel_iff c0).2 h)]
          · unfold rsSlinkuhi
            rw [hat0, rsIsVowel_eq, if_pos ((isVowel_iff c0).2 h)]
        · subst hv0
          exact rs_slinkuhi hcut h hl hlv (by simp at hlen; omega)
    have hpy : (match (Except.error e : Except Err (List Str)) with
        | .ok parts => .ok (if false = true then BType.cmevla else .lujvo, parts)
        | .error .decomposition | .error .invalidCluster | .error .index => analyseRest (program .linked) s false c0 v
        | .error e => .error e) = analyseRest (program .linked) s false c0 v := by
      rcases k3 with rfl | rfl <;> rfl
    have hfirstB : (!isVowel c0 && !isConsonant c0) = !(isVowel c0 || isConsonant c0) := by
      cases isVowel c0 <;> cases isConsonant c0 <;> rfl
    have hyany : v.any (· == 'y') = false := by
      rw [Bool.eq_false_iff]
      intro h
      simp at h
      exact hy h
    have hafter : rsAfter A (n + 2) (rsAnalyseFull A (n + 2) Y k) Y s false v =
        if !(isVowel c0 || isConsonant c0) then .error .notBrivla else
        match rsCheck acc brivla (rsSlinkuhi A (n + 2) s.yHyphens s.allowMz) s.expRafsi s.allowMz true v with
        | .ok _ => .ok (.zihevla, [v])
        | .error .notZihevla => .error .notBrivla
        | .error e => .error e := by
      unfold rsAfter
      rw [hat0, rsIsVowel_eq, rsIsConsonant_eq, hfirstB, hyany]
      rfl
    have hrest : analyseRest (program .linked) s false c0 v =
        if !(isVowel c0 || isConsonant c0) then .error .notBrivla else
        match checkZihevlaOrRafsi (program .linked) true s.yHyphens s.expRafsi s.allowMz v with
        | .ok _ => .ok (.zihevla, [v])
        | .error .notZihevla => .error .notBrivla
        | .error e => .error e := by
      unfold analyseRest
      rw [splitOn_of_not_mem hy]
      rfl
    have hrs : (match (Except.error e' : Except RsErr (List Str)) with
        | .ok parts => .ok (if false = true then BType.cmevla else .lujvo, parts)
        | .error .decomposition | .error .invalidCluster | .error .type =>
          match rsAfter A (n + 2) (rsAnalyseFull A (n + 2) Y k) Y s false v with
          | .ok (k, parts) => .ok (k.type, parts)
          | .error e => .error e
        | .error e => .error e) = (match rsAfter A (n + 2) (rsAnalyseFull A (n + 2) Y k) Y s false v with
          | .ok (k, parts) => .ok (k.type, parts)
          | .error e => .error e : Except RsErr (BType × List Str)) := by
      rcases k4 with rfl | rfl <;> rfl
    rw [k1, k2]
    refine ⟨fun h => ?_, fun hmz h => ?_⟩
    · have h := hpy.symm.trans h
      refine Eq.trans hrs ?_
      rw [hrest] at h
      rw [hafter]
      by_cases hf : (!(isVowel c0 || isConsonant c0)) = true
      · rw [if_pos hf] at h; cases h
      rw [if_neg hf] at h ⊢
      have hfirst : Vowel c0 ∨ Consonant c0 := by
        rw [← isVowel_iff, ← isConsonant_iff]
        simpa [Decidable.or_iff_not_imp_left] using hf
      cases hch : checkZihevlaOrRafsi (program .linked) true s.yHyphens s.expRafsi s.allowMz v with
      | error e => rw [hch] at h; cases e <;> cases h
      | ok sh =>
        rw [hch] at h
        have hst : ∃ st, zihScan s.allowMz v (v.length + 1) v {} = .ok st := by
          unfold checkZihevlaOrRafsi at hch
          obtain ⟨-, hch⟩ := ite_error_ok hch
          obtain ⟨st, hst, -⟩ := bind_ok hch
          exact ⟨st, hst⟩
        obtain ⟨st, hst⟩ := hst
        rcases hsame st hfirst hst (rs_scan_fwd (pre := []) hst rfl rfl) with ⟨a, h1, h2⟩ | ⟨h1, h2⟩
        · rw [h2]
          cases h
          rfl
        · rw [hch] at h1; cases h1
    · have h := hrs.symm.trans h
      refine Eq.trans hpy ?_
      rw [hafter] at h
      rw [hrest]
      by_cases hf : (!(isVowel c0 || isConsonant c0)) = true
      · rw [if_pos hf] at h; cases h
      rw [if_neg hf] at h ⊢
      have hfirst : Vowel c0 ∨ Consonant c0 := by
        rw [← isVowel_iff, ← isConsonant_iff]
        simpa [Decidable.or_iff_not_imp_left] using hf
      cases hch : rsCheck acc brivla (rsSlinkuhi A (n + 2) s.yHyphens s.allowMz) s.expRafsi s.allowMz true v with
      | error e => rw [hch] at h; cases e <;> cases h
      | ok sh =>
        rw [hch] at h
        have hst : ∃ st, rsZihScan acc s.allowMz v (v.length + 1) v {} = .ok st := by
          unfold rsCheck at hch
          obtain ⟨-, hch⟩ := rs_ite_ok hch
          cases hst : rsZihScan acc s.allowMz v (v.length + 1) v {} with
          | error e => rw [hst] at hch; cases hch
          | ok st => exact ⟨st, rfl⟩
        obtain ⟨st, hst⟩ := hst
        have hlate : ¬ LateCluster v := by
          refine late_absurd (y := s.yHyphens) ⟨l, hl, hlv⟩ hlen hmz ?_ ?_ hch
          · intro q hq0 hqv r hr
            have hdne : v.drop q ≠ [] := by
              intro h0
              have := congrArg List.length h0
              rw [List.length_drop] at this
              simp at this
              omega
            have hdl : (v.drop q).length < v.length := by rw [List.length_drop]; omega
            have := (ih { yHyphens := s.yHyphens, expRafsi := s.expRafsi, allowMz := s.allowMz } (v.drop q) (by omega)
              (fun c hc => hlet c (List.mem_of_mem_drop hc)) ⟨l, by
                rw [← getLast?_append_ne (v.take q) hdne, List.take_append_drop]
                exact hl, hlv⟩ (by omega) r.1 r.2).1 hr
            show (match rsAnalyseFull A (n + 2) Y k { yHyphens := s.yHyphens, expRafsi := s.expRafsi, allowMz := s.allowMz } (v.drop q) with
              | .ok _ => true
              | .error _ => false) = true
            rw [this]
          · intro q hq0 hqv hf
            rw [← isBrivlaR_program, htails q hq0 hqv, hf]
        have hpst := rs_scan_bwd hlate hmz (pre := []) hst rfl rfl rfl (fun _ => adjAll_nil) (by simp)
        rcases hsame st hfirst hpst hst with ⟨a, h1, h2⟩ | ⟨h1, h2⟩
        · rw [h1]
          cases h
          rfl
        · rw [hch] at h2; cases h2

end Jvotci
