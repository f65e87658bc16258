import Verif.Props.RsWhole

/-!
# C100: a word that the Rust crate accepts has a consonant

As in C97 `rsAnalyseAll` is `analyze_brivla` of the Rust crate, whole, and `A`, `n` and `k` are arbitrary.
-/

namespace Jvotci

open Spec

theorem rsTarmi_noCons {r : Str} (h : rsIsConsonant (rsAt r 0) = false) : rsRafsiTarmi r = .hyphen ∨ rsRafsiTarmi r = .other := by
  unfold rsRafsiTarmi
  rw [h]
  split
  · exact .inl rfl
  · exact .inr rfl

theorem rsAt_slice_zero (l : Str) (k : Nat) : rsAt (slice l 0 (k + 1)) 0 = rsAt l 0 := by
  cases l <;> simp [slice, rsAt]

/-- Nothing is cut into rafsi that does not begin with a consonant. -/
theorem rsTakeRafsi_noCons {mz : Bool} {o l : Str} (h : rsIsConsonant (rsAt l 0) = false) : ∀ c, rsTakeRafsi mz o l ≠ .ok c := by
  intro c hc
  have h3 := rsTarmi_noCons (r := slice l 0 3) (by rw [rsAt_slice_zero l 2]; exact h)
  have h4 := rsTarmi_noCons (r := slice l 0 4) (by rw [rsAt_slice_zero l 3]; exact h)
  have h5 := rsTarmi_noCons h
  unfold rsTakeRafsi at hc
  rcases h3 with h3 | h3 <;> rcases h4 with h4 | h4 <;> rcases h5 with h5 | h5 <;> simp [h3, h4, h5] at hc

theorem rsJvokaha2_noCons {y : YHyphens} {mz : Bool} {l : Str} (h0 : l ≠ []) (h : rsIsConsonant (rsAt l 0) = false) :
    ∀ ps, rsJvokaha2 y mz l ≠ .ok ps := by
  intro ps hp
  unfold rsJvokaha2 rsJvokaha2Loop at hp
  rw [if_neg h0] at hp
  simp only [rsTakeHyphen] at hp
  cases hc : rsTakeRafsi mz l l with
  | error e => rw [hc] at hp; cases hp
  | ok c => exact rsTakeRafsi_noCons h c hc

theorem rsJvokaha_noCons {A : RsRest} {sl : YHyphens → Bool → Str → Except RsErr Bool} {y : YHyphens} {co : Consonants} {gl mz : Bool}
    {l : Str} {out : List Str} (h0 : l ≠ []) (h : rsJvokaha A sl y co gl mz l = .ok out) : rsIsConsonant (rsAt l 0) = true := by
  unfold rsJvokaha at h
  cases hj : rsJvokaha2 y mz l with
  | error e => rw [hj] at h; cases h
  | ok arr =>
    cases hc : rsIsConsonant (rsAt l 0) with
    | true => rfl
    | false => exact absurd hj (rsJvokaha2_noCons h0 hc arr)

/-- Without consonants the scan finds no cluster. -/
theorem rsZihScan_noCons {a : Str → Bool} {mz : Bool} {v : Str} : ∀ {n : Nat} {rest : Str} {st st' : ZState},
    (∀ c ∈ rest, rsIsConsonant c = false) → rsZihScan a mz v n rest st = .ok st' → st'.clusterPos = st.clusterPos
  | 0, _, _, _, _, h => by unfold rsZihScan at h; cases h
  | n + 1, rest, st, st', hr, h => by
    unfold rsZihScan at h
    cases rest with
    | nil => cases h; rfl
    | cons c cs =>
      have hc : rsIsConsonant (rsAt (c :: cs) 0) = false := hr c (by simp)
      rw [hc] at h
      simp only [List.isEmpty_cons, Bool.false_eq_true, if_false] at h
      split at h
      · split at h
        · rename_i st1 h1
          have := rsZihScan_noCons (fun x hx => hr x ((List.dropWhile_sublist _).subset hx)) h
          rw [this]
          unfold rsZihVowels at h1
          split at h1
          · cases h1
          · cases h1
          · obtain ⟨-, h1⟩ := rs_ite_ok h1
            obtain ⟨-, h1⟩ := rs_ite_ok h1
            cases h1
            rfl
        · cases h
      · split at h
        · obtain ⟨-, h⟩ := rs_ite_ok h
          obtain ⟨-, h⟩ := rs_ite_ok h
          exact (rsZihScan_noCons (fun x hx => hr x (List.mem_of_mem_drop hx)) h :)
        · cases h

/-- The first letter of what the scan accepts. -/
theorem rsZihScan_first {a : Str → Bool} {mz : Bool} {v : Str} {n : Nat} {c : Char} {cs : Str} {st' : ZState}
    (h : rsZihScan a mz v n (c :: cs) {} = .ok st') : rsIsConsonant c = true ∨ rsIsVowel c = true := by
  cases n with
  | zero => unfold rsZihScan at h; cases h
  | succ n =>
    unfold rsZihScan at h
    have hc : rsAt (c :: cs) 0 = c := rfl
    rw [hc] at h
    cases h1 : rsIsConsonant c with
    | true => exact .inl rfl
    | false =>
      cases h2 : rsIsVowel c with
      | true => exact .inr rfl
      | false =>
        rw [h1, h2] at h
        simp at h

theorem rsCheck_noCons {a b : Str → Bool} {sl : Str → Except RsErr Bool} {e mz r : Bool} {v : Str} {sh : Shape}
    (hv : ∀ c ∈ v, rsIsConsonant c = false) (h0 : v ≠ []) (h : rsCheck a b sl e mz r v = .ok sh) :
    sh = .rafsi ∧ r = false ∧ rsIsVowel (rsAt v 0) = true := by
  unfold rsCheck at h
  obtain ⟨-, h⟩ := rs_ite_ok h
  split at h
  · cases h
  rename_i st hst
  obtain ⟨-, h⟩ := rs_ite_ok h
  have hcl := rsZihScan_noCons hv hst
  rw [hcl] at h
  simp only at h
  obtain ⟨hr, h⟩ := rs_ite_ok h
  obtain ⟨-, h⟩ := rs_ite_ok h
  obtain ⟨-, h⟩ := rs_ite_ok h
  obtain ⟨-, h⟩ := rs_ite_ok h
  cases h
  refine ⟨rfl, by simpa using hr, ?_⟩
  cases v with
  | nil => exact absurd rfl h0
  | cons c cs =>
    rcases rsZihScan_first hst with h | h
    · rw [hv c (by simp)] at h; cases h
    · exact h

theorem rsYPart_noCons {A : RsRest} {n : Nat} {an : Settings → Str → Except RsErr (BType × List Str)} {s : Settings} {c : Bool} {v : Str}
    {yp : List Str} {i : Nat} {p : Str} {st st' : AState} (hp : ∀ x ∈ p, rsIsConsonant x = false)
    (h : rsYPart A n an s c v yp i p st = .ok st') (hb : st.consonantBeforeBreak = false) (hcl : st.hasCluster = false)
    (hn : s.glides = false → st.numConsonants = 0) :
    st'.consonantBeforeBreak = false ∧ st'.hasCluster = false ∧ (s.glides = false → st'.numConsonants = 0) := by
  unfold rsYPart at h
  simp only at h
  cases hl : rsLeadingH i p with
  | error e => rw [hl] at h; cases h
  | ok r =>
    obtain ⟨q, b⟩ := r
    rw [hl] at h
    simp only at h
    obtain ⟨hq, hq0⟩ := rsLeadingH_flat hl
    have hqc : ∀ x ∈ q, rsIsConsonant x = false := by
      intro x hx
      apply hp
      rw [← hq]
      cases b <;> simp [hx]
    have hfirst : ∀ {z : Str}, (∀ x ∈ z, rsIsConsonant x = false) → z ≠ [] → rsIsConsonant (rsAt z 0) = false := by
      intro z hz h0
      cases z with
      | nil => exact absurd rfl h0
      | cons a as => exact hz a (by simp)
    split at h
    case isTrue ht => rcases rsTarmi_noCons (hfirst hqc hq0) with e | e <;> rw [e] at ht <;> cases ht
    obtain ⟨-, h⟩ := rs_ite_ok h
    rw [hb, hcl] at h
    simp only [Bool.false_and, Bool.false_eq_true, if_false] at h
    split at h
    · cases h
    rename_i f hf
    obtain ⟨hfc, hf0⟩ := rsPartForm_flat hq0 hf
    have hcopy : ∀ x ∈ f.partCopy, rsIsConsonant x = false := by
      intro x hx
      apply hqc
      rw [← hfc]
      simp [hx]
    have hpart : f.part = f.partCopy ∨ f.part = f.partCopy ++ s%"a" := by
      unfold rsPartForm at hf
      simp only at hf
      split at hf
      · obtain ⟨-, hf⟩ := rs_ite_ok hf
        cases hf; exact .inl rfl
      · split at hf
        · cases hf; exact .inr rfl
        · cases hf; exact .inl rfl
    have hpc : ∀ x ∈ f.part, rsIsConsonant x = false := by
      intro x hx
      rcases hpart with e | e
      · rw [e] at hx; exact hcopy x hx
      · rw [e, List.mem_append] at hx
        rcases hx with hx | hx
        · exact hcopy x hx
        · have : x = 'a' := by simpa using hx
          subst this
          decide
    have hp0 : f.part ≠ [] := by
      rcases hpart with e | e <;> rw [e]
      · exact hf0
      · simp
    have hj := rsJvokaha2_noCons (y := s.yHyphens) (mz := s.allowMz) hf0 (hfirst hcopy hf0)
    split at h
    · cases h
    rename_i found katnad hk
    have hfound : katnad = false ∧ (found = [] ∨ found = [f.part]) := by
      split at hk
      · unfold rsTryKaha at hk
        simp only at hk
        split at hk
        · cases hk
        · cases hk
        cases hjj : rsJvokaha2 s.yHyphens s.allowMz f.partCopy with
        | ok ps => exact absurd hjj (hj ps)
        | error e =>
          rw [hjj] at hk
          cases e <;> cases hk <;> exact ⟨rfl, .inr rfl⟩
      · cases hk
        exact ⟨rfl, .inl rfl⟩
    obtain ⟨rfl, hfound⟩ := hfound
    simp only [Bool.false_eq_true, if_false] at h
    split at h
    · cases h
    · cases h
    rename_i sh hsh
    obtain ⟨rfl, -, hvow⟩ := rsCheck_noCons hpc hp0 hsh
    have hcount : rsCountFound found (st.numConsonants, false) = (st.numConsonants, false) := by
      rcases hfound with rfl | rfl
      · rfl
      · have hot : rsRafsiTarmi f.part = .other := by
          unfold rsRafsiTarmi
          rw [hvow, hfirst hpc hp0]
          simp
        unfold rsCountFound
        rw [hot]
        rfl
    cases h
    refine ⟨rfl, ?_, ?_⟩
    · simp [hcount]
    · intro hg
      simp only [hcount]
      simp [hg, hfirst hpc hp0, hn hg]

theorem rsYLoop_noCons {A : RsRest} {n : Nat} {an : Settings → Str → Except RsErr (BType × List Str)} {s : Settings} {c : Bool} {v : Str}
    {yp : List Str} : ∀ {ps : List Str} {i : Nat} {st st' : AState}, (∀ p ∈ ps, ∀ x ∈ p, rsIsConsonant x = false) →
    rsYLoop A n an s c v yp i ps st = .ok st' → st.consonantBeforeBreak = false → st.hasCluster = false →
    (s.glides = false → st.numConsonants = 0) → st'.hasCluster = false ∧ (s.glides = false → st'.numConsonants = 0)
  | [], _, _, _, _, h, _, hcl, hn => by
    unfold rsYLoop at h
    cases h
    exact ⟨hcl, hn⟩
  | p :: ps, i, st, st', hp, h, hb, hcl, hn => by
    unfold rsYLoop at h
    split at h
    · cases h
    rename_i st1 h1
    obtain ⟨b1, c1, n1⟩ := rsYPart_noCons (hp p (by simp)) h1 hb hcl hn
    exact rsYLoop_noCons (fun q hq => hp q (by simp [hq])) h b1 c1 n1

theorem splitOn_letters {d : Char} : ∀ {v : Str} {p : Str}, p ∈ splitOn d v → ∀ x ∈ p, x ∈ v := by
  intro v p hp x hx
  have hj := joinSep_splitOn d v
  have key : ∀ {qs : List Str}, p ∈ qs → x ∈ joinSep d qs := by
    intro qs
    induction qs with
    | nil => intro h; cases h
    | cons q qs ih =>
      intro h
      cases qs with
      | nil =>
        have : p = q := by simpa using h
        subst this
        simpa [joinSep] using hx
      | cons r rs =>
        rcases List.mem_cons.1 h with rfl | h
        · simp [joinSep, hx]
        · have := ih h
          unfold joinSep at this ⊢
          simp only [List.mem_append, List.mem_cons, List.flatMap_cons] at this ⊢
          rcases this with h | h
          · exact .inr (.inl (.inr h))
          · exact .inr (.inr h)
  rw [← hj]
  exact key hp

theorem rsY_consonant {A : RsRest} {n : Nat} {an : Settings → Str → Except RsErr (BType × List Str)} {s : Settings} {v : Str}
    {k : RsKind} {ps : List Str} (hg : s.glides = false ∨ s.consonants = .cluster) (h : rsY A n an s false v = .ok (k, ps)) :
    ∃ c ∈ v, rsIsConsonant c = true := by
  apply Classical.byContradiction
  intro hno
  have hno : ∀ c ∈ v, rsIsConsonant c = false := by
    intro c hc
    cases h : rsIsConsonant c with
    | false => rfl
    | true => exact absurd ⟨c, hc, h⟩ hno
  unfold rsY at h
  split at h
  · cases h
  rename_i st hst
  obtain ⟨h1, h2⟩ := rsYLoop_noCons (fun p hp x hx => hno x (splitOn_letters hp x hx)) hst rfl rfl (fun _ => rfl)
  obtain ⟨hok, -⟩ := rs_ite_ok h
  apply hok
  unfold rsConsonantsOk
  rw [h1]
  rcases hg with hg | hg
  · have := h2 hg
    cases s.consonants <;> simp [this]
  · simp [hg]

/-- **C100.** A word that the crate accepts has a consonant, if on-glides do not count as consonants or a cluster is required. -/
theorem C100_consonant {A : RsRest} {n k : Nat} {s : Settings} {w : Str} {t : BType} {ps : List Str} (hw : ¬ StrayDot w)
    (hg : s.glides = false ∨ s.consonants = .cluster) (h : rsAnalyseAll A n k s w = .ok (t, ps)) : ∃ c ∈ reading w, Consonant c := by
  rw [← (rsNormalise_iff w).2 hw]
  suffices hs : ∃ c ∈ rsNormalise w, rsIsConsonant c = true by
    obtain ⟨c, hc, hcc⟩ := hs
    rw [rsIsConsonant_eq] at hcc
    exact ⟨c, hc, (isConsonant_iff c).1 hcc⟩
  cases k with
  | zero => unfold rsAnalyseAll at h; cases h
  | succ k =>
    obtain ⟨-, -, ⟨l, hl, hlast⟩, -⟩ := rsAll_ok h
    have hlm : l ∈ rsNormalise w := List.mem_of_getLast? hl
    cases hlc : rsIsConsonant l with
    | true => exact ⟨l, hlm, hlc⟩
    | false =>
    unfold rsAnalyseAll rsAnalyseBrivla at h
    simp only at h
    generalize rsNormalise w = v at h hl hlm ⊢
    have hfirst : v ≠ [] → rsIsConsonant (rsAt v 0) = true → ∃ c ∈ v, rsIsConsonant c = true := by
      intro h0 h
      cases v with
      | nil => exact absurd rfl h0
      | cons c cs => exact ⟨c, by simp, h⟩
    obtain ⟨h0, h⟩ := rs_ite_ok h
    have h0 : v ≠ [] := by simpa using h0
    rw [rsBack_of hl, hlc] at h
    obtain ⟨-, h⟩ := rs_ite_ok h
    obtain ⟨-, h⟩ := rs_ite_ok h
    split at h
    case isTrue hgm =>
      simp only [Bool.not_false, Bool.true_and, rsIsGismu_eq] at hgm
      have hgs : Gismu s.allowMz v := isGismu_iff.1 hgm
      cases hgs with
      | @cvccv a b c d e hc => exact ⟨a, List.mem_cons_self, by rw [rsIsConsonant_eq]; exact (isConsonant_iff _).2 hc⟩
      | @ccvcv a b c d e _ _ hc =>
        exact ⟨d, by simp only [List.mem_cons, true_or, or_true], by rw [rsIsConsonant_eq]; exact (isConsonant_iff _).2 hc⟩
    case isFalse =>
      have hrest : ∀ r, (match rsAfter A n (rsAnalyseAll A n k) (rsY A n (rsAnalyseAll A n k)) s false v with
          | .ok (k, parts) => .ok (k.type, parts)
          | .error e => .error e : Except RsErr (BType × List Str)) = .ok r → ∃ c ∈ v, rsIsConsonant c = true := by
        intro r hr
        split at hr
        case h_2 => cases hr
        rename_i kd parts hk
        unfold rsAfter at hk
        obtain ⟨-, hk⟩ := rs_ite_ok hk
        split at hk
        · simp only [Bool.false_eq_true, if_false] at hk
          split at hk
          · rename_i sh hsh
            apply Classical.byContradiction
            intro hno
            have hno : ∀ c ∈ v, rsIsConsonant c = false := by
              intro c hc
              cases h : rsIsConsonant c with
              | false => rfl
              | true => exact absurd ⟨c, hc, h⟩ hno
            obtain ⟨-, h, -⟩ := rsCheck_noCons hno h0 hsh
            cases h
          · cases hk
          · cases hk
        · exact rsY_consonant hg hk
      split at h
      · rename_i parts hj
        exact hfirst h0 (rsJvokaha_noCons h0 hj)
      · exact hrest _ h
      · exact hrest _ h
      · exact hrest _ h
      · cases h

/-- **C100**, the condition is needed: with on-glides as consonants and without a cluster, words of vowels alone are accepted. -/
theorem C100_glides (A : RsRest) (n k : Nat) :
    rsAnalyseAll A (n + 2) (k + 3) { yHyphens := .allowY, expRafsi := true, consonants := .oneConsonant, glides := true } s%"iu'yiu" =
      .ok (.extendedLujvo, [s%"iu", s%"'y", s%"iu"]) ∧ ∀ c ∈ reading s%"iu'yiu", ¬ Consonant c :=
  ⟨by rfl, by decide +kernel⟩

/-- For the examples. -/
private def rest100 : RsRest := ⟨fun _ _ => .error .notBrivla, fun _ _ => .error .notZihevla⟩

example : ¬ StrayDot s%"nei'ynei" ∧ rsAnalyseAll rest100 9 9 { yHyphens := .allowY, expRafsi := true, consonants := .twoConsonants } s%"nei'ynei" =
    .ok (.extendedLujvo, [s%"nei", s%"'y", s%"nei"]) := ⟨(rsNormalise_iff _).1 (by decide), by decide +kernel⟩
/-- Without the test for consonants this word would be accepted. -/
example : rsAnalyseAll rest100 9 9 { yHyphens := .allowY, expRafsi := true, consonants := .oneConsonant, glides := false } s%"iu'yiu" =
    .error .notBrivla := by decide +kernel

end Jvotci
