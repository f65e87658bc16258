import Verif.Lemmas.LoneR
import Verif.Lemmas.NoY

/-!
# Helper lemmas: a non-empty word without `y` makes `analyse_brivla` raise nothing but `NotBrivlaError`
-/

namespace Jvotci

open Spec

theorem slinkuhi_vowel {y : YHyphens} {mz : Bool} {w : Str} (hl : ∃ c, w.getLast? = some c ∧ Vowel c) :
    ∃ t, (program .linked).slinkuhi y mz w = .ok t := by
  obtain ⟨c, hc, hv⟩ := hl
  refine slinkuhi_clean ⟨c, hc, .inl hv⟩ fun _ h => ?_
  rw [loneR_last h] at hc
  cases hc
  revert hv; decide

theorem clean_isBrivlaR {R : Rec} {s : Settings} {v : Str} (h : Errs [.notBrivla] (R.analyse s v)) :
    ∃ t, isBrivlaR R s v = .ok t := by
  unfold isBrivlaR
  cases hk : R.analyse s v with
  | ok p => exact ⟨_, rfl⟩
  | error e =>
    have := h e hk
    simp at this
    subst this
    exact ⟨_, rfl⟩

theorem clean_fallsApartBefore {R : Rec} {y : YHyphens} {v : Str} {p : Nat} (hp : p < v.length)
    (h : ∀ j, 0 < j → j < v.length → ∀ s, Errs [.notBrivla] (R.analyse s (v.drop j))) : ∀ k i, i + k ≤ p →
    Errs [.notZihevla] (fallsApartBefore R y v p k i) := by
  intro k
  induction k with
  | zero => intro i _; exact .ok
  | succ k ih =>
    intro i hi
    unfold fallsApartBefore
    obtain ⟨t, ht⟩ := clean_isBrivlaR (h (p - i) (by omega) (by omega) { yHyphens := y })
    dsimp only
    rw [ht]
    refine .bind ?_ fun c _ => .ite (fun _ => .bind .ok fun _ _ => .ite (fun _ => .err (by simp)) fun _ =>
        ih _ (by omega)) fun _ => ih _ (by omega)
    unfold idx
    rw [List.getElem?_eq_getElem (by omega : p - i < v.length)]
    exact .ok

theorem idx_clean {E : List Err} {v : Str} {i : Nat} (h : i < v.length) : Errs E (idx v i) := by
  unfold idx
  rw [List.getElem?_eq_getElem h]
  exact .ok

theorem clean_checkZihevlaOrRafsi {R : Rec} {rz : Bool} {y : YHyphens} {ex mz : Bool} {v : Str} (hne : v ≠ [])
    (hs : ∃ t, R.slinkuhi y mz v = .ok t)
    (hd : ∀ j, 0 < j → j < v.length → ∀ s, Errs [.notBrivla] (R.analyse s (v.drop j))) :
    Errs [.notZihevla] (checkZihevlaOrRafsi R rz y ex mz v) := by
  have hz : Err.notZihevla ∈ [Err.notZihevla] := by simp
  have h0 : 0 < v.length := List.length_pos_iff.2 hne
  obtain ⟨sl, hsl⟩ := hs
  unfold checkZihevlaOrRafsi
  refine .ite (fun _ => .err hz) fun _ => .bind (errs_zihScan (by omega)) fun st hst => ?_
  have hcl : ∀ p, st.clusterPos = some p → p + 1 < v.length := by
    intro p hp
    obtain ⟨-, -, c3⟩ := zihScan_cluster (pre := []) hst rfl rfl rfl
      (fun _ a b hab => by obtain ⟨x, z, e⟩ := hab; simp at e) (by simp) (fun hh => absurd rfl hh)
    obtain ⟨u, ch, t, hF, e⟩ := c3 (by rw [hp]; simp)
    rw [hp] at e
    cases e
    have := hF.long
    rw [hF.eq]
    simp
    omega
  refine .ite (fun _ => .err hz) fun _ => .bind ?_ fun _ _ => ?_
  · split
    · rename_i p hp
      have hpl := hcl p hp
      refine .ite (fun h1 => ?_) fun _ => .ok
      obtain ⟨t, ht⟩ := clean_isBrivlaR (hd p h1.2 (by omega) { yHyphens := y })
      rw [ht]
      exact .bind .ok fun _ _ => .ite (fun _ => .err hz)
        fun _ => clean_fallsApartBefore (by omega) hd _ _ (by omega)
    · exact .ok
  · split
    · refine .ite (fun _ => .err hz) fun _ => .bind (idx_clean h0) fun c _ => .ite (fun _ => .err hz) fun _ =>
        .ite (fun _ => .err hz) fun _ => .ite (fun _ => .err hz) fun _ => .ok
    · rename_i p hp
      have hpl := hcl p hp
      refine .bind (idx_clean h0) fun c _ => .bind (.ite (fun _ => .bind (idx_clean (by omega)) fun _ _ => .ok) fun _ => .ok)
        fun sk _ => .ite (fun _ => ?_) fun _ => .ok
      rw [hsl]
      exact .bind .ok fun _ _ => .ite (fun _ => .err hz) fun _ => .ok

theorem clean_analyseNorm {s : Settings} {w : Str}
    (hd : ∀ j, 0 < j → j < w.length → ∀ s, Errs [.notBrivla] ((program .linked).analyse s (w.drop j)))
    (hy : 'y' ∉ w) : Errs [.notBrivla] (analyseNorm (program .linked) s w) := by
  have h1 : Err.notBrivla ∈ [Err.notBrivla] := by simp
  unfold analyseNorm
  split
  · rename_i c0 l hc0 hl
    refine .ite (fun _ => .err h1) fun hcv => .ite (fun _ => .err h1) fun _ => .ite (fun _ => .ok) fun _ => ?_
    have hrest : Errs [.notBrivla] (analyseRest (program .linked) s (isConsonant l) c0 w) := by
      unfold analyseRest
      refine .ite (fun _ => .err h1) fun hc => .ite (fun _ => .ite (fun _ => .err h1) fun hlc => ?_) fun hn => ?_
      · have hv : isVowel l = true := by
          cases hv : isVowel l with
          | true => rfl
          | false => simp [hv, hlc] at hcv
        have := clean_checkZihevlaOrRafsi (R := program .linked) (rz := true) (y := s.yHyphens) (ex := s.expRafsi) (mz := s.allowMz)
          (v := w) (by rintro rfl; cases hc0) (slinkuhi_vowel ⟨l, hl, (isVowel_iff l).1 hv⟩) hd
        split
        · exact .ok
        · exact .err h1
        · rename_i e hne he
          have := this e he
          simp at this
          exact absurd this hne
      · rw [splitOn_of_not_mem hy] at hn; exact absurd rfl hn
    split
    · exact .ok
    · exact hrest
    · exact hrest
    · exact hrest
    · rename_i e h3 h4 h5 he
      have := errs_jvokaha (R := program .linked) (fun v _ => (good_program .linked 0).slinkuhi _ _ _) e he
      refine .err ?_
      simp only [jvokahaErrs, kahaErrs, program_build, nameErrs, List.append_nil, List.mem_cons, List.not_mem_nil, or_false] at this ⊢
      rcases this with h | h | h | h
      · exact absurd h h3
      · exact absurd h h4
      · exact h
      · exact absurd h h5
  · exact .err h1

theorem clean_normal : ∀ (n : Nat) (s : Settings) (v : Str), v.length ≤ n → v ≠ [] → 'y' ∉ v →
    (∀ d ∈ v, readChar d = [d]) → Errs [.notBrivla] (analyseBrivla .linked s v) := by
  intro n
  induction n with
  | zero =>
    intro s v hv hne _ _
    exact absurd (List.length_eq_zero_iff.1 (Nat.le_zero.1 hv)) hne
  | succ n ih =>
    intro s v hv hne hy hst
    rw [analyseBrivla_program]
    unfold analyseR
    rw [normalise_eq hne, ok_bind]
    have hl := reading_length_stable hst
    refine clean_analyseNorm (fun j hj hjl s => ?_) (fun h => hy (reading_sub hst _ h))
    rw [program_analyse]
    refine ih s _ ?_ ?_ (fun h => hy (reading_sub hst _ (List.mem_of_mem_drop h))) (fun d h =>
      hst d (reading_sub hst _ (List.mem_of_mem_drop h)))
    · rw [List.length_drop]; omega
    · intro h
      have := congrArg List.length h
      rw [List.length_drop] at this
      simp at this
      omega

/-- `analyse_brivla` on a non-empty string that is read without `y`. -/
theorem clean_analyse {s : Settings} {w : Str} (hne : w ≠ []) (hy : 'y' ∉ reading w) :
    Errs [.notBrivla] (analyseBrivla .linked s w) := by
  rw [analyseBrivla_program]
  unfold analyseR
  rw [normalise_eq hne, ok_bind]
  refine clean_analyseNorm (fun j hj hjl s => ?_) hy
  rw [program_analyse]
  refine clean_normal _ s _ (Nat.le_refl _) ?_ (fun h => hy (List.mem_of_mem_drop h)) (fun d h => ?_)
  · intro h
    have := congrArg List.length h
    rw [List.length_drop] at this
    simp at this
    omega
  · exact reading_chars (List.mem_of_mem_drop h)

end Jvotci
