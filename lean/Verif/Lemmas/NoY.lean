import Verif.Lemmas.Fix
import Verif.Lemmas.Groups

/-!
# Helper lemmas: words without `y` do not make `analyse_brivla` raise `DecompositionError`
-/

namespace Jvotci

open Spec

/-- The exceptions of `analyse_brivla` on a word without `y`. -/
def plainErrs (b : Build) : List Err := [.notBrivla, .index] ++ nameErrs b

/-- The exceptions of `check_zihevla_or_rafsi` on a word without `y`. -/
def plainZihErrs (b : Build) : List Err := [.notZihevla, .notBrivla, .index] ++ nameErrs b

theorem plain_isBrivlaR {R : Rec} {s : Settings} {v : Str} (h : Errs (plainErrs R.build) (R.analyse s v)) :
    Errs ([.index] ++ nameErrs R.build) (isBrivlaR R s v) := by
  unfold isBrivlaR
  split
  · exact .ok
  · exact .ok
  · rename_i e h1 h2
    intro e' he
    cases he
    have := h e h2
    simp only [plainErrs, List.mem_append, List.mem_cons, List.not_mem_nil, or_false] at this ⊢
    rcases this with (h3 | h3) | h3
    · exact absurd h3 h1
    · simp [h3]
    · simp [h3]

theorem plain_fallsApartBefore {R : Rec} {y : YHyphens} {v : Str} {p : Nat}
    (h : ∀ j, 0 < j → ∀ s, Errs (plainErrs R.build) (R.analyse s (v.drop j))) : ∀ k i, i + k ≤ p →
    (∀ j, i ≤ j → j < i + k → j < p) →
    Errs (plainZihErrs R.build) (fallsApartBefore R y v p k i) := by
  intro k
  induction k with
  | zero => intro i _ _; exact .ok
  | succ k ih =>
    intro i hi hj
    unfold fallsApartBefore
    have h0 := hj i (by omega) (by omega)
    refine .bind (errs_idx (by simp [plainZihErrs]) _ _) fun c _ => .ite (fun _ => .bind
      ((plain_isBrivlaR (h (p - i) (by omega) _)).mono ?_) fun _ _ => .ite (fun _ => .err (by simp [plainZihErrs])) fun _ =>
        ih _ (by omega) (fun j h1 h2 => hj j (by omega) (by omega))) fun _ =>
        ih _ (by omega) (fun j h1 h2 => hj j (by omega) (by omega))
    intro e he
    simp only [plainZihErrs, List.mem_append, List.mem_cons] at he ⊢
    rcases he with (h | h) | h <;> simp_all

theorem plain_checkZihevlaOrRafsi {R : Rec} {rz : Bool} {y : YHyphens} {ex mz : Bool} {v : Str}
    (hs : ∀ y mz v, Errs (slinkuhiErrs R.build) (R.slinkuhi y mz v))
    (hd : ∀ j, 0 < j → ∀ s, Errs (plainErrs R.build) (R.analyse s (v.drop j))) :
    Errs (plainZihErrs R.build) (checkZihevlaOrRafsi R rz y ex mz v) := by
  have hz : .notZihevla ∈ plainZihErrs R.build := by simp [plainZihErrs]
  have hi : .index ∈ plainZihErrs R.build := by simp [plainZihErrs]
  have hsub : ∀ e ∈ [Err.index] ++ nameErrs R.build, e ∈ plainZihErrs R.build := by
    intro e he
    simp only [plainZihErrs, List.mem_append, List.mem_cons] at he ⊢
    rcases he with (h | h) | h <;> simp_all
  have hsub2 : ∀ e ∈ slinkuhiErrs R.build, e ∈ plainZihErrs R.build := by
    intro e he
    simp only [plainZihErrs, slinkuhiErrs, List.mem_append, List.mem_cons] at he ⊢
    rcases he with (h | h | h) | h <;> simp_all
  unfold checkZihevlaOrRafsi
  refine .ite (fun _ => .err hz) fun _ => .bind ((errs_zihScan (by omega)).mono (by simp [plainZihErrs])) fun st _ =>
    .ite (fun _ => .err hz) fun _ => .bind ?_ fun _ _ => ?_
  · split
    · rename_i p hp
      refine .ite (fun h1 => .bind ((plain_isBrivlaR (hd p h1.2 _)).mono hsub) fun _ _ => .ite (fun _ => .err hz)
        fun _ => plain_fallsApartBefore hd _ _ (by omega) (by intro j h2 h3; omega)) fun _ => .ok
    · exact .ok
  · split
    · refine .ite (fun _ => .err hz) fun _ => .bind (errs_idx hi _ _) fun c _ => .ite (fun _ => .err hz) fun _ =>
        .ite (fun _ => .err hz) fun _ => .ite (fun _ => .err hz) fun _ => .ok
    · refine .bind (errs_idx hi _ _) fun c _ => .bind (.ite (fun _ => .bind (errs_idx hi _ _) fun _ _ => .ok) fun _ => .ok)
        fun sk _ => .ite (fun _ => .bind ((hs _ _ _).mono hsub2) fun _ _ => .ite (fun _ => .err hz) fun _ => .ok)
        fun _ => .ok

theorem plain_analyseNorm {R : Rec} {s : Settings} {w : Str}
    (hs : ∀ y mz v, Errs (slinkuhiErrs R.build) (R.slinkuhi y mz v))
    (hd : ∀ j, 0 < j → ∀ s, Errs (plainErrs R.build) (R.analyse s (w.drop j)))
    (hy : 'y' ∉ w) : Errs (plainErrs R.build) (analyseNorm R s w) := by
  have h1 : .notBrivla ∈ plainErrs R.build := by simp [plainErrs]
  unfold analyseNorm
  split
  · rename_i c0 l hc0 hl
    refine .ite (fun _ => .err h1) fun hcv => .ite (fun _ => .err h1) fun _ => .ite (fun _ => .ok) fun _ => ?_
    have hrest : Errs (plainErrs R.build) (analyseRest R s (isConsonant l) c0 w) := by
      unfold analyseRest
      refine .ite (fun _ => .err h1) fun hc => .ite (fun _ => .ite (fun _ => .err h1) fun _ => ?_) fun hn => ?_
      · split
        · exact .ok
        · exact .err h1
        · rename_i e hne he
          have := plain_checkZihevlaOrRafsi hs hd e he
          refine .err ?_
          simp only [plainZihErrs, plainErrs, List.mem_append, List.mem_cons, List.not_mem_nil, or_false] at this ⊢
          rcases this with (h | h | h) | h
          · exact absurd h hne
          all_goals simp [h]
      · rw [splitOn_of_not_mem hy] at hn; exact absurd rfl hn
    split
    · exact .ok
    · exact hrest
    · exact hrest
    · exact hrest
    · rename_i e h3 h4 h5 he
      have := errs_jvokaha (R := R) (fun v _ => hs _ _ _) e he
      refine .err ?_
      simp only [jvokahaErrs, kahaErrs, plainErrs, List.mem_append, List.mem_cons, List.not_mem_nil, or_false] at this ⊢
      rcases this with (h | h | h | h) | h
      · exact absurd h h3
      · exact absurd h h4
      · simp [h]
      · exact absurd h h5
      · simp [h]
  · exact .err h1

theorem reading_sub {v : Str} (hst : ∀ d ∈ v, readChar d = [d]) : ∀ d ∈ reading v, d ∈ v := by
  unfold reading
  split
  · rw [flatMap_readChar_stable (fun d hd => hst d (by simp [hd]))]; simp +contextual
  · rw [flatMap_readChar_stable hst]; simp

/-- A normalised word without `y` does not make `analyse_brivla` raise `DecompositionError`. -/
theorem plain_analyse (b : Build) : ∀ (n : Nat) (s : Settings) (v : Str), v.length ≤ n → 'y' ∉ v →
    (∀ d ∈ v, readChar d = [d]) → Errs (plainErrs b) (analyseBrivla b s v) := by
  intro n
  induction n with
  | zero =>
    intro s v hv _ _
    have : v = [] := by cases v with
      | nil => rfl
      | cons => simp at hv
    subst this
    rw [analyseBrivla_program]
    exact .err (by simp [plainErrs])
  | succ n ih =>
    intro s v hv hy hst
    rw [analyseBrivla_program]
    unfold analyseR
    refine .bind ((errs_normalise v).mono (by simp [plainErrs])) fun m hm => ?_
    obtain ⟨hne, rfl⟩ := normalise_ok hm
    have := plain_analyseNorm (R := program b) (s := s) (w := reading v) (fun y mz v => (good_program b 0).slinkuhi y mz v)
      (fun j hj s => by
        rw [program_build, program_analyse]
        refine ih s _ ?_ (fun h => hy (reading_sub hst _ (List.mem_of_mem_drop h))) (fun d h =>
          hst d (reading_sub hst _ (List.mem_of_mem_drop h)))
        have := reading_length_stable hst
        rw [List.length_drop]; omega)
      (fun h => hy (reading_sub hst _ h))
    rwa [program_build] at this

theorem plain_isBrivla {b : Build} {s : Settings} {v : Str} (hy : 'y' ∉ v) (hst : ∀ d ∈ v, readChar d = [d]) :
    Errs ([.index] ++ nameErrs b) (isBrivla b s v) := by
  have h := plain_analyse b v.length s v (Nat.le_refl _) hy hst
  unfold isBrivla
  split
  · exact .ok
  · exact .ok
  · rename_i e h1 h2
    intro e' he
    cases he
    have := h e h2
    simp only [plainErrs, List.mem_append, List.mem_cons, List.not_mem_nil, or_false] at this ⊢
    rcases this with (h3 | h3) | h3
    · exact absurd h3 h1
    · simp [h3]
    · simp [h3]

/-! ## The pieces that are not hyphens have no `y` -/

theorem rafsi_no_y {mz : Bool} {p : Str} (h : Rafsi mz p) : 'y' ∉ p := by
  have hc : ∀ {c}, Consonant c → 'y' ≠ c := fun h e => (consonant_ne_y h).1 e.symm
  have hv : ∀ {c}, Vowel c → 'y' ≠ c := fun h e => (vowel_ne_y' h).1 e.symm
  have hi : ∀ {a b}, InitialPair a b → 'y' ≠ a ∧ 'y' ≠ b := by
    intro a b h
    have : ∀ p ∈ initialPairs, 'y' ∉ p := by decide
    have := this _ h
    simpa using this
  cases h with
  | cvv a b c => simp [hc a, hv b, hv c]
  | cvhv a b c => simp [hc a, hv b, hv c]
  | cvc a b c => simp [hc a, hv b, hc c]
  | ccv a b => simp [hi a, hv b]
  | cvcc a b c => simp [hc a, hv b, hc c.1, hc c.2.1]
  | ccvc a b c => simp [hi a, hv b, hc c]
  | gismu h =>
    cases h with
    | cvccv a b c d => simp [hc a, hv b, hc c.1, hc c.2.1, hv d]
    | ccvcv a b c d => simp [hi a, hv b, hc c, hv d]

theorem Chop.no_y {y : YHyphens} {mz : Bool} {prev : Option Str} {ps : List Str} (h : Chop y mz prev ps) :
    ∀ p ∈ ps, Hyphen p ∨ 'y' ∉ p := by
  intro p hp
  obtain ⟨u, v, e⟩ := List.append_of_mem hp
  rcases h.cut e with h | h
  · exact .inl h
  · exact .inr (rafsi_no_y h.1.rafsi)

/-- Every piece is a hyphen or has no `y`; the pending hyphen is empty or an apostrophe. -/
def PlainParts (st : AState) : Prop :=
  (∀ p ∈ st.resultParts, Hyphen p ∨ 'y' ∉ p) ∧ (st.nextHyphen = [] ∨ st.nextHyphen = s%"'")

theorem analysePart_plain {R : Rec} {ctx : ACtx} {i : Nat} {part0 : Str} {st st' : AState}
    (h : analysePart R ctx i part0 st = .ok st') (hy : 'y' ∉ part0) (hp : PlainParts st) : PlainParts st' := by
  obtain ⟨part, lead, hs, hcase⟩ := analysePart_ok h
  obtain ⟨hne, h0, hlead, -⟩ := stripLeadingH_ok hs
  have hyp : 'y' ∉ part := by
    intro hm; apply hy; rw [h0]; cases lead <;> simp [hm]
  have hw : ∀ p ∈ withHyphen i st lead, Hyphen p ∨ 'y' ∉ p := by
    intro p hpm
    unfold withHyphen at hpm
    split at hpm
    · exact hp.1 p hpm
    · rcases List.mem_append.1 hpm with h | h
      · exact hp.1 p h
      · simp only [List.mem_singleton] at h
        rw [h]
        unfold hyphenBefore
        by_cases hi : i = 0
        · right; rcases hp.2 with e | e <;> cases lead <;> simp [hi, e]
        · left; rcases hp.2 with e | e <;> cases lead <;> simp [hi, e, Hyphen]
  have hadd : ∀ G : List Str, (∀ p ∈ G, Hyphen p ∨ 'y' ∉ p) → ∀ p ∈ withHyphen i st lead ++ G, Hyphen p ∨ 'y' ∉ p := by
    intro G hG p hpm
    rcases List.mem_append.1 hpm with h | h
    · exact hw p h
    · exact hG p h
  rcases hcase with ⟨-, rfl⟩ | ⟨-, c0, f, found, did, hc0, hf, hfd, hcase⟩
  · exact ⟨hadd [part] (by simpa using .inr hyp), .inl rfl⟩
  · obtain ⟨hpart, -, -, -, -, -, -, hcr, -⟩ := partForm_ok hf
    have hyc : 'y' ∉ f.partCopy := by
      intro hm; apply hyp; rw [hpart]; simp [hm]
    have hnh : (if f.trailingH then s%"'" else ([] : Str)) = [] ∨ (if f.trailingH then s%"'" else ([] : Str)) = s%"'" := by
      cases f.trailingH <;> simp
    rcases hcase with ⟨hd, -, -, rfl⟩ | ⟨hd, shape, p0, -, -, -, rfl⟩
    · subst hd
      have hcan : f.canBeRafsi = true := by
        cases hcb : f.canBeRafsi with
        | true => rfl
        | false => rw [hcb] at hfd; simp at hfd
      rw [if_pos hcan] at hfd
      exact ⟨hadd _ (jvokaha2_ok ((tryKaha_ok hfd).1 rfl).1).2.no_y, hnh⟩
    · exact ⟨hadd [f.partCopy] (by simpa using .inr hyc), hnh⟩

theorem analyseLoop_plain {R : Rec} {ctx : ACtx} : ∀ {parts : List Str} {i : Nat} {st st' : AState},
    analyseLoop R ctx i parts st = .ok st' → (∀ p ∈ parts, 'y' ∉ p) → PlainParts st → PlainParts st' := by
  intro parts
  induction parts with
  | nil => intro i st st' h _ hp; cases h; exact hp
  | cons p ps ih =>
    intro i st st' h hy hp
    unfold analyseLoop at h
    obtain ⟨st1, h1, h2⟩ := bind_ok h
    exact ih h2 (fun q hq => hy q (by simp [hq])) (analysePart_plain h1 (hy p (by simp)) hp)

theorem Accepts.no_y {R : Rec} {s : Settings} {w : Str} {t : BType} {ps : List Str} (h : Accepts R s w t ps) :
    ∀ p ∈ ps, Hyphen p ∨ 'y' ∉ p := by
  cases h with
  | gismu hl hv hg => 
    intro p hp
    simp only [List.mem_singleton] at hp
    subst hp
    exact .inr (rafsi_no_y (.gismu (isGismu_iff.1 hg)))
  | kaha hl _ _ hcv hj => exact (jvokaha_made hj).2.1.no_y
  | zihevla _ _ _ _ _ hy _ => intro p hp; simp only [List.mem_singleton] at hp; subst hp; exact .inr hy
  | parts hc0 hl hc _ _ hcv _ _ hlen hst =>
    exact (analyseLoop_plain hst (splitOn_not_mem 'y' w) ⟨by simp, .inl rfl⟩).1

end Jvotci
