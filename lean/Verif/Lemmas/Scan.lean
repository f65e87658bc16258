import Verif.Lemmas.Syll

/-!
# Helper lemmas: the scan of a zi'evla looks at its runs of letters
-/

namespace Jvotci

open Spec

section runs

variable {P : Char → Prop} {v : Str}

theorem run_same {u x t u' x' t' : Str} (h : Run P v u x t) (h' : Run P v u' x' t') (hl : u.length = u'.length) :
    u = u' ∧ x = x' ∧ t = t' := by
  have e := h.eq
  rw [h'.eq, List.append_assoc, List.append_assoc] at e
  obtain ⟨hu, e⟩ := List.append_inj e hl.symm
  refine ⟨hu.symm, ?_⟩
  rcases List.append_eq_append_iff.1 e with ⟨y, e1, e2⟩ | ⟨y, e1, e2⟩
  · cases y with
    | nil => simp at e1 e2; exact ⟨e1, e2.symm⟩
    | cons c y => exact absurd (h.all c (by rw [e1]; simp)) (h'.after c (by rw [e2]; rfl))
  · cases y with
    | nil => simp at e1 e2; exact ⟨e1.symm, e2⟩
    | cons c y => exact absurd (h'.all c (by rw [e1]; simp)) (h.after c (by rw [e2]; rfl))

/-- A letter that is not of the kind of the letters of a stretch does not stand in it. -/
theorem beyond {pre chunk rest u t : Str} {c : Char} {Q : Char → Prop} (e : v = pre ++ chunk ++ rest) (hq : ∀ c ∈ chunk, Q c)
    (e' : v = u ++ c :: t) (hc : ¬ Q c) (hl : pre.length ≤ u.length) : (pre ++ chunk).length ≤ u.length := by
  apply Nat.le_of_not_lt
  intro hlt
  have h1 : v[u.length]? = some c := by rw [e']; simp
  have h2 : v[u.length]? = chunk[u.length - pre.length]? := by
    rw [e, List.getElem?_append_left hlt, List.getElem?_append_right hl]
  rw [h1] at h2
  exact hc (hq c (List.mem_of_getElem? h2.symm))

/-- Runs of the same kind do not overlap. -/
theorem run_beyond {u x t u' x' t' : Str} (h : Run P v u x t) (h' : Run P v u' x' t') (hl : u.length < u'.length) :
    (u ++ x).length ≤ u'.length := by
  obtain ⟨w, c, rfl⟩ : ∃ w c, u' = w ++ [c] := by
    have hne : u' ≠ [] := by rintro rfl; simp at hl
    exact ⟨_, _, (List.dropLast_concat_getLast hne).symm⟩
  have hc := h'.before c (by simp)
  have := beyond (u := w) (t := x' ++ t') h.eq h.all (by rw [h'.eq]; simp) hc (by simp at hl; omega)
  simp at this ⊢
  omega

end runs

theorem run_of_split {p : Char → Bool} {P : Char → Prop} (hp : ∀ c, p c = true ↔ P c) {v pre : Str} {c : Char} {cs : Str}
    (hv : v = pre ++ c :: cs) (hc : p c = true) (hb : ∀ a, pre.getLast? = some a → ¬ P a) :
    Run P v pre ((c :: cs).takeWhile p) ((c :: cs).dropWhile p) := by
  refine ⟨by rw [hv, List.append_assoc, List.takeWhile_append_dropWhile], takeWhile_ne_nil hc,
    fun d hd => (hp d).1 (takeWhile_all d hd), hb, ?_⟩
  intro d hd h
  have := dropWhile_head hd
  rw [(hp d).2 h] at this
  cases this

/-- What the scan says of the runs it meets. -/
theorem zihScan_runs {mz : Bool} {v : Str} : ∀ {fuel : Nat} {rest pre : Str} {st st' : ZState},
    zihScan mz v fuel rest st = .ok st' → v = pre ++ rest → st.pos = pre.length →
    (∀ a b, pre.getLast? = some a → rest.head? = some b → ¬ (Consonant a ∧ Consonant b) ∧ ¬ (Vowel a ∧ Vowel b)) →
    (∀ u ch t, Run Consonant v u ch t → pre.length ≤ u.length →
      (∀ a b t, ch = a :: b :: t → PermissiblePair mz a b) ∧
      (u = [] → InitialCluster ch) ∧ (u ≠ [] → MiddleCluster ch)) ∧
    (∀ u x t, Run Vowel v u x t → pre.length ≤ u.length → ∃ syls, syls.flatten = x ∧ VowelRun syls ∧
      (u ≠ [] → ∀ s, syls.head? = some s → ¬ Glided s)) := by
  intro fuel
  induction fuel with
  | zero => intro rest pre st st' h; cases h
  | succ fuel ih =>
    intro rest pre st st' h hv hp hadj
    cases rest with
    | nil =>
      simp at hv
      subst hv
      have : ∀ {P u x t}, Run P v u x t → ¬ v.length ≤ u.length := by
        intro P u x t h hl
        have := congrArg List.length h.eq
        simp at this
        have := List.length_pos_iff.2 h.some
        omega
      exact ⟨fun u ch t h hl => absurd hl (this h), fun u ch t h hl => absurd hl (this h)⟩
    | cons c cs =>
      unfold zihScan at h
      split at h
      · rename_i hc
        obtain ⟨st1, h1, h⟩ := bind_ok h
        obtain ⟨rfl, hfew, -, hbad, -, hinit, hmid⟩ := zihConsonants_ok h1
        have hr := run_of_split isConsonant_iff hv hc (fun a ha hca => (hadj a c ha rfl).1 ⟨hca, (isConsonant_iff c).1 hc⟩)
        generalize (c :: cs).takeWhile isConsonant = chunk at *
        generalize (c :: cs).dropWhile isConsonant = rest' at *
        obtain ⟨ih1, ih2⟩ := ih (pre := pre ++ chunk) h hr.eq (by simp [hp]) (by
          intro a b ha hb
          rw [getLast?_append_ne _ hr.some] at ha
          have hca := hr.all a (getLast_mem ha)
          exact ⟨fun h => hr.after b hb h.2, fun h => consonant_not_vowel hca h.1⟩)
        constructor
        · intro u ch t hrun hl
          rcases Nat.lt_or_ge pre.length u.length with hlt | hge
          · exact ih1 u ch t hrun (run_beyond hr hrun hlt)
          · obtain ⟨rfl, rfl, rfl⟩ := run_same hr hrun (by omega)
            have hall : ∀ x ∈ chunk, isConsonant x = true := fun x hx => (isConsonant_iff x).2 (hr.all x hx)
            have hpair : ∀ a b t, chunk = a :: b :: t → PermissiblePair mz a b := by
              rintro a b t rfl
              exact hasBadPair_ok hbad a b ⟨[], t, rfl⟩ (hr.all a (by simp)) (hr.all b (by simp))
            refine ⟨hpair, ?_, ?_⟩
            · rintro rfl
              exact (initial_iff hall hr.some).1 (hinit hp)
            · intro hne
              refine (middle_iff hall hpair).1 (hmid ?_)
              have := List.length_pos_iff.2 hne
              omega
        · intro u x t hrun hl
          refine ih2 u x t hrun ?_
          obtain ⟨d, x', rfl⟩ := List.exists_cons_of_ne_nil hrun.some
          exact beyond (t := x' ++ t) hr.eq hr.all (by rw [hrun.eq]; simp) (vowel_not_consonant (hrun.all d (by simp))) hl
      · split at h
        · rename_i hvw
          obtain ⟨st1, h1, h⟩ := bind_ok h
          obtain ⟨sy, hsy, rfl, hfv⟩ := zihVowels_ok h1
          have hr := run_of_split isVowel_iff hv hvw (fun a ha hca => (hadj a c ha rfl).2 ⟨hca, (isVowel_iff c).1 hvw⟩)
          generalize (c :: cs).takeWhile isVowel = chunk at *
          generalize (c :: cs).dropWhile isVowel = rest' at *
          obtain ⟨ih1, ih2⟩ := ih (pre := pre ++ chunk) h hr.eq (by simp [hp]) (by
            intro a b ha hb
            rw [getLast?_append_ne _ hr.some] at ha
            have hca := hr.all a (getLast_mem ha)
            exact ⟨fun h => vowel_not_consonant hca h.1, fun h => hr.after b hb h.2⟩)
          constructor
          · intro u x t hrun hl
            refine ih1 u x t hrun ?_
            obtain ⟨d, x', rfl⟩ := List.exists_cons_of_ne_nil hrun.some
            exact beyond (t := x' ++ t) hr.eq hr.all (by rw [hrun.eq]; simp) (consonant_not_vowel (hrun.all d (by simp))) hl
          · intro u x t hrun hl
            rcases Nat.lt_or_ge pre.length u.length with hlt | hge
            · exact ih2 u x t hrun (run_beyond hr hrun hlt)
            · obtain ⟨rfl, rfl, rfl⟩ := run_same hr hrun (by omega)
              obtain ⟨e, hvr⟩ := splitVowelCluster_iff.1 hsy
              refine ⟨sy, e, hvr, ?_⟩
              intro hne s hs hg
              obtain ⟨ss, rfl⟩ : ∃ ss, sy = s :: ss := by
                cases sy with
                | nil => cases hs
                | cons a ss => cases hs; exact ⟨ss, rfl⟩
              have := List.length_pos_iff.2 hne
              exact hfv (by omega) s ss rfl (mem_follow.2 hg)
        · split at h
          · rename_i hap
            subst hap
            obtain ⟨hb1, h⟩ := ite_error_ok h
            obtain ⟨hb2, h⟩ := ite_error_ok h
            obtain ⟨ih1, ih2⟩ := ih (pre := pre ++ ['\'']) h (by rw [hv]; simp) (by simp [hp]) (by
              intro a b ha hb
              simp at ha
              subst ha
              exact ⟨fun h => apos_not_consonant h.1, fun h => apos_not_vowel h.1⟩)
            constructor
            · intro u x t hrun hl
              refine ih1 u x t hrun ?_
              obtain ⟨d, x', rfl⟩ := List.exists_cons_of_ne_nil hrun.some
              exact beyond (v := v) (u := u) (c := d) (rest := cs) (t := x' ++ t) (Q := (· = '\'')) (by rw [hv]; simp) (by simp) (by rw [hrun.eq]; simp)
                (by rintro rfl; exact apos_not_consonant (hrun.all _ (by simp))) hl
            · intro u x t hrun hl
              refine ih2 u x t hrun ?_
              obtain ⟨d, x', rfl⟩ := List.exists_cons_of_ne_nil hrun.some
              exact beyond (v := v) (u := u) (c := d) (rest := cs) (t := x' ++ t) (Q := (· = '\'')) (by rw [hv]; simp) (by simp) (by rw [hrun.eq]; simp)
                (by rintro rfl; exact apos_not_vowel (hrun.all _ (by simp))) hl
          · cases h

theorem zihScan_sounds {mz : Bool} {v : Str} {st : ZState} (h : zihScan mz v (v.length + 1) v {} = .ok st) : Sounds mz v := by
  obtain ⟨h1, h2⟩ := zihScan_runs (pre := []) h rfl rfl (by simp)
  obtain ⟨w1, w2, w3, w4, w5⟩ := zihScan_wf (pre := []) h rfl rfl
  refine ⟨?_, ?_, w1.pairs, w1.triples, fun ch t hr => (h1 [] ch t hr (by simp)).2.1 rfl, fun u ch t hr => (h1 u ch t hr (by simp)).2.2,
    fun u x t hr => h2 u x t hr (by simp)⟩
  · intro c hc
    rcases w1.letters c hc with h | h | h | h
    · exact .inl h
    · exact .inr (.inl h)
    · exact .inr (.inr h)
    · exact absurd h (w3 c hc)
  · rintro u t rfl
    constructor
    · rcases List.eq_nil_or_concat u with rfl | ⟨u, a, rfl⟩
      · have := w4 rfl
        simp at this
      · refine ⟨a, by simp, ?_⟩
        rcases (w2 a '\'' ⟨u, t, by simp⟩).1 rfl with h | h
        · exact h
        · exact absurd h (w3 a (by simp))
    · cases t with
      | nil => exact absurd (by simp) w5
      | cons b t =>
        refine ⟨b, rfl, ?_⟩
        rcases (w2 '\'' b ⟨u, t, rfl⟩).2 rfl with h | h
        · exact h
        · exact absurd h (w3 b (by simp))

/-! ## The scan succeeds -/

theorem hasBadPair_of {mz : Bool} : ∀ {w : Str}, (∀ c ∈ w, Consonant c) → AdjAll (PairOk mz) w → hasBadPair (validPairs mz) w = false := by
  intro w
  induction w with
  | nil => intro _ _; rfl
  | cons a w ih =>
    intro hc h
    match w, ih, hc, h with
    | [], _, _, _ => rfl
    | b :: w, ih, hc, h =>
      rw [hasBadPair, validPairs_contains.2 (h a b ⟨[], w, rfl⟩ (hc a (by simp)) (hc b (by simp))),
        ih (fun c hx => hc c (by simp [hx])) (fun x y ⟨u, t, e⟩ => h x y ⟨a :: u, t, by rw [e]; rfl⟩)]
      rfl

theorem hasBannedTriple_of : ∀ {w : Str}, NoTriple w → hasBannedTriple w = false := by
  intro w
  induction w with
  | nil => intro _; rfl
  | cons a w ih =>
    intro h
    match w, ih, h with
    | [], _, _ => rfl
    | [b], _, _ => rfl
    | b :: c :: w, ih, h =>
      obtain ⟨h1, h2⟩ := noTriple_cons.1 h
      rw [hasBannedTriple, Bool.or_eq_false_iff, banned_table]
      exact ⟨by simpa using h1, ih h2⟩

theorem zihConsonants_of {mz : Bool} {chunk : Str} {st : ZState}
    (h1 : chunk.length ≥ 2 → st.clusterPos = none → st.numConsonants ≤ 1)
    (h2 : chunk.length ≥ 2 → st.numSyllables = 0 → INITIAL.contains (slice chunk 0 2) = true)
    (h3 : hasBadPair (validPairs mz) chunk = false) (h4 : hasBannedTriple chunk = false)
    (h5 : st.pos = 0 → isZihevlaInitialCluster chunk = true)
    (h6 : st.pos ≠ 0 → isZihevlaMiddleCluster chunk = true) :
    zihConsonants mz chunk st = .ok
      { pos := st.pos + chunk.length, numSyllables := st.numSyllables,
        clusterPos := if chunk.length ≥ 2 ∧ st.clusterPos = none then some st.pos else st.clusterPos,
        numConsonants := st.numConsonants + chunk.length, finalConsonantPos := st.pos } := by
  unfold zihConsonants
  rw [if_neg (by rintro ⟨a, b, c⟩; have := h1 a b; omega)]
  dsimp only
  rw [if_neg (by rintro ⟨a, b, c⟩; rw [h2 b a] at c; cases c), if_neg (by rw [h3]; simp), if_neg (by rw [h4]; simp),
    if_neg (by rintro ⟨a, b⟩; rw [h5 a] at b; cases b), if_neg (by rintro ⟨a, b⟩; rw [h6 a] at b; cases b)]

theorem zihVowels_of {v chunk : Str} {st : ZState} {sy : List Str} (h1 : splitVowelCluster chunk = .ok sy)
    (h2 : st.clusterPos = none → (if st.pos = 0 then v.getLast? else v[st.pos - 1]?) ≠ some '\'' → 2 ≤ sy.length →
      st.pos + chunk.length ≠ v.length)
    (h3 : st.pos ≠ 0 → ∀ s, sy.head? = some s → ¬ Glided s) :
    zihVowels v chunk st = .ok { st with pos := st.pos + chunk.length, numSyllables := st.numSyllables + sy.length } := by
  have e : (join sy) = chunk := by
    have := (splitVowelCluster_iff.1 h1).1
    rw [← this]
    rfl
  unfold zihVowels
  rw [h1]
  dsimp only
  rw [if_neg (by rintro ⟨a, a2, a3, b⟩; rw [e] at b; exact h2 a a2 a3 b), if_neg]
  intro h
  simp only [Bool.and_eq_true, bne_iff_ne, ne_eq] at h
  cases sy with
  | nil => simp at h
  | cons s ss =>
    refine h3 h.1 s rfl (mem_follow.1 ?_)
    simpa using h.2

theorem zihScan_of {mz : Bool} {v : Str} (hS : Sounds mz v)
    (hcl : (∃ a b, Adjacent v a b ∧ Consonant a ∧ Consonant b) ∨
      ∀ u x, Run Vowel v u x [] → u.getLast? ≠ some '\'' → ∀ syls, syls.flatten = x → VowelRun syls → syls.length ≤ 1)
    (hfew : ∀ u ch t, Run Consonant v u ch t → 2 ≤ ch.length → (∀ a b, Adjacent u a b → ¬ (Consonant a ∧ Consonant b)) →
      (u.filter (fun c => Consonant c)).length ≤ 1) :
    ∀ {fuel : Nat} {rest pre : Str} {st : ZState}, rest.length < fuel → v = pre ++ rest → st.pos = pre.length →
    st.numConsonants = (pre.filter (fun c => Consonant c)).length →
    (st.clusterPos = none → ∀ a b, Adjacent pre a b → ¬ (Consonant a ∧ Consonant b)) →
    (∀ a b, pre.getLast? = some a → rest.head? = some b → ¬ (Consonant a ∧ Consonant b) ∧ ¬ (Vowel a ∧ Vowel b)) →
    (st.numSyllables = 0 → ∀ c ∈ pre, Consonant c) →
    ∃ st', zihScan mz v fuel rest st = .ok st' := by
  intro fuel
  induction fuel with
  | zero => intro rest pre st h; omega
  | succ fuel ih =>
    intro rest pre st hfuel hv hp hn hnone hadj hsyl
    cases rest with
    | nil => exact ⟨st, rfl⟩
    | cons c cs =>
      have hcv := hS.letters c (by rw [hv]; simp)
      unfold zihScan
      by_cases hc : isConsonant c = true
      · rw [if_pos hc]
        have hr := run_of_split isConsonant_iff hv hc (fun a ha hca => (hadj a c ha rfl).1 ⟨hca, (isConsonant_iff c).1 hc⟩)
        have heq : c :: cs = (c :: cs).takeWhile isConsonant ++ (c :: cs).dropWhile isConsonant :=
          List.takeWhile_append_dropWhile.symm
        dsimp only
        generalize (c :: cs).takeWhile isConsonant = chunk at *
        generalize (c :: cs).dropWhile isConsonant = rest' at *
        have hall : ∀ x ∈ chunk, isConsonant x = true := fun x hx => (isConsonant_iff x).2 (hr.all x hx)
        have hadjc : AdjAll (PairOk mz) chunk := by
          rintro a b ⟨x, y, e⟩
          exact hS.pairs a b ⟨pre ++ x, y ++ rest', by rw [hr.eq, e]; simp⟩
        have hpair : ∀ a b t, chunk = a :: b :: t → PermissiblePair mz a b := by
          rintro a b t rfl
          exact hadjc a b ⟨[], t, rfl⟩ (hr.all a (by simp)) (hr.all b (by simp))
        have hpre : st.numSyllables = 0 → pre = [] := by
          intro h0
          rcases List.eq_nil_or_concat pre with rfl | ⟨u, a, rfl⟩
          · rfl
          · exact absurd (hsyl h0 a (by simp)) (hr.before a (by simp))
        have hini : pre = [] → isZihevlaInitialCluster chunk = true := by
          rintro rfl
          exact (initial_iff hall hr.some).2 (hS.initial _ _ hr)
        rw [zihConsonants_of ?_ ?_ (hasBadPair_of hr.all hadjc) (hasBannedTriple_of ?_) ?_ ?_, ok_bind]
        · have hl := congrArg List.length heq
          have hl' := List.length_pos_iff.2 hr.some
          simp only [List.length_cons, List.length_append] at hl hfuel
          refine ih (pre := pre ++ chunk) (by omega) hr.eq (by simp [hp]) ?_ ?_ ?_ ?_
          · simp only [List.filter_append, List.length_append, filter_cons hall, hn]
          · intro hcp
            dsimp only at hcp
            split at hcp
            · cases hcp
            · rename_i hlen
              have hlen : chunk.length < 2 := by
                apply Nat.lt_of_not_le; intro hl; exact hlen ⟨hl, hcp⟩
              have hx : ∃ x, chunk = [x] := by
                have := hr.some
                match chunk, this, hlen with
                | [x], _, _ => exact ⟨x, rfl⟩
                | _ :: _ :: _, _, h => simp at h; omega
              obtain ⟨x, rfl⟩ := hx
              have hQ : AdjAll (fun a b => ¬ (Consonant a ∧ Consonant b)) (pre ++ [x]) :=
                adjAll_append.2 ⟨hnone hcp, adjAll_single, fun a b ha _ hab => hr.before a ha hab.1⟩
              exact hQ
          · intro a b ha hb
            rw [getLast?_append_ne _ hr.some] at ha
            have hca := hr.all a (getLast_mem ha)
            exact ⟨fun h => hr.after b hb h.2, fun h => consonant_not_vowel hca h.1⟩
          · intro h0 d hd
            rw [hpre h0] at hd
            exact hr.all d (by simpa using hd)
        · intro h2 hcp
          rw [hn]
          exact hfew _ _ _ hr h2 (hnone hcp)
        · intro h2 h0
          have hi := hini (hpre h0)
          match chunk, h2, hi with
          | [a, b], _, hi => simpa [isZihevlaInitialCluster, slice] using hi
          | [a, b, c], _, hi => simp [isZihevlaInitialCluster, slice] at hi ⊢; exact hi.1
          | a :: b :: c :: d :: t, _, hi => simp [isZihevlaInitialCluster] at hi
        · intro x hx ⟨a, b, e⟩
          exact hS.triples x hx ⟨pre ++ a, b ++ rest', by rw [hr.eq, e]; simp⟩
        · intro h0
          exact hini (List.eq_nil_of_length_eq_zero (by omega))
        · intro h0
          exact (middle_iff hall hpair).2 (hS.middle _ _ _ hr (by rintro rfl; exact h0 hp))
      · rw [if_neg hc]
        by_cases hvw : isVowel c = true
        · rw [if_pos hvw]
          have hr := run_of_split isVowel_iff hv hvw (fun a ha hca => (hadj a c ha rfl).2 ⟨hca, (isVowel_iff c).1 hvw⟩)
          have heq : c :: cs = (c :: cs).takeWhile isVowel ++ (c :: cs).dropWhile isVowel :=
            List.takeWhile_append_dropWhile.symm
          dsimp only
          generalize (c :: cs).takeWhile isVowel = chunk at *
          generalize (c :: cs).dropWhile isVowel = rest' at *
          obtain ⟨sy, e1, e2, e3⟩ := hS.vowels _ _ _ hr
          have hsp := splitVowelCluster_iff.2 ⟨e1, e2⟩
          have hQ : st.clusterPos = none → AdjAll (fun a b => ¬ (Consonant a ∧ Consonant b)) (pre ++ chunk) := by
            intro hcp
            refine adjAll_append.2 ⟨hnone hcp, ?_, ?_⟩
            · rintro a b ⟨x, z, e⟩ hab
              exact vowel_not_consonant (hr.all a (by rw [e]; simp)) hab.1
            · intro a b _ hb hab
              have hm : b ∈ chunk := by
                cases chunk with
                | nil => cases hb
                | cons z chunk => cases hb; simp
              exact vowel_not_consonant (hr.all b hm) hab.2
          rw [zihVowels_of hsp ?_ ?_, ok_bind]
          · have hl := congrArg List.length heq
            have hl' := List.length_pos_iff.2 hr.some
            simp only [List.length_cons, List.length_append] at hl hfuel
            refine ih (pre := pre ++ chunk) (by omega) hr.eq (by simp [hp]) ?_ hQ ?_ ?_
            · have hnc : ∀ d ∈ chunk, isConsonant d = false := fun d hd => not_consonant_of_vowel ((isVowel_iff d).2 (hr.all d hd))
              simp only [List.filter_append, List.length_append, filter_not_cons hnc, hn]; simp
            · intro a b ha hb
              rw [getLast?_append_ne _ hr.some] at ha
              have hca := hr.all a (getLast_mem ha)
              exact ⟨fun h => vowel_not_consonant hca h.1, fun h => hr.after b hb h.2⟩
            · intro h0
              dsimp only at h0
              have hsn : sy ≠ [] := by rintro rfl; exact vowelRun_ne e2 rfl
              have := List.length_pos_iff.2 hsn
              omega
          · intro hcp hbef hsy2 he
            have hre : rest' = [] := by
              have := congrArg List.length hr.eq
              simp at this
              exact List.eq_nil_of_length_eq_zero (by omega)
            rcases hcl with ⟨a, b, hab, h1, h2⟩ | hcl
            · rw [hr.eq, hre, List.append_nil] at hab
              exact hQ hcp a b hab ⟨h1, h2⟩
            · rw [hre] at hr
              have := hcl _ _ hr (by
                intro hl
                refine hbef ?_
                have hpl : 0 < pre.length := by
                  cases pre with
                  | nil => cases hl
                  | cons => simp
                rw [if_neg (by omega), hr.eq, hp, List.append_assoc, List.getElem?_append_left (by omega), ← List.getLast?_eq_getElem?]
                exact hl) sy e1 e2
              omega
          · intro h0
            exact e3 (by rintro rfl; exact h0 hp)
        · rw [if_neg hvw]
          rw [isVowel_iff] at hvw
          rw [isConsonant_iff] at hc
          have hap : c = '\'' := by
            rcases hcv with h | h | h
            · exact absurd h hvw
            · exact absurd h hc
            · exact h
          subst hap
          obtain ⟨⟨a, ha, hav⟩, b, hb, hbv⟩ := hS.apostrophe pre cs hv
          have hpl : 0 < pre.length := by
            cases pre with
            | nil => cases ha
            | cons => simp
          have e1 : v[st.pos - 1]? = some a := by
            rw [hv, hp, List.getElem?_append_left (by omega), ← List.getLast?_eq_getElem?]
            exact ha
          have e2 : v[st.pos + 1]? = some b := by
            rw [hv, hp, List.getElem?_append_right (by omega)]
            cases cs with
            | nil => cases hb
            | cons d cs => cases hb; simp
          have e3 : cs.isEmpty = false := by cases cs with
            | nil => cases hb
            | cons => rfl
          rw [if_pos rfl, e1, e2, e3]
          simp only [(isVowel_iff a).2 hav, (isVowel_iff b).2 hbv, Bool.not_true, Bool.or_false, decide_eq_true_eq, Bool.false_eq_true, if_false]
          rw [if_neg (by omega)]
          refine ih (pre := pre ++ ['\'']) (by simp at hfuel; omega) (by rw [hv]; simp) (by simp [hp]) ?_ ?_ ?_ ?_
          · simp [List.filter_append, hn, apos_not_consonant]
          · intro hcp
            have hQ : AdjAll (fun a b => ¬ (Consonant a ∧ Consonant b)) (pre ++ ['\'']) :=
              adjAll_append.2 ⟨hnone hcp, adjAll_single, fun a b _ hb hab => by cases hb; exact apos_not_consonant hab.2⟩
            exact hQ
          · intro a b ha hb
            simp at ha
            subst ha
            exact ⟨fun h => apos_not_consonant h.1, fun h => apos_not_vowel h.1⟩
          · intro h0
            exact absurd (hsyl h0 a (getLast_mem ha)) (vowel_not_consonant hav)

end Jvotci
