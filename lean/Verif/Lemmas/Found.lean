import Verif.SpecTanru
import Verif.Lemmas.Best
import Verif.Lemmas.CleanY
import Verif.Lemmas.Exchange

/-!
# Helper lemmas: when there is a lujvo, the search finds one
-/

namespace Jvotci

open Spec

theorem onlyLojban_of {x : Str} (hne : x ≠ []) (h : ∀ c ∈ x, Vowel c ∨ Consonant c ∨ c = '\'') : isOnlyLojban x = true := by
  unfold isOnlyLojban
  have h1 : x.isEmpty = false := by cases x with
    | nil => exact absurd rfl hne
    | cons => rfl
  rw [h1, Bool.not_false, Bool.true_and, List.all_eq_true]
  intro c hc
  rcases h c hc with h | h | h
  · revert h; unfold Vowel; intro h; simp only [List.mem_cons, List.not_mem_nil, or_false] at h
    rcases h with rfl | rfl | rfl | rfl | rfl <;> decide
  · revert h; unfold Consonant; intro h; simp only [List.mem_cons, List.not_mem_nil, or_false] at h
    rcases h with rfl | rfl | rfl | rfl | rfl | rfl | rfl | rfl | rfl | rfl | rfl | rfl | rfl | rfl | rfl | rfl | rfl <;> decide
  · subst h; decide

theorem letters_stable {x : Str} (h : ∀ c ∈ x, Vowel c ∨ Consonant c ∨ c = '\'') : ∀ d ∈ x, readChar d = [d] := by
  intro c hc
  rcases h c hc with h | h | h
  · revert h; unfold Vowel; intro h; simp only [List.mem_cons, List.not_mem_nil, or_false] at h
    rcases h with rfl | rfl | rfl | rfl | rfl <;> decide
  · revert h; unfold Consonant; intro h; simp only [List.mem_cons, List.not_mem_nil, or_false] at h
    rcases h with rfl | rfl | rfl | rfl | rfl | rfl | rfl | rfl | rfl | rfl | rfl | rfl | rfl | rfl | rfl | rfl | rfl <;> decide
  · subst h; decide

theorem letters_noY {x : Str} (h : ∀ c ∈ x, Vowel c ∨ Consonant c ∨ c = '\'') : 'y' ∉ x := by
  intro hy
  rcases h _ hy with h | h | h
  · revert h; decide
  · revert h; decide
  · revert h; decide

theorem idxLast_of_ne {v : Str} (h : v ≠ []) : ∃ c, idxLast v = .ok c := by
  cases hk : idxLast v with
  | ok c => exact ⟨c, rfl⟩
  | error e => exact absurd (idxLast_clean (E := []) h e hk) (by simp)

theorem apostrophise_of {f : Bool} {x : Str} (hx : x ≠ []) : ∃ y, apostrophise f x = .ok y ∧ y ≠ [] := by
  unfold apostrophise
  cases x with
  | nil => exact absurd rfl hx
  | cons c x =>
    by_cases hf : f = true
    · rw [if_pos hf]; exact ⟨_, rfl, hx⟩
    · rw [if_neg hf, show idx (c :: x) 0 = .ok c from rfl, ok_bind]
      split
      · exact ⟨_, rfl, by simp⟩
      · exact ⟨_, rfl, hx⟩

theorem getRafsiForRafsi_of {x : Str} {t : RType} {f l : Bool} {co : Consonants} {g : Bool} (hx : x ≠ [])
    (h1 : t ≠ .tarmi .hyphen) (h2 : t ≠ .tarmi .other) : ∃ os, getRafsiForRafsi x t f l co g = .ok os := by
  obtain ⟨y, hy, hne⟩ := apostrophise_of (f := f) hx
  obtain ⟨c, hc⟩ := idxLast_of_ne hne
  obtain ⟨d, hd⟩ : ∃ d, idx y 0 = .ok d := by
    cases y with
    | nil => exact absurd rfl hne
    | cons d y => exact ⟨d, rfl⟩
  unfold getRafsiForRafsi
  rw [hy, ok_bind]
  cases t with
  | shortBrivla => dsimp only; rw [hc, ok_bind]; repeat' split
                   all_goals exact ⟨_, rfl⟩
  | longBrivla => dsimp only; split <;> exact ⟨_, rfl⟩
  | experimental =>
    dsimp only; rw [hd, ok_bind]
    cases co <;> cases l <;> cases f <;> cases (isConsonant d || (g && isGlide y)) <;> exact ⟨_, rfl⟩
  | tarmi t =>
    cases t with
    | hyphen => exact absurd rfl h1
    | other => exact absurd rfl h2
    | cvccv => dsimp only; split <;> exact ⟨_, rfl⟩
    | ccvcv => dsimp only; split <;> exact ⟨_, rfl⟩
    | cvcc => dsimp only; rw [hc, ok_bind]; repeat' split
              all_goals exact ⟨_, rfl⟩
    | ccvc => dsimp only; rw [hc, ok_bind]; repeat' split
              all_goals exact ⟨_, rfl⟩
    | cvc => dsimp only; split <;> exact ⟨_, rfl⟩
    | ccv => exact ⟨_, rfl⟩
    | cvv => dsimp only; repeat' split
             all_goals exact ⟨_, rfl⟩
    | cvhv => dsimp only; repeat' split
              all_goals exact ⟨_, rfl⟩

theorem rafsiListTable_of {s : Settings} {f l : Bool} : ∀ {rs : List Str},
    (∀ r ∈ rs, r ≠ [] ∧ rafsiTarmi r ≠ .hyphen ∧ rafsiTarmi r ≠ .other) → ∃ os, rafsiListTable s f l rs = .ok os
  | [], _ => ⟨_, rfl⟩
  | r :: rs, h => by
    obtain ⟨os, hos⟩ := rafsiListTable_of (s := s) (f := f) (l := l) (rs := rs) fun x hx => h x (List.mem_cons_of_mem _ hx)
    obtain ⟨h0, h1, h2⟩ := h r (by simp)
    obtain ⟨os', hos'⟩ := getRafsiForRafsi_of (t := .tarmi (rafsiTarmi r)) (f := f) (l := l) (co := s.consonants) (g := s.glides) h0
      (by simpa using h1) (by simpa using h2)
    unfold rafsiListTable
    rw [if_neg (by simp [h2]), hos', ok_bind, hos, ok_bind]
    exact ⟨_, rfl⟩

theorem analyse_of {s : Settings} {x : Str} (hne : x ≠ []) (h : ∀ c ∈ x, Vowel c ∨ Consonant c ∨ c = '\'') :
    (∃ t ps, (program .linked).analyse s x = .ok (t, ps)) ∨ (program .linked).analyse s x = .error .notBrivla := by
  rw [program_analyse]
  have := clean_normal _ s x (Nat.le_refl _) hne (letters_noY h) (letters_stable h)
  cases hk : analyseBrivla .linked s x with
  | ok r => exact .inl ⟨r.1, r.2, rfl⟩
  | error e =>
    have := this e hk
    simp at this
    rw [this]; exact .inr rfl

theorem rafsiListWord_of {s : Settings} {f l : Bool} {v : Str} (hne : v ≠ []) (hv : ∀ c ∈ v, Vowel c ∨ Consonant c ∨ c = '\'') :
    ∃ os, rafsiListWord (program .linked) s f l v = .ok os := by
  unfold rafsiListWord
  rw [if_neg (by rw [onlyLojban_of hne hv]; simp)]
  obtain ⟨a, ha⟩ := rafsiListTable_of (s := s) (f := f) (l := l) (rs := (RAFSI_LIST.lookup v).getD []) fun r hr => by
    have := table_known r hr
    refine ⟨?_, ?_, ?_⟩
    · rintro rfl; rcases this.1 with h | h | h | h <;> exact absurd h (by decide)
    · rcases this.1 with h | h | h | h <;> rw [h] <;> decide
    · rcases this.1 with h | h | h | h <;> rw [h] <;> decide
  rw [ha, ok_bind]
  rcases analyse_of (s := { yHyphens := s.yHyphens, expRafsi := s.expRafsi, allowMz := s.allowMz }) hne hv with ⟨t, ps, h⟩ | h
  · rw [h]
    dsimp only
    rw [ok_bind]
    have hg : t = .gismu → dropLastN v 1 ≠ [] := by
      rintro rfl
      obtain ⟨-, -, h3, c, hc, -⟩ := analyse_clean h hv (.inl rfl)
      have e := dropLastN_one_append hc
      intro e'
      rw [e', List.nil_append] at e
      rw [e] at h3; simp at h3
    obtain ⟨os, hos⟩ := getRafsiForRafsi_of (t := .longBrivla) (f := f) (l := l) (co := s.consonants) (g := s.glides) hne (by simp) (by simp)
    by_cases ht : t = .gismu
    · obtain ⟨os', hos'⟩ := getRafsiForRafsi_of (t := .shortBrivla) (f := f) (l := l) (co := s.consonants) (g := s.glides) (hg ht) (by simp) (by simp)
      subst ht
      rw [if_pos rfl, hos', ok_bind, if_pos (.inl rfl), hos, ok_bind]
      exact ⟨_, rfl⟩
    · rw [if_neg (by simpa using ht), ok_bind]
      split
      · rw [hos, ok_bind]; exact ⟨_, rfl⟩
      · rw [ok_bind]; exact ⟨_, rfl⟩
  · rw [h]
    dsimp only
    rw [ok_bind, if_neg (by simp), ok_bind, if_neg (by simp), ok_bind]
    exact ⟨_, rfl⟩

theorem vowel_not_hyphen {x : Str} (hv : ∃ c ∈ x, Vowel c) (hl : ∀ c ∈ x, Vowel c ∨ Consonant c ∨ c = '\'') : rafsiTarmi x ≠ .hyphen := by
  intro h
  match x, hv, hl, h with
  | [], ⟨_, hc, _⟩, _, _ => cases hc
  | [a], ⟨c, hc, hcv⟩, _, h =>
    have : c = a := by simpa using hc
    subst this
    simp [rafsiTarmi, (isVowel_iff c).2 hcv] at h
  | [a, b], _, hl, h =>
    unfold rafsiTarmi at h
    dsimp only at h
    split at h
    · rename_i hab
      rw [hab.2] at hl
      exact letters_noY hl (by simp)
    · cases h
  | [a, b, c], _, _, h => simp only [rafsiTarmi] at h; repeat' split at h
                          all_goals cases h
  | [a, b, c, d], _, _, h => simp only [rafsiTarmi] at h; repeat' split at h
                             all_goals cases h
  | [a, b, c, d, e], _, _, h => simp only [rafsiTarmi] at h; repeat' split at h
                                all_goals cases h
  | a :: b :: c :: d :: e :: f :: t, _, _, h => simp only [rafsiTarmi] at h; cases h

/-- The code looks past the end of the component. -/
def Past (s : Settings) (v : Str) : Prop :=
  ∃ x j, v = x ++ List.replicate (j + 1) '-' ∧ LateR x ∧ (∀ c ∈ x, Vowel c ∨ Consonant c ∨ c = '\'') ∧ 6 ≤ x.length ∧
    (∃ c, x.getLast? = some c ∧ Consonant c) ∧ jvokaha2 s.yHyphens s.allowMz x = .error .index

theorem past_not {s : Settings} {f l : Bool} {v : Str} {os : List RafsiOpt} (h : Past s v) :
    rafsiListFor (program .linked) s f l v ≠ .ok os := by
  obtain ⟨x, j, e, -, hlet, h6, ⟨c, hc, hcc⟩, hj⟩ := h
  have hnd := letters_no_dash hlet
  have hl : v.getLast? = some '-' := by
    rw [e, List.getLast?_append]; simp [List.replicate_succ']
  have hst : stripBoth (· == '-') v = x := by
    have := strip_dashes hnd 0 (j + 1)
    rw [e]; simpa using this
  intro h
  unfold rafsiListFor at h
  obtain ⟨c', hc', h⟩ := bind_ok h
  have hc' := idxLast_ok hc'
  rw [hl] at hc'
  cases hc'
  rw [if_pos rfl] at h
  obtain ⟨d, hd, h⟩ := bind_ok h
  dsimp only at h
  rw [hst] at h
  split at h
  · cases h
  obtain ⟨l', hl', h⟩ := bind_ok h
  have hl'' := idxLast_ok hl'
  rw [hc] at hl''
  cases hl''
  split at h
  · cases h
  rw [if_pos] at h
  · unfold rafsiListShort at h
    obtain ⟨⟨t, ps⟩, -, h⟩ := bind_ok h
    dsimp only at h
    split at h
    · cases h
    rw [hl', ok_bind, if_pos (by simp [(isConsonant_iff _).2 hcc, h6]), hj] at h
    cases h
  · rintro rfl
    have : v.head? = some '-' := by
      cases v with
      | nil => cases hd
      | cons a v => cases hd; rfl
    rw [e] at this
    cases x with
    | nil => simp at h6
    | cons a x =>
      simp at this
      subst this
      exact hnd (by simp)

theorem past_list {s : Settings} {n : Nat} : ∀ {vs : List Str} {i : Nat} {ll : List (List RafsiOpt)} {v : Str}, v ∈ vs → Past s v →
    rafsiListListFrom (program .linked) s n i vs ≠ .ok ll
  | u :: vs, i, ll, v, hm, hp => by
    intro h
    unfold rafsiListListFrom at h
    obtain ⟨a, ha, h⟩ := bind_ok h
    obtain ⟨b, hb, h⟩ := bind_ok h
    rcases List.mem_cons.1 hm with rfl | hm
    · exact past_not hp ha
    · exact past_list hm hp hb

theorem rafsiListFor_of {s : Settings} {f l : Bool} {v x : Str} {k : Kind} (hv : Spelled v) (hu : Usable .linked s v x k) :
    (∃ os, rafsiListFor (program .linked) s f l v = .ok os) ∨
      (s.yHyphens ≠ .forceY ∧ rafsiListFor (program .linked) s f l v = .error .index ∧
        Past s v) := by
  obtain ⟨y, i, j, e, hvow, hlet, hij, hq⟩ := hv
  have hne : y ≠ [] := by rintro rfl; simp at hvow
  have hnd := letters_no_dash hlet
  have hvne : v ≠ [] := by rw [e]; simp [hne]
  unfold rafsiListFor
  cases j with
  | zero =>
    cases hij rfl
    have e : v = y := by simpa using e
    subst e
    obtain ⟨c, hc⟩ := idxLast_of_ne hne
    rw [hc, ok_bind, if_neg ?_]
    · exact .inl (rafsiListWord_of hne hlet)
    · rintro rfl
      exact hnd (getLast_mem (idxLast_ok hc))
  | succ j =>
    have hl : v.getLast? = some '-' := by
      rw [e, List.getLast?_append]; simp [List.replicate_succ']
    obtain ⟨c, hc⟩ := idxLast_of_ne hvne
    have hcd : c = '-' := by
      have := idxLast_ok hc
      rw [hl] at this; cases this; rfl
    subst hcd
    have hst : stripBoth (· == '-') v = y := by
      rw [e]; exact strip_dashes hnd i (j + 1)
    obtain ⟨d, hd, hdh⟩ : ∃ d, idx v 0 = .ok d ∧ v.head? = some d := by
      cases v with
      | nil => exact absurd rfl hvne
      | cons d v => exact ⟨d, rfl, rfl⟩
    obtain ⟨l', hl'⟩ := idxLast_of_ne hne
    rw [hc, ok_bind, if_pos rfl, hd, ok_bind]
    dsimp only
    rw [hst, if_neg (by rw [onlyLojban_of hne hlet]; simp), hl', ok_bind, if_neg ?_]
    · obtain ⟨rfl, h4, h5⟩ := usable_dash hu hl hst
      by_cases hdd : d = '-'
      · subst hdd
        rw [if_neg (by simp)]
        have h4 := h4 ⟨hdh, hne⟩
        unfold rafsiListRafsi
        dsimp only
        rcases h4 with ⟨h1, h2⟩ | ⟨h1, ⟨ps, h2⟩, rfl⟩ | ⟨h1, h2, h3, h4', rfl⟩
        · obtain ⟨ho, hh⟩ := rafsi_tarmi h1
          rw [if_neg ho, if_neg (by rw [isValidRafsi_iff.2 h1]; simp)]
          exact .inl (getRafsiForRafsi_of hne (by simpa using hh) (by simpa using ho))
        · by_cases ho : rafsiTarmi x = .other
          · rw [if_pos ho]
            unfold rafsiKind
            rw [program_analyse, h2]
            dsimp only
            rw [if_pos rfl, ok_bind]
            exact .inl (getRafsiForRafsi_of hne (by simp) (by simp))
          · exfalso
            rcases shapeScore_other.1 h1 with h | h
            · exact ho h
            · exact vowel_not_hyphen hvow hlet h
        · by_cases ho : rafsiTarmi x = .other
          · rw [if_pos ho]
            unfold rafsiKind
            rcases analyse_of (s := { yHyphens := s.yHyphens, expRafsi := s.expRafsi, allowMz := s.allowMz }) hne hlet with ⟨t, ps, h⟩ | h
            · exact absurd ⟨ps, h⟩ (h3 t)
            · rw [h]
              dsimp only
              rw [if_pos h2, h4']
              dsimp only
              rw [ok_bind]
              exact .inl (getRafsiForRafsi_of hne (by simp) (by simp))
          · exfalso
            rcases shapeScore_other.1 h1 with h | h
            · exact ho h
            · exact vowel_not_hyphen hvow hlet h
      · rw [if_pos hdd]
        obtain ⟨h6, -, h7⟩ := h5 (by rw [hdh]; simpa using hdd)
        obtain ⟨t, ps, ha, ht⟩ : ∃ t ps, (program .linked).analyse { yHyphens := s.yHyphens, expRafsi := s.expRafsi, allowMz := s.allowMz }
            (x ++ s%"a") = .ok (t, ps) ∧ (t = .gismu ∨ t = .zihevla) := by
          rcases h6 with ⟨ps, h⟩ | ⟨ps, h⟩
          · exact ⟨_, ps, h, .inl rfl⟩
          · exact ⟨_, ps, h, .inr rfl⟩
        unfold rafsiListShort
        rw [ha]
        unfold catchNotBrivla
        rw [ok_bind]
        dsimp only
        rw [if_neg (by rcases ht with rfl | rfl <;> simp), hl', ok_bind]
        obtain ⟨os, hos⟩ := getRafsiForRafsi_of (t := .shortBrivla) (f := f) (l := l) (co := s.consonants) (g := s.glides) hne (by simp) (by simp)
        split
        · rename_i h8
          simp only [Bool.and_eq_true, decide_eq_true_eq] at h8
          have h9 := h7 h8.1 ⟨l', idxLast_ok hl', (isConsonant_iff _).1 h8.2⟩
          have hy : 'y' ∉ x := letters_noY hlet
          have hE : Errs (.index :: caughtErrs) (jvokaha2 s.yHyphens s.allowMz x) := index_cut fun _ => slice_no_y hy
          cases hj : jvokaha2 s.yHyphens s.allowMz x with
          | ok ps => exact absurd hj (h9 ps)
          | error er =>
            have := hE er hj
            simp [caughtErrs] at this
            rcases this with rfl | rfl | rfl
            · dsimp only
              have hlone : ¬ (s.yHyphens ≠ .forceY → ¬ LoneR x) := fun hn => jvokaha2_index hn hj
              have hlone : s.yHyphens ≠ .forceY ∧ LoneR x := by
                constructor
                · intro hf; exact hlone fun h => absurd hf h
                · exact Classical.byContradiction fun hf => hlone fun _ => hf
              refine .inr ⟨hlone.1, rfl, x, j, ?_, ?_, hlet, h8.1, ⟨l', idxLast_ok hl', (isConsonant_iff _).1 h8.2⟩, hj⟩
              · cases i with
                | zero => simpa using e
                | succ i => rw [e] at hdh; simp [List.replicate_succ] at hdh; exact absurd hdh.symm hdd
              · obtain ⟨u, a, b, rfl, h | h⟩ := hlone.2
                · exact ⟨u, a, b, rfl, h⟩
                · exact absurd (by rw [h.2]; simp) hy
            · exact .inl ⟨os, hos⟩
            · exact .inl ⟨os, hos⟩
        · exact .inl ⟨os, hos⟩
    · have := hq (by simp)
      rw [idxLast_ok hl'] at this
      simpa using this

theorem firm_of {c : Char} {x : Str} (hc : c ∈ x) (h : Vowel c ∨ Consonant c) : Firm x := by
  refine ⟨c, hc, ?_⟩
  cases hh : isHyphenLetter c with
  | false => rfl
  | true =>
    exfalso
    simp only [isHyphenLetter, Bool.or_eq_true, beq_iff_eq] at hh
    rcases hh with rfl | rfl <;> revert h <;> decide

theorem rafsi_firm {mz : Bool} {x : Str} (h : Rafsi mz x) : Firm x := by
  obtain ⟨a, b, t, rfl, -, ha⟩ := rafsi_double h
  exact firm_of (c := a) (by simp) (.inr ha)

/-- The rafsi of a component has a letter. -/
theorem usable_firm {b : Build} {s : Settings} {v x : Str} {k : Kind} (hv : Spelled v) (hu : Usable b s v x k) : Firm x := by
  obtain ⟨y, i, j, e, ⟨c, hc, hcv⟩, hlet, hij, hq⟩ := hv
  have hnd := letters_no_dash hlet
  have hy : Firm y := firm_of hc (.inl hcv)
  have hst : stripBoth (· == '-') v = y := by rw [e]; exact strip_dashes hnd i j
  have hword : v.getLast? ≠ some '-' → v = y := by
    intro h
    cases j with
    | zero => cases hij rfl; simpa using e
    | succ j => exact absurd (by rw [e, List.getLast?_append]; simp [List.replicate_succ']) h
  have hdash : ∀ {x : Str}, Dashed v x → x = y := by
    rintro x ⟨h1, i', j', e'⟩
    rw [← hst, e']; exact (strip_dashes h1 _ _).symm
  cases hu with
  | listed _ h1 h2 _ => exact rafsi_firm (mz := false) (isValidRafsi_iff.1 (table_shapes _ h1 _ h2).2)
  | stem hl hw e' =>
    cases hword hl
    obtain ⟨ps, hw⟩ := hw
    have := (C03_gismu_iff.1 hw).2.1
    rw [reading_letters hlet, e'] at this
    exact rafsi_firm (gismu_cut this).1
  | word hl => exact hword hl ▸ hy
  | rafsi hd => exact hdash hd ▸ hy
  | zihevla hd => exact hdash hd ▸ hy
  | experimental hd => exact hdash hd ▸ hy
  | cut e' h1 =>
    rename_i j' _ _
    have : x = y := by
      rw [← hst, e']
      have := strip_dashes h1 0 (j' + 1)
      simpa using this.symm
    exact this ▸ hy

theorem firm_right {u v : Str} (h : Firm v) : Firm (u ++ v) := by
  obtain ⟨c, hc, h⟩ := h
  exact ⟨c, List.mem_append_right _ hc, h⟩

theorem rafsiListListFrom_firm {s : Settings} {n : Nat} : ∀ {vs : List Str} {i : Nat} {ll : List (List RafsiOpt)},
    (∀ v ∈ vs, Spelled v) → rafsiListListFrom (program .linked) s n i vs = .ok ll → ∀ l ∈ ll, ∀ r ∈ l, Firm r.1
  | [], i, ll, _, h => by cases h; simp
  | v :: vs, i, ll, hs, h => by
    unfold rafsiListListFrom at h
    obtain ⟨a, ha, h⟩ := bind_ok h
    obtain ⟨b, hb, h⟩ := bind_ok h
    cases h
    intro l hl
    rcases List.mem_cons.1 hl with rfl | hl
    · intro r hr
      obtain ⟨z, hu, ⟨t, ht, -⟩, rfl⟩ := (rafsiListFor_iff ha).1 hr
      show Firm z.text
      rw [ht]
      exact (firm_right (usable_firm (hs v (by simp)) hu)).append
    · exact rafsiListListFrom_firm (fun v hv => hs v (List.mem_cons_of_mem _ hv)) hb l hl

theorem rafsiListListFrom_of {s : Settings} {n : Nat} : ∀ {vs : List Str} {i : Nat} {zs : List Slot},
    (∀ v ∈ vs, Spelled v) → Represents .linked s n i vs zs →
    (∃ ll, rafsiListListFrom (program .linked) s n i vs = .ok ll) ∨
      (s.yHyphens ≠ .forceY ∧ rafsiListListFrom (program .linked) s n i vs = .error .index ∧
        ∃ v ∈ vs, Past s v)
  | [], i, zs, _, _ => .inl ⟨[], rfl⟩
  | v :: vs, i, _, hs, .cons hu _ ht => by
    unfold rafsiListListFrom
    rcases rafsiListFor_of (f := i == 0) (l := i + 1 == n) (hs v (by simp)) hu with ⟨os, h⟩ | ⟨h1, h2, h3⟩
    · rw [h, ok_bind]
      rcases rafsiListListFrom_of (fun v hv => hs v (List.mem_cons_of_mem _ hv)) ht with ⟨ll, h⟩ | ⟨h1, h2, u, hu, h3⟩
      · rw [h, ok_bind]; exact .inl ⟨_, rfl⟩
      · rw [h2, error_bind]; exact .inr ⟨h1, rfl, u, List.mem_cons_of_mem _ hu, h3⟩
    · rw [h2, error_bind]
      exact .inr ⟨h1, rfl, v, by simp, h3⟩

/-- When there is a lujvo, the search finds one, unless the best is a slinku'i or a component is read past its end. -/
theorem search_found {s : Settings} {g : Bool} {vs : List Str} {w : Str} {sc : Int} (hs : ∀ v ∈ vs, Spelled v)
    (hw : LujvoOf .linked s g vs w sc) (hlt : sc < 10 ^ 100) :
    (∃ r, getLujvoFromList (program .linked) s g vs = .ok r) ∨
    (g = false ∧ getLujvoFromList (program .linked) s g vs = .error .noLujvo ∧
      ∃ w sc, LujvoOf .linked s g vs w sc ∧ (∀ w' sc', LujvoOf .linked s g vs w' sc' → sc ≤ sc') ∧
        (program .linked).slinkuhi s.yHyphens s.allowMz w = .ok true) ∨
    (s.yHyphens ≠ .forceY ∧ getLujvoFromList (program .linked) s g vs = .error .index ∧
        ∃ v ∈ vs, Past s v) := by
  cases hres : getLujvoFromList (program .linked) s g vs with
  | ok r => exact .inl ⟨r, rfl⟩
  | error e =>
    right
    by_cases hn : e = .noLujvo
    · subst hn
      rcases getLujvoFromList_best.2 hres with h | ⟨-, rfl, h⟩
      · have := h w sc hw; omega
      · exact .inl ⟨rfl, rfl, h⟩
    right
    obtain ⟨zs, hy, hrep, hL, -, -⟩ := hw
    have h2 : 2 ≤ vs.length := by
      obtain ⟨y, z, rest, rfl, -⟩ := hL.first
      rw [← represents_length hrep]; simp
    rcases rafsiListListFrom_of hs hrep with ⟨ll, hll⟩ | ⟨h1, h3, h4⟩
    · exfalso
      have hlen := rafsiListListFrom_length hll
      obtain ⟨best, hbest⟩ := total_searchStages (o := combineOpts s g) (ll := ll) (by omega) (rafsiListListFrom_firm hs hll)
      have hll' : getRafsiListList (program .linked) s vs = .ok ll := hll
      unfold getLujvoFromList at hres
      rw [hll', ok_bind, hbest, ok_bind] at hres
      split at hres
      · cases hres; exact hn rfl
      · rename_i r hr
        cases g with
        | true => simp at hres
        | false =>
          obtain ⟨⟨zs', hy', -, hL', ew, -⟩, -⟩ := search_built hll' hbest hr
          obtain ⟨l, hl, hv⟩ := hL'.ends
          obtain ⟨t, ht⟩ := slinkuhi_vowel (y := s.yHyphens) (mz := s.allowMz) (w := r.1) ⟨l, by rw [ew]; exact hl, by simpa using hv⟩
          simp only [Bool.not_false, if_true] at hres
          have : slinkuhiInJvozba (program .linked) s.yHyphens s.allowMz r.1 = .ok t := ht
          rw [this, ok_bind] at hres
          cases t with
          | true => cases hres; exact hn rfl
          | false => cases hres
    · refine ⟨h1, ?_, h4⟩
      unfold getLujvoFromList getRafsiListList at hres
      rw [h3, error_bind] at hres
      exact hres.symm

/-- Slots that all end in y but the last make a lujvo, if the first is not of three letters or CV'V. -/
theorem legal_y {s : Settings} {g : Bool} {zs : List Slot}
    (hf : ∃ y z rest, zs = y :: z :: rest ∧ pattern y.rafsi ∉ [s%"CVC", s%"CVV", s%"CV'V", s%"CCV"])
    (hy : ∀ z ∈ zs.dropLast, z.text.getLast? = some 'y') (hc : 2 ≤ (zs.map (Slot.count s)).sum)
    (he : ∃ l, (wordOf zs []).getLast? = some l ∧ if g then Consonant l else Vowel l) : Legal s g zs [] := by
  obtain ⟨y, z, rest, rfl, hp⟩ := hf
  simp only [List.mem_cons, List.not_mem_nil, or_false, not_or] at hp
  have hy0 : y.text.getLast? = some 'y' := hy y (by simp)
  refine ⟨⟨y, z, rest, rfl, .inr ⟨by rw [hy0]; decide, fun h => hp.2.2.2 h.1, ?_⟩⟩, ?_, ?_, ?_, .inr (.inr ?_), he⟩
  · rw [if_neg]
    rintro ⟨h, -⟩
    simp only [List.mem_cons, List.not_mem_nil, or_false] at h
    exact h.elim hp.2.1 hp.2.2.1
  · rintro a b ⟨u, v, e⟩
    have ha : a.text.getLast? = some 'y' := by
      apply hy
      rw [e, List.dropLast_append_of_ne_nil (by simp), List.dropLast_cons_cons]
      simp
    refine ⟨?_, ?_, fun _ => .inl ha⟩
    · intro c d hc' _ hcc
      rw [ha] at hc'; cases hc'
      exact absurd hcc (by decide)
    · intro c hc'
      rw [ha] at hc'; cases hc'
      intro h
      simp [bannedTriples] at h
  · rintro _ ⟨u, w, r, hu, e, h, -⟩
    cases u with
    | nil => exact hu rfl
    | cons a u =>
      have : y = a := by simpa using (List.cons.inj e).1
      subst this
      exact hp.1 (h y (by simp)).1
  · rintro _ ⟨a, r, e, h, -⟩
    cases e
    exact hp.1 h
  · split <;> omega

/-! ## Tanru of gismu and cmavo -/

theorem keys_vowel : RAFSI_LIST.all (fun e => e.1.any isVowel) = true := by decide +kernel

theorem plain_spelled {s : Settings} {g : Bool} {vs : List Str} {w : Str} {sc : Int} (hs : ∀ v ∈ vs, Plain s.allowMz v)
    (hl : LujvoOf .linked s g vs w sc) : ∀ v ∈ vs, Spelled v := by
  obtain ⟨zs, hy, hrep, -⟩ := hl
  revert hrep
  generalize vs.length = n
  generalize 0 = i
  intro hrep
  induction hrep with
  | nil => simp
  | @cons i v vs z zs hu _ _ ih =>
    intro v' hv'
    rcases List.mem_cons.1 hv' with rfl | hv'
    · have hp := hs v' (by simp)
      have hlet : ∀ c ∈ v', Vowel c ∨ Consonant c ∨ c = '\'' := by
        rcases hp with h | h
        · exact rafsi_letters (.gismu h)
        · exact h.1
      refine ⟨v', 0, 0, by simp, ?_, hlet, fun _ => rfl, by simp⟩
      rcases plain_usable hp hu with ⟨rs, h1, -⟩ | ⟨h, -⟩
      · have := List.all_eq_true.1 keys_vowel _ h1
        obtain ⟨c, hc, hv⟩ := List.any_eq_true.1 this
        exact ⟨c, hc, (isVowel_iff c).1 hv⟩
      · cases h with
        | cvccv _ _ _ h => exact ⟨_, by simp, h⟩
        | ccvcv _ _ _ h => exact ⟨_, by simp, h⟩
    · exact ih (fun v hv => hs v (List.mem_cons_of_mem _ hv)) v' hv'

/-- The best candidate is the canonical word of its rafsi. -/
theorem best_made_fst {b : Build} {s : Settings} {g : Bool} {vs : List Str} {zs : List Slot} {hy : Str}
    (hrep : Represents b s vs.length 0 vs zs) (hL : Legal s g zs hy) (hmin : ∀ w sc, LujvoOf b s g vs w sc → cost zs hy ≤ sc)
    (hr : ∀ z ∈ zs, Rafsi s.allowMz z.rafsi) (hlong : ∀ z ∈ zs.dropLast, kindOf z.rafsi ≠ .long) :
    ∃ l, Made s g l ∧ wordOf zs hy = spell l ∧ l.map Prod.fst = zs.map Slot.rafsi := by
  obtain ⟨hf, hall⟩ := represents_same (by simp) hrep hr hlong
  have h2 : 2 ≤ zs.length := by
    obtain ⟨y, z, rest, rfl, -⟩ := hL.first
    simp
  obtain ⟨l, hl, e⟩ := canon_exists s g (xs := zs.map Slot.rafsi) (by simpa using h2)
  have hxs : ∀ x ∈ zs.map Slot.rafsi, Rafsi s.allowMz x := by
    intro x hx
    obtain ⟨z, hz, rfl⟩ := List.mem_map.1 hx
    exact hr z hz
  have hM : Made s g l := by
    refine ⟨hl, fun p hp => hxs p.1 (by rw [← e]; exact List.mem_map_of_mem hp), fun p hp => ?_⟩
    have : p.1 ∈ (zs.map Slot.rafsi).dropLast := by
      rw [← e, ← List.map_dropLast]; exact List.mem_map_of_mem hp
    rw [← List.map_dropLast] at this
    obtain ⟨z, hz, e⟩ := List.mem_map.1 this
    rw [← e]
    exact hlong z hz
  have hf' : Fits true (l.map Prod.fst) zs := by rw [e]; exact hf
  have hA : Apt s g l := by
    refine ⟨legal_enough hl hM.rafsi hf' hL, ?_⟩
    rw [canon_last hl hM.rafsi]
    exact legal_last (made_xs hM) hf' hL
  obtain ⟨zs', hy', hf2, hL2, hw2⟩ := canon_legal hl hM.rafsi hM.long hA.enough hA.ends
  refine ⟨l, hM, ?_, e⟩
  rcases canon_min hl hM.rafsi hf' hL with h1 | h1
  · exact h1
  · exfalso
    have c1 := cost_letters (made_xs hM) hf' hL
    have c2 := cost_letters (made_xs hM) hf2 hL2
    have := hmin (wordOf zs' hy') (cost zs' hy') ⟨zs', hy', hall _ (by rw [← e]; exact hf2), hL2, rfl, rfl⟩
    rw [hw2] at c2
    omega

theorem best_made {b : Build} {s : Settings} {g : Bool} {vs : List Str} {zs : List Slot} {hy : Str}
    (hrep : Represents b s vs.length 0 vs zs) (hL : Legal s g zs hy) (hmin : ∀ w sc, LujvoOf b s g vs w sc → cost zs hy ≤ sc)
    (hr : ∀ z ∈ zs, Rafsi s.allowMz z.rafsi) (hlong : ∀ z ∈ zs.dropLast, kindOf z.rafsi ≠ .long) :
    ∃ l, Made s g l ∧ wordOf zs hy = spell l := by
  obtain ⟨l, h1, h2, -⟩ := best_made_fst hrep hL hmin hr hlong
  exact ⟨l, h1, h2⟩

/-- The best lujvo of gismu and cmavo is not a slinku'i, and the search finds it. -/
theorem plain_found {s : Settings} {g : Bool} {vs : List Str} {w : Str} {sc : Int} (hs : ∀ v ∈ vs, Plain s.allowMz v)
    (hl : LujvoOf .linked s g vs w sc) (hlt : sc < 10 ^ 100) : ∃ r, getLujvoFromList (program .linked) s g vs = .ok r := by
  rcases search_found (plain_spelled hs hl) hl hlt with h | ⟨rfl, -, w', sc', ⟨zs, hy, hrep, hL, rfl, rfl⟩, hmin, hsl⟩ |
      ⟨-, -, v, hv, x, j, e, -, -⟩
  · exact h
  · exfalso
    have hr : ∀ z ∈ zs, Rafsi s.allowMz z.rafsi := by
      intro z hz
      obtain ⟨v, hv, hu⟩ := represents_mem hrep z hz
      exact (plain_rafsi (hs v hv) hu).1
    obtain ⟨l, hM, e⟩ := best_made hrep hL hmin hr (plain_short hs hrep hL hmin)
    rw [e] at hsl
    have hv : ∃ c, (spell l).getLast? = some c ∧ Vowel c := by
      obtain ⟨c, hc, hv⟩ := hL.ends
      exact ⟨c, e ▸ hc, by simpa using hv⟩
    rw [canon_not_slinkuhi hM hv] at hsl
    cases hsl
  · exfalso
    have hlet : ∀ c ∈ v, Vowel c ∨ Consonant c ∨ c = '\'' := by
      rcases hs v hv with h | h
      · exact rafsi_letters (.gismu h)
      · exact h.1
    exact letters_no_dash hlet (by rw [e]; simp [List.replicate_succ])

theorem cut_pattern {mz : Bool} {x : Str} {c : Char} (h : Gismu mz (x ++ [c])) :
    pattern x ∉ [s%"CVC", s%"CVV", s%"CV'V", s%"CCV"] ∧ ∃ d, x.getLast? = some d ∧ Consonant d := by
  have h4 := (gismu_cut h).2.1
  have hd : ∃ d, x.getLast? = some d ∧ Consonant d := by
    generalize e : x ++ [c] = v at h
    have key : ∀ {a b d f e : Char}, x ++ [c] = [a, b, d, f, e] → x = [a, b, d, f] := by
      intro a b d f e h
      have : x ++ [c] = [a, b, d, f] ++ [e] := h
      exact (List.append_inj' this rfl).1
    cases h with
    | cvccv h1 h2 h3 h4 => rw [key e]; exact ⟨_, rfl, h3.2.1⟩
    | ccvcv h1 h2 h3 h4 => rw [key e]; exact ⟨_, rfl, h3⟩
  refine ⟨?_, hd⟩
  intro h
  have hl : (pattern x).length = 4 := by simp [pattern, h4]
  simp only [List.mem_cons, List.not_mem_nil, or_false] at h
  rcases h with h | h | h | h
  · rw [h] at hl; cases hl
  · rw [h] at hl; cases hl
  · rw [pattern_cvhv, tarmi_cvhv] at h
    obtain ⟨d, hd, hdc⟩ := hd
    obtain ⟨a, b, e, rfl, h⟩ := h
    cases hd
    exact vowel_not_consonant ((isVowel_iff _).1 (by simp_all)) hdc
  · rw [h] at hl; cases hl

theorem wordOf_flatten (zs : List Slot) : wordOf zs [] = (zs.map Slot.text).flatten := by
  cases zs <;> simp [wordOf]

/-- Slots for gismu: each without its last vowel and with y, the last one whole or, for a cmevla, without its vowel. -/
theorem gismu_slots {b : Build} {s : Settings} {g : Bool} {n : Nat} : ∀ {vs : List Str} {i : Nat}, i + vs.length = n → vs ≠ [] →
    (∀ v ∈ vs, Gismu s.allowMz v) → ∃ zs, Represents b s n i vs zs ∧ zs.length = vs.length ∧
      (∀ z ∈ zs, pattern z.rafsi ∉ [s%"CVC", s%"CVV", s%"CV'V", s%"CCV"] ∧ z.count s = 2 ∧ z.text.length ≤ 5) ∧
      (∀ z ∈ zs.dropLast, z.text.getLast? = some 'y') ∧
      ∃ z l, zs.getLast? = some z ∧ z.text.getLast? = some l ∧ if g then Consonant l else Vowel l
  | [], _, _, h, _ => absurd rfl h
  | v :: vs, i, hn, _, hg => by
    have hv := hg v (by simp)
    obtain ⟨x, c, rfl⟩ : ∃ x c, v = x ++ [c] := by
      have : v ≠ [] := by rintro rfl; cases hv
      exact ⟨v.dropLast, v.getLast this, (List.dropLast_concat_getLast this).symm⟩
    have hlet : ∀ d ∈ x ++ [c], Vowel d ∨ Consonant d ∨ d = '\'' := rafsi_letters (.gismu hv)
    obtain ⟨hr, h4, -, hc⟩ := gismu_cut hv
    obtain ⟨hp, d, hd, hdc⟩ := cut_pattern hv
    have hdash : (x ++ [c]).getLast? ≠ some '-' := by
      simp; rintro rfl; revert hc; decide
    have hw : WordType b s (x ++ [c]) .gismu := ⟨[x ++ [c]], C03_gismu_iff.2 ⟨by simp, by rw [reading_letters hlet]; exact hv, by rw [reading_letters hlet]⟩⟩
    have hlead : ∀ f, leading f x = [] ∧ leading f (x ++ [c]) = [] := by
      intro f
      obtain ⟨a, b, t, rfl, -, ha⟩ := rafsi_double hr
      have : ¬ Vowel a := fun h => consonant_not_vowel ha h
      simp [leading, VowelInitial, this]
    have hstem : Usable b s (x ++ [c]) x .short := .stem hdash hw rfl
    cases vs with
    | cons v' vs =>
      obtain ⟨zs, h1, h2, h3, h5, z, l, h6, h7⟩ := gismu_slots (b := b) (s := s) (g := g) (n := n) (vs := v' :: vs) (i := i + 1)
        (by simp at hn ⊢; omega) (by simp) (fun v hv => hg v (List.mem_cons_of_mem _ hv))
      have hne : zs ≠ [] := by rintro rfl; simp at h2
      refine ⟨⟨x, .short, x ++ s%"y"⟩ :: zs, .cons hstem ⟨s%"y", by simp [(hlead _).1], .inl ⟨rfl, by simp at hn ⊢; omega⟩⟩ h1, by simp [h2], ?_, ?_,
        z, l, ?_, h7⟩
      · intro z hz
        rcases List.mem_cons.1 hz with rfl | hz
        · exact ⟨hp, rfl, by simp [h4]⟩
        · exact h3 z hz
      · intro z hz
        rw [List.dropLast_cons_of_ne_nil hne] at hz
        rcases List.mem_cons.1 hz with rfl | hz
        · simp
        · exact h5 z hz
      · rw [List.getLast?_cons, h6]; rfl
    | nil =>
      have hn' : i + 1 = n := by simpa using hn
      cases g with
      | true =>
        refine ⟨[⟨x, .short, x⟩], .cons hstem ⟨[], by simp [(hlead _).1], .inr ⟨rfl, by simpa using hn', d, hd, fun h => consonant_not_vowel hdc h⟩⟩ .nil, rfl,
          ?_, by simp, _, d, rfl, hd, by simpa using hdc⟩
        intro z hz
        simp at hz; subst hz
        exact ⟨hp, rfl, by simp [h4]⟩
      | false =>
        refine ⟨[⟨x ++ [c], .long, x ++ [c]⟩], .cons (.word hdash (.inl hw)) ⟨[], by simp [(hlead _).2], .inr ⟨rfl, by simpa using hn'⟩⟩ .nil, rfl,
          ?_, by simp, _, c, rfl, by simp, by simpa using hc⟩
        intro z hz
        simp at hz; subst hz
        refine ⟨?_, rfl, by simp [h4]⟩
        have : (pattern (x ++ [c])).length = 5 := by simp [pattern, h4]
        intro h
        simp only [List.mem_cons, List.not_mem_nil, or_false] at h
        rcases h with h | h | h | h <;> rw [h] at this <;> simp at this

theorem texts_length : ∀ {zs : List Slot}, (∀ z ∈ zs, z.text.length ≤ 5) → (zs.map Slot.text).flatten.length ≤ 5 * zs.length
  | [], _ => by simp
  | a :: zs, h => by
    have h1 := h a (by simp)
    have h3 := texts_length fun z hz => h z (List.mem_cons_of_mem _ hz)
    simp only [List.map_cons, List.flatten_cons, List.length_append, List.length_cons]
    omega

theorem gismu_lujvo {b : Build} {s : Settings} {g : Bool} {vs : List Str} (h2 : 2 ≤ vs.length) (hg : ∀ v ∈ vs, Gismu s.allowMz v) :
    ∃ w sc, LujvoOf b s g vs w sc ∧ w.length ≤ 5 * vs.length := by
  obtain ⟨zs, hrep, hlen, hall, hy, z, l, hz, hl, hv⟩ := gismu_slots (b := b) (s := s) (g := g) (n := vs.length) (vs := vs) (i := 0) (by simp)
    (by rintro rfl; simp at h2) hg
  rw [← hlen] at h2
  match zs, h2 with
  | y :: z' :: rest, _ =>
    refine ⟨_, _, ⟨y :: z' :: rest, [], hrep, legal_y ⟨_, _, _, rfl, (hall y (by simp)).1⟩ hy ?_ ⟨l, ?_, hv⟩, rfl, rfl⟩, ?_⟩
    · simp [(hall y (by simp)).2.1]
    · rw [wordOf_flatten]
      obtain ⟨u, e⟩ := List.getLast?_eq_some_iff.1 hz
      rw [e, List.map_append, List.flatten_append, List.getLast?_append]
      simp [hl]
    · rw [wordOf_flatten, ← hlen]
      exact texts_length fun z hz => (hall z hz).2.2

end Jvotci
