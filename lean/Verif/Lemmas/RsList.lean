import Verif.Lemmas.RsSearch
import Verif.Lemmas.Found
import Verif.SpecRsLujvo

/-!
# The rafsi lists of the Rust crate
-/

namespace Jvotci

open Spec

theorem rsForms_ok {mz : Bool} {x : Str} (hx : Rafsi mz x) {t : RType} (ht : t ≠ .tarmi .hyphen ∧ t ≠ .tarmi .other)
    (hc : (t = .shortBrivla ∨ t = .tarmi .ccvc ∨ t = .tarmi .cvcc ∨ t = .tarmi .cvc) → ∃ c, x.getLast? = some c ∧ Consonant c)
    (f l : Bool) (c : Consonants) (g : Bool) :
    ∃ os, getRafsiForRafsi x t f l c g = .ok os ∧ rsGetRafsiForRafsi x t f l c g = .ok os ∧ ∀ r ∈ os, RsForm r.1 := by
  obtain ⟨a, u, rfl, ha⟩ := rafsi_first hx
  obtain ⟨os, h1, h2⟩ := rsGetRafsiForRafsi_eq (r := a :: u) (by simp) ht f l c g
  refine ⟨os, h1, h2, ?_⟩
  have hv : isVowel a = false := by
    cases h : isVowel a
    · rfl
    · rw [isVowel_not_isConsonant h] at ha; cases ha
  have e0 : RsForm (a :: u) := ⟨mz, a :: u, [], hx, by simp, .inl rfl⟩
  have e1 : RsForm (a :: u ++ s%"'") := ⟨mz, a :: u, _, hx, rfl, .inr (.inl rfl)⟩
  have e2 : RsForm (a :: u ++ s%"'y") := ⟨mz, a :: u, _, hx, rfl, .inr (.inr (.inl rfl))⟩
  have e3 : (t = .shortBrivla ∨ t = .tarmi .ccvc ∨ t = .tarmi .cvcc ∨ t = .tarmi .cvc) → RsForm (a :: u ++ s%"y") :=
    fun h => ⟨mz, a :: u, _, hx, rfl, .inr (.inr (.inr ⟨rfl, hc h⟩))⟩
  unfold rsGetRafsiForRafsi at h2
  rw [rsAt_zero, rsIsVowel_eq, hv] at h2
  simp only [Bool.and_false, Bool.false_and, Bool.false_eq_true, if_false] at h2
  intro r hr
  match t, ht with
  | .shortBrivla, _ =>
    simp only at h2
    repeat' split at h2
    all_goals (cases h2; simp at hr)
    · subst hr; exact e3 (.inl rfl)
    · subst hr; exact e0
  | .tarmi .ccvc, _ =>
    simp only at h2
    repeat' split at h2
    all_goals (cases h2; simp at hr)
    · subst hr; exact e3 (.inr (.inl rfl))
    · subst hr; exact e0
  | .tarmi .cvcc, _ =>
    simp only at h2
    repeat' split at h2
    all_goals (cases h2; simp at hr)
    · subst hr; exact e3 (.inr (.inr (.inl rfl)))
    · subst hr; exact e0
  | .longBrivla, _ | .tarmi .ccvcv, _ | .tarmi .cvccv, _ =>
    simp only at h2
    split at h2
    all_goals (cases h2; simp at hr; subst hr)
    · exact e0
    · exact e2
  | .experimental, _ =>
    simp only at h2
    repeat' split at h2
    all_goals (cases h2; simp at hr; subst hr)
    all_goals first | exact e0 | exact e1 | exact e2
  | .tarmi .cvv, _ | .tarmi .cvhv, _ =>
    simp only [Except.ok.injEq] at h2
    subst h2
    cases f <;> cases l <;> simp at hr
    all_goals first
      | (subst hr; exact e0)
      | (rcases hr with rfl | rfl <;> first | exact e0 | exact e1 | exact e2)
  | .tarmi .ccv, _ =>
    cases h2
    simp at hr
    rcases hr with rfl | rfl
    · exact e0
    · exact e2
  | .tarmi .cvc, _ =>
    simp only [Except.ok.injEq] at h2
    subst h2
    cases l <;> simp at hr
    · rcases hr with rfl | rfl
      · exact e0
      · exact e3 (.inr (.inr (.inr rfl)))
    · subst hr; exact e0

theorem rafsi_shape {mz : Bool} {x : Str} (hx : Rafsi mz x) : (RType.tarmi (rafsiTarmi x) ≠ .tarmi .hyphen ∧ RType.tarmi (rafsiTarmi x) ≠ .tarmi .other) ∧
    ((RType.tarmi (rafsiTarmi x) = .shortBrivla ∨ RType.tarmi (rafsiTarmi x) = .tarmi .ccvc ∨ RType.tarmi (rafsiTarmi x) = .tarmi .cvcc ∨
      RType.tarmi (rafsiTarmi x) = .tarmi .cvc) → ∃ c, x.getLast? = some c ∧ Consonant c) := by
  have hv := isValidRafsi_iff.2 hx
  refine ⟨⟨fun h => ?_, fun h => ?_⟩, fun h => ?_⟩
  · simp only [RType.tarmi.injEq] at h
    unfold isValidRafsi at hv
    rw [h] at hv
    simp at hv
    exact absurd hv (by decide)
  · simp only [RType.tarmi.injEq] at h
    unfold isValidRafsi at hv
    rw [h] at hv
    simp at hv
    exact absurd hv (by decide)
  · simp only [RType.tarmi.injEq, reduceCtorEq, false_or] at h
    rcases h with h | h | h
    · obtain ⟨a, b, c, d, rfl, -, -, -, h⟩ := tarmi_ccvc.1 h
      exact ⟨d, rfl, (isConsonant_iff _).1 h⟩
    · obtain ⟨a, b, c, d, rfl, -, -, -, h⟩ := tarmi_cvcc.1 h
      exact ⟨d, rfl, (isConsonant_iff _).1 h⟩
    · obtain ⟨a, b, c, rfl, -, -, h⟩ := tarmi_cvc.1 h
      exact ⟨c, rfl, (isConsonant_iff _).1 h⟩

theorem rsTable_ok (s : Settings) (f l : Bool) : ∀ rs : List Str, (∀ r ∈ rs, Rafsi false r) →
    ∃ os, rafsiListTable s f l rs = .ok os ∧ rsRafsiListTable s f l rs = .ok os ∧ ∀ r ∈ os, RsForm r.1
  | [], _ => ⟨[], rfl, rfl, by simp⟩
  | x :: rs, h => by
    have hx := h x (List.mem_cons_self ..)
    obtain ⟨h1, h2⟩ := rafsi_shape hx
    obtain ⟨a, ha, ha', haf⟩ := rsForms_ok hx h1 h2 f l s.consonants s.glides
    obtain ⟨b, hb, hb', hbf⟩ := rsTable_ok s f l rs fun r hr => h r (List.mem_cons_of_mem _ hr)
    refine ⟨a ++ b, ?_, ?_, ?_⟩
    · unfold rafsiListTable
      rw [if_neg (fun h => h1.2 (by rw [h.1])), ha, hb]
      rfl
    · unfold rsRafsiListTable
      rw [rsTarmi_rafsi hx, if_neg (fun h => h1.2 (by rw [h.1])), ha', hb']
      rfl
    · intro r hr
      rcases List.mem_append.1 hr with hr | hr
      · exact haf r hr
      · exact hbf r hr

theorem lookup_rafsi (v : Str) : ∀ r ∈ (RAFSI_LIST.lookup v).getD [], Rafsi false r := by
  intro r hr
  cases h : RAFSI_LIST.lookup v with
  | none => rw [h] at hr; cases hr
  | some rs =>
    rw [h] at hr
    obtain ⟨l1, l2, e, -⟩ := List.lookup_eq_some_iff.1 h
    exact isValidRafsi_iff.1 (table_shapes (v, rs) (by rw [e]; simp) r hr).2

theorem rsNormalise_letters {v : Str} (hl : ∀ c ∈ v, Vowel c ∨ Consonant c ∨ c = '\'') : rsNormalise v = v := by
  have key : ∀ c ∈ v, lowerChar c = [c] ∧ c ≠ 'h' ∧ c ≠ ',' ∧ c ≠ '.' := by
    intro c hc
    have h := hl c hc
    simp only [Vowel, Consonant, List.mem_cons, List.not_mem_nil, or_false] at h
    rcases h with (rfl | rfl | rfl | rfl | rfl) |
      (rfl | rfl | rfl | rfl | rfl | rfl | rfl | rfl | rfl | rfl | rfl | rfl | rfl | rfl | rfl | rfl | rfl) | rfl <;> decide
  have h1 : lower v = v := by
    unfold lower
    clear hl
    induction v with
    | nil => rfl
    | cons a t ih =>
      rw [List.flatMap_cons, (key a (List.mem_cons_self ..)).1, ih fun c hc => key c (List.mem_cons_of_mem _ hc)]
      rfl
  have h2 : stripBoth (· == '.') v = v := by
    cases hv : v with
    | nil => rfl
    | cons a t =>
      have := stripBoth_clean (p := (· == '.')) (x := v) (t := [])
        (fun c hc => by have := (key c (List.mem_of_mem_head? hc)).2.2.2; simpa using this)
        (fun c hc => by have := (key c (getLast_mem hc)).2.2.2; simpa using this) (by rw [hv]; simp) rfl
      rw [List.append_nil, hv] at this
      exact this
  unfold rsNormalise
  rw [h1, h2]
  have h3 : v.map (fun c => if c = 'h' then '\'' else c) = v := by
    conv => rhs; rw [← List.map_id v]
    refine List.map_congr_left fun c hc => ?_
    rw [if_neg (key c hc).2.1]
    rfl
  rw [h3, List.filter_eq_self]
  intro c hc
  simpa using (key c hc).2.2.1

theorem rsAnalyse_gismu {A : RsRest} {s : Settings} {v : Str} (h : Gismu s.allowMz v) : rsAnalyse A s v = .ok (.gismu, [v]) := by
  have hl : ∀ c ∈ v, Vowel c ∨ Consonant c ∨ c = '\'' := rafsi_letters (.gismu h)
  have hn : rsNormalise v = v := rsNormalise_letters hl
  have hne : v ≠ [] := by rintro rfl; cases h
  obtain ⟨q, hq⟩ : ∃ q, v.getLast? = some q := ⟨_, List.getLast?_eq_some_getLast hne⟩
  have hv : Vowel q := by
    cases h with
    | cvccv _ _ _ h => simp at hq; subst hq; exact h
    | ccvcv _ _ _ h => simp at hq; subst hq; exact h
  have hqv := (isVowel_iff _).2 hv
  have hqc := isVowel_not_isConsonant hqv
  have hg : rsIsGismu s.allowMz v = true := by rw [rsIsGismu_eq]; exact isGismu_iff.2 h
  unfold rsAnalyse
  simp only [hn, rsBack_of hq, rsIsConsonant_eq, rsIsVowel_eq, hqv, hqc, hg]
  cases v with
  | nil => exact absurd rfl hne
  | cons a t => rfl

theorem rsComponent_ok {A : RsRest} {s : Settings} {v : Str} (h : RsComponent A s v) (f l : Bool) :
    ∃ os, rafsiListFor (program .linked) s f l v = .ok os ∧ rsRafsiListFor A s f l v = .ok os ∧ ∀ r ∈ os, RsForm r.1 := by
  have word : ∀ {v : Str}, v ≠ [] → (∀ c ∈ v, Vowel c ∨ Consonant c ∨ c = '\'') →
      ((program .linked).analyse { yHyphens := s.yHyphens, expRafsi := s.expRafsi, allowMz := s.allowMz } v = .error .notBrivla ∧
        rsAnalyse A { yHyphens := s.yHyphens, expRafsi := s.expRafsi, allowMz := s.allowMz } v = .error .notBrivla ∨
      Gismu s.allowMz v) →
      ∃ os, rafsiListFor (program .linked) s f l v = .ok os ∧ rsRafsiListFor A s f l v = .ok os ∧ ∀ r ∈ os, RsForm r.1 := by
    intro v hne hl h
    obtain ⟨q, hq⟩ : ∃ q, v.getLast? = some q := ⟨_, List.getLast?_eq_some_getLast hne⟩
    have hqd : q ≠ '-' := by
      rintro rfl
      have := hl _ (getLast_mem hq)
      revert this
      decide
    have hol := onlyLojban_of hne hl
    obtain ⟨ta, t1, t2, t3⟩ := rsTable_ok s f l _ (lookup_rafsi v)
    have start : rafsiListFor (program .linked) s f l v = rafsiListWord (program .linked) s f l v ∧ rsRafsiListFor A s f l v = rsRafsiListWord A s f l v := by
      constructor
      · unfold rafsiListFor idxLast
        simp only [hq, bind, Except.bind, if_neg hqd]
      · unfold rsRafsiListFor
        rw [rsBack_of hq, if_neg hqd]
    rw [start.1, start.2]
    unfold rafsiListWord rsRafsiListWord
    rw [rsIsOnlyLojban_eq, if_neg (by simp [hol]), if_neg (by simp [hol]), t1, t2]
    rcases h with ⟨h1, h2⟩ | hg
    · rw [h1, h2]
      exact ⟨ta ++ [] ++ [], rfl, rfl, by simpa using t3⟩
    · have h1 : (program .linked).analyse { yHyphens := s.yHyphens, expRafsi := s.expRafsi, allowMz := s.allowMz } v = .ok (.gismu, [reading v]) :=
        C03_gismu_iff.2 ⟨hne, by rw [reading_letters hl]; exact hg, rfl⟩
      rw [h1, rsAnalyse_gismu (s := { yHyphens := s.yHyphens, expRafsi := s.expRafsi, allowMz := s.allowMz }) hg]
      obtain ⟨x, c, rfl⟩ : ∃ x c, v = x ++ [c] := ⟨_, _, (List.dropLast_concat_getLast hne).symm⟩
      obtain ⟨hx, h4, hk, hvc⟩ := gismu_cut hg
      have ed : dropLastN (x ++ [c]) 1 = x := by simp [dropLastN]
      have hend : ∃ c, x.getLast? = some c ∧ Consonant c := by
        cases hx with
        | cvhv =>
          cases hg with
          | cvccv _ _ h _ => exact absurd h.1 (by decide)
          | ccvcv _ h _ _ => exact absurd h (by decide)
        | cvcc _ _ h => exact ⟨_, rfl, h.2.1⟩
        | ccvc _ _ h => exact ⟨_, rfl, h⟩
        | gismu h => cases h <;> simp at h4
        | _ => simp at h4
      obtain ⟨fa, f1, f2, f3⟩ := rsForms_ok hx (t := .shortBrivla) (by simp) (fun _ => hend) f l s.consonants s.glides
      obtain ⟨la, l1, l2, l3⟩ := rsForms_ok (.gismu hg) (t := .longBrivla) (by simp) (by simp) f l s.consonants s.glides
      rw [ed]
      refine ⟨ta ++ fa ++ la, ?_, ?_, ?_⟩
      · simp only [bind, Except.bind, reduceIte, true_or, f1, l1]
      · simp only [bind, Except.bind, reduceIte, true_or, f2, l2]
      · intro r hr
        simp only [List.mem_append] at hr
        rcases hr with (hr | hr) | hr
        · exact t3 r hr
        · exact f3 r hr
        · exact l3 r hr
  cases h with
  | @rafsi x hd hx =>
    obtain ⟨h1, h2⟩ := rafsi_shape hx
    obtain ⟨os, o1, o2, o3⟩ := rsForms_ok hx h1 h2 f l s.consonants s.glides
    have hne : x ≠ [] := by rintro rfl; exact absurd (rafsi_length hx).1 (by decide)
    obtain ⟨q, hq⟩ : ∃ q, x.getLast? = some q := ⟨_, List.getLast?_eq_some_getLast hne⟩
    have hqa : q ≠ '\'' := by
      rintro rfl
      exact absurd (rafsi_last? hx hq) (by decide)
    obtain ⟨t, et⟩ : ∃ t, v = '-' :: t := by
      have := dashed_head hd
      cases v with
      | nil => cases this
      | cons a t => simp at this; exact ⟨t, by rw [this]⟩
    refine ⟨os, ?_, ?_, o3⟩
    · unfold rafsiListFor idxLast
      rw [dashed_last hd, dashed_strip hd]
      simp only [bind, Except.bind, hq, if_true, rafsi_onlyLojban hx, hqa, if_false]
      rw [et]
      simp only [idx]
      unfold rafsiListRafsi
      simp only [Bool.not_true, Bool.false_eq_true, if_false, List.getElem?_cons_zero, ne_eq, not_true_eq_false]
      rw [if_neg (fun h => h1.2 (by rw [h])), isValidRafsi_iff.2 hx]
      exact o1
    · unfold rsRafsiListFor
      rw [rsBack_of (dashed_last hd), dashed_strip hd, et, rsAt_zero]
      simp only [if_true, rsIsOnlyLojban_eq, rafsi_onlyLojban hx, rsBack_of hq, hqa, if_false]
      unfold rsRafsiListRafsi
      rw [rsTarmi_rafsi hx, rsIsValidRafsi_of (rsTarmi_rafsi hx), isValidRafsi_iff.2 hx]
      simp only [Bool.not_true, Bool.false_eq_true, if_false, ne_eq, not_true_eq_false, decide_false]
      rw [if_neg (fun h => h1.2 (by rw [h]))]
      exact o2
  | gismu hg =>
    have hl : ∀ c ∈ v, Vowel c ∨ Consonant c ∨ c = '\'' := rafsi_letters (.gismu hg)
    have hne : v ≠ [] := by rintro rfl; cases hg
    exact word hne hl (.inr hg)
  | other hne hl h1 h2 => exact word hne hl (.inl ⟨h1, h2⟩)

theorem rsComponents_ok {A : RsRest} {s : Settings} {N : Nat} : ∀ {vs : List Str} {i : Nat}, (∀ v ∈ vs, RsComponent A s v) →
    ∃ ll, rafsiListListFrom (program .linked) s N i vs = .ok ll ∧ rsRafsiListListFrom A s N i vs = .ok ll ∧ ll.length = vs.length ∧
      ∀ l ∈ ll, ∀ r ∈ l, RsForm r.1
  | [], i, _ => ⟨[], rfl, rfl, rfl, by simp⟩
  | v :: vs, i, h => by
    obtain ⟨a, a1, a2, a3⟩ := rsComponent_ok (h v (List.mem_cons_self ..)) (i == 0) (i + 1 == N)
    obtain ⟨ll, b1, b2, b3, b4⟩ := rsComponents_ok (N := N) (i := i + 1) fun v hv => h v (List.mem_cons_of_mem _ hv)
    refine ⟨a :: ll, ?_, ?_, by simp [b3], ?_⟩
    · unfold rafsiListListFrom
      rw [a1, b1]
      rfl
    · unfold rsRafsiListListFrom
      rw [a2, b2]
      rfl
    · intro l hl
      rcases List.mem_cons.1 hl with rfl | hl
      · exact a3
      · exact b4 l hl

end Jvotci
