import Verif.SpecCmavo
import Verif.SpecExtended
import Verif.Lemmas.GluedWord
import Verif.Lemmas.Exchange
import Verif.Lemmas.Found

/-!
# Helper lemmas: cmavo as experimental rafsi
-/

namespace Jvotci

open Spec

theorem nucleus_cases {n : Str} (h : Nucleus n) : (∃ a, n = [a] ∧ Vowel a) ∨ ∃ a b, n = [a, b] ∧ [a, b] ∈ [s%"ai", s%"ei", s%"oi", s%"au"] := by
  have : ∀ n ∈ [s%"a", s%"e", s%"i", s%"o", s%"u", s%"ai", s%"ei", s%"oi", s%"au"],
      (∃ a, n = [a] ∧ Vowel a) ∨ ∃ a b, n = [a, b] ∧ [a, b] ∈ [s%"ai", s%"ei", s%"oi", s%"au"] := by
    simp only [List.forall_mem_cons]
    refine ⟨.inl ⟨_, rfl, by decide⟩, .inl ⟨_, rfl, by decide⟩, .inl ⟨_, rfl, by decide⟩, .inl ⟨_, rfl, by decide⟩, .inl ⟨_, rfl, by decide⟩,
      .inr ⟨_, _, rfl, by decide⟩, .inr ⟨_, _, rfl, by decide⟩, .inr ⟨_, _, rfl, by decide⟩, .inr ⟨_, _, rfl, by decide⟩, by simp⟩
  refine this n ?_
  unfold Nucleus at h
  revert h
  simp

theorem diph_vowels {a b : Char} (h : [a, b] ∈ [s%"ai", s%"ei", s%"oi", s%"au"]) : Vowel a ∧ Vowel b ∧ a ≠ 'i' ∧ a ≠ 'u' := by
  simp at h
  rcases h with ⟨rfl, rfl⟩ | ⟨rfl, rfl⟩ | ⟨rfl, rfl⟩ | ⟨rfl, rfl⟩ <;> decide

theorem nucleus_all {n : Str} (h : Nucleus n) : n ≠ [] ∧ n.length ≤ 2 ∧ ∀ c ∈ n, Vowel c := by
  rcases nucleus_cases h with ⟨a, rfl, ha⟩ | ⟨a, b, rfl, hb⟩
  · simp [ha]
  · have := diph_vowels hb
    simp [this]

/-- No nucleus begins with an on-glide. -/
theorem nucleus_glided {n : Str} (h : Nucleus n) : ¬ Glided n := by
  rintro ⟨g, m, hg, hm, rfl⟩
  rcases nucleus_cases h with ⟨a, e, -⟩ | ⟨a, b, e, hb⟩
  · cases e
    exact (nucleus_all hm).1 rfl
  · cases e
    have := diph_vowels hb
    grind

theorem run_apos {a b u y t : Str} (h : Run Vowel (a ++ '\'' :: b) u y t) :
    (∃ t', t = t' ++ '\'' :: b ∧ Run Vowel a u y t') ∨ (∃ u', u = a ++ '\'' :: u' ∧ Run Vowel b u' y t) := by
  have hv : ¬ Vowel '\'' := by decide
  have e := h.eq
  rcases List.append_eq_append_iff.1 e with ⟨c, e1, e2⟩ | ⟨c, e1, e2⟩
  · -- u ++ y = a ++ c
    cases c with
    | nil =>
      left
      refine ⟨[], by simpa using e2.symm, by simpa using e1.symm, h.some, h.all, h.before, by simp⟩
    | cons d c =>
      cases e2
      rcases List.append_eq_append_iff.1 e1 with ⟨d, f1, f2⟩ | ⟨d, f1, f2⟩
      · exact absurd (h.all '\'' (by rw [f2]; simp)) hv
      · cases d with
        | nil =>
          exact absurd (h.all '\'' (by rw [List.nil_append] at f2; rw [← f2]; simp)) hv
        | cons d' d =>
          cases f2
          right
          refine ⟨d, f1, rfl, h.some, h.all, ?_, h.after⟩
          intro c hc
          refine h.before c ?_
          rw [f1, List.getLast?_append, List.getLast?_cons, hc]
          rfl
  · left
    refine ⟨c, e2, e1, h.some, h.all, h.before, ?_⟩
    intro d hd
    refine h.after d ?_
    rw [e2]
    cases c with
    | nil => cases hd
    | cons _ _ => exact hd

theorem run_whole {P : Char → Prop} {a u y t : Str} (h : Run P a u y t) (ha : ∀ c ∈ a, P c) : u = [] ∧ y = a ∧ t = [] := by
  have hu : u = [] := by
    cases hl : u.getLast? with
    | none => exact List.getLast?_eq_none_iff.1 hl
    | some c => exact absurd (ha c (by rw [h.eq]; have := List.mem_of_getLast? hl; simp [this])) (h.before c hl)
  have ht : t = [] := by
    cases t with
    | nil => rfl
    | cons c t => exact absurd (ha c (by rw [h.eq]; simp)) (h.after c rfl)
  have e := h.eq
  subst hu ht
  exact ⟨rfl, by simpa using e.symm, rfl⟩

theorem run_behind {P : Char → Prop} {a u y t : Str} {c : Char} (h : Run P (c :: a) u y t) (hc : ¬ P c) (ha : ∀ c ∈ a, P c) :
    u = [c] ∧ y = a ∧ t = [] := by
  cases u with
  | nil =>
    have e := h.eq
    cases hy : y with
    | nil => exact absurd hy h.some
    | cons d y' =>
      subst hy
      cases e
      exact absurd (h.all _ (by simp)) hc
  | cons d u =>
    have e := h.eq
    cases e
    have : Run P (u ++ y ++ t) u y t := by
      refine ⟨rfl, h.some, h.all, ?_, h.after⟩
      intro c hc'
      refine h.before c ?_
      rw [List.getLast?_cons, hc']
      rfl
    obtain ⟨rfl, h2, rfl⟩ := run_whole this (by simpa using ha)
    simp

/-- How a cmavo begins. -/
def Onset (o : Str) : Prop := o = [] ∨ (∃ c, Consonant c ∧ o = [c]) ∨ o = ['i'] ∨ o = ['u']

/-- The first syllable of a cmavo. -/
theorem onset_run {o n u y t : Str} (ho : Onset o) (hn : Nucleus n) (h : Run Vowel (o ++ n) u y t) :
    t = [] ∧ ((u = [] ∧ y = o ++ n ∧ (Nucleus y ∨ Glided y)) ∨ ((∃ c, u = [c] ∧ Consonant c) ∧ y = n)) := by
  obtain ⟨h1, h2, h3⟩ := nucleus_all hn
  rcases ho with rfl | ⟨c, hc, rfl⟩ | rfl | rfl
  · obtain ⟨rfl, rfl, rfl⟩ := run_whole h (by simpa using h3)
    exact ⟨rfl, .inl ⟨rfl, rfl, .inl hn⟩⟩
  · obtain ⟨rfl, rfl, rfl⟩ := run_behind h (fun h => vowel_not_consonant h hc) h3
    exact ⟨rfl, .inr ⟨⟨c, rfl, hc⟩, rfl⟩⟩
  · obtain ⟨rfl, rfl, rfl⟩ := run_whole h (by simp; exact ⟨by decide, h3⟩)
    exact ⟨rfl, .inl ⟨rfl, rfl, .inr ⟨'i', n, .inl rfl, hn, rfl⟩⟩⟩
  · obtain ⟨rfl, rfl, rfl⟩ := run_whole h (by simp; exact ⟨by decide, h3⟩)
    exact ⟨rfl, .inl ⟨rfl, rfl, .inr ⟨'u', n, .inr rfl, hn, rfl⟩⟩⟩

/-- The vowels of a cmavo. -/
theorem nuclei_run {n : Str} (hn : Nuclei n) : ∀ {o u y t : Str}, Onset o → Run Vowel (o ++ n) u y t →
    (u = [] ∧ (Nucleus y ∨ Glided y)) ∨ (u ≠ [] ∧ Nucleus y) := by
  induction hn with
  | one hn =>
    intro o u y t ho h
    obtain ⟨-, ⟨rfl, -, h⟩ | ⟨⟨c, rfl, -⟩, rfl⟩⟩ := onset_run ho hn h
    · exact .inl ⟨rfl, h⟩
    · exact .inr ⟨by simp, hn⟩
  | @more n t' hn ht ih =>
    intro o u y t ho h
    rw [← List.append_assoc] at h
    rcases run_apos h with ⟨t'', -, h⟩ | ⟨u', rfl, h'⟩
    · obtain ⟨-, ⟨rfl, -, h⟩ | ⟨⟨c, rfl, -⟩, rfl⟩⟩ := onset_run ho hn h
      · exact .inl ⟨rfl, h⟩
      · exact .inr ⟨by simp, hn⟩
    · refine .inr ⟨by simp, ?_⟩
      rcases ih (o := []) (.inl rfl) (by rw [List.nil_append]; exact h') with ⟨rfl, hy | hy⟩ | ⟨-, hy⟩
      · exact hy
      · -- the first vowels of the rest are a nucleus
        exfalso
        have key : ∀ {n u : Str}, Nuclei n → Run Vowel n [] y u → Nucleus y := by
          intro n u hn h
          cases hn with
          | one hn =>
            obtain ⟨-, rfl, -⟩ := run_whole h (nucleus_all hn).2.2
            exact hn
          | @more m r hm hr =>
            rcases run_apos h with ⟨_, -, h⟩ | ⟨u', e, -⟩
            · obtain ⟨-, rfl, -⟩ := run_whole h (nucleus_all hm).2.2
              exact hm
            · simp at e
        exact nucleus_glided (key ht h') hy
      · exact hy

theorem nuclei_letters {n : Str} (hn : Nuclei n) : (∀ c ∈ n, Vowel c ∨ c = '\'') ∧ (∃ a, n.head? = some a ∧ Vowel a) ∧
    ∃ a, n.getLast? = some a ∧ Vowel a := by
  have one : ∀ {n : Str}, Nucleus n → (∀ c ∈ n, Vowel c ∨ c = '\'') ∧ (∃ a, n.head? = some a ∧ Vowel a) ∧ ∃ a, n.getLast? = some a ∧ Vowel a := by
    intro n h
    obtain ⟨h1, h2, h3⟩ := nucleus_all h
    refine ⟨fun c hc => .inl (h3 c hc), ?_, ?_⟩
    · cases n with
      | nil => exact absurd rfl h1
      | cons a n => exact ⟨a, rfl, h3 a (by simp)⟩
    · cases hl : n.getLast? with
      | none => simp at hl; exact absurd hl h1
      | some a => exact ⟨a, rfl, h3 a (List.mem_of_getLast? hl)⟩
  induction hn with
  | one h => exact one h
  | @more n t h ht ih =>
    obtain ⟨h1, ⟨a, ha, hav⟩, h3⟩ := one h
    obtain ⟨i1, i2, ⟨b, hb, hbv⟩⟩ := ih
    refine ⟨?_, ⟨a, ?_, hav⟩, ⟨b, ?_, hbv⟩⟩
    · intro c hc
      rcases List.mem_append.1 hc with hc | hc
      · exact h1 c hc
      · rcases List.mem_cons.1 hc with rfl | hc
        · exact .inr rfl
        · exact i1 c hc
    · rw [List.head?_append, ha]; rfl
    · rw [List.getLast?_append, List.getLast?_cons, hb]; rfl

theorem nuclei_apos {n : Str} (hn : Nuclei n) : ∀ u t, n = u ++ '\'' :: t →
    (∃ a, u.getLast? = some a ∧ Vowel a) ∧ ∃ b, t.head? = some b ∧ Vowel b := by
  have hna : ∀ {n : Str}, Nucleus n → '\'' ∉ n := fun h h' => absurd ((nucleus_all h).2.2 _ h') (by decide)
  induction hn with
  | one h =>
    intro u t e
    exact absurd (by rw [e]; simp) (hna h)
  | @more n t' h ht ih =>
    intro u t e
    rcases List.append_eq_append_iff.1 e with ⟨c, e1, e2⟩ | ⟨c, e1, e2⟩
    · cases c with
      | nil =>
        cases e2
        rw [e1, List.append_nil]
        exact ⟨(nuclei_letters (.one h)).2.2, (nuclei_letters ht).2.1⟩
      | cons d c =>
        cases e2
        obtain ⟨⟨a, ha, hav⟩, hb⟩ := ih c t rfl
        exact ⟨⟨a, by rw [e1, List.getLast?_append, List.getLast?_cons, ha]; rfl, hav⟩, hb⟩
    · cases c with
      | nil =>
        cases e2
        rw [List.append_nil] at e1
        subst e1
        exact ⟨(nuclei_letters (.one h)).2.2, (nuclei_letters ht).2.1⟩
      | cons d c =>
        cases e2
        exact absurd (by rw [e1]; simp) (hna h)

/-- What matters about the letters of a cmavo. -/
theorem cmavo_letters {x : Str} (h : CmavoShape x) : (∀ c ∈ x, Vowel c ∨ Consonant c ∨ c = '\'') ∧ (∀ c ∈ x.tail, ¬ Consonant c) ∧
    (∃ a, x.head? = some a ∧ (Vowel a ∨ Consonant a)) ∧ ∃ a, x.getLast? = some a ∧ Vowel a := by
  obtain ⟨o, n, rfl, hn, ho⟩ := h
  obtain ⟨h1, ⟨a, ha, hav⟩, ⟨b, hb, hbv⟩⟩ := nuclei_letters hn
  have hnc : ∀ c ∈ n, ¬ Consonant c := by
    intro c hc hcc
    rcases h1 c hc with hv | rfl
    · exact vowel_not_consonant hv hcc
    · revert hcc; decide
  have ht : ∀ c ∈ n.tail, ¬ Consonant c := fun c hc => hnc c (List.mem_of_mem_tail hc)
  have hl : ∀ c ∈ n, Vowel c ∨ Consonant c ∨ c = '\'' := fun c hc => (h1 c hc).elim .inl (fun h => .inr (.inr h))
  have hlast : (o ++ n).getLast? = some b := by rw [List.getLast?_append, hb]; rfl
  rcases ho with rfl | ⟨c, hc, rfl⟩ | rfl | rfl
  · exact ⟨hl, ht, ⟨a, ha, .inl hav⟩, ⟨b, hb, hbv⟩⟩
  · refine ⟨?_, by simpa using hnc, ⟨c, rfl, .inr hc⟩, ⟨b, hlast, hbv⟩⟩
    intro d hd
    simp at hd
    rcases hd with rfl | hd
    · exact .inr (.inl hc)
    · exact hl d hd
  · refine ⟨?_, by simpa using hnc, ⟨'i', rfl, .inl (by decide)⟩, ⟨b, hlast, hbv⟩⟩
    intro d hd
    simp at hd
    rcases hd with rfl | hd
    · exact .inl (by decide)
    · exact hl d hd
  · refine ⟨?_, by simpa using hnc, ⟨'u', rfl, .inl (by decide)⟩, ⟨b, hlast, hbv⟩⟩
    intro d hd
    simp at hd
    rcases hd with rfl | hd
    · exact .inl (by decide)
    · exact hl d hd

theorem tail_append_mem {u t : Str} {a b : Char} : b ∈ (u ++ a :: b :: t).tail := by
  cases u <;> simp

theorem cmavo_sounds {mz : Bool} {x : Str} (h : CmavoShape x) : Sounds mz x := by
  obtain ⟨hl, ht, -, -⟩ := cmavo_letters h
  refine ⟨hl, ?_, ?_, ?_, ?_, ?_, ?_⟩
  · obtain ⟨o, n, rfl, hn, ho⟩ := h
    intro u t e
    have hc : ∀ {c : Char}, c ≠ '\'' → [c] ++ n = u ++ '\'' :: t →
        (∃ a, u.getLast? = some a ∧ Vowel a) ∧ ∃ b, t.head? = some b ∧ Vowel b := by
      intro c hc e
      cases u with
      | nil => cases e; exact absurd rfl hc
      | cons d u =>
        cases e
        obtain ⟨⟨a, ha, hav⟩, hb⟩ := nuclei_apos hn u t rfl
        exact ⟨⟨a, by rw [List.getLast?_cons, ha]; rfl, hav⟩, hb⟩
    rcases ho with rfl | ⟨c, hcc, rfl⟩ | rfl | rfl
    · exact nuclei_apos hn u t e
    · exact hc (by rintro rfl; revert hcc; decide) e
    · exact hc (by decide) e
    · exact hc (by decide) e
  · rintro a b ⟨u, v, rfl⟩ - hb
    exact absurd hb (ht b tail_append_mem)
  · rintro t hbt ⟨u, v, rfl⟩
    have : ∀ t ∈ bannedTriples, ∃ a b r, t = a :: b :: r ∧ Consonant b := by
      intro t ht
      have key : ∀ t ∈ bannedTriples, ∃ b ∈ t[1]?, Consonant b := by decide
      obtain ⟨b, hb, hbc⟩ := key t ht
      match t, hb with
      | a :: _ :: r, rfl => exact ⟨a, b, r, rfl, hbc⟩
    obtain ⟨a, b, r, rfl, hb⟩ := this t hbt
    exact ht b (by rw [List.append_assoc]; exact tail_append_mem) hb
  · intro ch t hr
    match ch, hr with
    | [], hr => exact absurd rfl hr.some
    | [c], hr => exact .one (hr.all c (by simp))
    | a :: b :: ch, hr =>
      exact absurd (hr.all b (by simp)) (ht b (by rw [hr.eq]; simp))
  · intro u ch t hr hu
    cases ch with
    | nil => exact absurd rfl hr.some
    | cons c ch =>
      refine absurd (hr.all c (by simp)) (ht c ?_)
      rw [hr.eq]
      cases u with
      | nil => exact absurd rfl hu
      | cons _ _ => simp
  · intro u y t hr
    obtain ⟨o, n, rfl, hn, ho⟩ := h
    rcases nuclei_run hn ho hr with ⟨rfl, hy⟩ | ⟨-, hy⟩
    · exact ⟨[y], by simp, .one hy, fun h => absurd rfl h⟩
    · refine ⟨[y], by simp, .one (.inl hy), ?_⟩
      intro _ s hs
      cases hs
      exact nucleus_glided hy

/-- A nucleus or glided nucleus is one syllable. -/
theorem one_syllable {y : Str} (h : Nucleus y ∨ Glided y) {l : List Str} (hl : VowelRun l) (e : l.flatten = y) : l.length ≤ 1 := by
  cases hl with
  | one => simp
  | @more l s hl hs _ =>
    exfalso
    have h1 := vowelRun_ne hl
    obtain ⟨g, n, hg, hn, rfl⟩ := hs
    obtain ⟨hn1, -, -⟩ := nucleus_all hn
    have hlen : 1 ≤ l.flatten.length := List.length_pos_iff.2 h1
    have hnl : 1 ≤ n.length := List.length_pos_iff.2 hn1
    rw [List.flatten_append] at e
    have e' : l.flatten ++ g :: n = y := by simpa using e
    rcases h with h | ⟨g', m, -, hm, rfl⟩
    · have := (nucleus_all h).2.1
      rw [← e', List.length_append, List.length_cons] at this
      omega
    · have h2 := (nucleus_all hm).2.1
      match hlf : l.flatten, h1 with
      | c :: [], _ =>
        rw [hlf] at e'
        cases e'
        rcases nucleus_cases hm with ⟨a, e, -⟩ | ⟨a, b, e, hb⟩
        · cases e; exact hn1 rfl
        · cases e
          have := diph_vowels hb
          grind
      | c :: d :: r, _ =>
        rw [hlf] at e'
        have := congrArg List.length e'
        simp at this
        omega

theorem cmavo_one {x : Str} (h : CmavoShape x) : OneCmavo x := by
  obtain ⟨o, n, rfl, hn, ho⟩ := h
  intro u y hr _ syls e hs
  refine one_syllable ?_ hs e
  rcases nuclei_run hn ho hr with ⟨-, hy⟩ | ⟨-, hy⟩
  · exact hy
  · exact .inl hy

/-- A rafsi with no consonant but the first is CVV or CV'V. -/
theorem rafsi_oneConsonant {mz : Bool} {x : Str} (h : Rafsi mz x) (ht : ∀ c ∈ x.tail, ¬ Consonant c) : VowelRafsi x := by
  cases h with
  | @cvv a b c _ hb hc => exact ⟨a, b, c, hb, hc, .inl rfl⟩
  | @cvhv a b c _ hb hc => exact ⟨a, b, c, hb, hc, .inr rfl⟩
  | cvc _ _ hc => exact absurd hc (ht _ (by simp))
  | ccv h _ => exact absurd ((isConsonant_iff _).1 (initial_cons h).2) (ht _ (by simp))
  | cvcc _ _ h => exact absurd h.1 (ht _ (by simp))
  | ccvc h _ _ => exact absurd ((isConsonant_iff _).1 (initial_cons h).2) (ht _ (by simp))
  | gismu h =>
    cases h with
    | cvccv _ _ h _ => exact absurd h.1 (ht _ (by simp))
    | ccvcv h _ _ _ => exact absurd ((isConsonant_iff _).1 (initial_cons h).2) (ht _ (by simp))

/-- If the letters after the last y are a cmavo, they are the last rafsi of a reading. -/
theorem reading_cmavo {y : YHyphens} {mz : Bool} {qs : List Str} {w x : Str} (h : Reading y mz qs) (hx : CmavoShape x)
    (e : qs.flatten = w ++ x) (hw : w = [] ∨ ∃ u, w = u ++ s%"y" ∨ w = u ++ s%"y'") : VowelRafsi x := by
  obtain ⟨u, p, rfl, hp⟩ := reading_last h
  obtain ⟨a, t, rfl, ha⟩ := rafsi_first hp
  have ha := (isConsonant_iff a).1 ha
  obtain ⟨-, ht, ⟨b, hb, hbv⟩, -⟩ := cmavo_letters hx
  have hny := rafsi_noY hp
  simp only [List.flatten_append, List.flatten_cons, List.flatten_nil, List.append_nil] at e
  have hsame : ∀ {z : Str}, z ++ (a :: t) = x → VowelRafsi x := by
    rintro z rfl
    cases z with
    | nil => exact rafsi_oneConsonant hp ht
    | cons c z => exact absurd ha (ht a (by simp))
  rcases List.append_eq_append_iff.1 e with ⟨c, e1, e2⟩ | ⟨c, e1, e2⟩
  · -- the rafsi is longer than the cmavo
    cases hc : c.getLast? with
    | none =>
      simp at hc
      subst hc
      exact hsame (z := []) e2
    | some d =>
      exfalso
      obtain ⟨c', rfl⟩ := List.getLast?_eq_some_iff.1 hc
      have hwd : w.getLast? = some d := by rw [e1, List.getLast?_append, List.getLast?_append]; rfl
      rcases hw with rfl | ⟨v, rfl | rfl⟩
      · cases hwd
      · simp at hwd
        subst hwd
        exact hny (by rw [e2]; simp)
      · simp at hwd
        subst hwd
        have e3 : v ++ ['y'] ++ ['\''] = (u.flatten ++ c') ++ ['\''] := by simpa using e1
        have e4 := List.append_cancel_right e3
        cases hc' : c'.getLast? with
        | none =>
          simp at hc'
          subst hc'
          cases e2
          revert ha; decide
        | some f =>
          obtain ⟨c'', rfl⟩ := List.getLast?_eq_some_iff.1 hc'
          have : (v ++ ['y']).getLast? = some f := by rw [e4, List.getLast?_append, List.getLast?_append]; rfl
          simp at this
          subst this
          exact hny (by rw [e2]; simp)
  · exact hsame e2.symm

theorem cmavo_unreadable {s : Settings} {x : Str} (h : CmavoShape x) (hv : ¬ VowelRafsi x) : Unreadable s x := by
  intro qs hr e
  exact hv (reading_cmavo (w := []) hr h (by simpa using e) (.inl rfl))

end Jvotci
