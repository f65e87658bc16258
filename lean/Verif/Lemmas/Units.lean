import Verif.Props.Unread
import Verif.SpecExtended

/-!
# Helper lemmas: the rafsi of components that are zi'evla
-/

namespace Jvotci

open Spec

/-- A zi'evla that stands for itself. -/
structure ZWhole (s : Settings) (x : Str) : Prop where
  form : ZihevlaForm s.allowMz x
  together : ∀ u t, x = u ++ t → (∃ a, u.getLast? = some a ∧ Vowel a) → ConsonantInitial t ∨ Onglide t →
    (∀ a b, Adjacent u a b → ¬ (Consonant a ∧ Consonant b)) → isBrivla .linked { yHyphens := s.yHyphens } t = .ok false
  slinkuhi : ConsonantInitial x → ∀ qs, LujvoPieces { yHyphens := s.yHyphens, allowMz := s.allowMz } qs → qs.flatten ≠ s%"to" ++ x
  unreadable : Unreadable s x

/-- A zi'evla without its last vowel. -/
structure ZCut (s : Settings) (x : Str) : Prop where
  whole : ZWhole s (x ++ s%"a")
  unreadable : (∃ c, x.getLast? = some c ∧ Consonant c) → Unreadable s x
  ends : x.getLast? ≠ some '\''

/-- One rafsi is a reading. -/
theorem reading_oneRafsi {y : YHyphens} {mz : Bool} {x : Str} (h : Rafsi mz x) (hd : Diph x) : Reading y mz [x] := by
  refine ⟨⟨_, rfl, h⟩, ⟨_, rfl, h⟩, ?_, links_one, ?_⟩
  · intro p hp c a b e
    simp at hp
    subst hp
    exact hd c a b e
  · intro a b c v _ e
    simp at e

theorem diph_long {x : Str} (h : x.length ≠ 3) : Diph x := by
  rintro c a b rfl
  simp at h

theorem diph_consonant {a b c : Char} (h : Consonant b ∨ Consonant c) : Diph [a, b, c] := by
  intro x y z e hy hz
  cases e
  rcases h with h | h
  · exact absurd h (vowel_not_consonant hy)
  · exact absurd h (vowel_not_consonant hz)

theorem unreadable_gismu {s : Settings} {x : Str} (h : Unreadable s x) : ¬ Gismu s.allowMz x := by
  intro hg
  exact h [x] (reading_oneRafsi (.gismu hg) (diph_long (by cases hg <;> simp))) (by simp)

/-- A vowel with a after it, behind a consonant, is no syllable. -/
theorem sounds_va {mz : Bool} {u : Str} {c v : Char} (h : Sounds mz (u ++ [c, v, 'a'])) (hc : Consonant c) (hv : Vowel v) : False := by
  obtain ⟨syls, e, hr, hg⟩ := h.vowels (u ++ [c]) [v, 'a'] [] ⟨by simp, by simp, by
      intro d hd
      simp at hd
      rcases hd with rfl | rfl
      · exact hv
      · decide, by
      intro d hd
      simp at hd
      subst hd
      exact fun h => vowel_not_consonant h hc, by intro d hd; cases hd⟩
  have hg := hg (by simp)
  match syls, e, hr, hg with
  | [], e, _, _ => cases e
  | [s], e, hr, hg =>
    have hn := vowelRun_head hr
    simp at e
    subst e
    rcases hn with h | h
    · have : ∀ s ∈ [s%"a", s%"e", s%"i", s%"o", s%"u", s%"ai", s%"ei", s%"oi", s%"au"], s.length = 1 ∨ s.getLast? ≠ some 'a' := by decide
      have := this _ h
      simp at this
    · exact hg _ rfl h
  | s :: s2 :: l, e, hr, hg =>
    obtain ⟨h1, h2⟩ := vowelRun_tail hr (by simp)
    obtain ⟨g, t, rfl, -, -, ht⟩ := glided_first (h2 s2 rfl)
    have h3 := vowelRun_head hr
    have : s ≠ [] := by
      rintro rfl
      rcases h3 with h | h
      · obtain ⟨c, t, e, -⟩ := nucleus_first h; cases e
      · obtain ⟨c, t, e, -⟩ := glided_first h; cases e
    have e := congrArg List.length e
    have h4 : 0 < s.length := List.length_pos_iff.2 this
    have h5 : 0 < t.length := List.length_pos_iff.2 ht
    simp at e
    omega

/-- There are two consonants side by side. -/
theorem form_pair {mz : Bool} {x : Str} (h : ZihevlaForm mz x) : ∃ a b, Adjacent x a b ∧ Consonant a ∧ Consonant b := by
  obtain ⟨u, ch, t, hr, hl, -⟩ := h.cluster
  match ch, hl, hr with
  | a :: b :: ch, _, hr =>
    refine ⟨a, b, ⟨u, ch ++ t, ?_⟩, hr.all a (by simp), hr.all b (by simp)⟩
    rw [hr.eq]
    simp

/-- The shapes of rafsi, by letters. -/
theorem shape_cases {x : Str} (h : shapeScore x ≠ 0) :
    (∃ a b c, x = [a, b, c] ∧ Consonant a ∧ Vowel b ∧ Vowel c) ∨ (∃ a b c, x = [a, b, '\'', c] ∧ Consonant a ∧ Vowel b ∧ Vowel c) ∨
    (∃ a b c, x = [a, b, c] ∧ Consonant a ∧ Vowel b ∧ Consonant c) ∨ (∃ a b c, x = [a, b, c] ∧ Consonant a ∧ Consonant b ∧ Vowel c) ∨
    (∃ a b c d, x = [a, b, c, d] ∧ Consonant a ∧ Vowel b ∧ Consonant c ∧ Consonant d) ∨
    (∃ a b c d, x = [a, b, c, d] ∧ Consonant a ∧ Consonant b ∧ Vowel c ∧ Consonant d) ∨
    (∃ a b c d e, x = [a, b, c, d, e] ∧ Consonant a ∧ Vowel b ∧ Consonant c ∧ Consonant d ∧ Vowel e) ∨
    ∃ a b c d e, x = [a, b, c, d, e] ∧ Consonant a ∧ Consonant b ∧ Vowel c ∧ Consonant d ∧ Vowel e := by
  simp only [← isConsonant_iff, ← isVowel_iff]
  rw [← tarmi_cvv, ← tarmi_cvhv, ← tarmi_cvc, ← tarmi_ccv, ← tarmi_cvcc, ← tarmi_ccvc, ← tarmi_cvccv, ← tarmi_ccvcv]
  have := mt shapeScore_other.2 h
  cases hx : rafsiTarmi x <;> simp_all

/-- A zi'evla has no rafsi shape. -/
theorem zwhole_shape {s : Settings} {x : Str} (h : ZWhole s x) : shapeScore x = 0 := by
  refine Decidable.byContradiction fun hs => ?_
  have hlen := form_long h.form
  have hg := unreadable_gismu h.unreadable
  obtain ⟨z, hz, hzv⟩ := h.form.vowel
  obtain ⟨p, q, e, hp, hq⟩ := form_pair h.form
  have hap : ¬ Consonant '\'' := by decide
  rcases shape_cases hs with ⟨a, b, c, rfl, h1, h2, h3⟩ | ⟨a, b, c, rfl, h1, h2, h3⟩ | ⟨a, b, c, rfl, h1, h2, h3⟩ |
    ⟨a, b, c, rfl, h1, h2, h3⟩ | ⟨a, b, c, d, rfl, h1, h2, h3, h4⟩ | ⟨a, b, c, d, rfl, h1, h2, h3, h4⟩ |
    ⟨a, b, c, d, f, rfl, h1, h2, h3, h4, h5⟩ | ⟨a, b, c, d, f, rfl, h1, h2, h3, h4, h5⟩
  · simp at hlen
  · have := vowel_not_consonant h2
    simp only [adjacent_cons, adjacent_single] at e
    grind
  · simp at hlen
  · simp at hlen
  · cases hz; exact vowel_not_consonant hzv h4
  · cases hz; exact vowel_not_consonant hzv h4
  · exact hg (.cvccv h1 h2 (h.form.sounds.pairs c d ⟨[a, b], [f], rfl⟩ h3 h4) h5)
  · exact hg (.ccvcv (sounds_pair_initial h.form.sounds rfl h1 h2) h3 h4 h5)

/-- A zi'evla without its last vowel has no rafsi shape. -/
theorem zcut_shape {s : Settings} {x : Str} (h : ZCut s x) : shapeScore x = 0 := by
  refine Decidable.byContradiction fun hs => ?_
  have hg := unreadable_gismu h.whole.unreadable
  have hf := h.whole.form
  obtain ⟨p, q, e, hp, hq⟩ := form_pair hf
  have hap : ¬ Consonant '\'' := by decide
  have ha : ¬ Consonant 'a' := by decide
  have hvc : ∀ c, Vowel c → ¬ Consonant c := fun _ => vowel_not_consonant
  rcases shape_cases hs with ⟨a, b, c, rfl, h1, h2, h3⟩ | ⟨a, b, c, rfl, h1, h2, h3⟩ | ⟨a, b, c, rfl, h1, h2, h3⟩ |
    ⟨a, b, c, rfl, h1, h2, h3⟩ | ⟨a, b, c, d, rfl, h1, h2, h3, h4⟩ | ⟨a, b, c, d, rfl, h1, h2, h3, h4⟩ |
    ⟨a, b, c, d, f, rfl, h1, h2, h3, h4, h5⟩ | ⟨a, b, c, d, f, rfl, h1, h2, h3, h4, h5⟩
  · simp only [List.cons_append, List.nil_append, adjacent_cons, adjacent_single] at e; grind
  · simp only [List.cons_append, List.nil_append, adjacent_cons, adjacent_single] at e; grind
  · simp only [List.cons_append, List.nil_append, adjacent_cons, adjacent_single] at e; grind
  · exact sounds_va (u := [a]) hf.sounds h2 h3
  · exact hg (.cvccv h1 h2 (hf.sounds.pairs c d ⟨[a, b], ['a'], rfl⟩ h3 h4) (by decide))
  · exact hg (.ccvcv (sounds_pair_initial hf.sounds rfl h1 h2) h3 h4 (by decide))
  · exact sounds_va (u := [a, b, c]) hf.sounds h4 h5
  · exact sounds_va (u := [a, b, c]) hf.sounds h4 h5

theorem shape_rafsi {mz : Bool} {x : Str} (h : shapeScore x = 0) : ¬ Rafsi mz x := by
  intro hr
  have := rafsi_tarmi hr
  rcases shapeScore_other.1 h with h | h
  · exact this.1 h
  · exact this.2 h

theorem zcut_ne {s : Settings} {x : Str} (h : ZCut s x) : x ≠ [] := by
  rintro rfl
  have := form_long h.whole.form
  simp at this

theorem zcut_letters {s : Settings} {x : Str} (h : ZCut s x) : ∀ c ∈ x, Vowel c ∨ Consonant c ∨ c = '\'' :=
  fun c hc => h.whole.form.sounds.letters c (List.mem_append_left _ hc)

/-- Its last letter is a vowel or consonant. -/
theorem zcut_last {s : Settings} {x : Str} (h : ZCut s x) : ∃ c, x.getLast? = some c ∧ (Vowel c ∨ Consonant c) := by
  have hne := zcut_ne h
  refine ⟨x.getLast hne, List.getLast?_eq_some_getLast hne, ?_⟩
  rcases zcut_letters h _ (List.getLast_mem hne) with hc | hc | hc
  · exact .inl hc
  · exact .inr hc
  · have := h.ends
    rw [List.getLast?_eq_some_getLast hne, hc] at this
    exact absurd rfl this

/-- The apostrophe before a rafsi in the middle of a word. -/
def leadB (x : Str) : Bool := decide (VowelInitial x ∧ ¬ Onglide x)

theorem leading_leadB (x : Str) : leading false x = if leadB x then s%"'" else [] := by
  unfold leading leadB
  by_cases h : VowelInitial x ∧ ¬ Onglide x <;> simp [h]

theorem leadB_rafsi {mz : Bool} {x : Str} (h : Rafsi mz x) : leadB x = false := by
  have := leading_rafsi h false
  rw [leading_leadB] at this
  cases hl : leadB x with
  | false => rfl
  | true => rw [hl] at this; cases this

/-- The vowels at the beginning of a zi'evla begin with no on-glide, if they do not look like it. -/
theorem sounds_lead {mz : Bool} {x z : Str} (h : Sounds mz (x ++ z)) (hz : z = [] ∨ ∃ c ∈ x, ¬ Vowel c) (hl : leadB x = true) :
    ∃ v t syls, Run Vowel x [] v t ∧ syls.flatten = v ∧ VowelRun syls ∧ ∀ h, syls.head? = some h → ¬ Glided h := by
  obtain ⟨hv, ho⟩ := of_decide_eq_true hl
  match x, hv with
  | a :: x, hv =>
    have hva : Vowel a := hv
    have hrun : Run Vowel (a :: x) [] (a :: x.takeWhile isVowel) (x.dropWhile isVowel) := by
      refine ⟨by simp, by simp, ?_, by simp, ?_⟩
      · intro c hc
        rcases List.mem_cons.1 hc with rfl | hc
        · exact hva
        · exact (isVowel_iff c).1 (takeWhile_all c hc)
      · intro c hc hcv
        have := dropWhile_head hc
        rw [(isVowel_iff c).2 hcv] at this
        cases this
    have hrun2 : Run Vowel (a :: x ++ z) [] (a :: x.takeWhile isVowel) (x.dropWhile isVowel ++ z) := by
      refine ⟨by simp [← List.append_assoc], by simp, hrun.all, by simp, ?_⟩
      rcases hz with rfl | ⟨c, hc, hcv⟩
      · simpa using hrun.after
      · have hne : x.dropWhile isVowel ≠ [] := by
          intro e
          refine hcv (hrun.all c ?_)
          have h2 := hrun.eq
          rw [e] at h2
          simp only [List.nil_append, List.append_nil] at h2
          rw [← h2]
          exact hc
        intro d hd
        rw [head_append hne] at hd
        exact hrun.after d hd
    obtain ⟨syls, e, hr, -⟩ := h.vowels _ _ _ hrun2
    refine ⟨_, _, syls, hrun, e, hr, ?_⟩
    intro g hg hgl
    obtain ⟨c, t, rfl, -, hc, ht⟩ := glided_first hgl
    cases syls with
    | nil => cases hg
    | cons s0 ss =>
      cases hg
      simp only [List.flatten_cons, List.cons_append, List.cons.injEq] at e
      obtain ⟨rfl, e⟩ := e
      cases t with
      | nil => exact ht rfl
      | cons d t =>
        simp only [List.cons_append] at e
        cases x with
        | nil => simp at e
        | cons d' x =>
          rw [List.takeWhile_cons] at e
          split at e
          · rename_i hd
            have e := (List.cons.inj e).1
            subst e
            exact ho ⟨hc, (isVowel_iff _).1 hd⟩
          · cases e

/-- Letters that are read as themselves. -/
def AsRead (x : Str) : Prop := ∀ d ∈ x, readChar d = [d] ∧ d ≠ '.'

theorem reading_asRead {x : Str} (h : AsRead x) : reading x = x := by
  have hf := flatMap_readChar_stable (fun d hd => (h d hd).1)
  unfold reading
  split
  · exact absurd rfl (h '.' (by simp)).2
  · exact hf

theorem asRead_reading {x : Str} (h : '.' ∉ reading x) : AsRead (reading x) :=
  fun d hd => ⟨reading_chars hd, fun e => h (e ▸ hd)⟩

/-- A short reading is a single rafsi. -/
theorem reading_short_single {y : YHyphens} {mz : Bool} {qs : List Str} (h : Reading y mz qs) (hl : qs.flatten.length < 6) :
    ∃ q, qs = [q] ∧ Rafsi mz q := by
  obtain ⟨q, hq, hqr⟩ := h.first
  obtain ⟨p, hp, hpr⟩ := h.last
  match qs, hq, hp with
  | [q], rfl, _ => exact ⟨_, rfl, hqr⟩
  | q :: q2 :: v, rfl, hp =>
    have h1 := rafsi_length hqr
    have h2 := rafsi_length hpr
    rw [List.getLast?_cons_cons] at hp
    have hm : p ∈ q2 :: v := List.mem_of_getLast? hp
    obtain ⟨u, t, e⟩ := List.append_of_mem hm
    rw [e] at hl
    simp at hl
    omega

/-- A word that `analyse_brivla` calls a zi'evla. -/
theorem zwhole_of {s : Settings} {e : Bool} {x : Str} {ps : List Str} (hm : s.allowMz = false ∨ NoMz x) (hr : AsRead x) (hlen : x.length < 10 ^ 94)
    (h : analyseBrivla .linked { yHyphens := s.yHyphens, expRafsi := e, allowMz := s.allowMz } x = .ok (.zihevla, ps)) : ZWhole s x := by
  have hr := reading_asRead hr
  obtain ⟨-, h1, h2, h3, h4, h5⟩ := (C45_zihevla hlen).1 h
  rw [hr] at h1 h4 h5
  refine ⟨h1, h4, h5, ?_⟩
  intro qs hq
  have := C51_unreadable hlen (by rw [hr]; exact hm) h hq
  rwa [hr] at this

/-- A zi'evla without its last vowel, as it is accepted as a component. -/
theorem zcut_of {s : Settings} {e : Bool} {x : Str} {ps : List Str} (hm : s.allowMz = false ∨ NoMz x) (hr : AsRead x) (hlen : x.length + 1 < 10 ^ 94)
    (h : analyseBrivla .linked { yHyphens := s.yHyphens, expRafsi := e, allowMz := s.allowMz } (x ++ s%"a") = .ok (.zihevla, ps))
    (hends : x.getLast? ≠ some '\'')
    (hj : 6 ≤ x.length → (∃ c, x.getLast? = some c ∧ Consonant c) → ∀ ps, jvokaha2 s.yHyphens s.allowMz x ≠ .ok ps) : ZCut s x := by
  have hr' : AsRead (x ++ s%"a") := by
    intro d hd
    rcases List.mem_append.1 hd with hd | hd
    · exact hr d hd
    · simp at hd
      subst hd
      decide
  have hw := zwhole_of (hm.imp_right noMz_end) hr' (by simpa using hlen) h
  refine ⟨hw, ?_, hends⟩
  rintro ⟨c, hc, hcc⟩ qs hq he
  by_cases h6 : 6 ≤ x.length
  · exact hj h6 ⟨c, hc, hcc⟩ qs (by rw [← he]; exact C37_reading_found hq)
  · obtain ⟨q, rfl, hqr⟩ := reading_short_single hq (by rw [he]; omega)
    simp at he
    subst he
    have hg := unreadable_gismu hw.unreadable
    obtain ⟨p, r, e, hp, hr⟩ := form_pair hw.form
    have ha : ¬ Consonant 'a' := by decide
    have hvc : ∀ c, Vowel c → ¬ Consonant c := fun _ => vowel_not_consonant
    cases hqr with
    | cvv _ _ hv => cases hc; exact vowel_not_consonant hv hcc
    | cvhv _ _ hv => cases hc; exact vowel_not_consonant hv hcc
    | cvc h1 h2 h3 => simp only [List.cons_append, List.nil_append, adjacent_cons, adjacent_single] at e; grind
    | ccv _ hv => cases hc; exact vowel_not_consonant hv hcc
    | cvcc h1 h2 h3 => exact hg (.cvccv h1 h2 h3 (by decide))
    | ccvc h1 h2 h3 => exact hg (.ccvcv h1 h2 h3 (by decide))
    | gismu hgg => obtain ⟨d, hd, hdv⟩ := gismu_vowel hgg; rw [hc] at hd; cases hd; exact vowel_not_consonant hdv hcc

end Jvotci
